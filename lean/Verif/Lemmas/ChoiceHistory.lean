import Verif.Lemmas.ChoiceAgain
/-!
# What a run of `apply_config` leaves behind on a formatter that was changed before
-/

namespace KS.Ch
open KS KS.Spec KS.Nav KS.Fm KS.Wr KS.Props

/-- What a node gets that asks for `w`, that had `x` before, and whose kind and parent allow `M` and `P`. -/
def settle (w M P x : Repr') : Repr' := if w ≤ M ∧ w ≤ P then w else Repr'.min x P

/-- The node has the layout its column asks for if its kind and its parent allow that, else what it had in `f0`, as far as its parent allows. -/
def GoodH (f0 : Formatter) (c : FormattingConfig) (g : Formatter) (d : Nat) : Prop :=
  ∃ m p q o P x, g.nav[d]? = some m ∧ m.parent = some p ∧ g.nav[p]? = some q ∧
    Solver.calculateOffset c g.nav g.fmts m = some o ∧ line g p = some P ∧ line f0 d = some x ∧
    line g d = some (settle (wishAt c m q o) (maxRepr m.kserd.val) P x)

/-- The node has what it had in `f0`, as far as its parent allows. -/
def From (f0 g : Formatter) (d : Nat) : Prop :=
  ∀ m p P x, g.nav[d]? = some m → m.parent = some p → line g p = some P → line f0 d = some x → line g d = some (Repr'.min x P)

/-- A granted request keeps the nodes not asked yet at what they had, as far as their parents allow, even if it raises a node. -/
theorem from_kept {f0 g g' : Formatter} (hr0 : Rules f0) (hn0 : f0.nav = g.nav) (hr : Rules g) {d : Nat} {r x0 Pd : Repr'} (h : g.request d r = .ok g')
    (hX : line g d = some (Repr'.min x0 Pd)) (h0 : line f0 d = some x0) (hle : r ≤ Pd) {j : Nat} (hj : j ≠ d) (hd : From f0 g j) : From f0 g' j := by
  obtain ⟨_, e2, e3, e4, e5, _⟩ := C23_effect _ _ hr d r h
  intro m p P x hm hp hP hx
  rw [e2] at hm
  have hm' := hm; rw [hr.nav] at hm'
  obtain ⟨_, q, hq⟩ := parent_lt hm' hp
  rw [← hr.nav] at hq
  obtain ⟨P0, hP0⟩ := line_some ⟨hr.nav, hr.len⟩ hq
  have hold := hd m p P0 x hm hp hP0 hx
  by_cases hpd : p = d
  · subst hpd
    rw [e3] at hP; cases hP
    rw [hX] at hP0; cases hP0
    have hxx : x ≤ x0 := hr0.parent j p m x x0 (by rw [hn0]; exact hm) hp hx h0
    rw [e4 j _ (.child hm hp) hold]
    congr 1
    clear h e3 e4 e5 hX h0 hx hm hm' hp hq hd hold
    revert hle hxx
    cases r <;> cases x <;> cases x0 <;> cases Pd <;> decide
  · by_cases hb : Below g.nav d p
    · rw [e4 p _ hb hP0] at hP; cases hP
      rw [e4 j _ (.step hm hp hb) hold]
      congr 1
      cases r <;> cases P0 <;> cases x <;> decide
    · rw [e5 p hpd hb, hP0] at hP; cases hP
      rw [e5 j hj]
      · exact hold
      · intro hc
        cases hc with
        | child a b => rw [hm] at a; cases a; rw [hp] at b; cases b; exact hpd rfl
        | step a b hb' => rw [hm] at a; cases a; rw [hp] at b; cases b; exact hb hb'

/-- The descendants loop. -/
theorem run_from {c : FormattingConfig} {root : Kserd} {ds : List Nat} {f0 : Formatter} (hr0 : Rules f0) (h00 : f0.root = root)
    (hord : ∀ a d b, ds = a ++ d :: b → Closed (Nav.new root) (0 :: a) ∧ Next (Nav.new root) (0 :: a) d)
    (hmem : ∀ j, j ∈ ds ↔ 0 < j ∧ j < (Nav.new root).length) :
    ∀ (b a : List Nat) (g f' : Formatter), ds = a ++ b → g.root = root → Rules g → (∀ d ∈ a, GoodH f0 c g d) → (∀ d ∈ b, From f0 g d) →
      b.foldlM (Solver.applyNode c) g = some f' → (∀ d ∈ ds, GoodH f0 c f' d) ∧ Rules f' ∧ f'.root = root ∧ line f' 0 = line g 0
  | [], a, g, f', e, e0, hr, ha, _, h => by
    simp only [List.foldlM_nil] at h
    cases h
    exact ⟨fun d hd => ha d (by rw [e] at hd; simpa using hd), hr, e0, rfl⟩
  | d :: b, a, g, f', e, e0, hr, ha, hb, h => by
    rw [List.foldlM_cons] at h
    cases he : Solver.applyNode c g d with
    | none => rw [he] at h; cases h
    | some g' =>
      rw [he] at h
      have h : b.foldlM (Solver.applyNode c) g' = some f' := h
      obtain ⟨r1, r2, r3⟩ := rules_applyNode hr he
      obtain ⟨hcl, hnx⟩ := hord a d b e
      have hnav : g.nav = Nav.new root := by rw [hr.nav, e0]
      have hd0 : d ∈ ds := by rw [e]; simp
      obtain ⟨hdp, hdl⟩ := (hmem d).mp hd0
      have hm : (Nav.new root)[d]? = some ((Nav.new root)[d]'hdl) := List.getElem?_eq_getElem hdl
      generalize (Nav.new root)[d]'hdl = m at hm
      obtain ⟨p, hp⟩ : ∃ p, m.parent = some p := by
        cases hp : m.parent with
        | some p => exact ⟨p, rfl⟩
        | none => have := (C19_links _ d m hm).2.1.mp hp; omega
      obtain ⟨hlt, q, hq⟩ := parent_lt hm hp
      have hmg : g.nav[d]? = some m := by rw [hnav]; exact hm
      have hqg : g.nav[p]? = some q := by rw [hnav]; exact hq
      have hnav0 : f0.nav = g.nav := by rw [hr0.nav, h00, hnav]
      obtain ⟨o, ho, hreq⟩ := applyNode_wish hmg hp hqg he
      obtain ⟨P, hP⟩ := line_some ⟨hr.nav, hr.len⟩ hqg
      obtain ⟨x, hx⟩ := line_some ⟨hr0.nav, hr0.len⟩ (show f0.nav[d]? = some m by rw [hnav0]; exact hmg)
      have hold := hb d (by simp) m p P x hmg hp hP hx
      have e' : ds = (a ++ [d]) ++ b := by rw [e]; simp
      generalize hrr : wishAt c m q o = r at hreq
      have hfate : (g.request d r = .ok g' ∧ r ≤ maxRepr m.kserd.val ∧ r ≤ P) ∨ (g' = g ∧ ¬ (r ≤ maxRepr m.kserd.val ∧ r ≤ P)) := by
        rcases requestOk_cases ⟨hr.nav, hr.len⟩ d r with ⟨g2, h2, h3⟩ | ⟨h2, er, h3⟩
        · rw [hreq] at h2; cases h2
          obtain ⟨m', hm', hmax, hpar, _⟩ := (C23_granted g hr d r).mp ⟨_, h3⟩
          rw [hmg] at hm'; cases hm'
          exact .inl ⟨h3, hmax, hpar p P hp hP⟩
        · rw [hreq] at h2; cases h2
          refine .inr ⟨rfl, ?_⟩
          rintro ⟨h4, h5⟩
          obtain ⟨g3, h6⟩ := (C23_granted g hr d r).mpr ⟨m, hmg, h4, fun p' q' hp' hq' => by
            rw [hp] at hp'; cases hp'; rw [hP] at hq'; cases hq'; exact h5, fun h => by omega⟩
          rw [h6] at h3; cases h3
      have same : ∀ j ∈ 0 :: a, line g' j = line g j := by
        intro j hj
        rcases hfate with ⟨h3, _⟩ | ⟨rfl, _⟩
        · refine (C23_effect _ _ hr d _ h3).2.2.2.2.1 j (fun h => hnx.fresh (h ▸ hj)) ?_
          rw [hnav]; exact not_below hcl hnx.fresh hj
        · rfl
      refine (fun x => ⟨x.1, x.2.1, x.2.2.1, x.2.2.2.trans (same 0 (by simp))⟩)
        (run_from hr0 h00 hord hmem b (a ++ [d]) g' f' e' (by rw [r2, e0]) r1 ?_ ?_ h)
      · intro j hj
        rcases List.mem_append.mp hj with hj | hj
        · obtain ⟨m2, p2, q2', o2, P2, x2, a1, a2, a3, a4, a5, a6, a7⟩ := ha j hj
          have hjS : j ∈ 0 :: a := List.mem_cons_of_mem _ hj
          have a1' := a1; rw [hnav] at a1'
          refine ⟨m2, p2, q2', o2, P2, x2, by rw [r3]; exact a1, a2, by rw [r3]; exact a3, ?_, ?_, a6, ?_⟩
          · rw [r3, hnav] at *
            rw [← a4]
            exact offset_congr c hcl same a1' (fun p hp => hcl.parent j hjS m2 p a1' hp)
              (fun p q ki hp hq hk hki => hcl.key j hjS m2 p q ki a1' hp hq hk hki)
          · rw [same p2 (hcl.parent j hjS m2 p2 a1' a2)]; exact a5
          · rw [same j hjS]; exact a7
        · rcases List.mem_singleton.mp hj with rfl
          refine ⟨m, p, q, o, P, x, by rw [r3]; exact hmg, hp, by rw [r3]; exact hqg, ?_, ?_, hx, ?_⟩
          · rw [← ho, r3, hnav]
            exact offset_congr c hcl same hm (fun p hp => hnx.parent m p hm hp)
              (fun p q ki hp hq hk hki => hnx.key m p q ki hm hp hq hk hki)
          · rw [same p (hnx.parent m p hm hp)]; exact hP
          · rw [hrr, settle]
            rcases hfate with ⟨h3, h4⟩ | ⟨rfl, h4⟩
            · rw [if_pos h4]
              exact (C23_effect _ _ hr j _ h3).2.2.1
            · rw [if_neg h4]
              exact hold
      · intro j hj
        have hjd : j ≠ d := by
          rintro rfl
          obtain ⟨b1, b2, eb⟩ := List.append_of_mem hj
          exact (hord (a ++ j :: b1) j b2 (by rw [e, eb]; simp)).2.fresh (by simp)
        rcases hfate with ⟨h3, h4⟩ | ⟨rfl, _⟩
        · exact from_kept hr0 hnav0 hr h3 hold hx h4.2 hjd (hb j (by simp [hj]))
        · exact hb j (by simp [hj])

end KS.Ch
