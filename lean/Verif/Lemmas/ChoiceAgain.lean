import Verif.Lemmas.ChoicePlan
/-!
# A second run of `apply_config` with the same configuration
-/

namespace KS.Ch
open KS KS.Spec KS.Nav KS.Fm KS.Wr KS.Props

/-- The request for the node would change nothing. -/
def Stable (c : FormattingConfig) (g : Formatter) (d : Nat) : Prop :=
  ∃ m p q o P, g.nav[d]? = some m ∧ m.parent = some p ∧ g.nav[p]? = some q ∧
    Solver.calculateOffset c g.nav g.fmts m = some o ∧ line g p = some P ∧
    (line g d = some (wishAt c m q o) ∨ ¬ (wishAt c m q o ≤ maxRepr m.kserd.val ∧ wishAt c m q o ≤ P))

theorem run_again {c : FormattingConfig} {root : Kserd} {ds : List Nat}
    (hord : ∀ a d b, ds = a ++ d :: b → Closed (Nav.new root) (0 :: a) ∧ Next (Nav.new root) (0 :: a) d)
    (hmem : ∀ j, j ∈ ds ↔ 0 < j ∧ j < (Nav.new root).length) :
    ∀ (b a : List Nat) (g f' : Formatter), ds = a ++ b → g.root = root → Rules g → (∀ d ∈ a, Stable c g d) →
      b.foldlM (Solver.applyNode c) g = some f' → (∀ d ∈ ds, Stable c f' d) ∧ Rules f' ∧ f'.root = root ∧ line f' 0 = line g 0
  | [], a, g, f', e, e0, hr, ha, h => by
    simp only [List.foldlM_nil] at h
    cases h
    exact ⟨fun d hd => ha d (by rw [e] at hd; simpa using hd), hr, e0, rfl⟩
  | d :: b, a, g, f', e, e0, hr, ha, h => by
    rw [List.foldlM_cons] at h
    cases he : Solver.applyNode c g d with
    | none => rw [he] at h; cases h
    | some g' =>
      rw [he] at h
      have h : b.foldlM (Solver.applyNode c) g' = some f' := h
      obtain ⟨r1, r2, r3⟩ := rules_applyNode hr he
      obtain ⟨hcl, hnx⟩ := hord a d b e
      have hnav : g.nav = Nav.new root := by rw [hr.nav, e0]
      have hd0 : d ∈ ds := by rw [e]; simp
      obtain ⟨hdp, hdl⟩ := (hmem d).mp hd0
      have hm : (Nav.new root)[d]? = some ((Nav.new root)[d]'hdl) := List.getElem?_eq_getElem hdl
      generalize (Nav.new root)[d]'hdl = m at hm
      obtain ⟨p, hp⟩ : ∃ p, m.parent = some p := by
        cases hp : m.parent with
        | some p => exact ⟨p, rfl⟩
        | none => have := (C19_links _ d m hm).2.1.mp hp; omega
      obtain ⟨hlt, q, hq⟩ := parent_lt hm hp
      have hmg : g.nav[d]? = some m := by rw [hnav]; exact hm
      have hqg : g.nav[p]? = some q := by rw [hnav]; exact hq
      obtain ⟨o, ho, hreq⟩ := applyNode_wish hmg hp hqg he
      obtain ⟨P, hP⟩ := line_some ⟨hr.nav, hr.len⟩ hqg
      have e' : ds = (a ++ [d]) ++ b := by rw [e]; simp
      have same : ∀ j ∈ 0 :: a, line g' j = line g j := by
        intro j hj
        rcases requestOk_cases ⟨hr.nav, hr.len⟩ d (wishAt c m q o) with ⟨g2, h2, h3⟩ | ⟨h2, er, h3⟩
        · rw [hreq] at h2; cases h2
          refine (C23_effect _ _ hr d _ h3).2.2.2.2.1 j (fun h => hnx.fresh (h ▸ hj)) ?_
          rw [hnav]; exact not_below hcl hnx.fresh hj
        · rw [hreq] at h2; cases h2; rfl
      refine (fun x => ⟨x.1, x.2.1, x.2.2.1, x.2.2.2.trans (same 0 (by simp))⟩)
        (run_again hord hmem b (a ++ [d]) g' f' e' (by rw [r2, e0]) r1 ?_ h)
      intro j hj
      rcases List.mem_append.mp hj with hj | hj
      · obtain ⟨m2, p2, q2', o2, P2, a1, a2, a3, a4, a5, a6⟩ := ha j hj
        have hjS : j ∈ 0 :: a := List.mem_cons_of_mem _ hj
        have a1' := a1; rw [hnav] at a1'
        refine ⟨m2, p2, q2', o2, P2, by rw [r3]; exact a1, a2, by rw [r3]; exact a3, ?_, ?_, ?_⟩
        · rw [r3, hnav] at *
          rw [← a4]
          exact offset_congr c hcl same a1' (fun p hp => hcl.parent j hjS m2 p a1' hp)
            (fun p q ki hp hq hk hki => hcl.key j hjS m2 p q ki a1' hp hq hk hki)
        · rw [same p2 (hcl.parent j hjS m2 p2 a1' a2)]; exact a5
        · rw [same j hjS]; exact a6
      · rcases List.mem_singleton.mp hj with rfl
        refine ⟨m, p, q, o, P, by rw [r3]; exact hmg, hp, by rw [r3]; exact hqg, ?_, ?_, ?_⟩
        · rw [← ho, r3, hnav]
          exact offset_congr c hcl same hm (fun p hp => hnx.parent m p hm hp)
            (fun p q ki hp hq hk hki => hnx.key m p q ki hm hp hq hk hki)
        · rw [same p (hnx.parent m p hm hp)]; exact hP
        · rcases requestOk_cases ⟨hr.nav, hr.len⟩ j (wishAt c m q o) with ⟨g2, h2, h3⟩ | ⟨h2, er, h3⟩
          · rw [hreq] at h2; cases h2
            exact .inl (C23_effect _ _ hr j _ h3).2.2.1
          · right
            rintro ⟨h4, h5⟩
            obtain ⟨g3, h6⟩ := (C23_granted g hr j _).mpr ⟨m, hmg, h4, fun p' q' hp' hq' => by
              rw [hp] at hp'; cases hp'; rw [hP] at hq'; cases hq'; exact h5, fun h => by omega⟩
            rw [h6] at h3; cases h3

/-- A request for the layout a node has changes nothing. -/
theorem request_same {g : Formatter} (hr : Rules g) {d : Nat} {m : NavNode} {r : Repr'} (hm : g.nav[d]? = some m) (h : line g d = some r) :
    g.requestOk d r = some g := by
  obtain ⟨fm, hfm⟩ := Shape.fmt ⟨hr.nav, hr.len⟩ hm
  obtain ⟨ds, _, _, he⟩ := (request_eq ⟨hr.nav, hr.len⟩ d r).1 m fm hm hfm
  rw [line, hfm] at h
  have h : fm.line = r := Option.some.inj h
  rw [Formatter.requestOk, he, if_pos h.symm]

/-- A refused request changes nothing. -/
theorem request_not {g : Formatter} (hr : Rules g) {d : Nat} {r : Repr'} (h : ¬ Allowed g d r) : g.requestOk d r = some g := by
  rcases requestOk_cases ⟨hr.nav, hr.len⟩ d r with ⟨g2, h2, h3⟩ | ⟨h2, _⟩
  · exact absurd ((C23_granted g hr d r).mp ⟨_, h3⟩) h
  · exact h2

theorem stable_same {c : FormattingConfig} {g : Formatter} (hr : Rules g) {d : Nat} (h : Stable c g d) : Solver.applyNode c g d = some g := by
  obtain ⟨m, p, q, o, P, h1, h2, h3, h4, h5, h6⟩ := h
  rw [wish_applyNode h1 h2 h3 h4]
  rcases h6 with h6 | h6
  · exact request_same hr h1 h6
  · apply request_not hr
    rintro ⟨m', hm', a, b, _⟩
    rw [h1] at hm'; cases hm'
    exact h6 ⟨a, b p P h2 h5⟩

theorem fold_same {c : FormattingConfig} {g : Formatter} (hr : Rules g) : ∀ (l : List Nat), (∀ d ∈ l, Stable c g d) →
    l.foldlM (Solver.applyNode c) g = some g
  | [], _ => rfl
  | d :: l, h => by
    rw [List.foldlM_cons, stable_same hr (h d (by simp))]
    exact fold_same hr l (fun d hd => h d (by simp [hd]))

/-- Setting the identity flags to what they are. -/
theorem ids_same {c : FormattingConfig} {g : Formatter} (hr : Rules g)
    (h : ∀ (i : Nat) (n : NavNode), g.nav[i]? = some n → idOn g i = some (Solver.idFlag c n.kserd.val.kind)) : Solver.applyIds g c = g := by
  have step : ∀ i, Solver.idStep c g i = g := by
    intro i
    rw [Solver.idStep]
    cases hn : g.nav[i]? with
    | none => rfl
    | some n =>
      have hid := h i n hn
      obtain ⟨fm, hfm⟩ := Shape.fmt ⟨hr.nav, hr.len⟩ hn
      rw [idOn, hfm] at hid
      have hid : fm.id = Solver.idFlag c n.kserd.val.kind := Option.some.inj hid
      have hlt : i < g.fmts.length := (List.getElem?_eq_some_iff.mp hfm).1
      simp only [Formatter.setId, if_pos hlt]
      have : g.fmts.modify i (fun x => { x with id := Solver.idFlag c n.kserd.val.kind }) = g.fmts := by
        apply List.ext_getElem?
        intro j
        rw [List.getElem?_modify]
        by_cases hj : i = j
        · subst hj
          rw [hfm]
          simp only [if_true, Option.map_eq_map, Option.map_some, ← hid]
        · simp only [if_neg hj]
          cases g.fmts[j]? <;> rfl
      rw [this]
  rw [Solver.applyIds]
  generalize List.range g.nav.length = l
  induction l with
  | nil => rfl
  | cons a l ih => rw [List.foldl_cons, step a]; exact ih

end KS.Ch
