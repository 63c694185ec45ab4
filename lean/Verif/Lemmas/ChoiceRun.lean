import Verif.Lemmas.Choice
import Verif.Spec.Choice
/-!
# What a run of `apply_config` leaves behind
-/

namespace KS.Ch
open KS KS.Spec KS.Nav KS.Fm KS.Wr KS.Props

/-- The layout the descendants loop asks for. -/
def wishAt (c : FormattingConfig) (m q : NavNode) (o : Nat) : Repr' :=
  let r := Solver.minLineRepr (c.widthLimit.map (· - o)) (Solver.inlineTotal c m.kserd) (Solver.conciseTotal c m.kserd)
  if r = .concise ∧ m.kserd.val.kind = .cntr ∧ q.kserd.val.kind = .seq then .verbose else r

/-- The node has the layout its column asks for, as far as its own kind and its parent allow. -/
def Good (c : FormattingConfig) (g : Formatter) (d : Nat) : Prop :=
  ∃ m p q o P, g.nav[d]? = some m ∧ m.parent = some p ∧ g.nav[p]? = some q ∧
    Solver.calculateOffset c g.nav g.fmts m = some o ∧ line g p = some P ∧
    line g d = some (least (wishAt c m q o) (maxRepr m.kserd.val) P)

/-- The node is as verbose as its kind and its parent allow. -/
def Down (g : Formatter) (d : Nat) : Prop :=
  ∀ m p P, g.nav[d]? = some m → m.parent = some p → line g p = some P → line g d = some (Repr'.min (start m) P)

theorem applyNode_wish {g g' : Formatter} {c : FormattingConfig} {d p : Nat} {m q : NavNode} (hm : g.nav[d]? = some m)
    (hp : m.parent = some p) (hq : g.nav[p]? = some q) (h : Solver.applyNode c g d = some g') :
    ∃ o, Solver.calculateOffset c g.nav g.fmts m = some o ∧ g.requestOk d (wishAt c m q o) = some g' := by
  rw [Solver.applyNode, hm] at h
  simp only [parent_of hp hq] at h
  split at h
  · cases h
  · rename_i o ho
    exact ⟨o, ho, h⟩

theorem wish_applyNode {g : Formatter} {c : FormattingConfig} {d p o : Nat} {m q : NavNode} (hm : g.nav[d]? = some m)
    (hp : m.parent = some p) (hq : g.nav[p]? = some q) (ho : Solver.calculateOffset c g.nav g.fmts m = some o) :
    Solver.applyNode c g d = g.requestOk d (wishAt c m q o) := by
  rw [Solver.applyNode, hm]
  simp only [parent_of hp hq, ho]
  rfl

/-- A request that does not raise a node keeps the others as verbose as allowed. -/
theorem down_kept {g g' : Formatter} (hr : Rules g) {d : Nat} {r x : Repr'} (h : g.request d r = .ok g') (hx : line g d = some x)
    (hle : r ≤ x) {j : Nat} (hj : j ≠ d) (hd : Down g j) : Down g' j := by
  obtain ⟨_, e2, e3, e4, e5, _⟩ := C23_effect _ _ hr d r h
  intro m p P hm hp hP
  rw [e2] at hm
  have hm' := hm; rw [hr.nav] at hm'
  obtain ⟨_, q, hq⟩ := parent_lt hm' hp
  rw [← hr.nav] at hq
  obtain ⟨P0, hP0⟩ := line_some ⟨hr.nav, hr.len⟩ hq
  have h0 := hd m p P0 hm hp hP0
  by_cases hpd : p = d
  · subst hpd
    rw [e3] at hP; cases hP
    rw [hx] at hP0; cases hP0
    rw [e4 j _ (.child hm hp) h0]
    congr 1
    revert hle; generalize start m = s
    clear h e3 e4 e5 hx h0 hm hm' hp hq hd
    revert s x r
    intro r x s
    cases r <;> cases x <;> cases s <;> decide
  · by_cases hb : Below g.nav d p
    · rw [e4 p _ hb hP0] at hP; cases hP
      rw [e4 j _ (.step hm hp hb) h0]
      congr 1
      generalize start m = s
      cases r <;> cases P0 <;> cases s <;> decide
    · rw [e5 p hpd hb, hP0] at hP; cases hP
      rw [e5 j hj]
      · exact h0
      · intro hc
        cases hc with
        | child a b => rw [hm] at a; cases a; rw [hp] at b; cases b; exact hpd rfl
        | step a b hb' => rw [hm] at a; cases a; rw [hp] at b; cases b; exact hb hb'

/-- The value of a map entry belonging to a key. -/
theorem value_of_key {root : Kserd} {k p : Nat} {m q : NavNode} (hm : (Nav.new root)[k]? = some m) (hp : m.parent = some p)
    (hq : (Nav.new root)[p]? = some q) (hk : isKey m = true) : ∃ (v : Nat) (n : NavNode), (Nav.new root)[v]? = some n ∧ n.parent = some p ∧ isKey n = false ∧
      q.keyChildren[idxInParent n]? = some k ∧ q.kserd.val.kind = .map := by
  obtain ⟨_, _, h3, h4, h5, h6, h7⟩ := C19_links root p q hq
  have hmem := (h3 k m hm).2.mpr ⟨hp, hk⟩
  obtain ⟨x, hx, hxk⟩ := List.mem_iff_getElem.mp hmem
  have l1 := congrArg List.length h6
  have l2 := congrArg List.length h7
  simp only [List.length_map] at l1 l2
  have hmap : q.kserd.val.kind = .map ∧ (valuesOf q.kserd.val).length = (keysOf q.kserd.val).length := by
    cases hv : q.kserd.val <;> rw [hv] at l2 <;> simp only [keysOf, List.length_nil] at l2
    case map l => simp [Value.kind, valuesOf, keysOf]
    all_goals omega
  have hlt : x < q.valueChildren.length := by rw [l1, hmap.2, ← l2]; exact hx
  obtain ⟨n, hn, hidx⟩ := h4 x _ (List.getElem?_eq_getElem hlt)
  have hv := (h3 _ n hn).1.mp (List.getElem_mem hlt)
  refine ⟨_, n, hn, hv.1, hv.2, ?_, hmap.1⟩
  rw [hidx, List.getElem?_eq_getElem hx, hxk]

/-- With a verbose key the loop panics when it comes to the value. -/
theorem verbose_key_panics {c : FormattingConfig} {k p : Nat} {m q : NavNode} {v : Nat} {n : NavNode} : ∀ (b : List Nat) (g : Formatter), Rules g →
    g.nav[k]? = some m → m.parent = some p → g.nav[p]? = some q → g.nav[v]? = some n → n.parent = some p → isKey n = false →
    q.keyChildren[idxInParent n]? = some k → q.kserd.val.kind = .map → line g k = some .verbose → v ∈ b → (∀ d ∈ b, d ≠ k ∧ ¬ Below g.nav d k) →
    b.foldlM (Solver.applyNode c) g = none
  | [], _, _, _, _, _, _, _, _, _, _, _, hv, _ => by cases hv
  | d :: b, g, hr, hm, hp, hq, hn, hpn, hkn, hki, hmap, hl, hv, hb => by
    rw [List.foldlM_cons]
    cases he : Solver.applyNode c g d with
    | none => rfl
    | some g' =>
      have hne : v ≠ d := by
        rintro rfl
        obtain ⟨o, ho, _⟩ := applyNode_wish hn hpn hq he
        obtain ⟨P, hP⟩ := line_some ⟨hr.nav, hr.len⟩ hq
        have hPv : P = .verbose := by
          have := hr.parent k p m _ P hm hp hl hP
          cases P <;> first | rfl | (exfalso; revert this; decide)
        subst hPv
        rw [Solver.calculateOffset, parent_of hpn hq] at ho
        simp only [idx_of hr hq] at ho
        have hpcc : Solver.concisePCC c g.nav g.fmts q n = none := by
          rw [Solver.concisePCC]
          cases hv : q.kserd.val <;> rw [hv] at hmap <;> try cases hmap
          simp only
          rw [Solver.mapEntryOffset, hkn]
          simp only [Bool.false_eq_true, if_false, hki, hm]
          rw [line] at hl
          cases hf : g.fmts[k]? with
          | none => rw [hf] at hl; cases hl
          | some fm =>
            rw [hf] at hl
            have : fm.line = .verbose := Option.some.inj hl
            simp only [this]
            rfl
        rw [line] at hP
        cases hf : g.fmts[p]? with
        | none => rw [hf] at ho; cases ho
        | some fm =>
          rw [hf] at ho hP
          have : fm.line = .verbose := Option.some.inj hP
          simp only [this, hpcc] at ho
          cases ho
      obtain ⟨r1, r2, r3⟩ := rules_applyNode hr he
      have hl' : line g' k = some .verbose := by
        obtain ⟨_, _, r, _, hreq, _⟩ := applyNode_request he
        rcases requestOk_cases ⟨hr.nav, hr.len⟩ d r with ⟨g2, h2, h3⟩ | ⟨h2, _⟩
        · rw [hreq] at h2; cases h2
          rw [(C23_effect _ _ hr d r h3).2.2.2.2.1 k (Ne.symm (hb d (by simp)).1) (hb d (by simp)).2, hl]
        · rw [hreq] at h2; cases h2; exact hl
      exact verbose_key_panics b g' r1 (by rw [r3]; exact hm) hp (by rw [r3]; exact hq) (by rw [r3]; exact hn) hpn hkn hki hmap hl'
        (by rcases List.mem_cons.mp hv with h | h; · exact absurd h hne
            · exact h)
        (fun x hx => by rw [r3]; exact hb x (by simp [hx]))

theorem refused_value {r M P : Repr'} {key : Bool} (h : ¬ (r ≤ M ∧ r ≤ P)) :
    Repr'.min (if key then Repr'.min M .concise else M) P = least r M P := by
  revert h; cases r <;> cases M <;> cases P <;> cases key <;> decide

theorem granted_value {r M P : Repr'} (h1 : r ≤ M) (h2 : r ≤ P) : r = least r M P := by
  revert h1 h2; cases r <;> cases M <;> cases P <;> decide

theorem raised {r M P : Repr'} {key : Bool} (h1 : r ≤ M) (h2 : r ≤ P) (h : ¬ r ≤ Repr'.min (if key then Repr'.min M .concise else M) P) :
    key = true ∧ r = .verbose := by
  revert h1 h2 h; cases r <;> cases M <;> cases P <;> cases key <;> decide

/-- The descendants loop. -/
theorem run {c : FormattingConfig} {root : Kserd} {ds : List Nat}
    (hord : ∀ a d b, ds = a ++ d :: b → Closed (Nav.new root) (0 :: a) ∧ Next (Nav.new root) (0 :: a) d)
    (hmem : ∀ j, j ∈ ds ↔ 0 < j ∧ j < (Nav.new root).length) :
    ∀ (b a : List Nat) (g f' : Formatter), ds = a ++ b → g.root = root → Rules g → (∀ d ∈ a, Good c g d) → (∀ d ∈ b, Down g d) →
      b.foldlM (Solver.applyNode c) g = some f' → (∀ d ∈ ds, Good c f' d) ∧ Rules f' ∧ f'.root = root ∧ line f' 0 = line g 0
  | [], a, g, f', e, e0, hr, ha, _, h => by
    simp only [List.foldlM_nil] at h
    cases h
    exact ⟨fun d hd => ha d (by rw [e] at hd; simpa using hd), hr, e0, rfl⟩
  | d :: b, a, g, f', e, e0, hr, ha, hb, h => by
    have h' := h
    rw [List.foldlM_cons] at h
    cases he : Solver.applyNode c g d with
    | none => rw [he] at h; cases h
    | some g' =>
      rw [he] at h
      have h : b.foldlM (Solver.applyNode c) g' = some f' := h
      obtain ⟨r1, r2, r3⟩ := rules_applyNode hr he
      obtain ⟨hcl, hnx⟩ := hord a d b e
      have hnav : g.nav = Nav.new root := by rw [hr.nav, e0]
      have hd0 : d ∈ ds := by rw [e]; simp
      obtain ⟨hdp, hdl⟩ := (hmem d).mp hd0
      have hm : (Nav.new root)[d]? = some ((Nav.new root)[d]'hdl) := List.getElem?_eq_getElem hdl
      generalize (Nav.new root)[d]'hdl = m at hm
      obtain ⟨p, hp⟩ : ∃ p, m.parent = some p := by
        cases hp : m.parent with
        | some p => exact ⟨p, rfl⟩
        | none => have := (C19_links _ d m hm).2.1.mp hp; omega
      obtain ⟨hlt, q, hq⟩ := parent_lt hm hp
      have hmg : g.nav[d]? = some m := by rw [hnav]; exact hm
      have hqg : g.nav[p]? = some q := by rw [hnav]; exact hq
      obtain ⟨o, ho, hreq⟩ := applyNode_wish hmg hp hqg he
      obtain ⟨P, hP⟩ := line_some ⟨hr.nav, hr.len⟩ hqg
      have hold := hb d (by simp) m p P hmg hp hP
      have e' : ds = (a ++ [d]) ++ b := by rw [e]; simp
      generalize hrr : wishAt c m q o = r at hreq
      rcases requestOk_cases ⟨hr.nav, hr.len⟩ d r with ⟨g2, h2, h3⟩ | ⟨h2, er, h3⟩
      · rw [hreq] at h2; cases h2
        obtain ⟨m', hm', hmax, hpar, _⟩ := (C23_granted g hr d r).mp ⟨_, h3⟩
        rw [hmg] at hm'; cases hm'
        have hrP := hpar p P hp hP
        obtain ⟨q1, q2, q3, q4, q5, _⟩ := C23_effect _ _ hr d r h3
        have same : ∀ j ∈ 0 :: a, line g' j = line g j := by
          intro j hj
          refine q5 j (fun h => hnx.fresh (h ▸ hj)) ?_
          rw [hnav]; exact not_below hcl hnx.fresh hj
        by_cases hle : r ≤ Repr'.min (start m) P
        · refine (fun x => ⟨x.1, x.2.1, x.2.2.1, x.2.2.2.trans (same 0 (by simp))⟩)
            (run hord hmem b (a ++ [d]) g' f' e' (by rw [r2, e0]) r1 ?_ ?_ h)
          · intro j hj
            rcases List.mem_append.mp hj with hj | hj
            · obtain ⟨m2, p2, q2', o2, P2, a1, a2, a3, a4, a5, a6⟩ := ha j hj
              have hjS : j ∈ 0 :: a := List.mem_cons_of_mem _ hj
              have a1' := a1; rw [hnav] at a1'
              have a3' := a3; rw [hnav] at a3'
              refine ⟨m2, p2, q2', o2, P2, by rw [r3]; exact a1, a2, by rw [r3]; exact a3, ?_, ?_, ?_⟩
              · rw [r3, hnav] at *
                rw [← a4]
                exact offset_congr c hcl same a1' (fun p hp => hcl.parent j hjS m2 p a1' hp)
                  (fun p q ki hp hq hk hki => hcl.key j hjS m2 p q ki a1' hp hq hk hki)
              · rw [same p2 (hcl.parent j hjS m2 p2 a1' a2)]; exact a5
              · rw [same j hjS]; exact a6
            · rcases List.mem_singleton.mp hj with rfl
              refine ⟨m, p, q, o, P, by rw [r3]; exact hmg, hp, by rw [r3]; exact hqg, ?_, ?_, ?_⟩
              · rw [← ho, r3, hnav]
                exact offset_congr c hcl same hm (fun p hp => hnx.parent m p hm hp)
                  (fun p q ki hp hq hk hki => hnx.key m p q ki hm hp hq hk hki)
              · rw [same p (hnx.parent m p hm hp)]; exact hP
              · rw [q3, hrr, ← granted_value hmax hrP]
          · intro j hj
            have hjd : j ≠ d := by
              rintro rfl
              obtain ⟨b1, b2, eb⟩ := List.append_of_mem hj
              exact (hord (a ++ j :: b1) j b2 (by rw [e, eb]; simp)).2.fresh (by simp)
            exact down_kept hr h3 hold hle hjd (hb j (by simp [hj]))
        · exfalso
          rw [start] at hle
          obtain ⟨hkm, hrv⟩ := raised hmax hrP hle
          obtain ⟨v, n, hn, hpn, hkn, hki, hmap⟩ := value_of_key hm hp hq hkm
          have hvd : v ≠ d := by
            rintro rfl
            rw [hm] at hn; cases hn; rw [hkm] at hkn; cases hkn
          have hv0 : v ∈ ds := (hmem v).mpr ⟨by have := (parent_lt hn hpn).1; omega, (List.getElem?_eq_some_iff.mp hn).1⟩
          have hvb : v ∈ b := by
            rw [e] at hv0
            rcases List.mem_append.mp hv0 with hv | hv
            · exact absurd (hcl.key v (List.mem_cons_of_mem _ hv) n p q d hn hpn hq hkn hki) hnx.fresh
            · rcases List.mem_cons.mp hv with hv | hv
              · exact absurd hv hvd
              · exact hv
          rw [hrv] at q3
          have hmg' : g'.nav[d]? = some m := by rw [r3]; exact hmg
          have := verbose_key_panics (c := c) b g' r1 hmg' hp (by rw [r3]; exact hqg) (by rw [r3, hnav]; exact hn) hpn hkn hki hmap q3 hvb (by
            intro x hx
            obtain ⟨b1, b2, eb⟩ := List.append_of_mem hx
            obtain ⟨c1, c2⟩ := hord (a ++ d :: b1) x b2 (by rw [e, eb]; simp)
            refine ⟨fun h => c2.fresh (by rw [h]; simp), ?_⟩
            rw [r3, hnav]
            exact not_below c1 c2.fresh (by simp))
          rw [this] at h; cases h
      · rw [hreq] at h2; cases h2
        refine run hord hmem b (a ++ [d]) g f' e' e0 hr ?_ (fun j hj => hb j (by simp [hj])) h
        intro j hj
        rcases List.mem_append.mp hj with hj | hj
        · exact ha j hj
        · rcases List.mem_singleton.mp hj with rfl
          refine ⟨m, p, q, o, P, hmg, hp, hqg, ho, hP, ?_⟩
          rw [hold, hrr, start]
          congr 1
          apply refused_value
          rintro ⟨h4, h5⟩
          obtain ⟨g3, h6⟩ := (C23_granted g hr j r).mpr ⟨m, hmg, h4, fun p' q' hp' hq' => by
            rw [hp] at hp'; cases hp'; rw [hP] at hq'; cases hq'; exact h5, fun h => by omega⟩
          rw [h6] at h3; cases h3

end KS.Ch
