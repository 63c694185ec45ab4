import Verif.Props.Lines
/-!
# The order in which `apply_config` visits nodes, and what a column depends on
-/

namespace KS.Ch
open KS KS.Spec KS.Nav KS.Fm KS.Wr KS.Props

/-- The children of a node in the order in which they are queued. -/
def kidsAt (nav : Navigator) (j : Nat) : List Nat :=
  match nav[j]? with
  | some m => m.keyChildren ++ m.valueChildren
  | none => []

theorem breadthLoop_fix (nav : Navigator) : ∀ (f : Nat) (todo acc l : List Nat), breadthLoop nav f todo acc = some l →
    ∃ rest, l = acc ++ rest ∧ rest = todo ++ rest.flatMap (kidsAt nav)
  | f, [], acc, l, h => by
    have : l = acc := by cases f <;> (simp [breadthLoop] at h; exact h.symm)
    exact ⟨[], by simp [this], by simp⟩
  | 0, _ :: _, _, _, h => by simp [breadthLoop] at h
  | f + 1, i :: todo, acc, l, h => by
    simp only [breadthLoop] at h
    cases hn : nav[i]? with
    | none => rw [hn] at h; simp at h
    | some n =>
      rw [hn] at h
      simp only at h
      obtain ⟨rest, h1, h2⟩ := breadthLoop_fix nav f _ _ l h
      have hk : kidsAt nav i = n.keyChildren ++ n.valueChildren := by rw [kidsAt, hn]
      refine ⟨i :: rest, by rw [h1]; simp, ?_⟩
      rw [List.flatMap_cons, hk]
      conv => lhs; rw [h2]
      simp

theorem infix_of_mem {nav : Navigator} : ∀ {l : List Nat} {p : Nat}, p ∈ l → ∃ x y, l.flatMap (kidsAt nav) = x ++ kidsAt nav p ++ y
  | [], _, h => by cases h
  | a :: l, p, h => by
    rcases List.mem_cons.mp h with rfl | h
    · exact ⟨[], l.flatMap (kidsAt nav), by simp⟩
    · obtain ⟨x, y, e⟩ := infix_of_mem (nav := nav) h
      exact ⟨kidsAt nav a ++ x, y, by rw [List.flatMap_cons, e]; simp⟩

/-- What is known about a set of visited nodes: with every node its parent, and before a map's value its key. -/
structure Closed (nav : Navigator) (S : List Nat) : Prop where
  zero : 0 ∈ S
  parent : ∀ j ∈ S, ∀ m p, nav[j]? = some m → m.parent = some p → p ∈ S
  key : ∀ j ∈ S, ∀ m p q ki, nav[j]? = some m → m.parent = some p → nav[p]? = some q → isKey m = false →
    q.keyChildren[idxInParent m]? = some ki → ki ∈ S

/-- The node `d` may be visited after those of `S`. -/
structure Next (nav : Navigator) (S : List Nat) (d : Nat) : Prop where
  fresh : d ∉ S
  parent : ∀ m p, nav[d]? = some m → m.parent = some p → p ∈ S
  key : ∀ m p q ki, nav[d]? = some m → m.parent = some p → nav[p]? = some q → isKey m = false →
    q.keyChildren[idxInParent m]? = some ki → ki ∈ S

theorem split_unique {a b a' b' : List Nat} {d : Nat} (h : (a ++ d :: b).Nodup) (e : a ++ d :: b = a' ++ d :: b') : a = a' := by
  have h1 : d ∉ a := by
    intro hm
    have := (List.nodup_append.mp h).2.2 d hm d (by simp)
    exact this rfl
  have h2 : d ∉ a' := by
    rw [e] at h
    intro hm
    have := (List.nodup_append.mp h).2.2 d hm d (by simp)
    exact this rfl
  clear h
  induction a generalizing a' with
  | nil =>
    cases a' with
    | nil => rfl
    | cons x a' => simp only [List.nil_append, List.cons_append, List.cons.injEq] at e; exact absurd (by simp [e.1]) h2
  | cons y a ih =>
    cases a' with
    | nil => simp only [List.nil_append, List.cons_append, List.cons.injEq] at e; exact absurd (by simp [e.1]) h1
    | cons x a' =>
      simp only [List.cons_append, List.cons.injEq] at e
      rw [e.1, ih e.2 (fun h => h1 (by simp [h])) (fun h => h2 (by simp [h]))]

/-- The order of the descendants loop. -/
theorem order {root : Kserd} {n : NavNode} {ds : List Nat} (hn : (Nav.new root)[0]? = some n)
    (hds : descendantsBreadth (Nav.new root) n = some ds) :
    ds.Nodup ∧ (∀ j, j ∈ ds ↔ 0 < j ∧ j < (Nav.new root).length) ∧
    ∀ a d b, ds = a ++ d :: b → Closed (Nav.new root) (0 :: a) ∧ Next (Nav.new root) (0 :: a) d := by
  obtain ⟨l, hl, hnd, hb, hdep, hsort⟩ := C21_descendants_breadth root 0 n hn
  rw [hds] at hl; cases hl
  have hmem : ∀ j, j ∈ ds ↔ 0 < j ∧ j < (Nav.new root).length := by
    intro j
    rw [hb j]
    constructor
    · intro h
      obtain ⟨a, m, hm, _⟩ := below_bounds hn h
      exact ⟨a, (List.getElem?_eq_some_iff.mp hm).1⟩
    · rintro ⟨h1, h2⟩
      exact below_root (List.getElem?_eq_getElem h2) (by omega)
  obtain ⟨rest, e1, e2⟩ := breadthLoop_fix _ _ _ _ _ hds
  simp only [List.nil_append] at e1
  subst e1
  have e0 : kidsAt (Nav.new root) 0 = n.keyChildren ++ n.valueChildren := by rw [kidsAt, hn]
  have hinf : ∀ p, p = 0 ∨ p ∈ ds → ∃ x y, ds = x ++ kidsAt (Nav.new root) p ++ y := by
    intro p hp
    rcases hp with rfl | hp
    · exact ⟨[], ds.flatMap (kidsAt (Nav.new root)), by rw [e0]; exact e2⟩
    · obtain ⟨x, y, e⟩ := infix_of_mem (nav := Nav.new root) hp
      refine ⟨(n.keyChildren ++ n.valueChildren) ++ x, y, ?_⟩
      rw [e] at e2
      conv => lhs; rw [e2]
      simp
  -- a node on the list comes after its parent and, if it is a map's value, after its key
  have hpar : ∀ a d b, ds = a ++ d :: b → ∀ m p, (Nav.new root)[d]? = some m → m.parent = some p → p ∈ 0 :: a := by
    intro a d b e m p hm hp
    obtain ⟨hlt, q, hq⟩ := parent_lt hm hp
    by_cases h0 : p = 0
    · simp [h0]
    · have hpm : p ∈ ds := (hmem p).mpr ⟨by omega, (List.getElem?_eq_some_iff.mp hq).1⟩
      rw [e] at hpm
      rcases List.mem_append.mp hpm with h | h
      · exact List.mem_cons_of_mem _ h
      · rcases List.mem_cons.mp h with rfl | h
        · omega
        · exfalso
          obtain ⟨dp, hdp⟩ := hdep p (by rw [e]; simp [h])
          rw [e] at hsort
          have := (List.pairwise_append.mp hsort).2.1
          have := (List.pairwise_cons.mp this).1 p h (dp + 1) dp (.step hm hp hdp) hdp
          omega
  have hkey : ∀ a d b, ds = a ++ d :: b → ∀ m p q ki, (Nav.new root)[d]? = some m → m.parent = some p → (Nav.new root)[p]? = some q →
      isKey m = false → q.keyChildren[idxInParent m]? = some ki → ki ∈ 0 :: a := by
    intro a d b e m p q ki hm hp hq hk hki
    have hp0 := hpar a d b e m p hm hp
    obtain ⟨_, _, h3, _⟩ := C19_links root p q hq
    have hv := (h3 d m hm).1.mpr ⟨hp, hk⟩
    have hkm := List.mem_of_getElem? hki
    obtain ⟨v1, v2, ev⟩ := List.append_of_mem hv
    obtain ⟨x, y, exy⟩ := hinf p (by
      rcases List.mem_cons.mp hp0 with h | h
      · exact .inl h
      · exact .inr (by rw [e]; simp [h]))
    have ek : kidsAt (Nav.new root) p = q.keyChildren ++ q.valueChildren := by rw [kidsAt, hq]
    rw [ek, ev] at exy
    have hnd' : (a ++ d :: b).Nodup := by rw [← e]; exact hnd
    have := split_unique (a' := x ++ (q.keyChildren ++ v1)) (b' := v2 ++ y) hnd' (by rw [← e, exy]; simp)
    rw [this]
    simp [hkm]
  refine ⟨hnd, hmem, fun a d b e => ⟨⟨by simp, ?_, ?_⟩, ?_, hpar a d b e, hkey a d b e⟩⟩
  · intro j hj m p hm hp
    rcases List.mem_cons.mp hj with rfl | hj
    · rw [(C19_links _ 0 m hm).2.1.mpr rfl] at hp; cases hp
    · obtain ⟨a1, a2, ea⟩ := List.append_of_mem hj
      have := hpar a1 j (a2 ++ d :: b) (by rw [e, ea]; simp) m p hm hp
      rcases List.mem_cons.mp this with h | h
      · simp [h]
      · rw [ea]; simp [h]
  · intro j hj m p q ki hm hp hq hk hki
    rcases List.mem_cons.mp hj with rfl | hj
    · rw [(C19_links _ 0 m hm).2.1.mpr rfl] at hp; cases hp
    · obtain ⟨a1, a2, ea⟩ := List.append_of_mem hj
      have := hkey a1 j (a2 ++ d :: b) (by rw [e, ea]; simp) m p q ki hm hp hq hk hki
      rcases List.mem_cons.mp this with h | h
      · simp [h]
      · rw [ea]; simp [h]
  · intro h
    rcases List.mem_cons.mp h with rfl | h
    · exact absurd ((hmem 0).mp (by rw [e]; simp)).1 (by omega)
    · rw [e] at hnd
      exact (List.nodup_append.mp hnd).2.2 d h d (by simp) rfl

/-- Nothing visited lies below a node still to come. -/
theorem not_below {nav : Navigator} {S : List Nat} (h : Closed nav S) {d : Nat} (hd : d ∉ S) {j : Nat} (hj : j ∈ S) : ¬ Below nav d j := by
  intro hb
  induction hb with
  | child hm hp => exact hd (h.parent _ hj _ _ hm hp)
  | step hm hp _ ih => exact ih (h.parent _ hj _ _ hm hp)

/-! ## Columns depend on what was visited before -/

theorem pcc_congr (c : FormattingConfig) (nav : Navigator) {fmts fmts' : List Fmt} {S : List Nat}
    (hS : ∀ j ∈ S, (fmts'[j]?).map (·.line) = (fmts[j]?).map (·.line)) (q m : NavNode)
    (hk : isKey m = false → ∀ ki, q.keyChildren[idxInParent m]? = some ki → ki ∈ S) :
    Solver.concisePCC c nav fmts' q m = Solver.concisePCC c nav fmts q m := by
  rw [Solver.concisePCC, Solver.concisePCC]
  cases q.kserd.val <;> simp only
  congr 1
  rw [Solver.mapEntryOffset, Solver.mapEntryOffset]
  cases hkm : isKey m with
  | true => rfl
  | false =>
    simp only [Bool.false_eq_true, if_false]
    cases hki : q.keyChildren[idxInParent m]? with
    | none => rfl
    | some ki =>
      have := hS ki (hk hkm ki hki)
      simp only
      cases h1 : nav[ki]? <;> cases h2 : fmts'[ki]? <;> cases h3 : fmts[ki]? <;> rw [h2, h3] at this
      all_goals first | rfl | (cases this) | skip
      rename_i x y
      have : x.line = y.line := Option.some.inj this
      simp only
      rw [this]

theorem loop_congr (c : FormattingConfig) {root : Kserd} {fmts fmts' : List Fmt} {S : List Nat} (hc : Closed (Nav.new root) S)
    (hS : ∀ j ∈ S, (fmts'[j]?).map (·.line) = (fmts[j]?).map (·.line)) : ∀ (fuel j : Nat) (m : NavNode) (off : Nat),
      (Nav.new root)[j]? = some m → j ∈ S → Solver.offsetLoop c (Nav.new root) fmts' fuel m off = Solver.offsetLoop c (Nav.new root) fmts fuel m off
  | 0, _, _, _, _, _ => by rw [Solver.offsetLoop, Solver.offsetLoop]
  | fuel + 1, j, m, off, hm, hj => by
    have hidx := (C18_preorder root).2.1 j m hm
    rw [Solver.offsetLoop, Solver.offsetLoop]
    cases hp : m.parent with
    | none =>
      have : Nav.parent (Nav.new root) m = none := by rw [Nav.parent, hp]; rfl
      rw [this]
      simp only
      rw [hidx]
      have := hS j hj
      cases h1 : fmts'[j]? <;> cases h2 : fmts[j]? <;> rw [h1, h2] at this
      all_goals first | rfl | (cases this) | skip
      rename_i x y
      have : x.line = y.line := Option.some.inj this
      simp only
      rw [this]
    | some p =>
      obtain ⟨_, q, hq⟩ := parent_lt hm hp
      have hpS := hc.parent j hj m p hm hp
      have : Nav.parent (Nav.new root) m = some q := by rw [Nav.parent, hp]; exact hq
      rw [this]
      simp only
      rw [(C18_preorder root).2.1 p q hq]
      have := hS p hpS
      cases h1 : fmts'[p]? <;> cases h2 : fmts[p]? <;> rw [h1, h2] at this
      all_goals first | rfl | (cases this) | skip
      rename_i x y
      have : x.line = y.line := Option.some.inj this
      simp only
      rw [this, pcc_congr c _ hS q m (fun hk ki hki => hc.key j hj m p q ki hm hp hq hk hki)]
      split
      · rfl
      · exact loop_congr c hc hS fuel p q _ hq hpS

theorem offset_congr (c : FormattingConfig) {root : Kserd} {fmts fmts' : List Fmt} {S : List Nat} (hc : Closed (Nav.new root) S)
    (hS : ∀ j ∈ S, (fmts'[j]?).map (·.line) = (fmts[j]?).map (·.line)) {d : Nat} {m : NavNode} (hm : (Nav.new root)[d]? = some m)
    (hpS : ∀ p, m.parent = some p → p ∈ S)
    (hkS : ∀ p q ki, m.parent = some p → (Nav.new root)[p]? = some q → isKey m = false → q.keyChildren[idxInParent m]? = some ki → ki ∈ S) :
    Solver.calculateOffset c (Nav.new root) fmts' m = Solver.calculateOffset c (Nav.new root) fmts m := by
  rw [Solver.calculateOffset, Solver.calculateOffset]
  cases hp : m.parent with
  | none =>
    have : Nav.parent (Nav.new root) m = none := by rw [Nav.parent, hp]; rfl
    rw [this]
  | some p =>
    obtain ⟨_, q, hq⟩ := parent_lt hm hp
    have : Nav.parent (Nav.new root) m = some q := by rw [Nav.parent, hp]; exact hq
    rw [this]
    simp only
    rw [(C18_preorder root).2.1 p q hq]
    have := hS p (hpS p hp)
    cases h1 : fmts'[p]? <;> cases h2 : fmts[p]? <;> rw [h1, h2] at this
    all_goals first | rfl | (cases this) | skip
    rename_i x y
    have : x.line = y.line := Option.some.inj this
    simp only
    rw [this, pcc_congr c _ hS q m (fun hk ki hki => hkS p q ki hp hq hk hki)]
    split
    · rfl
    · exact loop_congr c hc hS _ p q _ hq (hpS p hp)

end KS.Ch
