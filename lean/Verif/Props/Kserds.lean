import Verif.Lemmas.KserdOrd
import Verif.Lemmas.BTree
import Verif.Model.Access
/-!
# C09 – C15: equality, order, construction and access of Kserds

Code: `/repo/src/ds/kserd.rs`, `/repo/src/ds/val.rs`.
-/

namespace KS.Props

open Spec

/-! ## C09 -/

/-- **C09.** If two Kserds differ only in identities (anywhere), they compare alike with everything. -/
theorem C09_ids_ignored (a a' : Kserd) (h : eraseIds a = eraseIds a') (b : Kserd) :
    Kserd.eq a b = Kserd.eq a' b ∧ Kserd.eq b a = Kserd.eq b a' ∧
    Kserd.cmp a b = Kserd.cmp a' b ∧ Kserd.cmp b a = Kserd.cmp b a' := by
  rw [← eq_erase a b, ← eq_erase b a, ← cmp_erase a b, ← cmp_erase b a, h, eq_erase, eq_erase, cmp_erase, cmp_erase]
  exact ⟨rfl, rfl, rfl, rfl⟩

/-- Two Kserds differing in identities inside a map key, a field and at the root. -/
example :
    let a : Kserd := .mk (some (str "A")) (.map [(.mk (some (str "k")) (.bool true), .mk none (.cntr [(str "f", .mk none .unit)]))])
    let b : Kserd := .mk none (.map [(.mk none (.bool true), .mk none (.cntr [(str "f", .mk (some (str "u")) .unit)]))])
    a ≠ b ∧ eraseIds a = eraseIds b := by decide +kernel

/-! ## C10 -/

/-- **C10** (equality). On Kserds whose numbers are lawful, `==` is an equivalence relation. -/
theorem C10_eq_equivalence (a b c : Kserd) (ha : AllNums lawful a) (hb : AllNums lawful b) (hc : AllNums lawful c) :
    Kserd.eq a a = true ∧ (Kserd.eq a b = true → Kserd.eq b a = true) ∧
    (Kserd.eq a b = true → Kserd.eq b c = true → Kserd.eq a c = true) := by
  rw [eq_rep a a ha ha, eq_rep a b ha hb, eq_rep b a hb ha, eq_rep b c hb hc, eq_rep a c ha hc]
  exact ⟨rfl, Eq.symm, Eq.trans⟩

/-- Applied to a sequence and a tuple with an identity. -/
example : let a : Kserd := .mk none (.tuple [.mk none (.bool true)]); let b : Kserd := .mk (some (str "B")) (.tuple [.mk none (.bool true)])
    Kserd.eq b a = true := by
  intro a b
  have h : ∀ i, AllNums lawful (.mk i (.tuple [.mk none (.bool true)])) := by simp [AllNums, All, AllV, AllL]
  exact (C10_eq_equivalence a b b (h _) (h _) (h _)).2.1 (by decide)

mutual
theorem eq_self : ∀ a : Kserd, Kserd.eq a a = true
  | .mk _ v => by simp only [Kserd.eq]; exact eqV_self v
theorem eqV_self : ∀ a : Value, Kserd.eqV a a = true
  | .unit => rfl
  | .bool _ => by simp [Kserd.eqV]
  | .num n => by simp only [Kserd.eqV]; exact C03_refl n
  | .str _ => by simp [Kserd.eqV]
  | .barr _ => by simp [Kserd.eqV]
  | .tuple l => by simp only [Kserd.eqV]; exact eqList_self l
  | .cntr l => by simp only [Kserd.eqV]; exact eqFields_self l
  | .seq l => by simp only [Kserd.eqV]; exact eqList_self l
  | .map l => by simp only [Kserd.eqV]; exact eqMap_self l
theorem eqList_self : ∀ a, Kserd.eqList a a = true
  | [] => rfl
  | k :: r => by simp [Kserd.eqList, eq_self k, eqList_self r]
theorem eqFields_self : ∀ a, Kserd.eqFields a a = true
  | [] => rfl
  | (_, k) :: r => by simp [Kserd.eqFields, eq_self k, eqFields_self r]
theorem eqMap_self : ∀ a, Kserd.eqMap a a = true
  | [] => rfl
  | (n, k) :: r => by simp [Kserd.eqMap, eq_self n, eq_self k, eqMap_self r]
end

/-- **C10** (reflexivity): every Kserd equals itself and compares `Equal` to itself, whatever its numbers. -/
theorem C10_refl (a : Kserd) : Kserd.eq a a = true ∧ Kserd.cmp a a = .eq := by
  refine ⟨eq_self a, ?_⟩
  have := cmp_swap a a
  cases hc : Kserd.cmp a a <;> rw [hc] at this <;> simp at this ⊢

/-- **C10** (order, antisymmetry): holds for all Kserds, lawful numbers or not. -/
theorem C10_cmp_antisymm (a b : Kserd) : Kserd.cmp b a = (Kserd.cmp a b).swap := cmp_swap a b

/-- **C10** (order, transitivity). -/
theorem C10_cmp_transitive (a b c : Kserd) (ha : AllNums lawful a) (hb : AllNums lawful b) (hc : AllNums lawful c) :
    (Kserd.cmp a b = .lt → Kserd.cmp b c = .lt → Kserd.cmp a c = .lt) ∧
    (Kserd.cmp a b = .eq → Kserd.cmp a c = Kserd.cmp b c) := by
  have h := cmp_tr a b c ha hb hc
  constructor
  · intro h1 h2; rw [h1, h2] at h; exact h
  · intro h1; rw [h1] at h; exact h

/-- Applied to a unit, a boolean and a string. -/
example : Kserd.cmp (.mk none .unit) (.mk none (.str (str "x"))) = .lt :=
  (C10_cmp_transitive (.mk none .unit) (.mk none (.bool true)) (.mk none (.str (str "x"))) (by simp [AllNums, All, AllV]) (by simp [AllNums, All, AllV])
    (by simp [AllNums, All, AllV])).1 (by decide) (by decide)

/-- **C10** (agreement, one direction): what the order calls equal is `==`. -/
theorem C10_cmp_eq_imp_eq (a b : Kserd) (ha : AllNums lawful a) (hb : AllNums lawful b)
    (h : Kserd.cmp a b = .eq) : Kserd.eq a b = true :=
  (eq_rep a b ha hb).mpr (rep_collapse a b ((cmp_rep a b ha hb).mp h))

/-- Applied to two sequences whose identities differ. -/
example : Kserd.eq (.mk (some (str "A")) (.seq [.mk none (.bool true)])) (.mk none (.seq [.mk (some (str "B")) (.bool true)])) = true :=
  C10_cmp_eq_imp_eq _ _ (by simp [AllNums, All, AllV, AllL]) (by simp [AllNums, All, AllV, AllL]) (by decide)

/-- **C10** (agreement, partial). Without empty containers inside, `==` and `cmp` agree exactly.
Missing, because false: Kserds with empty containers, see `C10_empty_disagree`. -/
theorem C10_agree_partial (a b : Kserd) (ha : AllNums lawful a) (hb : AllNums lawful b)
    (ea : NoEmptyCntr a) (eb : NoEmptyCntr b) : Kserd.cmp a b = .eq ↔ Kserd.eq a b = true := by
  rw [eq_rep a b ha hb, cmp_rep a b ha hb, rep_nonempty a ea, rep_nonempty b eb]

/-- **C10** (agreement, every pair). `==` is what `cmp` says once empty containers are counted as empty tuples: this is the only point in which the two
disagree. -/
theorem C10_agree_exact (a b : Kserd) (ha : AllNums lawful a) (hb : AllNums lawful b) :
    Kserd.eq a b = true ↔ Kserd.cmp (emptied a) (emptied b) = .eq := by
  rw [eq_rep a b ha hb, cmp_rep _ _ (law_emptied a ha) (law_emptied b hb), rep_emptied, rep_emptied]

/-- Applied to sequences with an empty container and an empty tuple, which are `==`, and with a unit, which are not. -/
example : Kserd.eq (.mk none (.seq [.mk none (.cntr [])])) (.mk none (.seq [.mk none (.tuple [])])) = true ∧
    ¬ Kserd.eq (.mk none (.seq [.mk none (.cntr [])])) (.mk none (.seq [.mk none .unit])) = true :=
  ⟨(C10_agree_exact _ _ (by simp [AllNums, All, AllV, AllL, AllF]) (by simp [AllNums, All, AllV, AllL])).mpr (by decide),
    fun h => absurd ((C10_agree_exact _ _ (by simp [AllNums, All, AllV, AllL, AllF]) (by simp [AllNums, All, AllV, AllL])).mp h) (by decide)⟩

/-- **C10** is false of the code in one point: an empty tuple is `==` to an empty container, but ordered below it. -/
theorem C10_empty_disagree :
    Kserd.eq (.mk none (.tuple [])) (.mk none (.cntr [])) = true ∧
    Kserd.cmp (.mk none (.tuple [])) (.mk none (.cntr [])) = .lt := by decide

/-- Every integer is lawful, so C10 covers all Kserds with integers; and so are all floats that
are tame and neither `-0.0` nor a negative NaN. -/
theorem C10_integers_lawful (n : Number) (h : n.WF) (hn : intVal n ≠ none) : lawful n := by
  cases n with
  | uint n => exact ⟨h, trivial, by simp, by simp⟩
  | int i => exact ⟨h, trivial, by simp, by simp⟩
  | float f => simp [intVal] at hn

/-- A Kserd meeting all hypotheses of C10. -/
example : AllNums lawful (.mk none (.seq [.mk none (.num (.int (-3))), .mk none (.cntr [(str "a", .mk none (.num (.uint 7)))])])) ∧
    NoEmptyCntr (.mk none (.seq [.mk none (.num (.int (-3))), .mk none (.cntr [(str "a", .mk none (.num (.uint 7)))])])) := by
  have h1 : lawful (.int (-3)) := C10_integers_lawful _ (by decide) (by decide)
  have h2 : lawful (.uint 7) := C10_integers_lawful _ (by decide) (by decide)
  simp [AllNums, NoEmptyCntr, All, AllV, AllL, AllF, h1, h2]

/-! ## C11 -/

/-- **C11.** `with_id` succeeds exactly for identities without reserved characters, and then stores the
identity and the value unchanged; otherwise it reports the identity. -/
theorem C11_with_id (i : Str) (v : Value) :
    ((∀ c ∈ i, c ∉ str "(){}[]<> ,./\\=") → Kserd.withId i v = .ok (.mk (some i) v)) ∧
    ((∃ c ∈ i, c ∈ str "(){}[]<> ,./\\=") → Kserd.withId i v = .error i) := by
  unfold Kserd.withId
  constructor
  · intro h
    rw [if_neg]
    simp only [List.any_eq_true, not_exists, not_and]
    intro c hc hm
    exact h c hc (List.contains_iff_mem.mp hm)
  · rintro ⟨c, hc, hm⟩
    rw [if_pos]
    simp only [List.any_eq_true]
    exact ⟨c, hc, List.contains_iff_mem.mpr hm⟩

example : Kserd.withId (str "a<b") .unit = .error (str "a<b") ∧
    Kserd.withId (str "naïve id?") .unit = .error (str "naïve id?") ∧
    Kserd.withId (str "naïve") .unit = .ok (.mk (some (str "naïve")) .unit) := by
  refine ⟨rfl, rfl, rfl⟩

/-! ## C12 -/

/-- What `new_cntr` demands of a field name. -/
def validFieldName (s : Str) : Prop :=
  s ≠ [] ∧ (∀ c r, s = c :: r → ¬ ('0'.toNat ≤ c.toNat ∧ c.toNat ≤ '9'.toNat)) ∧
  ∀ c ∈ s, c ∉ [' ', '/', '\\', '"', '\t', '\'']

theorem validateField_none (s : Str) : validateField s = none ↔ validFieldName s := by
  unfold validateField validFieldName
  cases s with
  | nil => simp
  | cons c r =>
    simp only [ne_eq, reduceCtorEq, not_false_eq_true, true_and]
    by_cases hd : isDigit c = true
    · rw [if_pos hd]
      simp only [reduceCtorEq, false_iff, not_and]
      intro h
      exact absurd (of_decide_eq_true hd) (fun hh => h c r rfl hh.1 hh.2)
    · rw [if_neg hd]
      have hd' : ∀ c' r', c :: r = c' :: r' → ¬ ('0'.toNat ≤ c'.toNat ∧ c'.toNat ≤ '9'.toNat) := by
        intro c' r' h
        simp only [List.cons.injEq] at h
        rw [← h.1]; exact fun hh => hd (decide_eq_true hh)
      have e : invalidFieldChars = [' ', '/', '\\', '"', '\t', '\''] := by decide
      constructor
      · intro h
        refine ⟨hd', fun x hx => ?_⟩
        cases hf : (c :: r).find? (fun c => invalidFieldChars.contains c) with
        | some y => rw [hf] at h; simp at h
        | none =>
          rw [List.find?_eq_none] at hf
          have := hf x hx
          rw [e, List.contains_iff_mem] at this; exact this
      · rintro ⟨-, h⟩
        have : (c :: r).find? (fun c => invalidFieldChars.contains c) = none := by
          rw [List.find?_eq_none]
          intro x hx
          rw [e, List.contains_iff_mem]; exact h x hx
        rw [this]

/-- **C12.** `new_cntr` succeeds exactly when every supplied name is valid; the container is in strictly
ascending name order and holds exactly, for every supplied name, the pair supplied last. -/
theorem C12_new_cntr (l : List (Str × Kserd)) :
    ((∃ v, Value.newCntr l = .ok v) ↔ ∀ p ∈ l, validFieldName p.1) ∧
    ∀ v, Value.newCntr l = .ok v → ∃ f, v = .cntr f ∧ Ascending cmpStr f ∧
      ∀ p, p ∈ f ↔ LastFor (· = ·) l p := by
  obtain ⟨-, -, -, h4, h5⟩ := BTree.fromIter_spec lawStr l (fun _ _ => trivial)
  have h5' : ∀ p, p ∈ BTree.fromIter cmpStr (fun a b => a == b) l ↔ LastFor (· = ·) l p := by
    intro p; rw [h5]; unfold LastFor; simp only [cmpStr_eq]
  have hsub : ∀ p ∈ BTree.fromIter cmpStr (fun a b => a == b) l, p ∈ l := by
    intro p hp
    obtain ⟨b, a, rfl, -⟩ := (h5' p).mp hp
    simp
  have hall : ∀ p ∈ l, ∃ q ∈ BTree.fromIter cmpStr (fun a b => a == b) l, q.1 = p.1 := by
    intro p hp
    -- the last pair with this name
    have : ∀ (l : List (Str × Kserd)), p ∈ l → ∃ q, LastFor (· = ·) l q ∧ q.1 = p.1 := by
      intro l
      induction l with
      | nil => simp
      | cons x r ih =>
        intro hp
        by_cases hr : ∃ y ∈ r, y.1 = p.1
        · obtain ⟨y, hy, hy1⟩ := hr
          have : ∀ (r : List (Str × Kserd)) (n : Str), (∃ y ∈ r, y.1 = n) → ∃ q, LastFor (· = ·) r q ∧ q.1 = n := by
            intro r n
            induction r with
            | nil => simp
            | cons z t ih2 =>
              rintro ⟨y, hy, hy1⟩
              by_cases ht : ∃ y ∈ t, y.1 = n
              · obtain ⟨q, ⟨b, a, rfl, hq⟩, hn⟩ := ih2 ht
                exact ⟨q, ⟨z :: b, a, by simp, hq⟩, hn⟩
              · rcases List.mem_cons.mp hy with rfl | hy
                · refine ⟨y, ⟨[], t, rfl, ?_⟩, hy1⟩
                  intro w hw h
                  exact ht ⟨w, hw, by rw [← h, hy1]⟩
                · exact absurd ⟨y, hy, hy1⟩ ht
          obtain ⟨q, ⟨b, a, e, hq⟩, hn⟩ := this r p.1 ⟨y, hy, hy1⟩
          exact ⟨q, ⟨x :: b, a, by simp [e], hq⟩, hn⟩
        · rcases List.mem_cons.mp hp with rfl | hp
          · refine ⟨p, ⟨[], r, rfl, ?_⟩, rfl⟩
            intro w hw h
            exact hr ⟨w, hw, h.symm⟩
          · exact absurd ⟨p, hp, rfl⟩ hr
    obtain ⟨q, hq, hn⟩ := this l hp
    exact ⟨q, (h5' q).mpr hq, hn⟩
  unfold Value.newCntr
  generalize BTree.fromIter cmpStr (fun a b => a == b) l = m at *
  cases hf : m.findSome? (fun kv => validateField kv.1) with
  | some e =>
    simp only [hf, reduceCtorEq, exists_false, false_iff, false_implies, implies_true, and_true]
    intro h
    obtain ⟨p, hp, he⟩ := List.exists_of_findSome?_eq_some hf
    rw [(validateField_none p.1).mpr (h p (hsub p hp))] at he
    simp at he
  | none =>
    simp only [hf, Except.ok.injEq, exists_eq', true_iff, forall_eq', Value.cntr.injEq]
    refine ⟨?_, m, rfl, h4, h5'⟩
    intro p hp
    obtain ⟨q, hq, hn⟩ := hall p hp
    rw [List.findSome?_eq_none_iff] at hf
    rw [← hn]
    exact (validateField_none q.1).mp (hf q hq)

/-- Duplicates, unsorted input, and an invalid name. -/
example :
    Value.newCntr [(str "b", .mk none .unit), (str "a", .mk none (.bool true)), (str "b", .mk none (.bool false))]
      = .ok (.cntr [(str "a", .mk none (.bool true)), (str "b", .mk none (.bool false))]) ∧
    Value.newCntr [(str "b", .mk none .unit), (str "9", .mk none (.bool true))] = .error .digit := by
  refine ⟨rfl, rfl⟩

/-! ## C13 -/

/-- Keys on which `new_map` is well behaved: lawful numbers, and no empty container inside. -/
def lawfulKey (k : Kserd) : Prop := AllNums lawful k ∧ NoEmptyCntr k

theorem lawKserd : BTree.Lawful lawfulKey Kserd.cmp Kserd.eq where
  swap := cmp_swap
  tr a b c ha hb hc := cmp_tr a b c ha.1 hb.1 hc.1
  eq a b ha hb := (C10_agree_partial a b ha.1 hb.1 ha.2 hb.2).symm

/-- **C13.** Over lawful keys, `new_map` yields entries in strictly ascending key order that are
exactly the pairs supplied last for their key (up to `==`). -/
theorem C13_new_map (l : List (Kserd × Kserd)) (hl : ∀ p ∈ l, lawfulKey p.1) :
    ∃ m, Value.newMap l = .map m ∧ Ascending Kserd.cmp m ∧
      ∀ p, p ∈ m ↔ LastFor (fun a b => Kserd.eq a b = true) l p := by
  obtain ⟨-, -, -, h4, h5⟩ := BTree.fromIter_spec lawKserd l hl
  refine ⟨_, rfl, h4, ?_⟩
  intro p
  rw [h5]
  unfold LastFor
  constructor
  · rintro ⟨b, a, rfl, h⟩
    refine ⟨b, a, rfl, fun q hq => ?_⟩
    show ¬ (Kserd.eq p.1 q.1 = true)
    rw [lawKserd.eq _ _ (hl p (by simp)) (hl q (by simp [hq]))]
    exact h q hq
  · rintro ⟨b, a, rfl, h⟩
    refine ⟨b, a, rfl, fun q hq => ?_⟩
    show ¬ (Kserd.cmp p.1 q.1 = .eq)
    rw [← lawKserd.eq _ _ (hl p (by simp)) (hl q (by simp [hq]))]
    exact h q hq

/-- Applied to a list with a repeated key. -/
example : ∃ m, Value.newMap [(.mk none (.bool true), .mk none .unit), (.mk none (.bool false), .mk none .unit), (.mk (some (str "T")) (.bool true), .mk none (.bool true))] = .map m ∧
    (.mk none (.bool true), .mk none .unit) ∉ m :=
  ⟨_, rfl, by decide +kernel⟩

/-- **C13** (order of supply). Distinct keys may be supplied in any order. -/
theorem C13_permutation (l l' : List (Kserd × Kserd)) (hl : ∀ p ∈ l, lawfulKey p.1) (hp : l.Perm l')
    (hd : l.Pairwise (fun p q => Kserd.eq p.1 q.1 = false)) : Value.newMap l = Value.newMap l' := by
  have hl' : ∀ p ∈ l', lawfulKey p.1 := fun p h => hl p (hp.mem_iff.mpr h)
  have key : ∀ l : List (Kserd × Kserd), (∀ p ∈ l, lawfulKey p.1) →
      l.Pairwise (fun p q => Kserd.eq p.1 q.1 = false) →
      ∀ p, LastFor (fun a b => Kserd.eq a b = true) l p ↔ p ∈ l := by
    intro l _ hd p
    constructor
    · rintro ⟨b, a, rfl, -⟩; simp
    · intro h
      obtain ⟨b, a, rfl⟩ := List.append_of_mem h
      refine ⟨b, a, rfl, fun q hq => ?_⟩
      have := (List.pairwise_cons.mp (List.pairwise_append.mp hd).2.1).1 q hq
      show ¬ (Kserd.eq p.1 q.1 = true)
      rw [this]; simp
  have hsymm : ∀ p q : Kserd × Kserd, p ∈ l → q ∈ l → Kserd.eq p.1 q.1 = false → Kserd.eq q.1 p.1 = false := by
    intro p q h1 h2 h
    cases hh : Kserd.eq q.1 p.1 with
    | false => rfl
    | true =>
      have := (C10_eq_equivalence q.1 p.1 p.1 (hl q h2).1 (hl p h1).1 (hl p h1).1).2.1 hh
      rw [this] at h; simp at h
  have hd' : l'.Pairwise (fun p q => Kserd.eq p.1 q.1 = false) := by
    have h1 : l.Pairwise (fun p q => (p ∈ l ∧ q ∈ l) ∧ Kserd.eq p.1 q.1 = false) := by
      rw [List.pairwise_iff_forall_sublist] at hd ⊢
      intro p q hs
      exact ⟨⟨hs.subset (by simp), hs.subset (by simp)⟩, hd hs⟩
    refine List.Pairwise.imp (fun h => h.2) (hp.pairwise h1 ?_)
    rintro p q ⟨⟨a, b⟩, h⟩
    exact ⟨⟨b, a⟩, hsymm p q a b h⟩
  obtain ⟨m, e, s, h⟩ := C13_new_map l hl
  obtain ⟨m', e', s', h'⟩ := C13_new_map l' hl'
  rw [e, e']
  congr 1
  apply BTree.Ascending.ext lawKserd s s'
  intro p
  rw [h, h', key l hl hd, key l' hl' hd', hp.mem_iff]

/-- Applied to two entries in either order. -/
example : Value.newMap [(.mk none (.bool true), .mk none .unit), (.mk none (.bool false), .mk none (.bool true))] =
    Value.newMap [(.mk none (.bool false), .mk none (.bool true)), (.mk none (.bool true), .mk none .unit)] :=
  C13_permutation _ _ (by simp [lawfulKey, AllNums, NoEmptyCntr, All, AllV]) (.swap _ _ _) (by simp; decide)

/-- Why lawfulness is asked for: the keys `()`-tuple and empty container are ordered but `==`, so one entry
is silently dropped. -/
theorem C13_empty_keys_merge :
    Value.newMap [(.mk none (.tuple []), .mk none (.bool true)), (.mk none (.cntr []), .mk none (.bool false))]
      = .map [(.mk none (.cntr []), .mk none (.bool false))] := by decide +kernel

example : Value.newMap [(.mk none (.num (.uint 3)), .mk none (.bool true)), (.mk none (.num (.int (-3))), .mk none .unit),
    (.mk none (.num (.int 3)), .mk none (.bool false))]
      = .map [(.mk none (.num (.int (-3))), .mk none .unit), (.mk none (.num (.int 3)), .mk none (.bool false))] := by
  decide +kernel

/-! ## C14 -/

/-- **C14.** Each accessor yields data exactly for its own variant, and exactly that data. -/
theorem C14_accessors (v : Value) :
    (v.unit? = true ↔ v = .unit) ∧
    (∀ b, v.bool? = some b ↔ v = .bool b) ∧
    (∀ s, v.str? = some s ↔ v = .str s) ∧
    (∀ b, v.barr? = some b ↔ v = .barr b) ∧
    (∀ l, v.tuple? = some l ↔ v = .tuple l) ∧
    (∀ f, v.cntr? = some f ↔ v = .cntr f) ∧
    (∀ l, v.seq? = some l ↔ v = .seq l) ∧
    (∀ l, v.tupleOrSeq? = some l ↔ v = .tuple l ∨ v = .seq l) ∧
    (∀ m, v.map? = some m ↔ v = .map m) ∧
    (∀ c, v.ch? = some c ↔ v = .str [c]) ∧
    (∀ n, v.uint? = some n ↔ ∃ x, v = .num x ∧ x.asU128 = some n) ∧
    (∀ i, v.int? = some i ↔ ∃ x, v = .num x ∧ x.asI128 = some i) ∧
    (∀ f, v.float? = some f ↔ ∃ x, v = .num x ∧ x.asF64 = f) := by
  have hch : ∀ (s : Str) (c : Char), (s.length = 1 ∧ s.head? = some c) ↔ s = [c] := by
    intro s c
    rcases s with _ | ⟨a, _ | ⟨b, r⟩⟩ <;> simp
  cases v <;> simp [Value.unit?, Value.bool?, Value.str?, Value.barr?, Value.tuple?, Value.cntr?, Value.seq?,
    Value.tupleOrSeq?, Value.map?, Value.ch?, Value.uint?, Value.int?, Value.float?]
  · exact hch _

/-- Membership form of field lookup: in a container's ascending fields, a name is found exactly when it is there. -/
theorem C14_get (f : Fields) (hf : Ascending cmpStr f) (name : Str) (k : Kserd) :
    Access.get f name = some k ↔ (name, k) ∈ f := by
  unfold Access.get
  rw [BTree.get_some lawStr name trivial f (fun _ _ => trivial) hf]
  simp [cmpStr_eq]

/-- Applied to a container with two fields. -/
example : Access.get [(str "a", .mk none .unit), (str "b", .mk none (.bool true))] (str "b") = some (.mk none (.bool true)) :=
  (C14_get _ (by unfold Ascending; decide) _ _).mpr (by simp)

/-- **C14** (fields). `get_*` yields data exactly when the field exists with that type. -/
theorem C14_get_typed (f : Fields) (hf : Ascending cmpStr f) (name : Str) :
    (Access.getUnit f name = some () ↔ ∃ i, (name, Kserd.mk i .unit) ∈ f) ∧
    (∀ b, Access.getBool f name = some b ↔ ∃ i, (name, Kserd.mk i (.bool b)) ∈ f) ∧
    (∀ n, Access.getNum f name = some n ↔ ∃ i, (name, Kserd.mk i (.num n)) ∈ f) ∧
    (∀ s, Access.getStr f name = some s ↔ ∃ i, (name, Kserd.mk i (.str s)) ∈ f) ∧
    (∀ b, Access.getBarr f name = some b ↔ ∃ i, (name, Kserd.mk i (.barr b)) ∈ f) ∧
    (∀ l, Access.getTuple f name = some l ↔ ∃ i, (name, Kserd.mk i (.tuple l)) ∈ f) ∧
    (∀ l, Access.getSeq f name = some l ↔ ∃ i, (name, Kserd.mk i (.seq l)) ∈ f) ∧
    (∀ l, Access.getTupleOrSeq f name = some l ↔
      ∃ i, (name, Kserd.mk i (.tuple l)) ∈ f ∨ (name, Kserd.mk i (.seq l)) ∈ f) ∧
    (∀ c, Access.getCntr f name = some c ↔ ∃ i, (name, Kserd.mk i (.cntr c)) ∈ f) ∧
    (∀ m, Access.getMap f name = some m ↔ ∃ i, (name, Kserd.mk i (.map m)) ∈ f) := by
  have h := C14_get f hf name
  have key : ∀ (τ : Type) (a : Value → Option τ) (x : τ), Access.getWith a f name = some x ↔
      ∃ i v, (name, Kserd.mk i v) ∈ f ∧ a v = some x := by
    intro τ a x
    unfold Access.getWith
    constructor
    · intro hx
      cases hg : Access.get f name with
      | none => rw [hg] at hx; simp at hx
      | some k =>
        rw [hg] at hx
        obtain ⟨i, v⟩ := k
        exact ⟨i, v, (h _).mp hg, hx⟩
    · rintro ⟨i, v, hm, ha⟩
      rw [(h _).mpr hm]; exact ha
  have ha := C14_accessors
  refine ⟨?_, ?_, ?_, ?_, ?_, ?_, ?_, ?_, ?_, ?_⟩
  · unfold Access.getUnit
    rw [key]
    constructor
    · rintro ⟨i, v, hm, hv⟩
      cases v <;> simp [Value.unit?] at hv
      exact ⟨i, hm⟩
    · rintro ⟨i, hm⟩; exact ⟨i, .unit, hm, rfl⟩
  · intro b; unfold Access.getBool; rw [key]; simp only [(ha _).2.1]; simp
  · intro b; unfold Access.getNum; rw [key]
    have : ∀ v n, Value.num? v = some n ↔ v = .num n := by intro v n; cases v <;> simp [Value.num?]
    simp [this]
  · intro b; unfold Access.getStr; rw [key]; simp only [(ha _).2.2.1]; simp
  · intro b; unfold Access.getBarr; rw [key]; simp only [(ha _).2.2.2.1]; simp
  · intro b; unfold Access.getTuple; rw [key]; simp only [(ha _).2.2.2.2.1]; simp
  · intro b; unfold Access.getSeq; rw [key]; simp only [(ha _).2.2.2.2.2.2.1]; simp
  · intro b; unfold Access.getTupleOrSeq; rw [key]; simp only [(ha _).2.2.2.2.2.2.2.1]
    constructor
    · rintro ⟨i, v, hm, rfl | rfl⟩
      · exact ⟨i, Or.inl hm⟩
      · exact ⟨i, Or.inr hm⟩
    · rintro ⟨i, hm | hm⟩
      · exact ⟨i, _, hm, Or.inl rfl⟩
      · exact ⟨i, _, hm, Or.inr rfl⟩
  · intro b; unfold Access.getCntr; rw [key]; simp only [(ha _).2.2.2.2.2.1]; simp
  · intro b; unfold Access.getMap; rw [key]; simp only [(ha _).2.2.2.2.2.2.2.2.1]; simp

example : Ascending cmpStr [(str "a", Kserd.mk none (.bool true)), (str "b", Kserd.mk none (.str (str "x")))] ∧
    Access.getStr [(str "a", Kserd.mk none (.bool true)), (str "b", Kserd.mk none (.str (str "x")))] (str "b") = some (str "x") ∧
    Access.getStr [(str "a", Kserd.mk none (.bool true)), (str "b", Kserd.mk none (.str (str "x")))] (str "a") = none := by
  refine ⟨?_, by decide, by decide⟩
  simp only [Ascending, List.pairwise_cons, List.mem_cons, List.not_mem_nil, or_false, forall_eq, List.Pairwise.nil]
  exact ⟨by decide, by simp, trivial⟩

/-! ## C15 -/

/-- A mutable accessor `m` agrees with the immutable accessor `a`: same availability and data; writing `x`
makes `a` read `x`; writing back what was there changes nothing; only the last of two writes counts. -/
structure GoodMut {σ τ : Type} (a : σ → Option τ) (m : σ → Option (MutRef σ τ)) : Prop where
  reads : ∀ s, (m s).map (·.cur) = a s
  writes : ∀ s r x, m s = some r → a (r.put x) = some x
  noop : ∀ s r, m s = some r → r.put r.cur = s
  again : ∀ s r x, m s = some r → ∃ r', m (r.put x) = some r' ∧ r'.put = r.put

/-- **C15** (values). Every `*_mut` accessor of `Value` agrees with its immutable counterpart. -/
theorem C15_value_mut :
    GoodMut Value.bool? Value.boolMut ∧ GoodMut Value.num? Value.numMut ∧ GoodMut Value.str? Value.strMut ∧
    GoodMut Value.barr? Value.barrMut ∧ GoodMut Value.tuple? Value.tupleMut ∧ GoodMut Value.cntr? Value.cntrMut ∧
    GoodMut Value.seq? Value.seqMut ∧ GoodMut Value.tupleOrSeq? Value.tupleOrSeqMut ∧
    GoodMut Value.map? Value.mapMut := by
  refine ⟨?_, ?_, ?_, ?_, ?_, ?_, ?_, ?_, ?_⟩ <;> constructor
  all_goals (intro s; cases s)
  all_goals first
    | rfl
    | (intro r x h; cases h; rfl)
    | (intro r h; cases h; rfl)
    | (intro r x h; cases h; exact ⟨_, rfl, rfl⟩)
    | (intro r x h; cases h)
    | (intro r h; cases h)

theorem set_keys (name : Str) (k : Kserd) (f : Fields) : (BTree.set cmpStr name k f).map (·.1) = f.map (·.1) := by
  induction f with
  | nil => rfl
  | cons p r ih =>
    obtain ⟨n, x⟩ := p
    simp only [BTree.set]
    cases cmpStr name n <;> simp [ih]

theorem set_mem (name : Str) (k : Kserd) : ∀ (f : Fields), Ascending cmpStr f →
    (∀ n x, n ≠ name → ((n, x) ∈ BTree.set cmpStr name k f ↔ (n, x) ∈ f)) ∧
    (∀ x, (name, x) ∈ BTree.set cmpStr name k f ↔ x = k ∧ ∃ y, (name, y) ∈ f)
  | [], _ => by simp [BTree.set]
  | (n', x') :: r, hs => by
    obtain ⟨hs1, hs2⟩ := List.pairwise_cons.mp hs
    obtain ⟨ih1, ih2⟩ := set_mem name k r hs2
    simp only [BTree.set]
    cases hc : cmpStr name n' with
    | lt =>
      have hne : name ≠ n' := by rintro rfl; rw [(cmpStr_eq name name).mpr rfl] at hc; simp at hc
      have hnr : ∀ x, (name, x) ∉ r := by
        intro x hx
        have h1 := hs1 _ hx
        have h2 := cmpStr_swap name n'
        rw [hc, h1] at h2; simp at h2
      refine ⟨fun n x _ => Iff.rfl, fun x => ?_⟩
      simp only [List.mem_cons, Prod.mk.injEq, hne, false_and, hnr, or_self, exists_false, and_false]
    | eq =>
      have := (cmpStr_eq name n').mp hc
      subst this
      have hnr : ∀ x, (name, x) ∉ r := by
        intro x hx
        have h1 := hs1 _ hx
        simp only [(cmpStr_eq name name).mpr rfl] at h1
        exact absurd h1 (by decide)
      refine ⟨fun n x hn => ?_, fun x => ?_⟩
      · simp only [List.mem_cons, Prod.mk.injEq, hn, false_and, false_or]
      · simp only [List.mem_cons, Prod.mk.injEq, true_and, hnr, or_false]
        exact ⟨fun h => ⟨h, x', rfl⟩, fun h => h.1⟩
    | gt =>
      have hne : name ≠ n' := by rintro rfl; rw [(cmpStr_eq name name).mpr rfl] at hc; simp at hc
      refine ⟨fun n x hn => ?_, fun x => ?_⟩
      · simp only [List.mem_cons, ih1 n x hn]
      · simp only [List.mem_cons, Prod.mk.injEq, hne, false_and, false_or, ih2 x]

theorem ascending_keys {f g : Fields} (h : f.map (·.1) = g.map (·.1)) (hf : Ascending cmpStr f) : Ascending cmpStr g := by
  unfold Ascending at *
  have : (f.map (·.1)).Pairwise (fun a b => cmpStr a b = .lt) := by rw [List.pairwise_map]; exact hf
  rw [h, List.pairwise_map] at this
  exact this

/-- **C15** (fields). For every kind of `get_*_mut`: it is available exactly when `get_*` is and shows the
same data; after writing `x`, `get_*` reads `x`, the field keeps its identity, all other
fields are unchanged, and the names and their order are unchanged. -/
theorem C15_fields_mut {τ : Type} (a : Value → Option τ) (m : Value → Option (MutRef Value τ)) (h : GoodMut a m)
    (f : Fields) (hf : Ascending cmpStr f) (name : Str) :
    ((Access.getWithMut m f name).map (·.cur) = Access.getWith a f name) ∧
    ∀ r x, Access.getWithMut m f name = some r →
      Access.getWith a (r.put x) name = some x ∧
      (∀ other, other ≠ name → Access.get (r.put x) other = Access.get f other) ∧
      (Access.get (r.put x) name).map Kserd.id = (Access.get f name).map Kserd.id ∧
      (r.put x).map (·.1) = f.map (·.1) := by
  unfold Access.getWithMut Access.getWith Access.getMut
  cases hg : Access.get f name with
  | none => simp
  | some k =>
    obtain ⟨i, v⟩ := k
    simp only [Option.map_some, Option.bind_some, Kserd.val_mk]
    refine ⟨?_, ?_⟩
    · rw [← h.reads v, Option.map_map]; rfl
    · intro r x hr
      rw [Option.map_eq_some_iff] at hr
      obtain ⟨j, hj, rfl⟩ := hr
      simp only [MutRef.focus, Kserd.valMut]
      have hmem : (name, Kserd.mk i v) ∈ f := (C14_get f hf name _).mp hg
      have hkeys := set_keys name (Kserd.mk i (j.put x)) f
      have hs' := ascending_keys hkeys.symm hf
      obtain ⟨m1, m2⟩ := set_mem name (Kserd.mk i (j.put x)) f hf
      have hget : Access.get (BTree.set cmpStr name (Kserd.mk i (j.put x)) f) name = some (Kserd.mk i (j.put x)) :=
        (C14_get _ hs' name _).mpr ((m2 _).mpr ⟨rfl, _, hmem⟩)
      refine ⟨?_, ?_, ?_, hkeys⟩
      · rw [hget]; exact h.writes v j x hj
      · intro o ho
        apply Option.ext
        intro y
        rw [C14_get _ hs', C14_get _ hf]
        exact m1 o y ho
      · rw [hget]; rfl

/-- The nine `get_*_mut` of the crate are instances of `C15_fields_mut`; e.g. `get_num_mut`. -/
theorem C15_get_num_mut (f : Fields) (hf : Ascending cmpStr f) (name : Str) (r : MutRef Fields Number) (x : Number)
    (h : Access.getNumMut f name = some r) :
    Access.getNum (r.put x) name = some x ∧
    (∀ other, other ≠ name → Access.get (r.put x) other = Access.get f other) ∧
    (r.put x).map (·.1) = f.map (·.1) := by
  obtain ⟨-, h2⟩ := C15_fields_mut Value.num? Value.numMut C15_value_mut.2.1 f hf name
  obtain ⟨h3, h4, -, h5⟩ := h2 r x h
  exact ⟨h3, h4, h5⟩

example : ∃ r, Access.getNumMut [(str "a", Kserd.mk none (.num (.uint 1))), (str "b", Kserd.mk none .unit)] (str "a") = some r ∧
    r.put (.int (-5)) = [(str "a", Kserd.mk none (.num (.int (-5)))), (str "b", Kserd.mk none .unit)] := ⟨_, rfl, rfl⟩

/-- `m` is to `g` what `get_*_mut` is to `get_*`: available exactly if `g` is, showing the same; after writing `x`, `g` reads `x`, the field
keeps its identity, and nothing else has changed. -/
def FieldMut {τ : Type} (g : Fields → Str → Option τ) (m : Fields → Str → Option (MutRef Fields τ)) : Prop :=
  ∀ f, Ascending cmpStr f → ∀ name, (m f name).map (·.cur) = g f name ∧
    ∀ r x, m f name = some r →
      g (r.put x) name = some x ∧
      (∀ other, other ≠ name → Access.get (r.put x) other = Access.get f other) ∧
      (Access.get (r.put x) name).map Kserd.id = (Access.get f name).map Kserd.id ∧
      (r.put x).map (·.1) = f.map (·.1)

/-- **C15.** All nine `get_*_mut`. -/
theorem C15_get_mut :
    FieldMut Access.getBool Access.getBoolMut ∧ FieldMut Access.getNum Access.getNumMut ∧ FieldMut Access.getStr Access.getStrMut ∧
    FieldMut Access.getBarr Access.getBarrMut ∧ FieldMut Access.getTuple Access.getTupleMut ∧ FieldMut Access.getCntr Access.getCntrMut ∧
    FieldMut Access.getSeq Access.getSeqMut ∧ FieldMut Access.getTupleOrSeq Access.getTupleOrSeqMut ∧
    FieldMut Access.getMap Access.getMapMut := by
  obtain ⟨h1, h2, h3, h4, h5, h6, h7, h8, h9⟩ := C15_value_mut
  exact ⟨C15_fields_mut _ _ h1, C15_fields_mut _ _ h2, C15_fields_mut _ _ h3, C15_fields_mut _ _ h4, C15_fields_mut _ _ h5,
    C15_fields_mut _ _ h6, C15_fields_mut _ _ h7, C15_fields_mut _ _ h8, C15_fields_mut _ _ h9⟩

example : ∃ r, Access.getSeqMut [(str "a", Kserd.mk (some (str "L")) (.seq [])), (str "b", Kserd.mk none .unit)] (str "a") = some r ∧
    r.put [.mk none .unit] = [(str "a", Kserd.mk (some (str "L")) (.seq [.mk none .unit])), (str "b", Kserd.mk none .unit)] := ⟨_, rfl, rfl⟩

end KS.Props
