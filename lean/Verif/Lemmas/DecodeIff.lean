import Verif.Lemmas.Decode
import Mathlib.Data.List.Forall2
import Mathlib.Data.List.Nodup
/-! Decoding of sequences, tuples and structs, as logical equivalences. -/

namespace KS

theorem tupleOf_iff (dec : Ty → Kserd → Option Ser) : ∀ (ts : List Ty) (l : List Kserd) (r : List Ser),
    Dec.tupleOf dec ts l = some r ↔ ts.length ≤ l.length ∧ List.zipWith dec ts l = r.map some
  | [], l, r => by
    simp only [Dec.tupleOf, Option.some.injEq, List.length_nil, Nat.zero_le, true_and, List.zipWith_nil_left]
    constructor
    · rintro rfl; rfl
    · intro h; exact (List.map_eq_nil_iff.mp h.symm).symm
  | _ :: _, [], r => by simp [Dec.tupleOf]
  | t :: ts, k :: ks, r => by
    have ih := tupleOf_iff dec ts ks
    simp only [Dec.tupleOf, List.length_cons, Nat.add_le_add_iff_right, List.zipWith_cons_cons]
    cases hv : dec t k with
    | none => 
      simp only [reduceCtorEq, false_iff, not_and]
      intro _ h
      cases r <;> simp at h
    | some v =>
      simp only
      cases hr : Dec.tupleOf dec ts ks with
      | none => 
        simp only [reduceCtorEq, false_iff, not_and]
        intro hl h
        cases r with
        | nil => simp at h
        | cons a r =>
          simp only [List.map_cons, List.cons.injEq] at h
          have := (ih r).mpr ⟨hl, h.2⟩
          rw [hr] at this; cases this
      | some vs =>
        have hvs := (ih vs).mp hr
        simp only [Option.some.injEq]
        constructor
        · rintro rfl; exact ⟨hvs.1, by simp [hvs.2]⟩
        · rintro ⟨hl, h⟩
          cases r with
          | nil => simp at h
          | cons a r =>
            simp only [List.map_cons, List.cons.injEq, Option.some.injEq] at h
            have := (ih r).mpr ⟨hl, h.2⟩
            rw [hr] at this
            simp only [Option.some.injEq] at this
            rw [h.1, this]

theorem seqOf_iff (dec : Kserd → Option Ser) : ∀ (l : List Kserd) (r : List Ser),
    Dec.seqOf dec l = some r ↔ l.map dec = r.map some
  | [], r => by
    simp only [Dec.seqOf, Option.some.injEq, List.map_nil]
    constructor
    · rintro rfl; rfl
    · intro h; exact (List.map_eq_nil_iff.mp h.symm).symm
  | k :: ks, r => by
    have ih := seqOf_iff dec ks
    simp only [Dec.seqOf, List.map_cons]
    cases hv : dec k with
    | none => 
      simp only [reduceCtorEq, false_iff]
      intro h
      cases r <;> simp at h
    | some v =>
      simp only
      cases hr : Dec.seqOf dec ks with
      | none => 
        simp only [reduceCtorEq, false_iff]
        intro h
        cases r with
        | nil => simp at h
        | cons a r =>
          simp only [List.map_cons, List.cons.injEq] at h
          have := (ih r).mpr h.2
          rw [hr] at this; cases this
      | some vs =>
        have hvs := (ih vs).mp hr
        simp only [Option.some.injEq]
        constructor
        · rintro rfl; simp [hvs]
        · intro h
          cases r with
          | nil => simp at h
          | cons a r =>
            simp only [List.map_cons, List.cons.injEq, Option.some.injEq] at h
            have := (ih r).mpr h.2
            rw [hr] at this
            simp only [Option.some.injEq] at this
            rw [h.1, this]

/-! ## Structs -/

theorem fieldTy_some {fs : List (Str × Ty)} {n : Str} {t : Ty} (h : Dec.fieldTy fs n = some t) : (n, t) ∈ fs := by
  induction fs with
  | nil => simp [Dec.fieldTy] at h
  | cons p r ih =>
    obtain ⟨m, u⟩ := p
    unfold Dec.fieldTy at h
    split at h
    · rename_i hm; simp only [Option.some.injEq] at h; subst hm; subst h; simp
    · exact List.mem_cons_of_mem _ (ih h)

theorem variant_some {fs : List (Str × VarDef)} {n : Str} {t : VarDef} (h : Dec.variant fs n = some t) : (n, t) ∈ fs := by
  induction fs with
  | nil => simp [Dec.variant] at h
  | cons p r ih =>
    obtain ⟨m, u⟩ := p
    unfold Dec.variant at h
    split at h
    · rename_i hm; simp only [Option.some.injEq] at h; subst hm; subst h; simp
    · exact List.mem_cons_of_mem _ (ih h)

theorem fieldVal_some {fs : List (Str × Ser)} {n : Str} {t : Ser} (h : Dec.fieldVal fs n = some t) : (n, t) ∈ fs := by
  induction fs with
  | nil => simp [Dec.fieldVal] at h
  | cons p r ih =>
    obtain ⟨m, u⟩ := p
    unfold Dec.fieldVal at h
    split at h
    · rename_i hm; simp only [Option.some.injEq] at h; subst hm; subst h; simp
    · exact List.mem_cons_of_mem _ (ih h)

theorem fieldVal_none {fs : List (Str × Ser)} {n : Str} : Dec.fieldVal fs n = none ↔ ∀ v, (n, v) ∉ fs := by
  induction fs with
  | nil => simp [Dec.fieldVal]
  | cons p r ih =>
    obtain ⟨m, u⟩ := p
    unfold Dec.fieldVal
    by_cases hm : m = n
    · subst hm; simp only [if_true, reduceCtorEq, false_iff, not_forall, not_not]; exact ⟨u, by simp⟩
    · rw [if_neg hm, ih]
      have hm' : ¬ n = m := fun h => hm h.symm
      constructor
      · intro h v hv
        rcases List.mem_cons.mp hv with h1 | h1
        · injection h1 with e1 e2; exact hm' e1
        · exact h v h1
      · intro h v hv; exact h v (List.mem_cons_of_mem _ hv)

theorem fields_unique : ∀ {l : List (Str × Kserd)}, (l.map Prod.fst).Nodup → ∀ {n : Str} {a b : Kserd},
    (n, a) ∈ l → (n, b) ∈ l → a = b
  | [], _, _, _, _, h, _ => by simp at h
  | (m, c) :: r, hn, n, a, b, ha, hb => by
    simp only [List.map_cons, List.nodup_cons] at hn
    rcases List.mem_cons.mp ha with h1 | h1 <;> rcases List.mem_cons.mp hb with h2 | h2
    · injection h1 with _ e1; injection h2 with _ e2; rw [e1, e2]
    · injection h1 with e1 _; subst e1; exact absurd (List.mem_map.mpr ⟨_, h2, rfl⟩) hn.1
    · injection h2 with e1 _; subst e1; exact absurd (List.mem_map.mpr ⟨_, h1, rfl⟩) hn.1
    · exact fields_unique hn.2 h1 h2

/-- The result of `collect`, as a set. -/
theorem collect_some (dec : Ty → Kserd → Option Ser) (fs : List (Str × Ty)) : ∀ (l : List (Str × Kserd))
    (vs : List (Str × Ser)), Dec.collect dec fs l = some vs →
    (∀ n v, (n, v) ∈ vs ↔ ∃ k t, (n, k) ∈ l ∧ Dec.fieldTy fs n = some t ∧ dec t k = some v) ∧
    (∀ n k t, (n, k) ∈ l → Dec.fieldTy fs n = some t → (dec t k).isSome) ∧
    (vs.map Prod.fst).Sublist (l.map Prod.fst)
  | [], vs, h => by
    simp only [Dec.collect, Option.some.injEq] at h; subst h; simp
  | (m, k) :: r, vs, h => by
    unfold Dec.collect at h
    split at h
    · rename_i hf
      obtain ⟨h1, h2, h3⟩ := collect_some dec fs r vs h
      refine ⟨?_, ?_, ?_⟩
      · intro n v
        rw [h1]
        constructor
        · rintro ⟨k', t, hk, ht⟩; exact ⟨k', t, by simp [hk], ht⟩
        · rintro ⟨k', t, hk, ht, hd⟩
          rcases List.mem_cons.mp hk with h4 | h4
          · injection h4 with e1 e2; subst e1; rw [hf] at ht; cases ht
          · exact ⟨k', t, h4, ht, hd⟩
      · intro n k' t hk ht
        rcases List.mem_cons.mp hk with h4 | h4
        · injection h4 with e1 e2; subst e1; rw [hf] at ht; cases ht
        · exact h2 n k' t h4 ht
      · exact h3.trans (by simp)
    · rename_i t ht
      split at h
      · cases h
      · rename_i v hv
        split at h
        · cases h
        · rename_i vs' hvs'
          simp only [Option.some.injEq] at h; subst h
          obtain ⟨h1, h2, h3⟩ := collect_some dec fs r vs' hvs'
          refine ⟨?_, ?_, ?_⟩
          · intro n w
            rw [List.mem_cons, h1]
            constructor
            · rintro (h4 | ⟨k', t', hk, ht'⟩)
              · injection h4 with e1 e2; subst e1; subst e2; exact ⟨k, t, by simp, ht, hv⟩
              · exact ⟨k', t', by simp [hk], ht'⟩
            · rintro ⟨k', t', hk, ht', hd⟩
              rcases List.mem_cons.mp hk with h4 | h4
              · injection h4 with e1 e2; subst e1; subst e2
                rw [ht] at ht'; simp only [Option.some.injEq] at ht'; subst ht'
                rw [hv] at hd; simp only [Option.some.injEq] at hd; subst hd; exact Or.inl rfl
              · exact Or.inr ⟨k', t', h4, ht', hd⟩
          · intro n k' t' hk ht'
            rcases List.mem_cons.mp hk with h4 | h4
            · injection h4 with e1 e2; subst e1; subst e2
              rw [ht] at ht'; simp only [Option.some.injEq] at ht'; subst ht'; rw [hv]; rfl
            · exact h2 n k' t' h4 ht'
          · simp [h3]

theorem collect_none (dec : Ty → Kserd → Option Ser) (fs : List (Str × Ty)) : ∀ (l : List (Str × Kserd)),
    Dec.collect dec fs l = none → ∃ n k t, (n, k) ∈ l ∧ Dec.fieldTy fs n = some t ∧ dec t k = none
  | [], h => by simp [Dec.collect] at h
  | (m, k) :: r, h => by
    unfold Dec.collect at h
    split at h
    · obtain ⟨n, k', t, h1, h2⟩ := collect_none dec fs r h
      exact ⟨n, k', t, by simp [h1], h2⟩
    · rename_i t ht
      split at h
      · rename_i hv; exact ⟨m, k, t, by simp, ht, hv⟩
      · split at h
        · rename_i hc
          obtain ⟨n, k', t, h1, h2⟩ := collect_none dec fs r hc
          exact ⟨n, k', t, by simp [h1], h2⟩
        · cases h

/-- One field of a decoded struct. -/
def FieldRel (vs : List (Str × Ser)) (d : Str × Ty) (r : Str × Ser) : Prop :=
  d.1 = r.1 ∧ (Dec.fieldVal vs d.1 = some r.2 ∨ (Dec.fieldVal vs d.1 = none ∧ (∃ t, d.2 = .option t) ∧ r.2 = .none))

theorem assemble_iff (vs : List (Str × Ser)) : ∀ (ds : List (Str × Ty)) (r : List (Str × Ser)),
    Dec.assemble vs ds = some r ↔ List.Forall₂ (FieldRel vs) ds r
  | [], r => by
    simp only [Dec.assemble, Option.some.injEq]
    constructor
    · rintro rfl; exact List.Forall₂.nil
    · intro h; cases h; rfl
  | (n, t) :: ds, r => by
    have ih := assemble_iff vs ds
    unfold Dec.assemble
    split
    · rename_i hv
      simp only [reduceCtorEq, false_iff]
      intro h
      cases h with
      | cons h1 h2 =>
        rcases h1 with ⟨_, h1 | ⟨h1, ⟨t', rfl⟩, _⟩⟩
        · rw [h1] at hv; simp at hv
        · rw [h1] at hv; simp at hv
    · rename_i v hv
      have hrel : ∀ w, FieldRel vs (n, t) (n, w) ↔ w = v := by
        intro w
        unfold FieldRel
        simp only [true_and]
        cases hf : Dec.fieldVal vs n with
        | some x =>
          rw [hf] at hv; simp only [Option.some.injEq] at hv; subst hv
          simp [eq_comm]
        | none =>
          rw [hf] at hv
          simp only [reduceCtorEq, true_and, false_or]
          cases t <;> simp only [reduceCtorEq, Option.some.injEq] at hv
          subst hv; simp
      split
      · rename_i ha
        simp only [reduceCtorEq, false_iff]
        intro h
        cases h with
        | cons h1 h2 =>
          rw [← ih, ha] at h2; cases h2
      · rename_i r' ha
        simp only [Option.some.injEq]
        constructor
        · rintro rfl
          exact List.Forall₂.cons ((hrel v).mpr rfl) ((ih _).mp ha)
        · intro h
          cases h with
          | @cons _ b _ l2 h1 h2 =>
            rw [← ih, ha] at h2
            simp only [Option.some.injEq] at h2; subst h2
            obtain ⟨m, w⟩ := b
            have : n = m := h1.1
            subst this
            rw [(hrel w).mp h1]

theorem structOf_iff (dec : Ty → Kserd → Option Ser) (ds : List (Str × Ty)) (l : List (Str × Kserd))
    (hd : (ds.map Prod.fst).Nodup) (hl : (l.map Prod.fst).Nodup) (r : List (Str × Ser)) :
    Dec.structOf dec ds l = some r ↔ List.Forall₂ (fun d r => d.1 = r.1 ∧
      ((∃ k, (d.1, k) ∈ l ∧ dec d.2 k = some r.2) ∨
        ((∀ k, (d.1, k) ∉ l) ∧ (∃ t, d.2 = .option t) ∧ r.2 = .none))) ds r := by
  unfold Dec.structOf
  cases hc : Dec.collect dec ds l with
  | none =>
    simp only [reduceCtorEq, false_iff]
    intro h
    obtain ⟨n, k, t, h1, h2, h3⟩ := collect_none dec ds l hc
    have hm := fieldTy_some h2
    obtain ⟨i, hi⟩ := List.mem_iff_getElem.mp hm
    obtain ⟨hi, he⟩ := hi
    have := (List.forall₂_iff_get.mp h)
    obtain ⟨_, h4⟩ := this.2 i hi (by rw [← this.1]; exact hi)
    simp only [List.get_eq_getElem, he] at h4
    rcases h4 with ⟨k', h5, h6⟩ | ⟨h5, _⟩
    · have : k' = k := by
        exact fields_unique hl h5 h1
      subst this; rw [h3] at h6; cases h6
    · exact h5 k h1
  | some vs =>
    obtain ⟨h1, h2, h3⟩ := collect_some dec ds l vs hc
    have hnv : (vs.map Prod.fst).Nodup := h3.nodup hl
    simp only [hnv, if_true, assemble_iff]
    have key : ∀ d ∈ ds, ∀ b : Str × Ser, FieldRel vs d b ↔ (d.1 = b.1 ∧
      ((∃ k, (d.1, k) ∈ l ∧ dec d.2 k = some b.2) ∨
        ((∀ k, (d.1, k) ∉ l) ∧ (∃ t, d.2 = .option t) ∧ b.2 = .none))) := by
      intro d hdm b
      obtain ⟨n, t⟩ := d
      have ht : Dec.fieldTy ds n = some t := fieldTy_mem hd hdm
      unfold FieldRel
      have e1 : ∀ w, Dec.fieldVal vs n = some w ↔ ∃ k, (n, k) ∈ l ∧ dec t k = some w := by
        intro w
        constructor
        · intro h
          obtain ⟨k, t', hk, ht', hd'⟩ := (h1 n w).mp (fieldVal_some h)
          rw [ht] at ht'; simp only [Option.some.injEq] at ht'; subst ht'
          exact ⟨k, hk, hd'⟩
        · rintro ⟨k, hk, hd'⟩
          exact fieldVal_mem hnv ((h1 n w).mpr ⟨k, t, hk, ht, hd'⟩)
      have e2 : Dec.fieldVal vs n = none ↔ ∀ k, (n, k) ∉ l := by
        rw [fieldVal_none]
        constructor
        · intro h k hk
          obtain ⟨v, hv⟩ := Option.isSome_iff_exists.mp (h2 n k t hk ht)
          exact h v ((h1 n v).mpr ⟨k, t, hk, ht, hv⟩)
        · intro h v hv
          obtain ⟨k, _, hk, _⟩ := (h1 n v).mp hv
          exact h k hk
      simp only [e1, e2]
    constructor
    · intro h
      rw [List.forall₂_iff_get] at h ⊢
      refine ⟨h.1, fun i h1 h2 => (key _ (List.get_mem _ _) _).mp (h.2 i h1 h2)⟩
    · intro h
      rw [List.forall₂_iff_get] at h ⊢
      refine ⟨h.1, fun i h1 h2 => (key _ (List.get_mem _ _) _).mpr (h.2 i h1 h2)⟩

/-- The entries for known fields. -/
def known (ds : List (Str × Ty)) (l : List (Str × Kserd)) : List (Str × Kserd) :=
  l.filter (fun p => (Dec.fieldTy ds p.1).isSome)

theorem collect_known (dec : Ty → Kserd → Option Ser) (ds : List (Str × Ty)) : ∀ l : List (Str × Kserd),
    Dec.collect dec ds l = Dec.collect dec ds (known ds l)
  | [] => rfl
  | (n, k) :: r => by
    have ih := collect_known dec ds r
    unfold known at ih ⊢
    cases hf : Dec.fieldTy ds n with
    | none => 
      rw [List.filter_cons_of_neg (by simp [hf])]
      rw [Dec.collect, hf]; exact ih
    | some t =>
      rw [List.filter_cons_of_pos (by simp [hf])]
      rw [Dec.collect, Dec.collect, hf]; simp only [ih]

theorem collect_names (dec : Ty → Kserd → Option Ser) (ds : List (Str × Ty)) : ∀ (l : List (Str × Kserd)) (vs : List (Str × Ser)),
    Dec.collect dec ds l = some vs → vs.map Prod.fst = (known ds l).map Prod.fst
  | [], vs, h => by simp only [Dec.collect, Option.some.injEq] at h; subst h; rfl
  | (n, k) :: r, vs, h => by
    have ih := collect_names dec ds r
    unfold known at ih ⊢
    unfold Dec.collect at h
    split at h
    · rename_i hf
      rw [List.filter_cons_of_neg (by simp [hf])]; exact ih vs h
    · rename_i t ht
      rw [List.filter_cons_of_pos (by simp [ht])]
      split at h
      · cases h
      · split at h
        · cases h
        · rename_i vs' hvs'
          simp only [Option.some.injEq] at h; subst h
          simp only [List.map_cons, ih vs' hvs']

theorem fieldTy_isSome {ds : List (Str × Ty)} {n : Str} : (Dec.fieldTy ds n).isSome = true ↔ n ∈ ds.map Prod.fst := by
  induction ds with
  | nil => simp [Dec.fieldTy]
  | cons p r ih =>
    obtain ⟨m, u⟩ := p
    unfold Dec.fieldTy
    by_cases hm : m = n
    · simp [hm]
    · have hm' : ¬ n = m := fun h => hm h.symm
      rw [if_neg hm, ih, List.map_cons, List.mem_cons]; simp only [hm', false_or]

/-- Names may be repeated: then the decoding succeeds only when no known field is. -/
theorem structOf_iff_names (dec : Ty → Kserd → Option Ser) (ds : List (Str × Ty)) (l : List (Str × Kserd))
    (hd : (ds.map Prod.fst).Nodup) (r : List (Str × Ser)) :
    Dec.structOf dec ds l = some r ↔ (∀ f ∈ ds.map Prod.fst, (l.map Prod.fst).count f ≤ 1) ∧ List.Forall₂ (fun d r => d.1 = r.1 ∧
      ((∃ k, (d.1, k) ∈ l ∧ dec d.2 k = some r.2) ∨
        ((∀ k, (d.1, k) ∉ l) ∧ (∃ t, d.2 = .option t) ∧ r.2 = .none))) ds r := by
  have hc : (∀ f ∈ ds.map Prod.fst, (l.map Prod.fst).count f ≤ 1) ↔ ((known ds l).map Prod.fst).Nodup := by
    rw [List.nodup_iff_count_le_one]
    have e : (known ds l).map Prod.fst = (l.map Prod.fst).filter (fun n => (Dec.fieldTy ds n).isSome) := by
      unfold known; rw [List.filter_map]; rfl
    rw [e]
    constructor
    · intro h a
      by_cases ha : (Dec.fieldTy ds a).isSome = true
      · exact (List.Sublist.count_le a List.filter_sublist).trans (h a (fieldTy_isSome.mp ha))
      · have : (List.filter (fun n => (Dec.fieldTy ds n).isSome) (List.map Prod.fst l)).count a = 0 :=
          List.count_eq_zero.mpr (fun hm => ha (List.mem_filter.mp hm).2)
        omega
    · intro h f hf
      have := h f
      rwa [List.count_filter (p := fun n => (Dec.fieldTy ds n).isSome) (fieldTy_isSome.mpr hf)] at this
  have hs : Dec.structOf dec ds l = Dec.structOf dec ds (known ds l) := by
    unfold Dec.structOf; rw [← collect_known]
  have hm : ∀ n k, n ∈ ds.map Prod.fst → ((n, k) ∈ known ds l ↔ (n, k) ∈ l) := by
    intro n k hn
    unfold known
    rw [List.mem_filter]
    exact ⟨fun h => h.1, fun h => ⟨h, fieldTy_isSome.mpr hn⟩⟩
  rw [hc]
  by_cases hn : ((known ds l).map Prod.fst).Nodup
  · rw [hs, structOf_iff dec ds (known ds l) hd hn r]
    simp only [hn, true_and]
    rw [List.forall₂_iff_get, List.forall₂_iff_get]
    refine and_congr_right fun _ => forall_congr' fun i => forall_congr' fun h1 => forall_congr' fun h2 => ?_
    have : (ds.get ⟨i, h1⟩).1 ∈ ds.map Prod.fst := List.mem_map.mpr ⟨_, List.get_mem _ _, rfl⟩
    simp only [hm _ _ this]
  · simp only [hn, false_and, iff_false]
    intro h
    unfold Dec.structOf at h
    split at h
    · cases h
    · rename_i vs hvs
      rw [if_neg (by rw [collect_names dec ds l vs hvs]; exact hn)] at h
      cases h

end KS
