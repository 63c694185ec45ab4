import Verif.Spec.RoundTrip
import Verif.Props.Kserds
import Verif.Props.NumText
import Verif.Lemmas.ParseGood
/-!
# What is read back equals what was written
-/

namespace KS.RT
open KS.Spec KS.Props

theorem reread_exact {n : Number} (h : Exact n) : Number.fromStr n.disp ≠ none ∧ Number.eq n (reread n) = true ∧ Number.eq (reread n) n = true := by
  have key : ∃ b, Number.fromStr n.disp = some b ∧ Number.eq n b = true ∧ Number.eq b n = true := by
    cases n with
    | uint x => obtain ⟨b, h1, -, h2, h3⟩ := C07_roundtrip_eq _ _ h.1 rfl; exact ⟨b, h1, h2, h3⟩
    | int x => obtain ⟨b, h1, -, h2, h3⟩ := C07_roundtrip_eq _ _ h.1 rfl; exact ⟨b, h1, h2, h3⟩
    | float f =>
      have h2 := h.2 f rfl
      obtain ⟨b, h1, -, h2, h3⟩ := C08_roundtrip f h.1 (by
        cases f with
        | fin s m => exact h2
        | inf s => exact .inl id
        | nan s p => exact .inl id)
      exact ⟨b, h1, h2, h3⟩
  obtain ⟨b, h1, h2, h3⟩ := key
  have : reread n = b := by rw [reread, h1]; rfl
  rw [this, h1]; exact ⟨by simp, h2, h3⟩

theorem lawful_exact {n : Number} (h : lawful n) : Exact n := by
  refine ⟨h.1, ?_⟩
  rintro f rfl
  cases f with
  | fin s m => exact .inr h.2.1.1
  | inf s => trivial
  | nan s p => trivial

theorem reread_lawful {n : Number} (h : lawful n) : lawful (reread n) ∧ place (reread n) = place n := by
  have hex := reread_exact (lawful_exact h)
  obtain ⟨b, hb⟩ := Option.ne_none_iff_exists'.mp hex.1
  have hr : reread n = b := by rw [reread, hb]; rfl
  have hw := PG.fromStr_WF _ _ hb
  have hpl : place b = place n := by
    cases n with
    | uint x =>
      rw [C07_uint x h.1] at hb; cases hb; rfl
    | int x =>
      rw [C07_int x h.1] at hb; cases hb
      by_cases hx : x < 0
      · rw [if_pos hx]
      · rw [if_neg hx]; simp only [place]; congr 2; omega
    | float f =>
      obtain ⟨g, h1, h2, -⟩ := C08_roundtrip f h.1 (by
        cases f with
        | fin s m => exact .inr h.2.1.1
        | inf s => exact .inl id
        | nan s p => exact .inl id)
      rw [hb] at h1; cases h1; exact h2
  rw [hr]
  refine ⟨?_, hpl⟩
  cases hbi : intVal b with
  | some x => exact C10_integers_lawful b hw (by rw [hbi]; simp)
  | none =>
    cases n with
    | uint x => rw [C07_uint x h.1] at hb; cases hb; cases hbi
    | int x => rw [C07_int x h.1] at hb; cases hb; split at hbi <;> cases hbi
    | float f =>
      cases f with
      | nan s p =>
        have : Number.fromStr (Number.disp (.float (.nan s p))) = some (.float (.nan false (2 ^ 51))) := by
          show Number.fromStr (str "NaN") = _
          decide +kernel
        rw [this] at hb; cases hb
        exact ⟨hw, trivial, by simp, by simp⟩
      | inf s =>
        have : Number.fromStr (Number.disp (.float (.inf s))) = some (.float (.inf s)) := by cases s <;> decide +kernel
        rw [this] at hb; cases hb; exact h
      | fin s m =>
        rcases read_fin s m h.1 with e | ⟨d, -, e⟩
        · rw [hb] at e; cases e; exact h
        · rw [hb] at e
          split at e <;> split at e <;> cases e <;> cases hbi

/-! ## Equality -/

/-- Every number is exact. -/
abbrev exP : Kserd → Prop := fun k => match k.val with | .num n => Exact n | _ => True

mutual
theorem eq_reread (k : Kserd) (h : All exP k) : Kserd.eq k (rereadK k) = true ∧ Kserd.eq (rereadK k) k = true := by
  obtain ⟨i, v⟩ := k
  rw [All] at h
  simp only [rereadK, Kserd.eq]
  cases v with
  | num n =>
    have := reread_exact (n := n) h.1
    simp only [rereadV, Kserd.eqV]; exact this.2
  | tuple l => have := eqL_reread l h.2; simp only [rereadV, Kserd.eqV]; exact this
  | seq l => have := eqL_reread l h.2; simp only [rereadV, Kserd.eqV]; exact this
  | cntr l =>
    have := eqF_reread l h.2
    cases l with
    | nil => exact ⟨rfl, rfl⟩
    | cons p r => simp only [rereadV, Kserd.eqV, List.isEmpty_cons, Bool.false_eq_true, if_false]; exact this
  | map l => have := eqM_reread l h.2; simp only [rereadV, Kserd.eqV]; exact this
  | _ => simp only [rereadV]; exact ⟨eqV_self _, eqV_self _⟩
theorem eqL_reread (l : List Kserd) (h : AllL exP l) : Kserd.eqList l (rereadL l) = true ∧ Kserd.eqList (rereadL l) l = true := by
  match l with
  | [] => exact ⟨rfl, rfl⟩
  | k :: r =>
    rw [AllL] at h
    simp only [rereadL, Kserd.eqList, eq_reread k h.1, eqL_reread r h.2, Bool.and_self, and_self]
theorem eqF_reread (l : List (Str × Kserd)) (h : AllF exP l) : Kserd.eqFields l (rereadF l) = true ∧ Kserd.eqFields (rereadF l) l = true := by
  match l with
  | [] => exact ⟨rfl, rfl⟩
  | (n, k) :: r =>
    rw [AllF] at h
    simp only [rereadF, Kserd.eqFields, eq_reread k h.1, eqF_reread r h.2, Bool.and_self, and_self, beq_self_eq_true]
theorem eqM_reread (l : List (Kserd × Kserd)) (h : AllM exP l) : Kserd.eqMap l (rereadM l) = true ∧ Kserd.eqMap (rereadM l) l = true := by
  match l with
  | [] => exact ⟨rfl, rfl⟩
  | (n, k) :: r =>
    rw [AllM] at h
    simp only [rereadM, Kserd.eqMap, eq_reread n h.1, eq_reread k h.2.1, eqM_reread r h.2.2, Bool.and_self, and_self]
end

/-! ## Map keys -/

abbrev noEmptyP : Kserd → Prop := fun k => match k.val with | .cntr f => f ≠ [] | _ => True

mutual
theorem rep_reread (k : Kserd) (h : All lawP k) (he : All noEmptyP k) : rep false (rereadK k) = rep false k ∧ All lawP (rereadK k) := by
  obtain ⟨i, v⟩ := k
  rw [All] at h he
  cases v with
  | num n =>
    have := reread_lawful (n := n) h.1
    simp only [rereadK, rereadV, rep, repV, this.2, All, AllV, lawP, Kserd.val, this.1, and_self]
  | tuple l => simp only [rereadK, rereadV, rep, repV, repL_reread l h.2 he.2, All, AllV, lawP, Kserd.val, and_self]
  | seq l => simp only [rereadK, rereadV, rep, repV, repL_reread l h.2 he.2, All, AllV, lawP, Kserd.val, and_self]
  | cntr l =>
    have hne : l ≠ [] := he.1
    have e : l.isEmpty = false := by cases l <;> simp_all
    simp only [rereadK, rereadV, rep, repV, e, Bool.false_eq_true, if_false, Bool.false_and, repF_reread l h.2 he.2, All, AllV, lawP, Kserd.val, and_self]
  | map l => simp only [rereadK, rereadV, rep, repV, repM_reread l h.2 he.2, All, AllV, lawP, Kserd.val, and_self]
  | _ => simp only [rereadK, rereadV, rep, repV, All, AllV, lawP, Kserd.val, and_self]
theorem repL_reread (l : List Kserd) (h : AllL lawP l) (he : AllL noEmptyP l) : repL false (rereadL l) = repL false l ∧ AllL lawP (rereadL l) := by
  match l with
  | [] => exact ⟨rfl, trivial⟩
  | k :: r =>
    rw [AllL] at h he
    simp only [rereadL, repL, AllL, rep_reread k h.1 he.1, repL_reread r h.2 he.2, and_self]
theorem repF_reread (l : List (Str × Kserd)) (h : AllF lawP l) (he : AllF noEmptyP l) : repF false (rereadF l) = repF false l ∧ AllF lawP (rereadF l) := by
  match l with
  | [] => exact ⟨rfl, trivial⟩
  | (n, k) :: r =>
    rw [AllF] at h he
    simp only [rereadF, repF, AllF, rep_reread k h.1 he.1, repF_reread r h.2 he.2, and_self]
theorem repM_reread (l : List (Kserd × Kserd)) (h : AllM lawP l) (he : AllM noEmptyP l) : repM false (rereadM l) = repM false l ∧ AllM lawP (rereadM l) := by
  match l with
  | [] => exact ⟨rfl, trivial⟩
  | (n, k) :: r =>
    rw [AllM] at h he
    simp only [rereadM, repM, AllM, rep_reread n h.1 he.1, rep_reread k h.2.1 he.2.1, repM_reread r h.2.2 he.2.2, and_self]
end

theorem mem_rereadM {m : List (Kserd × Kserd)} : rereadM m = m.map (fun p => (rereadK p.1, rereadK p.2)) := by
  induction m with
  | nil => rfl
  | cons p r ih => obtain ⟨a, b⟩ := p; rw [rereadM, ih]; rfl

/-- Keys in ascending order stay so. -/
theorem keys_reread {m : List (Kserd × Kserd)} (hm : Ascending Kserd.cmp m) (hk : ∀ p ∈ m, AllNums lawful p.1 ∧ NoEmptyCntr p.1) :
    (rereadM m).Pairwise (fun a b => Kserd.cmp a.1 b.1 = .lt ∧ Kserd.eq a.1 b.1 = false) := by
  rw [mem_rereadM, List.pairwise_map]
  rw [Ascending] at hm
  refine List.Pairwise.imp_of_mem ?_ hm
  intro a b ha hb hlt
  obtain ⟨ra, la⟩ := rep_reread a.1 (hk a ha).1 (hk a ha).2
  obtain ⟨rb, lb⟩ := rep_reread b.1 (hk b hb).1 (hk b hb).2
  have ea := (cmp_rep _ _ la (hk a ha).1).mpr ra
  have eb := (cmp_rep _ _ (hk b hb).1 lb).mpr rb.symm
  have t1 := cmp_tr _ _ _ la (hk a ha).1 (hk b hb).1
  rw [ea, hlt] at t1
  have t2 := cmp_tr _ _ _ la (hk b hb).1 lb
  have t1' : Kserd.cmp (rereadK a.1) b.1 = .lt := t1
  rw [t1', eb] at t2
  have t2' : Kserd.cmp (rereadK a.1) (rereadK b.1) = .lt := t2
  refine ⟨t2', ?_⟩
  cases he : Kserd.eq (rereadK a.1) (rereadK b.1) with
  | false => rfl
  | true =>
    exfalso
    rw [eq_rep _ _ la lb] at he
    have na : rep true (rereadK a.1) = rep true a.1 := rep_collapse _ _ ra
    have nb : rep true (rereadK b.1) = rep true b.1 := rep_collapse _ _ rb
    rw [na, nb, rep_nonempty _ (hk a ha).2, rep_nonempty _ (hk b hb).2, ← cmp_rep _ _ (hk a ha).1 (hk b hb).1, hlt] at he
    cases he

end KS.RT
