import Verif.Lemmas.Renum
import Verif.Lemmas.HideIds
import Verif.Props.NumText
/-! Numbers that read back print the same again, and reading back without empty containers exchanges numbers only. -/

namespace KS.Renum

open Spec F64 KS.Props

theorem natDigits_zero : natDigits 0 = ['0'] := by decide

/-- A number that reads back prints the same again, unless it is the float `-0`. -/
theorem disp_reread (n : Number) (hw : n.WF) (hr : Number.fromStr n.disp ≠ none) (h0 : n.disp ≠ str "-0") : (reread n).disp = n.disp := by
  unfold reread
  cases n with
  | uint n => rw [C07_uint n hw]; rfl
  | int i =>
    rw [C07_int i hw]
    by_cases hi : i < 0
    · simp [hi]
    · rw [if_neg hi]
      simp only [Option.getD_some, Number.disp, if_neg hi, List.nil_append]
      congr 1; omega
  | float f =>
    cases f with
    | nan s p =>
      have : Number.fromStr (Number.disp (.float (.nan s p))) = some (.float (.nan false (2 ^ 51))) := by
        change Number.fromStr (str "NaN") = _; decide +kernel
      rw [this]; rfl
    | inf s =>
      have : Number.fromStr (Number.disp (.float (.inf s))) = some (.float (.inf s)) := by cases s <;> decide +kernel
      rw [this]; rfl
    | fin s m =>
      rcases disp_fin s m hw with ⟨d, h1, h2⟩ | ⟨a, b, h1, h2, h3, h4, h5, h6⟩
      · have hd : Number.disp (.float (.fin s m)) = withSign s (natDigits d) := h1
        rw [hd] at hr h0 ⊢
        cases s with
        | true =>
          simp only [withSign, if_true] at hr h0 ⊢
          rw [C07_neg_digits _ (natDigits_ne_nil d) (List.all_eq_true.mp (natDigits_all d)), ← digitsVal_decVal, digitsVal_natDigits] at hr ⊢
          by_cases h : d ≤ 2 ^ 127
          · rw [if_pos h, Option.getD_some]
            have hpos : d ≠ 0 := by
              rintro rfl
              exact h0 (by rw [natDigits_zero]; rfl)
            have : (-(d : Int)) < 0 := by omega
            simp only [Number.disp, if_pos this]
            rw [Int.natAbs_neg, Int.natAbs_natCast]; rfl
          · rw [if_neg h] at hr; exact absurd rfl hr
        | false =>
          simp only [withSign, Bool.false_eq_true, if_false] at hr h0 ⊢
          rw [C07_digits _ (natDigits_ne_nil d) (List.all_eq_true.mp (natDigits_all d)), ← digitsVal_decVal, digitsVal_natDigits] at hr ⊢
          by_cases h : d < 2 ^ 128
          · rw [if_pos h]; rfl
          · rw [if_neg h] at hr; exact absurd rfl hr
      · rcases read_fin s m hw with h | ⟨d, h7, h8⟩
        · rw [h]; rfl
        · exfalso
          have hd : Number.disp (.float (.fin s m)) = withSign s (a ++ '.' :: b) := h1
          have := fromStr_point s a b h2 h3
          rw [← hd, h8] at this
          revert this
          cases F64.parse (withSign s (a ++ '.' :: b)) <;> cases s <;> simp <;> split <;> simp_all

theorem reread_reads (n : Number) : Number.fromStr n.disp ≠ none → Number.fromStr n.disp = some (reread n) := by
  intro h
  unfold reread
  cases h' : Number.fromStr n.disp with
  | none => exact absurd h' h
  | some m => rfl

mutual
theorem mapNum_congr {g h : Number → Number} : ∀ (k : Kserd), AllNums (fun n => g n = h n) k → mapNum g k = mapNum h k
  | .mk id v, hk => by
    unfold AllNums at hk
    rw [All] at hk
    cases v with
    | num n => simp only [mapNum, mapNumV]; rw [show g n = h n from hk.1]
    | tuple l => simp only [mapNum, mapNumV, mapNumL_congr l hk.2]
    | seq l => simp only [mapNum, mapNumV, mapNumL_congr l hk.2]
    | cntr l => simp only [mapNum, mapNumV, mapNumF_congr l hk.2]
    | map l => simp only [mapNum, mapNumV, mapNumM_congr l hk.2]
    | _ => rfl
theorem mapNumL_congr {g h : Number → Number} : ∀ (l : List Kserd),
    AllL (fun k => match k.val with | .num n => g n = h n | _ => True) l → mapNumL g l = mapNumL h l
  | [], _ => rfl
  | k :: r, hk => by rw [mapNumL, mapNumL, mapNum_congr k hk.1, mapNumL_congr r hk.2]
theorem mapNumF_congr {g h : Number → Number} : ∀ (l : List (Str × Kserd)),
    AllF (fun k => match k.val with | .num n => g n = h n | _ => True) l → mapNumF g l = mapNumF h l
  | [], _ => rfl
  | (n, k) :: r, hk => by rw [mapNumF, mapNumF, mapNum_congr k hk.1, mapNumF_congr r hk.2]
theorem mapNumM_congr {g h : Number → Number} : ∀ (l : List (Kserd × Kserd)),
    AllM (fun k => match k.val with | .num n => g n = h n | _ => True) l → mapNumM g l = mapNumM h l
  | [], _ => rfl
  | (k, v) :: r, hk => by rw [mapNumM, mapNumM, mapNum_congr k hk.1, mapNum_congr v hk.2.1, mapNumM_congr r hk.2.2]
end

/-- The predicate of `NoEmptyCntr`. -/
abbrev NE (k : Kserd) : Prop := match k.val with | .cntr f => f ≠ [] | _ => True

mutual
theorem reread_mapNum : ∀ (k : Kserd), All NE k → rereadK k = mapNum reread k
  | .mk id v, hk => by
    rw [All] at hk
    cases v with
    | num n => rfl
    | tuple l => simp only [rereadK, rereadV, mapNum, mapNumV, rereadL_mapNum l hk.2]
    | seq l => simp only [rereadK, rereadV, mapNum, mapNumV, rereadL_mapNum l hk.2]
    | cntr l =>
      simp only [rereadK, rereadV, mapNum, mapNumV, rereadF_mapNum l hk.2]
      rw [if_neg]
      simp only [List.isEmpty_iff]
      exact hk.1
    | map l => simp only [rereadK, rereadV, mapNum, mapNumV, rereadM_mapNum l hk.2]
    | _ => rfl
theorem rereadL_mapNum : ∀ (l : List Kserd), AllL NE l → rereadL l = mapNumL reread l
  | [], _ => rfl
  | k :: r, hk => by rw [rereadL, mapNumL, reread_mapNum k hk.1, rereadL_mapNum r hk.2]
theorem rereadF_mapNum : ∀ (l : List (Str × Kserd)), AllF NE l → rereadF l = mapNumF reread l
  | [], _ => rfl
  | (n, k) :: r, hk => by rw [rereadF, mapNumF, reread_mapNum k hk.1, rereadF_mapNum r hk.2]
theorem rereadM_mapNum : ∀ (l : List (Kserd × Kserd)), AllM NE l → rereadM l = mapNumM reread l
  | [], _ => rfl
  | (k, v) :: r, hk => by rw [rereadM, mapNumM, reread_mapNum k hk.1, reread_mapNum v hk.2.1, rereadM_mapNum r hk.2.2]
end

mutual
theorem all_hide {c : FormattingConfig} {P : Kserd → Prop} (hP : ∀ id v, P (.mk id v) → ∀ i, P (.mk i (hideIdsV c v))) :
    ∀ (k : Kserd), All P k → All P (hideIds c k)
  | .mk id v, h => by
    rw [All] at h
    rw [hideIds, All]
    refine ⟨hP _ _ h.1 _, ?_⟩
    cases v with
    | tuple l => exact allL_hide hP l h.2
    | seq l => exact allL_hide hP l h.2
    | cntr l => exact allF_hide hP l h.2
    | map l => exact allM_hide hP l h.2
    | _ => trivial
theorem allL_hide {c : FormattingConfig} {P : Kserd → Prop} (hP : ∀ id v, P (.mk id v) → ∀ i, P (.mk i (hideIdsV c v))) :
    ∀ (l : List Kserd), AllL P l → AllL P (hideIdsL c l)
  | [], _ => trivial
  | k :: r, h => ⟨all_hide hP k h.1, allL_hide hP r h.2⟩
theorem allF_hide {c : FormattingConfig} {P : Kserd → Prop} (hP : ∀ id v, P (.mk id v) → ∀ i, P (.mk i (hideIdsV c v))) :
    ∀ (l : List (Str × Kserd)), AllF P l → AllF P (hideIdsF c l)
  | [], _ => trivial
  | (n, k) :: r, h => ⟨all_hide hP k h.1, allF_hide hP r h.2⟩
theorem allM_hide {c : FormattingConfig} {P : Kserd → Prop} (hP : ∀ id v, P (.mk id v) → ∀ i, P (.mk i (hideIdsV c v))) :
    ∀ (l : List (Kserd × Kserd)), AllM P l → AllM P (hideIdsM c l)
  | [], _ => trivial
  | (k, v) :: r, h => ⟨all_hide hP k h.1, all_hide hP v h.2.1, allM_hide hP r h.2.2⟩
end

theorem nums_hide {c : FormattingConfig} {P : Number → Prop} {k : Kserd} (h : AllNums P k) : AllNums P (hideIds c k) :=
  all_hide (fun id v hv i => by cases v <;> first | trivial | exact hv) k h

theorem ne_hide {c : FormattingConfig} {k : Kserd} (h : NoEmptyCntr k) : NoEmptyCntr (hideIds c k) :=
  all_hide (fun id v hv i => by
    cases v with
    | cntr f =>
      rcases f with _ | ⟨⟨n, x⟩, r⟩
      · exact absurd rfl hv
      · simp [Kserd.val, hideIdsV, hideIdsF]
    | _ => trivial) k h

end KS.Renum
