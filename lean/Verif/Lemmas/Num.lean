import Verif.Lemmas.F64
import Verif.Spec.Num
/-! Comparison and conversion of numbers. -/

namespace KS

open Spec

theorem one_pos : 0 < one := by unfold one; exact pow_pos (by decide) _

theorem scale_one : ((F64.scale : Nat) : Int) = one := by unfold F64.scale one; push_cast; rfl

theorem compare_lt {a b : Int} (h : a < b) : compare a b = .lt := by
  simp [compare, compareOfLessAndEq, h]
theorem compare_gt {a b : Int} (h : b < a) : compare a b = .gt := by
  have h1 : ¬ a < b := by omega
  have h2 : a ≠ b := by omega
  simp [compare, compareOfLessAndEq, h1, h2]
theorem compare_self {a b : Int} (h : a = b) : compare a b = .eq := by
  subst h; simp [compare, compareOfLessAndEq]
theorem ncompare_lt {a b : Nat} (h : a < b) : compare a b = .lt := by
  simp [compare, compareOfLessAndEq, h]
theorem ncompare_gt {a b : Nat} (h : b < a) : compare a b = .gt := by
  have h1 : ¬ a < b := by omega
  have h2 : a ≠ b := by omega
  simp [compare, compareOfLessAndEq, h1, h2]
theorem ncompare_self {a b : Nat} (h : a = b) : compare a b = .eq := by
  subst h; simp [compare, compareOfLessAndEq]

theorem ncompare_int (a b : Nat) : compare a b = compare (a : Int) (b : Int) := by
  rcases Nat.lt_trichotomy a b with h | h | h
  · rw [ncompare_lt h, compare_lt (by omega)]
  · rw [ncompare_self h, compare_self (by omega)]
  · rw [ncompare_gt h, compare_gt (by omega)]

theorem compare_mul (a b : Int) {c : Int} (hc : 0 < c) : compare (a * c) (b * c) = compare a b := by
  rcases lt_trichotomy a b with h | h | h
  · rw [compare_lt h, compare_lt (mul_lt_mul_of_pos_right h hc)]
  · rw [h, compare_self rfl, compare_self rfl]
  · rw [compare_gt h, compare_gt (mul_lt_mul_of_pos_right h hc)]

namespace Spec

theorem Place.cmp_fin (x y : Int) : Place.cmp (.fin x) (.fin y) = compare x y := by
  unfold Place.cmp
  rcases lt_trichotomy x y with h | h | h
  · rw [compare_lt h, if_pos (by simpa [Place.lt] using h)]
  · subst h; rw [compare_self rfl, if_neg (Place.lt_irrefl _), if_neg (Place.lt_irrefl _)]
  · rw [compare_gt h, if_neg (by simpa [Place.lt] using h.le), if_pos (by simpa [Place.lt] using h)]

theorem Place.cmp_eq_iff (a b : Place) : Place.cmp a b = .eq ↔ a = b := by
  unfold Place.cmp
  constructor
  · intro h
    rcases Place.lt_total a b with h' | h' | h'
    · simp [h'] at h
    · exact h'
    · simp only [h', if_true] at h
      split at h <;> cases h
  · rintro rfl
    simp [Place.lt_irrefl]

theorem Place.cmp_lt_iff (a b : Place) : Place.cmp a b = .lt ↔ a.lt b := by
  unfold Place.cmp
  by_cases h : a.lt b
  · simp [h]
  · by_cases h' : b.lt a <;> simp [h, h']

theorem Place.cmp_swap (a b : Place) : Place.cmp b a = (Place.cmp a b).swap := by
  unfold Place.cmp
  by_cases h : a.lt b
  · have : ¬ b.lt a := fun h' => Place.lt_irrefl _ (Place.lt_trans h h')
    simp [h, this]
  · by_cases h' : b.lt a <;> simp [h, h']

end Spec

theorem revOrdering_eq (o : Ordering) : Number.revOrdering o = o.swap := by cases o <;> rfl

theorem placeF_cmp (a b : F64) : Number.cmpFloatToFloat a b = Place.cmp (placeF a) (placeF b) := by
  cases a with
  | nan s p => cases b with
    | nan s' p' => simp [Number.cmpFloatToFloat, F64.partialCmp, F64.isNan, placeF, Place.cmp, Place.lt]
    | inf s' => cases s' <;> simp [Number.cmpFloatToFloat, F64.partialCmp, F64.isNan, placeF, Place.cmp, Place.lt]
    | fin s' m => cases s' <;> simp [Number.cmpFloatToFloat, F64.partialCmp, F64.isNan, placeF, Place.cmp, Place.lt]
  | inf s => cases b with
    | nan s' p' => cases s <;> simp [Number.cmpFloatToFloat, F64.partialCmp, F64.isNan, placeF, Place.cmp, Place.lt]
    | inf s' => cases s <;> cases s' <;> simp [Number.cmpFloatToFloat, F64.partialCmp, placeF, Place.cmp, Place.lt]
    | fin s' m => cases s <;> cases s' <;> simp [Number.cmpFloatToFloat, F64.partialCmp, placeF, Place.cmp, Place.lt]
  | fin s m => cases b with
    | nan s' p' => cases s <;> simp [Number.cmpFloatToFloat, F64.partialCmp, F64.isNan, placeF, Place.cmp, Place.lt]
    | inf s' => cases s <;> cases s' <;> simp [Number.cmpFloatToFloat, F64.partialCmp, placeF, Place.cmp, Place.lt]
    | fin s' m' =>
      cases s <;> cases s' <;>
        simp only [Number.cmpFloatToFloat, F64.partialCmp, placeF, Place.cmp_fin, F64.sval, if_true, if_false,
          Bool.false_eq_true]

theorem ieeeEq_iff (a b : F64) : F64.ieeeEq a b = true ↔ placeF a = placeF b ∧ placeF a ≠ .nan := by
  cases a with
  | nan s p => simp [F64.ieeeEq, F64.partialCmp, placeF]
  | inf s => cases b with
    | nan s' p' => cases s <;> simp [F64.ieeeEq, F64.partialCmp, placeF]
    | inf s' => cases s <;> cases s' <;> simp [F64.ieeeEq, F64.partialCmp, placeF]
    | fin s' m => cases s <;> cases s' <;> simp [F64.ieeeEq, F64.partialCmp, placeF]
  | fin s m => cases b with
    | nan s' p' => cases s <;> simp [F64.ieeeEq, F64.partialCmp, placeF]
    | inf s' => cases s <;> cases s' <;> simp [F64.ieeeEq, F64.partialCmp, placeF]
    | fin s' m' =>
      have key : ∀ x y : Int, ((some (compare x y) : Option Ordering) == some .eq) = true ↔ x = y := by
        intro x y
        rcases lt_trichotomy x y with h | h | h
        · rw [compare_lt h]; simp; omega
        · rw [compare_self h]; simp [h]
        · rw [compare_gt h]; simp; omega
      cases s <;> cases s' <;>
        simp only [F64.ieeeEq, F64.partialCmp, placeF, F64.sval, if_true, if_false, key,
          Bool.false_eq_true, Place.fin.injEq] <;> simp

/-! Floor and ceiling -/

theorem fdiv_lt (x r : Int) {s : Int} (hs : 0 < s) : Int.fdiv x s < r ↔ x < r * s := by
  rw [Int.fdiv_eq_ediv_of_nonneg _ hs.le]
  exact Int.ediv_lt_iff_lt_mul hs

theorem floor_lt (s : Bool) (m : Nat) (r : Int) :
    Number.floorInt s m < r ↔ F64.sval s m < r * one := by
  unfold Number.floorInt
  rw [fdiv_lt _ _ (by rw [scale_one]; exact one_pos), scale_one]

theorem ceil_gt (s : Bool) (m : Nat) (r : Int) :
    r < Number.ceilInt s m ↔ r * one < F64.sval s m := by
  unfold Number.ceilInt
  have := fdiv_lt (- F64.sval s m) (-r) (s := (F64.scale : Nat)) (by rw [scale_one]; exact one_pos)
  rw [scale_one] at *
  rw [show (r < - Int.fdiv (-F64.sval s m) one) = (Int.fdiv (-F64.sval s m) one < -r) by
    apply propext; constructor <;> intro h <;> omega, this, neg_mul]
  constructor <;> intro h <;> omega

theorem floor_le_ceil (s : Bool) (m : Nat) : Number.floorInt s m ≤ Number.ceilInt s m := by
  by_contra h
  have h : Number.ceilInt s m < Number.floorInt s m := by omega
  have h1 := (floor_lt s m (Number.floorInt s m)).not.mp (lt_irrefl _)
  have h2 := (ceil_gt s m (Number.ceilInt s m)).not.mp (lt_irrefl _)
  have : Number.ceilInt s m * one < Number.floorInt s m * one := mul_lt_mul_of_pos_right h one_pos
  omega

theorem ceil_le_floor (s : Bool) (m : Nat) : Number.ceilInt s m ≤ Number.floorInt s m + 1 := by
  by_contra h
  have h : Number.floorInt s m + 1 < Number.ceilInt s m := by omega
  have h1 := (floor_lt s m (Number.floorInt s m + 1)).mp (by omega)
  have h2 := (ceil_gt s m (Number.floorInt s m + 1)).mp h
  omega

/-- The comparison against an integer is decided by floor and ceiling. -/
theorem compare_sval (s : Bool) (m : Nat) (r : Int) :
    compare (F64.sval s m) (r * one) =
      if Number.floorInt s m < r then .lt else if r < Number.ceilInt s m then .gt else .eq := by
  split
  · rename_i h; exact compare_lt ((floor_lt s m r).mp h)
  split
  · rename_i h; exact compare_gt ((ceil_gt s m r).mp h)
  · rename_i h1 h2
    have := (floor_lt s m r).not.mp h1
    have := (ceil_gt s m r).not.mp h2
    exact compare_self (by omega)


theorem bounds_nat (fl ce r M : Nat) (h1 : fl ≤ ce) (h2 : ce ≤ fl + 1) (hr : r ≤ M) :
    Number.boundsCmp (compare (min fl M) r) (compare (min ce M) r) =
      some (if fl < r then .lt else if r < ce ∧ r < M then .gt else .eq) := by
  rcases Nat.lt_trichotomy (min fl M) r with a | a | a <;>
  rcases Nat.lt_trichotomy (min ce M) r with b | b | b
  · rw [ncompare_lt a, ncompare_lt b, if_pos (by omega)]; rfl
  · rw [ncompare_lt a, ncompare_self b, if_pos (by omega)]; rfl
  · omega
  · omega
  · rw [ncompare_self a, ncompare_self b, if_neg (by omega), if_neg (by omega)]; rfl
  · rw [ncompare_self a, ncompare_gt b, if_neg (by omega), if_pos (by omega)]; rfl
  · omega
  · omega
  · rw [ncompare_gt a, ncompare_gt b, if_neg (by omega), if_pos (by omega)]; rfl

theorem bounds_int (fl ce r L M : Int) (h1 : fl ≤ ce) (h2 : ce ≤ fl + 1) (hl : L ≤ r) (hr : r ≤ M) :
    Number.boundsCmp (compare (max L (min fl M)) r) (compare (max L (min ce M)) r) =
      some (if fl < r ∧ L < r then .lt else if r < ce ∧ r < M then .gt else .eq) := by
  rcases lt_trichotomy (max L (min fl M)) r with a | a | a <;>
  rcases lt_trichotomy (max L (min ce M)) r with b | b | b
  · rw [compare_lt a, compare_lt b, if_pos (by omega)]; rfl
  · rw [compare_lt a, compare_self b, if_pos (by omega)]; rfl
  · omega
  · omega
  · rw [compare_self a, compare_self b, if_neg (by omega), if_neg (by omega)]; rfl
  · rw [compare_self a, compare_gt b, if_neg (by omega), if_pos (by omega)]; rfl
  · omega
  · omega
  · rw [compare_gt a, compare_gt b, if_neg (by omega), if_pos (by omega)]; rfl

theorem cmpFU_spec (f : F64) (r : Nat) (hr : r ≤ u128Max) :
    Number.cmpFloatToUint f r = some (Place.cmp (placeF f) (.fin ((r : Int) * one))) ↔ ¬ quirkFU f r := by
  cases f with
  | nan s p => cases s <;> simp [Number.cmpFloatToUint, F64.signNeg, placeF, quirkFU, Place.cmp, Place.lt]
  | inf s => cases s <;> simp [Number.cmpFloatToUint, F64.signNeg, placeF, quirkFU, Place.cmp, Place.lt]
  | fin s m =>
    have ho := one_pos
    cases s with
    | true =>
      have hr0 : 0 ≤ (r : Int) * one := Int.mul_nonneg (by omega) ho.le
      simp only [Number.cmpFloatToUint, F64.signNeg, placeF, quirkFU, Place.cmp_fin, if_true]
      rcases lt_trichotomy (-(m : Int)) (r * one) with h | h | h
      · rw [compare_lt h]
        simp
        rintro rfl rfl
        simp at h
      · rw [compare_self h]
        have h0 : (r : Int) * one = 0 := by omega
        have : (r : Int) = 0 := by
          rcases Int.mul_eq_zero.mp h0 with h' | h'
          · exact h'
          · omega
        simp; omega
      · omega
    | false =>
      simp only [Number.cmpFloatToUint, F64.signNeg, placeF, quirkFU, Place.cmp_fin, Bool.false_eq_true, if_false]
      have hfl : 0 ≤ Number.floorInt false m := by
        have := (floor_lt false m 0).not.mpr (by simp [F64.sval])
        omega
      have h1 := floor_le_ceil false m
      have h2 := ceil_le_floor false m
      unfold Number.satU128
      rw [bounds_nat _ _ _ _ (by omega) (by omega) hr]
      have hc := compare_sval false m r
      simp only [F64.sval, Bool.false_eq_true, if_false] at hc
      rw [hc]
      have hq := ceil_gt false m r
      simp only [F64.sval, Bool.false_eq_true, if_false] at hq
      rw [← hq]
      have hM : u128Max = 2 ^ 128 - 1 := rfl
      rw [← hM]
      by_cases ha : Number.floorInt false m < (r : Int)
      · rw [if_pos (by omega), if_pos ha]; simp; omega
      · rw [if_neg (by omega), if_neg ha]
        by_cases hb : (r : Int) < Number.ceilInt false m
        · rw [if_pos hb]
          by_cases hc : r < u128Max
          · rw [if_pos (by omega)]; simp; omega
          · rw [if_neg (by omega)]; simp; omega
        · rw [if_neg hb, if_neg (by omega)]; simp; omega

theorem cmpFI_spec (f : F64) (r : Int) (hl : i128Min ≤ r) (hr : r ≤ i128Max) :
    Number.cmpFloatToInt f r = some (Place.cmp (placeF f) (.fin (r * one))) ↔ ¬ quirkFI f r := by
  have hM : i128Max = 2 ^ 127 - 1 := rfl
  have hL : i128Min = - 2 ^ 127 := rfl
  cases f with
  | nan s p => cases s <;> simp [Number.cmpFloatToInt, F64.signNeg, F64.isInf, placeF, quirkFI, Place.cmp, Place.lt]
  | inf s => cases s <;> simp [Number.cmpFloatToInt, F64.signNeg, F64.isInf, placeF, quirkFI, Place.cmp, Place.lt]
  | fin s m =>
    have key : Number.cmpFloatToInt (.fin s m) r = some (compare (F64.sval s m) (r * one)) ↔
        ¬ ((r = i128Min ∧ F64.sval s m < r * one) ∨ (r = i128Max ∧ r * one < F64.sval s m)) := by
      simp only [Number.cmpFloatToInt, F64.isInf, Bool.and_false, Bool.false_eq_true, if_false]
      have h1 := floor_le_ceil s m
      have h2 := ceil_le_floor s m
      unfold Number.satI128
      rw [bounds_int _ _ _ _ _ h1 h2 hl hr, compare_sval, ← floor_lt, ← ceil_gt]
      generalize Number.floorInt s m = fl at *
      generalize Number.ceilInt s m = ce at *
      by_cases ha : fl < r
      · rw [if_pos ha]
        by_cases hc : i128Min < r
        · rw [if_pos ⟨ha, hc⟩]; simp; omega
        · rw [if_neg (by omega)]
          split <;> simp <;> omega
      · rw [if_neg ha, if_neg (by omega)]
        by_cases hb : r < ce
        · rw [if_pos hb]
          by_cases hc : r < i128Max
          · rw [if_pos ⟨hb, hc⟩]; simp; omega
          · rw [if_neg (by omega)]; simp; omega
        · rw [if_neg hb, if_neg (by omega)]; simp; omega
    have ho := one_pos
    cases s with
    | true =>
      have hx : Place.cmp (placeF (.fin true m)) (.fin (r * one)) = compare (F64.sval true m) (r * one) := by
        simp [placeF, Place.cmp_fin, F64.sval]
      rw [hx, key]
      have : F64.sval true m ≤ 0 := by simp [F64.sval]
      simp only [quirkFI, ← hL]
      have h' : r = i128Max → 0 < r * one := fun h => Int.mul_pos (by rw [h]; decide) ho
      simp only [F64.sval, if_true] at *
      apply not_congr
      constructor
      · rintro (h | ⟨h, h2⟩)
        · exact h
        · have := h' h; omega
      · exact Or.inl
    | false =>
      have hx : Place.cmp (placeF (.fin false m)) (.fin (r * one)) = compare (F64.sval false m) (r * one) := by
        simp [placeF, Place.cmp_fin, F64.sval]
      rw [hx, key]
      have : 0 ≤ F64.sval false m := by simp [F64.sval]
      simp only [quirkFI, ← hM]
      have h' : r = i128Min → r * one < 0 := fun h => Int.mul_neg_of_neg_of_pos (by rw [h]; decide) ho
      simp only [F64.sval, if_false, Bool.false_eq_true] at *
      apply not_congr
      constructor
      · rintro (⟨h, h2⟩ | h)
        · have := h' h; omega
        · exact h
      · exact Or.inr

/-! Conversion to integers -/

theorem eps_lt : F64.eps < F64.scale / 2 := by decide +kernel
theorem eps_pos : 0 < F64.eps := by decide +kernel
theorem scale_even : F64.scale / 2 * 2 = F64.scale := by decide +kernel

theorem near_iff (m : Nat) :
    Number.nearInt m = true ↔ ((m : Int) - (F64.roundMag m : Int) * one).natAbs < F64.eps := by
  unfold Number.nearInt
  rw [decide_eq_true_iff, ← scale_one]
  push_cast
  omega

theorem round_unique (m k : Nat) (h : ((m : Int) - (k : Int) * one).natAbs < F64.eps) : F64.roundMag m = k := by
  unfold F64.roundMag
  have h1 := eps_lt
  have h2 := scale_even
  rw [← scale_one] at h
  have hk : ((k * F64.scale : Nat) : Int) = (k : Int) * (F64.scale : Int) := by push_cast; rfl
  rw [← hk] at h
  rw [Nat.div_eq_iff (F64.scale_pos)]
  generalize hS : F64.scale = S at *
  generalize F64.eps = e at *
  have e1 : (k + 1) * S = k * S + S := by ring
  constructor
  · have : S * k = k * S := by ring
    omega
  · have : S * k = k * S := by ring
    omega

theorem round_int (k : Nat) : F64.roundMag (k * F64.scale) = k := by
  apply round_unique
  rw [← scale_one]
  push_cast
  simp [eps_pos]

theorem near_int (k : Nat) : Number.nearInt (k * F64.scale) = true := by
  rw [near_iff, round_int, ← scale_one]
  push_cast
  simp [eps_pos]

/-- Conversion of an integer to `f64`: finite; exact up to `2^53`, not below `2^53` from there on. -/
theorem ofRat_int (neg : Bool) (n : Nat) (h : n ≤ 2 ^ 128) :
    ∃ m, F64.ofRat neg n 1 = .fin neg m ∧ (n ≤ 2 ^ 53 → m = n * F64.scale) ∧
      (2 ^ 53 ≤ n → 2 ^ 53 * F64.scale ≤ m) := by
  have hle : F64.roundTo n 1 ≤ 2 ^ 128 * F64.scale :=
    F64.roundTo_le (by decide) (F64.repMag_pow (by decide))
      (by rw [mul_one]; exact Nat.mul_le_mul_right _ h)
  have hlim : 2 ^ 128 * F64.scale < F64.magLimit := (F64.repMag_pow (k := 128) (by decide)).1
  refine ⟨F64.roundTo n 1, ?_, ?_, ?_⟩
  · rw [F64.ofRat_eq, if_neg (Nat.not_le.mpr (Nat.lt_of_le_of_lt hle hlim))]
  · intro hn
    exact F64.roundTo_exact (by decide) (by ring) (F64.repMag_nat hn)
  · intro hn
    exact F64.roundTo_ge (by decide) (F64.repMag_pow (k := 53) (by decide))
      (by rw [mul_one]; exact Nat.mul_le_mul_right _ hn)

end KS
