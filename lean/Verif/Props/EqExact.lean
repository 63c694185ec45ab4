import Verif.Props.Bits
/-!
# C03, C05: `==` on numbers and its agreement with hashing, without exceptions

The partial theorems of C03 and C05 single out numbers on which the contracts hold. Here `==` is described exactly,
for every pair of numbers, and the pairs on which equal numbers hash differently are listed exactly.
-/

namespace KS.Props
open KS KS.Spec

/-- When `a == b`, by kind of the two sides. Integers are equal when they are the same integer, floats when they
are at the same place (all NaNs share one). An integer on the left equals a float closer than `1e-10` (the `f64`;
scaled, `F64.eps`) to an integer which is that one after cutting it off to the range of the left type; for `Uint` the float must
not be negative. A float on the left equals the integer whose nearest `f64` (`C61_integer_nearest`) is at its place. -/
def SaidEqual : Number → Number → Prop
  | .float f, .float g => placeF f = placeF g
  | .uint n, .float f => ∃ (x : Int) (r : Nat), placeF f = .fin x ∧ 0 ≤ x ∧ (x - r * one).natAbs < F64.eps ∧
      n = min r (2 ^ 128 - 1)
  | .int n, .float f => ∃ (x r : Int), placeF f = .fin x ∧ (x - r * one).natAbs < F64.eps ∧
      n = max (- 2 ^ 127) (min r (2 ^ 127 - 1))
  | .float f, b => ∃ i, intVal b = some i ∧ placeF f = placeF (F64.ofInt i)
  | a, b => intVal a = intVal b

theorem ieeeEq_place (f g : F64) : F64.ieeeEq f g = true ↔ placeF f = placeF g ∧ g.isNan = false := by
  cases f with
  | nan s p => cases g with
    | nan => simp [F64.ieeeEq, F64.partialCmp, F64.isNan, placeF]
    | inf t => cases t <;> simp [F64.ieeeEq, F64.partialCmp, F64.isNan, placeF]
    | fin t m => cases t <;> simp [F64.ieeeEq, F64.partialCmp, F64.isNan, placeF]
  | inf s => cases g with
    | nan => cases s <;> simp [F64.ieeeEq, F64.partialCmp, F64.isNan, placeF]
    | inf t => cases s <;> cases t <;> simp [F64.ieeeEq, F64.partialCmp, F64.isNan, placeF]
    | fin t m => cases s <;> cases t <;> simp [F64.ieeeEq, F64.partialCmp, F64.isNan, placeF]
  | fin s n => cases g with
    | nan => cases s <;> simp [F64.ieeeEq, F64.partialCmp, F64.isNan, placeF]
    | inf t => cases s <;> cases t <;> simp [F64.ieeeEq, F64.partialCmp, F64.isNan, placeF]
    | fin t m => cases s <;> cases t <;> simp [F64.ieeeEq, F64.partialCmp, F64.isNan, placeF, F64.sval]

theorem ofRat_not_nan (s : Bool) (n d : Nat) : (F64.ofRat s n d).isNan = false := by
  unfold F64.ofRat
  dsimp only
  split <;> rfl

theorem asF64_of_intVal (b : Number) (i : Int) (h : intVal b = some i) : b.asF64 = F64.ofInt i := by
  cases b with
  | uint n =>
    simp only [intVal, Option.some.injEq] at h
    subst h
    have : ¬ ((n : Int) < 0) := by omega
    simp [Number.asF64, F64.ofNat, F64.ofInt, this]
  | int j =>
    simp only [intVal, Option.some.injEq] at h
    subst h
    rfl
  | float f => cases h

theorem float_eq_int (f : F64) (b : Number) (i : Int) (h : intVal b = some i) :
    Number.eq (.float f) b = true ↔ placeF f = placeF (F64.ofInt i) := by
  have h2 : Number.eq (.float f) b = F64.ieeeEq f b.asF64 := by
    cases b with
    | uint n => rfl
    | int j => rfl
    | float g => cases h
  rw [h2, ieeeEq_place, asF64_of_intVal b i h]
  simp [F64.ofInt, ofRat_not_nan]

/-- **C03.** `==` on numbers, for every pair. -/
theorem C03_exact (a b : Number) (ha : a.WF) (hb : b.WF) : Number.eq a b = true ↔ SaidEqual a b := by
  cases a with
  | float f => cases b with
    | float g => exact (C02_float_line f g).2
    | uint n =>
      rw [float_eq_int f (.uint n) n rfl]
      simp [SaidEqual, intVal]
    | int j =>
      rw [float_eq_int f (.int j) j rfl]
      simp [SaidEqual, intVal]
  | uint n => cases b with
    | float f =>
      have h : Number.eq (.uint n) (.float f) = true ↔ Number.asU128 (.float f) = some n := by
        simp only [Number.eq]
        generalize Number.asU128 (.float f) = o
        cases o with
        | none => simp
        | some m =>
          simp only [Option.map_some, Option.getD_some, beq_iff_eq, Option.some.injEq]
          exact eq_comm
      rw [h, C06_float_u128 f n, SaidEqual]
    | uint m => rw [C01_int_eq _ _ n m ha hb rfl rfl]; simp [SaidEqual, intVal]
    | int m => rw [C01_int_eq _ _ n m ha hb rfl rfl]; simp [SaidEqual, intVal]
  | int n => cases b with
    | float f =>
      have h : Number.eq (.int n) (.float f) = true ↔ Number.asI128 (.float f) = some n := by
        simp only [Number.eq]
        generalize Number.asI128 (.float f) = o
        cases o with
        | none => simp
        | some m =>
          simp only [Option.map_some, Option.getD_some, beq_iff_eq, Option.some.injEq]
          exact eq_comm
      rw [h, C06_float_i128 f n, SaidEqual]
    | uint m => rw [C01_int_eq _ _ n m ha hb rfl rfl]; simp [SaidEqual, intVal]
    | int m => rw [C01_int_eq _ _ n m ha hb rfl rfl]; simp [SaidEqual, intVal]

/-- Applied to two integers of different kinds. -/
example : SaidEqual (.uint 5) (.int 5) := (C03_exact (.uint 5) (.int 5) (by decide) (by decide)).mp (by decide)

/-- The pairs of equal numbers which hash differently: zeros of different sign, different NaNs, `-0.0` against the integer 0,
and an integer on the left of a float that is not the `f64` nearest to it. -/
def HashesApart : Number → Number → Prop
  | .float (.nan s p), .float (.nan t q) => s ≠ t ∨ p ≠ q
  | .float (.fin s 0), .float (.fin t 0) => s ≠ t
  | .float _, .float _ => False
  | .float f, _ => f = .fin true 0
  | a, .float f => ∃ i, intVal a = some i ∧ f ≠ F64.ofInt i
  | _, _ => False

theorem placeF_inj (f g : F64) (h : placeF f = placeF g) :
    f = g ∨ (f.isNan = true ∧ g.isNan = true) ∨ (∃ s t, f = .fin s 0 ∧ g = .fin t 0) := by
  cases f with
  | nan s p => cases g with
    | nan => exact Or.inr (Or.inl ⟨rfl, rfl⟩)
    | inf t => cases t <;> simp [placeF] at h
    | fin t m => cases t <;> simp [placeF] at h
  | inf s => cases g with
    | nan => cases s <;> simp [placeF] at h
    | inf t => cases s <;> cases t <;> simp [placeF] at h ⊢
    | fin t m => cases s <;> cases t <;> simp [placeF] at h
  | fin s n => cases g with
    | nan => cases s <;> simp [placeF] at h
    | inf t => cases s <;> cases t <;> simp [placeF] at h
    | fin t m =>
      cases s <;> cases t <;> simp [placeF] at h ⊢ <;> omega

theorem ofInt_zero_sign (i : Int) (s : Bool) (h : F64.ofInt i = .fin s 0) : s = false := by
  have hs : s = decide (i < 0) := by
    unfold F64.ofInt F64.ofRat at h
    dsimp only at h
    split at h
    · cases h
    · injection h with h1 h2
      exact h1.symm
  by_contra hc
  have hi : i < 0 := by
    cases s with
    | false => exact absurd rfl hc
    | true => exact of_decide_eq_true hs.symm
  have h1 := (C61_integer_nearest i _ h rfl (.fin true F64.scale) (by decide +kernel) rfl).1
  have hS : (0 : ℚ) < ((F64.scale : Nat) : ℚ) := by exact_mod_cast F64.scale_pos
  have h2 : floatQ (.fin true F64.scale) = -1 := by
    rw [floatQ, if_pos rfl, scaleQ, mul_div_assoc, div_self (by positivity), mul_one]
  have h3 : floatQ (.fin s 0) = 0 := by simp [floatQ]
  rw [h2, h3] at h1
  have hq : (i : ℚ) ≤ -1 := by exact_mod_cast (by omega : i ≤ -1)
  rw [zero_sub, abs_neg, abs_of_neg (by linarith), abs_of_nonneg (by linarith)] at h1
  linarith

/-- **C05.** Equal numbers hash differently exactly in the cases `HashesApart` lists. -/
theorem C05_contract (a b : Number) (ha : a.WF) (hb : b.WF) (h : Number.eq a b = true) :
    Number.hashInput a ≠ Number.hashInput b ↔ HashesApart a b := by
  rw [Ne, C05_hash_exact a b ha hb]
  have key : ∀ (f : F64) (i : Int), placeF f = placeF (F64.ofInt i) → (¬ f = F64.ofInt i ↔ f = .fin true 0) := by
    intro f i hp
    constructor
    · intro hne
      rcases placeF_inj _ _ hp with e | ⟨_, e⟩ | ⟨s, t, e1, e2⟩
      · exact absurd e hne
      · rw [F64.ofInt, ofRat_not_nan] at e; cases e
      · have := ofInt_zero_sign i t e2
        subst this
        cases s with
        | true => exact e1
        | false => exact absurd (e1.trans e2.symm) hne
    · intro e e2
      have := ofInt_zero_sign i true (e2.symm.trans e)
      cases this
  cases a with
  | float f => cases b with
    | float g =>
      have hp := (C02_float_line f g).2.mp h
      change ¬ f = g ↔ _
      cases f with
      | nan s p => cases g with
        | nan t q =>
          simp only [HashesApart, F64.nan.injEq, ne_eq]
          tauto
        | inf t => cases t <;> simp [placeF] at hp
        | fin t m => cases t <;> simp [placeF] at hp
      | inf s =>
        have e : F64.inf s = g := by
          rcases placeF_inj _ _ hp with e | ⟨e, _⟩ | ⟨_, _, e, _⟩
          · exact e
          · cases e
          · cases e
        subst e
        simp [HashesApart]
      | fin s n =>
        rcases placeF_inj _ _ hp with e | ⟨e, _⟩ | ⟨s', t, e1, e2⟩
        · subst e
          cases n <;> simp [HashesApart]
        · cases e
        · cases e1; subst e2
          simp [HashesApart]
    | uint n =>
      have hp := (float_eq_int f (.uint n) n rfl).mp h
      rw [asF64_of_intVal (.uint n) n rfl]
      have := key f n hp
      cases f <;> simpa [HashesApart, Number.asF64] using this
    | int j =>
      have hp := (float_eq_int f (.int j) j rfl).mp h
      rw [asF64_of_intVal (.int j) j rfl]
      have := key f j hp
      cases f <;> simpa [HashesApart, Number.asF64] using this
  | uint n => cases b with
    | float f =>
      rw [asF64_of_intVal (.uint n) n rfl]
      simp [HashesApart, intVal, Number.asF64, eq_comm]
    | uint m =>
      have e := (C01_int_eq _ _ n m ha hb rfl rfl).mp h
      simp [HashesApart, asF64_of_intVal (.uint n) n rfl, asF64_of_intVal (.uint m) m rfl, e]
    | int m =>
      have e := (C01_int_eq _ _ n m ha hb rfl rfl).mp h
      simp [HashesApart, asF64_of_intVal (.uint n) n rfl, asF64_of_intVal (.int m) m rfl, e]
  | int n => cases b with
    | float f =>
      rw [asF64_of_intVal (.int n) n rfl]
      simp [HashesApart, intVal, Number.asF64, eq_comm]
    | uint m =>
      have e := (C01_int_eq _ _ n m ha hb rfl rfl).mp h
      subst e
      simp [HashesApart, asF64_of_intVal (.int m) m rfl, asF64_of_intVal (.uint m) m rfl]
    | int m =>
      have e := (C01_int_eq _ _ n m ha hb rfl rfl).mp h
      subst e
      simp [HashesApart]

/-- Both sides of both statements occur. -/
example : SaidEqual (.int (-3)) (.float (.fin true (3 * 2 ^ 1074 + 2 ^ 1040))) ∧
    HashesApart (.int (-3)) (.float (.fin true (3 * 2 ^ 1074 + 2 ^ 1040))) ∧
    ¬ HashesApart (.int (-3)) (.float (.fin true (3 * 2 ^ 1074))) := by
  refine ⟨(C03_exact _ _ (by decide +kernel) (by decide +kernel)).mp (by decide +kernel), ⟨-3, rfl, by decide +kernel⟩, ?_⟩
  rintro ⟨i, h, h2⟩
  cases h
  exact h2 (by decide +kernel)

theorem satU_top (x : Int) (r : Nat) (hr : r = 2 ^ 128 - 1) (h : (r : Int) ≤ x) : Number.satU128 x = r := by
  have hM : u128Max = 2 ^ 128 - 1 := rfl
  unfold Number.satU128
  rw [hM, ← hr]
  omega

theorem satI_top (x r : Int) (hr : r = 2 ^ 127 - 1) (h : r ≤ x) : Number.satI128 x = r := by
  have hM : i128Max = 2 ^ 127 - 1 := rfl
  have hL : i128Min = - 2 ^ 127 := rfl
  unfold Number.satI128
  rw [hM, hL, ← hr, min_eq_right h]
  exact max_eq_right (by omega)

theorem satI_bottom (x r : Int) (hr : r = - 2 ^ 127) (h : x ≤ r) : Number.satI128 x = r := by
  have hL : i128Min = - 2 ^ 127 := rfl
  unfold Number.satI128
  rw [hL, ← hr]
  exact max_eq_left (le_trans (min_le_left _ _) h)

/-- **C04.** What `cmp` says where it leaves the number line (`C04_line_iff` says where that is): a float beyond the range
of the integer type is equal to the last integer of the range on its side, `-0.0` and a NaN with its sign bit set are below unsigned integers.
With `C04_line_iff` and `C04_antisymm` this determines `cmp` for every pair of numbers. -/
theorem C04_off_line (f : F64) (b : Number) (h : quirk (.float f) b) :
    Number.cmp? (.float f) b = some (match f with | .fin _ (_ + 1) => .eq | _ => .lt) := by
  have ho := one_pos
  cases b with
  | float g => exact absurd h (by simp [quirk])
  | uint r =>
    simp only [quirk] at h
    cases f with
    | nan s p =>
      simp only [quirkFU] at h
      subst h
      simp [Number.cmp?, Number.cmpFloatToUint, F64.signNeg]
    | inf s => exact absurd h (by simp [quirkFU])
    | fin s m => cases s with
      | true =>
        simp only [quirkFU] at h
        obtain ⟨rfl, rfl⟩ := h
        simp [Number.cmp?, Number.cmpFloatToUint, F64.signNeg]
      | false =>
        simp only [quirkFU] at h
        obtain ⟨hr, hm⟩ := h
        have hn : 0 ≤ (r : Int) * one := Int.mul_nonneg (by omega) ho.le
        obtain ⟨k, rfl⟩ : ∃ k, m = k + 1 := ⟨m - 1, by omega⟩
        have h1 := (floor_lt false (k + 1) r).not.mpr (by simp only [F64.sval, Bool.false_eq_true, if_false]; omega)
        have h2 := floor_le_ceil false (k + 1)
        have e1 : Number.satU128 (Number.floorInt false (k + 1)) = r := satU_top _ _ hr (by omega)
        have e2 : Number.satU128 (Number.ceilInt false (k + 1)) = r := satU_top _ _ hr (by omega)
        simp only [Number.cmp?, Number.cmpFloatToUint, F64.signNeg, Bool.false_eq_true, if_false, e1, e2]
        rw [ncompare_self rfl]; rfl
  | int r =>
    simp only [quirk] at h
    cases f with
    | nan s p => exact absurd h (by simp [quirkFI])
    | inf s => exact absurd h (by simp [quirkFI])
    | fin s m => cases s with
      | true =>
        simp only [quirkFI] at h
        obtain ⟨hr, hm⟩ := h
        have hn : r * one < 0 := Int.mul_neg_of_neg_of_pos (by omega) ho
        obtain ⟨k, rfl⟩ : ∃ k, m = k + 1 := ⟨m - 1, by omega⟩
        have h1 := (ceil_gt true (k + 1) r).not.mpr (by simp only [F64.sval, if_true]; omega)
        have h2 := floor_le_ceil true (k + 1)
        have e1 : Number.satI128 (Number.floorInt true (k + 1)) = r := satI_bottom _ _ hr (by omega)
        have e2 : Number.satI128 (Number.ceilInt true (k + 1)) = r := satI_bottom _ _ hr (by omega)
        simp only [Number.cmp?, Number.cmpFloatToInt, F64.isInf, Bool.and_false, Bool.false_eq_true, if_false, e1, e2]
        rw [compare_self rfl]; rfl
      | false =>
        simp only [quirkFI] at h
        obtain ⟨hr, hm⟩ := h
        have hn : 0 ≤ r * one := Int.mul_nonneg (by omega) ho.le
        obtain ⟨k, rfl⟩ : ∃ k, m = k + 1 := ⟨m - 1, by omega⟩
        have h1 := (floor_lt false (k + 1) r).not.mpr (by simp only [F64.sval, Bool.false_eq_true, if_false]; omega)
        have h2 := floor_le_ceil false (k + 1)
        have e1 : Number.satI128 (Number.floorInt false (k + 1)) = r := satI_top _ _ hr (by omega)
        have e2 : Number.satI128 (Number.ceilInt false (k + 1)) = r := satI_top _ _ hr (by omega)
        simp only [Number.cmp?, Number.cmpFloatToInt, F64.isInf, Bool.and_false, Bool.false_eq_true, if_false, e1, e2]
        rw [compare_self rfl]; rfl

set_option exponentiation.threshold 3000 in
/-- `2^200` against the largest `i128`. -/
example : quirk (.float (.fin false (2 ^ 1274))) (.int (2 ^ 127 - 1)) := by
  refine ⟨rfl, ?_⟩
  unfold one
  norm_num

end KS.Props
