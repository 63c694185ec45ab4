import Verif.Lemmas.NumEq
/-!
# C01 – C06: numbers

Code: `/repo/src/ds/num.rs`. Statements use only the public comparison/conversion functions of the
model and the number line of `Verif/Spec/Num.lean`.
-/

namespace KS.Props

open Spec

attribute [local irreducible] F64.scale Spec.one F64.magLimit F64.eps F64.roundTo

/-! ## C01 -/

/-- **C01** (equality). Integer numbers are `==` exactly when they denote the same integer. -/
theorem C01_int_eq (a b : Number) (x y : Int) (ha : a.WF) (hb : b.WF)
    (hx : intVal a = some x) (hy : intVal b = some y) : Number.eq a b = true ↔ x = y := by
  cases a <;> cases b <;> simp only [intVal, Option.some.injEq, reduceCtorEq] at hx hy
  all_goals
    subst hx hy
    rw [eq_tame _ _ ha hb trivial trivial]
    simp only [place, Place.fin.injEq, mul_one_inj]

/-- Applied to an unsigned and a signed five. -/
example : Number.eq (.uint 5) (.int 5) = true := (C01_int_eq (.uint 5) (.int 5) 5 5 (by decide) (by decide) rfl rfl).mpr rfl

/-- **C01** (order). `cmp` on integer numbers is the mathematical order. -/
theorem C01_int_cmp (a b : Number) (x y : Int)
    (hx : intVal a = some x) (hy : intVal b = some y) :
    Number.cmp? a b = some (if x < y then .lt else if y < x then .gt else .eq) := by
  have key : ∀ x y : Int, compare x y = if x < y then .lt else if y < x then .gt else .eq := by
    intro x y
    rcases lt_trichotomy x y with h | h | h
    · rw [compare_lt h, if_pos h]
    · rw [compare_self h, if_neg (by omega), if_neg (by omega)]
    · rw [compare_gt h, if_neg (by omega), if_pos h]
  rw [← key]
  cases a <;> cases b <;> simp only [intVal, Option.some.injEq, reduceCtorEq] at hx hy <;> subst hx hy
  · simp only [Number.cmp?, ncompare_int]
  · rename_i l r
    simp only [Number.cmp?, Number.cmpUintToInt, Number.tryU128OfInt]
    by_cases h : 0 ≤ r
    · rw [if_pos h]; simp only; rw [ncompare_int]; congr 2; omega
    · rw [if_neg h]; simp only; rw [compare_gt (by omega)]
  · rename_i l r
    simp only [Number.cmp?, Number.cmpUintToInt, Number.tryU128OfInt]
    by_cases h : 0 ≤ l
    · rw [if_pos h]; simp only
      rcases lt_trichotomy l r with h' | h' | h'
      · rw [ncompare_gt (by omega), compare_lt h']; rfl
      · rw [ncompare_self (by omega), compare_self h']; rfl
      · rw [ncompare_lt (by omega), compare_gt h']; rfl
    · rw [if_neg h]; simp only; rw [compare_lt (by omega)]; rfl
  · simp only [Number.cmp?]

/-- Non-trivial instance: an unsigned value beyond `i128::MAX` against a negative signed one. -/
example : Number.WF (.uint (2 ^ 128 - 1)) ∧ Number.WF (.int (-5)) ∧
    Number.cmp? (.uint (2 ^ 128 - 1)) (.int (-5)) = some .gt ∧
    Number.eq (.uint 5) (.int 5) = true := by decide

/-! ## C02 -/

/-- **C02**. On floats `cmp` is the order of the documented number line and `==` is its equality. -/
theorem C02_float_line (a b : F64) :
    Number.cmp? (.float a) (.float b) = some (Place.cmp (placeF a) (placeF b)) ∧
    (Number.eq (.float a) (.float b) = true ↔ placeF a = placeF b) := by
  constructor
  · simp only [Number.cmp?, placeF_cmp]
  · simp only [Number.eq]
    rw [placeF_cmp, beq_iff_eq, Place.cmp_eq_iff]

/-- **C02**. On floats `cmp` is a total order consistent with `==`. -/
theorem C02_float_order (a b c : F64) :
    Number.cmp? (.float a) (.float a) = some .eq ∧
    (Number.cmp? (.float a) (.float b) = some .lt ↔ Number.cmp? (.float b) (.float a) = some .gt) ∧
    (Number.cmp? (.float a) (.float b) = some .eq ↔ Number.eq (.float a) (.float b) = true) ∧
    (Number.cmp? (.float a) (.float b) = some .lt → Number.cmp? (.float b) (.float c) = some .lt →
      Number.cmp? (.float a) (.float c) = some .lt) ∧
    (Number.eq (.float a) (.float b) = true → Number.eq (.float b) (.float c) = true →
      Number.eq (.float a) (.float c) = true) := by
  refine ⟨?_, ?_, ?_, ?_, ?_⟩
  · rw [(C02_float_line a a).1, (Place.cmp_eq_iff _ _).mpr rfl]
  · rw [(C02_float_line a b).1, (C02_float_line b a).1, Place.cmp_swap (placeF a)]
    cases Place.cmp (placeF a) (placeF b) <;> simp
  · rw [(C02_float_line a b).1, (C02_float_line a b).2, Option.some.injEq, Place.cmp_eq_iff]
  · rw [(C02_float_line a b).1, (C02_float_line b c).1, (C02_float_line a c).1]
    simp only [Option.some.injEq, Place.cmp_lt_iff]
    exact Place.lt_trans
  · rw [(C02_float_line a b).2, (C02_float_line b c).2, (C02_float_line a c).2]
    exact Eq.trans

/-- **C02**. Every NaN, whatever its sign and payload, is above every other float and equal to every NaN. -/
theorem C02_nan_top (s : Bool) (p : Nat) (f : F64) :
    Number.cmp? (.float f) (.float (.nan s p)) = some (if f.isNan then .eq else .lt) := by
  rw [(C02_float_line _ _).1]
  cases f with
  | nan => simp [placeF, Place.cmp, Place.lt, F64.isNan]
  | inf s => cases s <;> simp [placeF, Place.cmp, Place.lt, F64.isNan]
  | fin s m => cases s <;> simp [placeF, Place.cmp, Place.lt, F64.isNan]

/-- **C02**. Finite floats compare by value (the scaled values are integers), zeros are equal,
infinities are at the ends. -/
theorem C02_finite (s t : Bool) (m n : Nat) :
    (Number.cmp? (.float (.fin s m)) (.float (.fin t n)) = some .lt ↔
      (if s then - (m : Int) else m) < (if t then - (n : Int) else n)) ∧
    Number.eq (.float (.fin true 0)) (.float (.fin false 0)) = true ∧
    Number.cmp? (.float (.inf true)) (.float (.fin s m)) = some .lt ∧
    Number.cmp? (.float (.fin s m)) (.float (.inf false)) = some .lt := by
  refine ⟨?_, by decide, ?_, ?_⟩
  · rw [(C02_float_line _ _).1, Option.some.injEq, Place.cmp_lt_iff]
    cases s <;> cases t <;> simp [placeF, Place.lt]
  · cases s <;> simp [Number.cmp?, Number.cmpFloatToFloat, F64.partialCmp]
  · cases s <;> simp [Number.cmp?, Number.cmpFloatToFloat, F64.partialCmp]

example : Number.cmp? (.float (.fin true (3 * 2 ^ 1000))) (.float (.fin false 1)) = some .lt ∧
    Number.cmp? (.float (.nan true 7)) (.float (.inf false)) = some .gt := by decide +kernel

/-! ## C03 -/

/-- **C03**, reflexivity: holds for every number. -/
theorem C03_refl (a : Number) : Number.eq a a = true := by
  cases a with
  | uint n => simp [Number.eq]
  | int i => simp [Number.eq]
  | float f => rw [(C02_float_line f f).2]

/-- `3 + 2^-34`, i.e. about `3 + 5.8e-11`. -/
def nearThree : F64 := .fin false (3 * 2 ^ 1074 + 2 ^ 1040)

/-- **C03** is false of the code: `==` is not symmetric.
`Uint(3) == Float(3 + 2^-34)` but not conversely. -/
theorem C03_not_symmetric : ¬ ∀ a b : Number, a.WF → b.WF → Number.eq a b = true → Number.eq b a = true := by
  intro h
  have := h (.uint 3) (.float nearThree) (by decide +kernel) (by decide +kernel) (by decide +kernel)
  revert this
  decide +kernel

/-- **C03** is false of the code: `==` is not transitive.
`Uint(2^53) == Float(2^53)`, `Float(2^53) == Uint(2^53+1)`, but `Uint(2^53) != Uint(2^53+1)`. -/
theorem C03_not_transitive : ¬ ∀ a b c : Number, a.WF → b.WF → c.WF →
    Number.eq a b = true → Number.eq b c = true → Number.eq a c = true := by
  intro h
  have := h (.uint (2 ^ 53)) (.float (.fin false (2 ^ 1127))) (.uint (2 ^ 53 + 1))
    (by decide +kernel) (by decide +kernel) (by decide +kernel) (by decide +kernel) (by decide +kernel)
  revert this
  decide +kernel

/-- **C03** (partial). On integers and tame floats (not finite, or below `2^53` in magnitude and either integral or
at least `1e-10` from every integer) `==` is equality of places on the number line, hence symmetric and transitive.
Missing, because false: floats closer than `1e-10` to an integer without being one. Missing as well: finite floats from `2^53` on,
some of which break it (`C03_not_transitive`); others do not (`C03_beyond`). -/
theorem C03_equivalence_partial (a b c : Number) (ha : a.WF) (hb : b.WF) (hc : c.WF)
    (ta : tame a) (tb : tame b) (tc : tame c) :
    (Number.eq a b = true ↔ place a = place b) ∧
    (Number.eq a b = true → Number.eq b a = true) ∧
    (Number.eq a b = true → Number.eq b c = true → Number.eq a c = true) := by
  rw [eq_tame a b ha hb ta tb, eq_tame b a hb ha tb ta, eq_tame b c hb hc tb tc, eq_tame a c ha hc ta tc]
  exact ⟨Iff.rfl, Eq.symm, Eq.trans⟩

/-- `0.5` and `-7.0` are tame. -/
example : tame (.float (.fin false (2 ^ 1073))) ∧ tame (.float (.fin true (7 * 2 ^ 1074))) := by
  have h1 : F64.eps ≤ 2 ^ 1073 := by decide +kernel
  have h2 : (F64.scale : Nat) = 2 * 2 ^ 1073 := by decide +kernel
  have h3 : (2 : Int) ^ 1074 = one := by unfold one; rfl
  constructor
  · refine ⟨?_, Or.inr ?_⟩
    · rw [← scale_one, h2]
      have : (0 : Int) < 2 ^ 1073 := pow_pos (by decide) _
      push_cast
      generalize (2 : Int) ^ 1073 = z at *
      linarith
    · intro k
      rw [← eps_def, ← scale_one, h2]
      generalize 2 ^ 1073 = z at *
      have : ((z : Nat) : Int) - (k : Int) * ((2 * z : Nat) : Int) = (1 - 2 * (k : Int)) * z := by push_cast; ring
      rw [this, Int.natAbs_mul]
      simp only [Int.natAbs_natCast]
      have : 1 ≤ (1 - 2 * (k : Int)).natAbs := by omega
      calc F64.eps ≤ 1 * z := by omega
        _ ≤ _ := Nat.mul_le_mul_right _ this
  · refine ⟨?_, Or.inl ⟨7, ?_⟩⟩
    · push_cast; rw [h3]; exact mul_lt_mul_of_pos_right (by decide) one_pos
    · push_cast; rw [h3]

/-! ## C04 -/

/-- **C04**. Comparing two numbers never reaches the `unreachable!` arms of `num.rs`. -/
theorem C04_never_panics (a b : Number) : (Number.cmp? a b).isSome := by
  have hU : ∀ f r, (Number.cmpFloatToUint f r).isSome := by
    intro f r
    cases f with
    | nan s p => cases s <;> simp [Number.cmpFloatToUint, F64.signNeg]
    | inf s => cases s <;> simp [Number.cmpFloatToUint, F64.signNeg]
    | fin s m =>
      cases s with
      | true => simp [Number.cmpFloatToUint, F64.signNeg]
      | false =>
        simp only [Number.cmpFloatToUint, F64.signNeg, Bool.false_eq_true, if_false]
        have hfl : 0 ≤ Number.floorInt false m := by
          have := (floor_lt false m 0).not.mpr (by simp [F64.sval])
          omega
        have h1 := floor_le_ceil false m
        have h2 := ceil_le_floor false m
        unfold Number.satU128
        rcases Nat.le_total r u128Max with hr | hr
        · rw [bounds_nat _ _ _ _ (by omega) (by omega) hr]; rfl
        · rcases Nat.lt_or_eq_of_le hr with hr | hr
          · rw [ncompare_lt (by omega), ncompare_lt (by omega)]; rfl
          · rw [bounds_nat _ _ _ _ (by omega) (by omega) (by omega)]; rfl
  have hI : ∀ f r, (Number.cmpFloatToInt f r).isSome := by
    intro f r
    cases f with
    | nan s p => cases s <;> simp [Number.cmpFloatToInt, F64.signNeg, F64.isInf]
    | inf s => cases s <;> simp [Number.cmpFloatToInt, F64.signNeg, F64.isInf]
    | fin s m =>
      simp only [Number.cmpFloatToInt, F64.isInf, Bool.and_false, Bool.false_eq_true, if_false]
      have h1 := floor_le_ceil s m
      have h2 := ceil_le_floor s m
      have hML : i128Min ≤ i128Max := by decide
      unfold Number.satI128
      by_cases hl : i128Min ≤ r
      · by_cases hr : r ≤ i128Max
        · rw [bounds_int _ _ _ _ _ h1 h2 hl hr]; rfl
        · rw [compare_lt (by omega), compare_lt (by omega)]; rfl
      · rw [compare_gt (by omega), compare_gt (by omega)]; rfl
  cases a <;> cases b <;> simp [Number.cmp?, hU, hI]

/-- **C04** (antisymmetry): swapping the arguments always reverses the result. -/
theorem C04_antisymm (a b : Number) : Number.cmp? b a = (Number.cmp? a b).map Ordering.swap := by
  have hn : ∀ x y : Nat, compare y x = (compare x y).swap := by
    intro x y
    rcases Nat.lt_trichotomy x y with h | h | h
    · rw [ncompare_lt h, ncompare_gt h]; rfl
    · rw [ncompare_self h, ncompare_self h.symm]; rfl
    · rw [ncompare_lt h, ncompare_gt h]; rfl
  have hi : ∀ x y : Int, compare y x = (compare x y).swap := by
    intro x y
    rcases lt_trichotomy x y with h | h | h
    · rw [compare_lt h, compare_gt h]; rfl
    · rw [compare_self h, compare_self h.symm]; rfl
    · rw [compare_lt h, compare_gt h]; rfl
  have hr : Number.revOrdering = Ordering.swap := funext revOrdering_eq
  cases a <;> cases b <;> simp only [Number.cmp?, Option.map_some, Option.some.injEq, hr, Option.map_map]
  · exact hn _ _
  · rw [show Ordering.swap ∘ Ordering.swap = id from funext fun o => by simp, Option.map_id]; rfl
  · rw [Ordering.swap_swap]
  · exact hi _ _
  · rw [show Ordering.swap ∘ Ordering.swap = id from funext fun o => by simp, Option.map_id]; rfl
  · rw [placeF_cmp, placeF_cmp, Place.cmp_swap]

/-- **C04**, exact characterisation: `cmp` follows the documented number line precisely outside the quirks:
`-0.0` against `0u`, NaN with the sign bit set against unsigned integers, and finite floats beyond the
128-bit range against the extreme integers. -/
theorem C04_line_iff (a b : Number) (ha : a.WF) (hb : b.WF) :
    Number.cmp? a b = some (Place.cmp (place a) (place b)) ↔ ¬ quirk a b := by
  have sw : ∀ o : Option Ordering, ∀ p : Ordering, o.map Number.revOrdering = some p.swap ↔ o = some p := by
    intro o p; cases o with
    | none => simp
    | some o => cases o <;> cases p <;> simp [Number.revOrdering]
  cases a with
  | uint l => cases b with
    | uint r =>
      rw [C01_int_cmp _ _ l r rfl rfl]
      simp only [place, Place.cmp_fin, quirk, not_false_eq_true, iff_true, compare_mul _ _ one_pos]
      rcases lt_trichotomy (l : Int) r with h | h | h
      · rw [compare_lt h, if_pos h]
      · rw [compare_self h, if_neg (by omega), if_neg (by omega)]
      · rw [compare_gt h, if_neg (by omega), if_pos h]
    | int r =>
      rw [C01_int_cmp _ _ l r rfl rfl]
      simp only [place, Place.cmp_fin, quirk, not_false_eq_true, iff_true, compare_mul _ _ one_pos]
      rcases lt_trichotomy (l : Int) r with h | h | h
      · rw [compare_lt h, if_pos h]
      · rw [compare_self h, if_neg (by omega), if_neg (by omega)]
      · rw [compare_gt h, if_neg (by omega), if_pos h]
    | float f =>
      simp only [Number.cmp?, place, quirk]
      rw [Place.cmp_swap (placeF f), sw]
      exact cmpFU_spec f l ha
  | int l => cases b with
    | uint r =>
      rw [C01_int_cmp _ _ l r rfl rfl]
      simp only [place, Place.cmp_fin, quirk, not_false_eq_true, iff_true, compare_mul _ _ one_pos]
      rcases lt_trichotomy l (r : Int) with h | h | h
      · rw [compare_lt h, if_pos h]
      · rw [compare_self h, if_neg (by omega), if_neg (by omega)]
      · rw [compare_gt h, if_neg (by omega), if_pos h]
    | int r =>
      simp [Number.cmp?, place, Place.cmp_fin, quirk, compare_mul _ _ one_pos]
    | float f =>
      simp only [Number.cmp?, place, quirk]
      rw [Place.cmp_swap (placeF f), sw]
      exact cmpFI_spec f l ha.1 ha.2
  | float f => cases b with
    | uint r => exact cmpFU_spec f r hb
    | int r => exact cmpFI_spec f r hb.1 hb.2
    | float g => simp [Number.cmp?, place, placeF_cmp, quirk]

/-- Applied to a float and an integer it lies above. -/
example : Number.cmp? (.float (.inf false)) (.int 3) = some .gt :=
  (C04_line_iff (.float (.inf false)) (.int 3) (by decide) (by decide)).mpr (by simp [quirk, quirkFI])

/-- **C04** (partial). Away from the quirks `cmp` is transitive. The full property (no exception) is false,
see `C04_not_transitive` and `C04_negzero_below_zero`. -/
theorem C04_transitive_partial (a b c : Number) (ha : a.WF) (hb : b.WF) (hc : c.WF)
    (h1 : ¬ quirk a b) (h2 : ¬ quirk b c) (h3 : ¬ quirk a c) :
    (Number.cmp? a b = some .lt → Number.cmp? b c = some .lt → Number.cmp? a c = some .lt) ∧
    (Number.cmp? a b = some .eq → Number.cmp? b c = some .eq → Number.cmp? a c = some .eq) := by
  rw [(C04_line_iff a b ha hb).mpr h1, (C04_line_iff b c hb hc).mpr h2, (C04_line_iff a c ha hc).mpr h3]
  simp only [Option.some.injEq, Place.cmp_lt_iff, Place.cmp_eq_iff]
  exact ⟨Place.lt_trans, Eq.trans⟩

/-- Applied to numbers of all three kinds. -/
example : Number.cmp? (.int (-3)) (.float (.inf false)) = some .lt :=
  (C04_transitive_partial (.int (-3)) (.uint 7) (.float (.inf false)) (by decide) (by decide) (by decide) (by simp [quirk]) (by simp [quirk, quirkFU])
    (by simp [quirk, quirkFI])).1 (by decide) (by decide)

/-- **C04** is false of the code: `Float(-0.0) < Uint(0)` although they are `==`. -/
theorem C04_negzero_below_zero :
    Number.cmp? (.float (.fin true 0)) (.uint 0) = some .lt ∧
    Number.eq (.float (.fin true 0)) (.uint 0) = true := by decide +kernel

/-- **C04** is false of the code: a NaN with its sign bit set is below every unsigned integer. -/
theorem C04_negnan_below (p n : Nat) : Number.cmp? (.float (.nan true p)) (.uint n) = some .lt := by
  simp [Number.cmp?, Number.cmpFloatToUint, F64.signNeg]

/-- **C04** is false of the code: `cmp` is not transitive. `Float(2^200) = Uint(u128::MAX)` and
`Uint(u128::MAX) = Float(2^129)` yet `Float(2^200) > Float(2^129)`. -/
theorem C04_not_transitive : ¬ ∀ a b c : Number, a.WF → b.WF → c.WF →
    Number.cmp? a b = some .eq → Number.cmp? b c = some .eq → Number.cmp? a c = some .eq := by
  intro h
  have := h (.float (.fin false (2 ^ 1274))) (.uint (2 ^ 128 - 1)) (.float (.fin false (2 ^ 1203)))
    (by decide +kernel) (by decide +kernel) (by decide +kernel) (by decide +kernel) (by decide +kernel)
  revert this
  decide +kernel

/-- **C04** is false of the code: `==` and `cmp` disagree on `3` and `3 + 2^-34`. -/
theorem C04_eq_cmp_disagree :
    Number.eq (.uint 3) (.float nearThree) = true ∧ Number.cmp? (.uint 3) (.float nearThree) = some .lt := by
  decide +kernel

/-- **C04** (partial): on tame numbers and away from the quirks `cmp` says `Equal` exactly when `==`. -/
theorem C04_eq_consistent_partial (a b : Number) (ha : a.WF) (hb : b.WF) (ta : tame a) (tb : tame b)
    (hq : ¬ quirk a b) : Number.cmp? a b = some .eq ↔ Number.eq a b = true := by
  rw [(C04_line_iff a b ha hb).mpr hq, Option.some.injEq, Place.cmp_eq_iff, eq_tame a b ha hb ta tb]

/-- A pair away from the quirks. -/
example : ¬ quirk (.float (.fin false (2 ^ 1073))) (.uint 7) ∧ ¬ quirk (.float (.inf true)) (.int (-3)) := by
  constructor
  · simp [quirk, quirkFU]
  · simp [quirk, quirkFI]

/-! ## C05 -/

/-- **C05** is false of the code: `0.0 == -0.0` but they hash differently. -/
theorem C05_zero_hash : Number.eq (.float (.fin true 0)) (.float (.fin false 0)) = true ∧
    Number.hashInput (.float (.fin true 0)) ≠ Number.hashInput (.float (.fin false 0)) := by decide +kernel

/-- **C05** is false of the code: equal NaNs with different payloads hash differently. -/
theorem C05_nan_hash : Number.eq (.float (.nan false 1)) (.float (.nan false 2)) = true ∧
    Number.hashInput (.float (.nan false 1)) ≠ Number.hashInput (.float (.nan false 2)) := by decide +kernel

/-- **C05** is false of the code: `Uint(3) == Float(3 + 2^-34)` but they hash differently. -/
theorem C05_near_hash : Number.eq (.uint 3) (.float nearThree) = true ∧
    Number.hashInput (.uint 3) ≠ Number.hashInput (.float nearThree) := by decide +kernel

/-- A number that is neither `-0.0` nor NaN. -/
def hashable : Number → Prop
  | .float (.nan _ _) => False
  | .float (.fin true 0) => False
  | _ => True

theorem asF64_of_place (a : Number) (ha : a.WF) (ta : tame a) (i : Int) (h : place a = .fin (i * one))
    (hh : hashable a) : a.asF64 = F64.ofRat (decide (i < 0)) i.natAbs 1 := by
  cases a with
  | uint n =>
    simp only [place, Place.fin.injEq, mul_one_inj] at h
    subst h
    simp only [Number.asF64, F64.ofNat, Int.natAbs_natCast]
    congr 1
  | int j =>
    simp only [place, Place.fin.injEq, mul_one_inj] at h
    subst h
    rfl
  | float f =>
    simp only [place] at h
    cases f with
    | nan s p => simp [placeF] at h
    | inf s => cases s <;> simp [placeF] at h
    | fin s m =>
      rw [placeF_fin, Place.fin.injEq] at h
      rcases tame_near ta with ⟨k, rfl, hk, _, _⟩ | ⟨_, hne⟩
      · rw [sval_int, mul_one_inj] at h
        simp only [Number.asF64]
        have e1 : i.natAbs = k := by cases s <;> simp [F64.sval] at h <;> omega
        rw [e1, F64.ofRat_nat _ (by omega)]
        congr 1
        cases s
        · simp [F64.sval] at h
          symm; simp; omega
        · simp [F64.sval] at h
          have : k ≠ 0 := by
            rintro rfl
            simp [hashable] at hh
          symm; simp; omega
      · exact absurd h (hne i)

/-- **C05** (partial). Equal numbers hash equally if they are tame and neither `-0.0` nor NaN.
Missing, because false: zeros of both signs, NaNs, floats near integers and some floats from `2^53` on compared
with integers. -/
theorem C05_hash_partial (a b : Number) (ha : a.WF) (hb : b.WF) (ta : tame a) (tb : tame b)
    (ka : hashable a) (kb : hashable b) (h : Number.eq a b = true) :
    Number.hashInput a = Number.hashInput b := by
  rw [eq_tame a b ha hb ta tb] at h
  unfold Number.hashInput
  congr 1
  have int_case : ∀ i : Int, place a = .fin (i * one) → a.asF64 = b.asF64 := by
    intro i hi
    rw [asF64_of_place a ha ta i hi ka, asF64_of_place b hb tb i (h ▸ hi) kb]
  cases a with
  | uint n => exact int_case n rfl
  | int n => exact int_case n rfl
  | float f => cases b with
    | uint n => exact int_case n h
    | int n => exact int_case n h
    | float g =>
      simp only [place] at h
      simp only [Number.asF64]
      cases f with
      | nan => simp [hashable] at ka
      | inf s => cases g with
        | nan => simp [hashable] at kb
        | inf t => cases s <;> cases t <;> simp [placeF] at h ⊢
        | fin t n => cases s <;> cases t <;> simp [placeF] at h
      | fin s m => cases g with
        | nan => simp [hashable] at kb
        | inf t => cases s <;> cases t <;> simp [placeF] at h
        | fin t n =>
          rw [placeF_fin, placeF_fin, Place.fin.injEq] at h
          cases s <;> cases t <;> simp only [F64.sval, Bool.false_eq_true, if_false, if_true] at h
          · congr 1; omega
          · have h1 : n = 0 := by omega
            subst h1; simp [hashable] at kb
          · have h1 : m = 0 := by omega
            subst h1; simp [hashable] at ka
          · congr 1; omega

example : hashable (.float (.fin false (2 ^ 1073))) ∧ hashable (.int 0) := by simp [hashable]

/-! ## C06 -/

/-- **C06** (integers): conversions of integer numbers are exact and fail exactly out of range. -/
theorem C06_integers (a : Number) (i : Int) (ha : a.WF) (hi : intVal a = some i) :
    (∀ n : Nat, a.asU128 = some n ↔ i = n) ∧ (∀ j : Int, a.asI128 = some j ↔ i = j ∧ i ≤ 2 ^ 127 - 1) := by
  have hM : i128Max = 2 ^ 127 - 1 := rfl
  cases a with
  | uint n =>
    simp only [intVal, Option.some.injEq] at hi; subst hi
    constructor
    · intro n; simp [Number.asU128]
    · intro j
      simp only [Number.asI128, Number.tryI128OfNat, hM]
      split <;> simp <;> omega
  | int k =>
    simp only [intVal, Option.some.injEq] at hi; subst hi
    simp only [Number.WF] at ha
    constructor
    · intro n
      simp only [Number.asU128, Number.tryU128OfInt]
      split <;> simp <;> omega
    · intro j; simp [Number.asI128]; omega
  | float f => simp [intVal] at hi

/-- Applied to a negative integer, which is no `u128`. -/
example : Number.asU128 (.int (-1)) ≠ some 0 := fun h => absurd (((C06_integers (.int (-1)) (-1) (by decide) rfl).1 0).mp h) (by decide)

/-- **C06** (floats to `u128`), exactly: success means a non-negative finite value closer than `1e-10` (the `f64`,
scaled: `F64.eps`) to a natural number, and the result is that number cut off at `u128::MAX`. -/
theorem C06_float_u128 (f : F64) (n : Nat) :
    Number.asU128 (.float f) = some n ↔
      ∃ (x : Int) (r : Nat), placeF f = .fin x ∧ 0 ≤ x ∧ (x - r * one).natAbs < F64.eps ∧
        n = min r (2 ^ 128 - 1) := by
  cases f with
  | nan s p => simp [Number.asU128, placeF]
  | inf s => cases s <;> simp [Number.asU128, placeF]
  | fin s m =>
    rw [placeF_fin]
    have hz : 0 ≤ F64.sval s m → F64.sval s m = m := by cases s <;> simp [F64.sval]
    simp only [Number.asU128, satU128_nat]
    have hU : u128Max = 2 ^ 128 - 1 := rfl
    constructor
    · intro h
      split at h
      · split at h
        · rename_i h1 h2
          rw [near_iff] at h2
          refine ⟨_, F64.roundMag m, rfl, h1, ?_, ?_⟩
          · rw [hz h1]; exact h2
          · simp only [Option.some.injEq] at h; omega
        · cases h
      · cases h
    · rintro ⟨x, r, hx, h0, hr, rfl⟩
      simp only [Place.fin.injEq] at hx
      subst hx
      rw [hz h0] at hr
      have hu := round_unique m r hr
      have hn : Number.nearInt m = true := by rw [near_iff, hu]; exact hr
      rw [if_pos h0, if_pos hn, hu, hU]

/-- **C06** (floats to `i128`), exactly. -/
theorem C06_float_i128 (f : F64) (n : Int) :
    Number.asI128 (.float f) = some n ↔
      ∃ (x r : Int), placeF f = .fin x ∧ (x - r * one).natAbs < F64.eps ∧
        n = max (- 2 ^ 127) (min r (2 ^ 127 - 1)) := by
  cases f with
  | nan s p => simp [Number.asI128, placeF]
  | inf s => cases s <;> simp [Number.asI128, placeF]
  | fin s m =>
    rw [placeF_fin]
    simp only [Number.asI128, Number.satI128]
    have hM : i128Max = 2 ^ 127 - 1 := rfl
    have hL : i128Min = - 2 ^ 127 := rfl
    have ho := one_pos
    have he : F64.eps < one := by
      have h1 := eps_lt
      have h2 := scale_even
      rw [← scale_one]; omega
    constructor
    · intro h
      split at h
      · rename_i h2
        rw [near_iff] at h2
        refine ⟨_, F64.sval s (F64.roundMag m), rfl, ?_, ?_⟩
        · cases s
          · simpa [F64.sval] using h2
          · simp only [F64.sval, if_true, neg_mul]; omega
        · simp only [Option.some.injEq] at h; omega
      · cases h
    · rintro ⟨x, r, hx, hr, rfl⟩
      simp only [Place.fin.injEq] at hx
      subst hx
      have key : ((m : Int) - (r.natAbs : Int) * one).natAbs < F64.eps ∧ F64.sval s r.natAbs = r := by
        cases s
        · simp only [F64.sval, Bool.false_eq_true, if_false] at hr ⊢
          have : 0 ≤ r := by
            by_contra hneg
            have h1 : r ≤ -1 := by omega
            have : r * one ≤ -1 * one := Int.mul_le_mul_of_nonneg_right h1 ho.le
            omega
          have e : ((r.natAbs : Nat) : Int) = r := by omega
          rw [e]; exact ⟨hr, rfl⟩
        · simp only [F64.sval, if_true] at hr ⊢
          have : r ≤ 0 := by
            by_contra hneg
            have h1 : 1 ≤ r := by omega
            have : 1 * one ≤ r * one := Int.mul_le_mul_of_nonneg_right h1 ho.le
            omega
          have e : ((r.natAbs : Nat) : Int) = -r := by omega
          rw [e]
          have : -r * one = -(r * one) := by ring
          exact ⟨by omega, by omega⟩
      have hu := round_unique m _ key.1
      have hn : Number.nearInt m = true := by rw [near_iff, hu]; exact key.1
      rw [if_pos hn, hu, key.2, hM, hL]

/-- **C06** is false of the code: a float far above the range converts to `u128::MAX` instead of failing. -/
theorem C06_saturates : Number.asU128 (.float (.fin false (2 ^ 1274))) = some (2 ^ 128 - 1) ∧
    Number.asI128 (.float (.fin true (2 ^ 1274))) = some (- 2 ^ 127) := by decide +kernel

/-- **C06** (partial): a successful `as_u128` is within `1e-10` of the value, provided the value is within the
range of `u128`. Missing, because false (`C06_saturates`): larger floats. -/
theorem C06_sound_partial (a : Number) (n : Nat) (ha : a.WF) (h : a.asU128 = some n)
    (hr : ∀ x, place a = .fin x → x ≤ (2 ^ 128 - 1) * one) :
    ∃ x, place a = .fin x ∧ 0 ≤ x ∧ (x - n * one).natAbs < F64.eps := by
  have ho := one_pos
  cases a with
  | uint k =>
    simp only [Number.asU128, Option.some.injEq] at h; subst h
    exact ⟨_, rfl, Int.mul_nonneg (by omega) ho.le, by simp [eps_pos]⟩
  | int k =>
    have := ((C06_integers (.int k) k ha rfl).1 n).mp h
    subst this
    exact ⟨_, rfl, Int.mul_nonneg (by omega) ho.le, by simp [eps_pos]⟩
  | float f =>
    obtain ⟨x, r, h1, h2, h3, h4⟩ := (C06_float_u128 f n).mp h
    refine ⟨x, h1, h2, ?_⟩
    have hle := hr x h1
    have he : 2 * F64.eps < one := by
      have h1 := eps_lt
      have h2 := scale_even
      rw [← scale_one]; omega
    have : r ≤ 2 ^ 128 - 1 := by
      by_contra hc
      have h5 : (2 ^ 128 : Int) ≤ r := by omega
      have : (2 ^ 128 : Int) * one ≤ r * one := Int.mul_le_mul_of_nonneg_right h5 ho.le
      have e : ((2 : Int) ^ 128 - 1) * one = 2 ^ 128 * one - one := by ring
      omega
    have : n = r := by omega
    rw [this]; exact h3

/-- `F64.eps` is the `f64` literal `1e-10`: the correctly rounded quotient `1 / 10^10`. -/
theorem eps_is_1em10 : F64.ofRat false 1 (10 ^ 10) = .fin false F64.eps := by decide +kernel

example : Number.asU128 (.float (.fin false (7 * 2 ^ 1074))) = some 7 := by decide +kernel

end KS.Props
