import Verif.Lemmas.NumText
import Verif.Props.Numbers
/-!
# C07, C08: text of numbers

Code: `Display` and `FromStr` of `Number`, `/repo/src/ds/num.rs` 213-252.
-/

namespace KS.Spec

/-- Positional value of a string of decimal digits, written independently of the parsing code. -/
def decVal : Str → Nat
  | [] => 0
  | c :: r => (c.toNat - 48) * 10 ^ r.length + decVal r

/-- `x` is an integer (`f64::fract() == 0`). -/
def integralF : F64 → Prop
  | .fin _ m => ∃ k : Nat, (m : Int) = k * one
  | _ => False

/-- `|x| < 2^b`, for finite `x`. -/
def below (b : Nat) : F64 → Prop
  | .fin _ m => (m : Int) < 2 ^ b * one
  | _ => False

end KS.Spec

namespace KS

open Spec

theorem digitsVal_decVal (s : Str) : digitsVal s = decVal s := by
  induction s with
  | nil => rfl
  | cons c r ih => rw [digitsVal_cons, ih]; rfl

end KS

namespace KS.Props

open Spec F64

attribute [local irreducible] F64.scale Spec.one F64.magLimit F64.eps F64.roundTo F64.ofRat F64.decScale F64.decExact
  F64.shortest F64.decText F64.decNorm F64.pow10

/-- **C07** (digit strings). A non-empty string of digits is its positional value when that fits a
`u128` and is rejected otherwise. -/
theorem C07_digits (s : Str) (hne : s ≠ []) (hd : ∀ c ∈ s, isDigit c = true) :
    Number.fromStr s = if decVal s < 2 ^ 128 then some (.uint (decVal s)) else none := by
  rw [fromStr_digits s hne (List.all_eq_true.mpr hd), digitsVal_decVal]
  have hU : u128Max = 2 ^ 128 - 1 := rfl
  by_cases h : decVal s < 2 ^ 128
  · rw [if_pos h, if_pos (by omega)]
  · rw [if_neg h, if_neg (by omega)]

/-- Applied to the largest number and its successor. -/
example : Number.fromStr (str "340282366920938463463374607431768211455") = some (.uint (2 ^ 128 - 1)) ∧
    Number.fromStr (str "340282366920938463463374607431768211456") = none :=
  ⟨by rw [C07_digits _ (by decide) (by decide)]; decide, by rw [C07_digits _ (by decide) (by decide)]; decide⟩

/-- **C07** (negative digit strings). -/
theorem C07_neg_digits (s : Str) (hne : s ≠ []) (hd : ∀ c ∈ s, isDigit c = true) :
    Number.fromStr ('-' :: s) = if decVal s ≤ 2 ^ 127 then some (.int (- (decVal s : Int))) else none := by
  rw [fromStr_neg s hne (List.all_eq_true.mpr hd), digitsVal_decVal]
  have hL : i128Min = - 2 ^ 127 := rfl
  by_cases h : decVal s ≤ 2 ^ 127
  · rw [if_pos h, if_pos (by omega)]
  · rw [if_neg h, if_neg (by omega)]

/-- Applied to a number with leading zeros. -/
example : Number.fromStr (str "-007") = some (.int (-7)) := (C07_neg_digits (str "007") (by decide) (by decide)).trans (by decide)

/-- **C07** (unsigned round trip). -/
theorem C07_uint (n : Nat) (h : Number.WF (.uint n)) : Number.fromStr (Number.disp (.uint n)) = some (.uint n) := by
  simp only [Number.disp]
  rw [fromStr_digits _ (natDigits_ne_nil n) (natDigits_all n), digitsVal_natDigits]
  exact if_pos h

/-- Applied to the largest number. -/
example : Number.fromStr (Number.disp (.uint (2 ^ 128 - 1))) = some (.uint (2 ^ 128 - 1)) := C07_uint _ (by decide)

/-- **C07** (signed round trip): negative values come back identical, the others as the unsigned
number with the same value; in both cases the result compares equal. -/
theorem C07_int (i : Int) (h : Number.WF (.int i)) :
    Number.fromStr (Number.disp (.int i)) = some (if i < 0 then .int i else .uint i.toNat) := by
  obtain ⟨h1, h2⟩ := h
  have hM : i128Max = 2 ^ 127 - 1 := rfl
  have hU : u128Max = 2 ^ 128 - 1 := rfl
  simp only [Number.disp]
  by_cases hi : i < 0
  · simp only [hi, if_true, List.cons_append, List.nil_append]
    rw [fromStr_neg _ (natDigits_ne_nil _) (natDigits_all _), digitsVal_natDigits]
    have : - ((i.natAbs : Nat) : Int) = i := by omega
    rw [this, if_pos h1]
  · simp only [hi, if_false, List.nil_append]
    rw [fromStr_digits _ (natDigits_ne_nil _) (natDigits_all _), digitsVal_natDigits, if_pos (by omega)]
    congr 2; omega

/-- Applied to the least number and to a positive one. -/
example : Number.fromStr (Number.disp (.int (-2 ^ 127))) = some (.int (-2 ^ 127)) ∧ Number.fromStr (Number.disp (.int 5)) = some (.uint 5) :=
  ⟨C07_int _ (by decide), C07_int _ (by decide)⟩

/-- **C07** (equality after the round trip, both integer kinds). -/
theorem C07_roundtrip_eq (a : Number) (x : Int) (h : a.WF) (ha : intVal a = some x) :
    ∃ b, Number.fromStr (Number.disp a) = some b ∧ intVal b = some x ∧ Number.eq a b = true ∧
      Number.eq b a = true := by
  have key : ∀ b : Number, b.WF → intVal b = some x → Number.eq a b = true ∧ Number.eq b a = true := by
    intro b hb hx
    cases a <;> cases b <;> simp only [intVal, Option.some.injEq, reduceCtorEq] at ha hx <;>
      (rw [eq_tame _ _ h hb trivial trivial, eq_tame _ _ hb h trivial trivial]; subst hx; simp [place, ha])
  cases a with
  | uint n => exact ⟨_, C07_uint n h, ha, key _ h ha⟩
  | int i =>
    simp only [intVal, Option.some.injEq] at ha
    subst ha
    refine ⟨_, C07_int i h, ?_⟩
    obtain ⟨h1, h2⟩ := h
    have hM : i128Max = 2 ^ 127 - 1 := rfl
    have hU : u128Max = 2 ^ 128 - 1 := rfl
    by_cases hi : i < 0
    · rw [if_pos hi]; exact ⟨rfl, key _ ⟨h1, h2⟩ rfl⟩
    · rw [if_neg hi]
      have h0 : intVal (.uint i.toNat) = some i := by simp only [intVal, Option.some.injEq]; omega
      exact ⟨h0, key _ (by show _ ≤ _; omega) h0⟩
  | float f => simp [intVal] at ha

/-- Non-trivial instances: extreme values, an overflowing digit string, leading zeros. -/
example : Number.disp (.int (- 2 ^ 127)) = str "-170141183460469231731687303715884105728" ∧
    Number.fromStr (str "-170141183460469231731687303715884105728") = some (.int (- 2 ^ 127)) ∧
    Number.fromStr (str "-170141183460469231731687303715884105729") = none ∧
    Number.fromStr (str "340282366920938463463374607431768211455") = some (.uint (2 ^ 128 - 1)) ∧
    Number.fromStr (str "340282366920938463463374607431768211456") = none ∧
    Number.fromStr (str "0007") = some (.uint 7) := by decide +kernel

/-! ## C08 -/

theorem int_of_read {s : Bool} {d m b : Nat} (hb : b < 1024) (h : ofRat s d 1 = .fin s m)
    (hm : (m : Int) < 2 ^ b * one) : d < 2 ^ b := by
  rw [← scale_one] at hm
  have hm' : m < 2 ^ b * scale := by exact_mod_cast hm
  by_contra hd
  have hge := roundTo_ge (n := d) (d := 1) (by decide) (repMag_pow hb)
    (by rw [Nat.mul_one]; exact Nat.mul_le_mul_right _ (by omega))
  rw [ofRat_eq] at h
  by_cases hl : magLimit ≤ roundTo d 1
  · rw [if_pos hl] at h; cases h
  · rw [if_neg hl] at h
    simp only [F64.fin.injEq, true_and] at h
    omega

/-- Reading back what a finite float prints as. -/
theorem read_fin (s : Bool) (m : Nat) (hm : RepMag m) :
    Number.fromStr (Number.disp (.float (.fin s m))) = some (.float (.fin s m)) ∨
    ∃ d : Nat, ofRat s d 1 = .fin s m ∧
      Number.fromStr (Number.disp (.float (.fin s m))) =
        if s then (if d ≤ 2 ^ 127 then some (.int (- (d : Int))) else none)
        else (if d < 2 ^ 128 then some (.uint d) else none) := by
  have hL : i128Min = - 2 ^ 127 := rfl
  have hU : u128Max = 2 ^ 128 - 1 := rfl
  simp only [Number.disp]
  rcases disp_fin s m hm with ⟨d, h1, h2⟩ | ⟨a, b, h1, h2, h3, h4, h5, h6⟩
  · right
    refine ⟨d, h2, ?_⟩
    rw [h1]
    cases s with
    | true =>
      simp only [withSign, if_true]
      rw [fromStr_neg _ (natDigits_ne_nil d) (natDigits_all d), digitsVal_natDigits]
      by_cases h : d ≤ 2 ^ 127
      · rw [if_pos h, if_pos (by omega)]
      · rw [if_neg h, if_neg (by omega)]
    | false =>
      simp only [withSign, Bool.false_eq_true, if_false]
      rw [fromStr_digits _ (natDigits_ne_nil d) (natDigits_all d), digitsVal_natDigits]
      by_cases h : d < 2 ^ 128
      · rw [if_pos h, if_pos (by omega)]
      · rw [if_neg h, if_neg (by omega)]
  · left
    rw [h1, fromStr_point s a b h2 h3, parse_withSign, parseUnsigned_frac s a b h2 h3 h5 h4, h6]
    · rfl
    · intro c r hc
      cases a with
      | nil => exact absurd rfl h2
      | cons x y =>
        simp only [List.cons_append, List.cons.injEq] at hc
        rw [← hc.1]; exact digits_head h3 _ _ rfl

/-- A float that is not an integer is below `2^53`. -/
theorem nonintegral_below (f : F64) (hf : f.WF) (hfin : f.isFinite = true) (h : ¬ integralF f) : below 53 f := by
  cases f with
  | nan s p => simp [isFinite] at hfin
  | inf s => simp [isFinite] at hfin
  | fin s m =>
    by_contra hb
    apply h
    simp only [below, not_lt] at hb
    rw [← scale_one] at hb
    have hb' : 2 ^ 53 * scale ≤ m := by exact_mod_cast hb
    have hlog : (2 ^ 53 * scale).log2 = 1127 := by decide +kernel
    have h1 := log2_mono hb'
    rw [hlog] at h1
    have hdvd : scale ∣ m := by
      have : scale ∣ 2 ^ (m.log2 - 52) := by
        rw [show scale = 2 ^ 1074 by decide +kernel]
        exact pow_dvd_pow 2 (by omega)
      exact this.trans hf.2
    obtain ⟨k, hk⟩ := hdvd
    refine ⟨k, ?_⟩
    rw [← scale_one, hk]; push_cast; ring

/-- **C08.** Every float that is not an integer, not finite, or of magnitude below `2^53`
survives printing and parsing: the result is `==` to it in both directions and has the same place on the
number line. -/
theorem C08_roundtrip (f : F64) (hf : f.WF) (h : ¬ integralF f ∨ below 53 f) :
    ∃ g, Number.fromStr (Number.disp (.float f)) = some g ∧ place g = placeF f ∧
      Number.eq (.float f) g = true ∧ Number.eq g (.float f) = true := by
  have hself : Number.eq (.float f) (.float f) = true := C03_refl (.float f)
  cases f with
  | nan s p =>
    refine ⟨.float (.nan false (2 ^ 51)), ?_, rfl, ?_, ?_⟩
    · show Number.fromStr (str "NaN") = _
      decide +kernel
    · cases s <;> rfl
    · cases s <;> rfl
  | inf s =>
    refine ⟨.float (.inf s), ?_, rfl, hself, hself⟩
    cases s <;> decide +kernel
  | fin s m =>
    rcases read_fin s m hf with hr | ⟨d, hd, hr⟩
    · exact ⟨_, hr, rfl, hself, hself⟩
    · have hb : below 53 (.fin s m) := h.elim (nonintegral_below _ hf rfl) id
      have hd53 := int_of_read (by decide) hd hb
      have hm : m = d * scale := by
        have := ofRat_nat s (n := d) (by omega)
        rw [this] at hd
        simp only [F64.fin.injEq, true_and] at hd
        exact hd.symm
      have htame : tame (.float (.fin s m)) := by
        refine ⟨hb, Or.inl ⟨d, ?_⟩⟩
        rw [hm, ← scale_one]; push_cast; rfl
      have hwf : Number.WF (.float (.fin s m)) := hf
      have hpl : placeF (.fin s m) = .fin (sval s d * one) := by
        rw [placeF_fin, hm, sval_int]
      cases s with
      | true =>
        rw [if_pos rfl, if_pos (by omega)] at hr
        have hw : Number.WF (.int (- (d : Int))) := by
          show i128Min ≤ _ ∧ _ ≤ i128Max
          have hL : i128Min = - 2 ^ 127 := rfl
          have hM : i128Max = 2 ^ 127 - 1 := rfl
          omega
        have hp : place (.int (- (d : Int))) = placeF (.fin true m) := by rw [hpl]; rfl
        exact ⟨_, hr, hp, (eq_tame _ _ hwf hw htame trivial).mpr hp.symm, (eq_tame _ _ hw hwf trivial htame).mpr hp⟩
      | false =>
        rw [if_neg (by decide), if_pos (by omega)] at hr
        have hw : Number.WF (.uint d) := by
          show _ ≤ u128Max
          have hU : u128Max = 2 ^ 128 - 1 := rfl
          omega
        have hp : place (.uint d) = placeF (.fin false m) := by rw [hpl]; rfl
        exact ⟨_, hr, hp, (eq_tame _ _ hwf hw htame trivial).mpr hp.symm, (eq_tame _ _ hw hwf trivial htame).mpr hp⟩

/-- Non-trivial instances: `0.1` prints as `0.1` and comes back identical; `-2.0` prints as `-2` and
comes back as the integer; `-0.0` comes back as the integer `0`. -/
example : Number.fromStr (str "0.1") = some (.float (.fin false (3602879701896397 * 2 ^ 1019))) ∧
    Number.disp (.float (.fin false (3602879701896397 * 2 ^ 1019))) = str "0.1" ∧
    F64.WF (.fin false (3602879701896397 * 2 ^ 1019)) ∧
    Number.disp (.float (.fin true (2 ^ 1075))) = str "-2" ∧
    Number.fromStr (str "-2") = some (.int (-2)) ∧
    Number.fromStr (Number.disp (.float (.fin true 0))) = some (.int 0) := by decide +kernel

/-- Beyond the listed range: every float up to `2^127` still reads back as a number the float is
`==` to (one direction only, see `C08_large_asymmetric`). -/
theorem C08_large_partial (f : F64) (hf : f.WF) (h : below 127 f) :
    ∃ g, Number.fromStr (Number.disp (.float f)) = some g ∧ Number.eq (.float f) g = true := by
  cases f with
  | nan s p => exact h.elim
  | inf s => exact h.elim
  | fin s m =>
    rcases read_fin s m hf with hr | ⟨d, hd, hr⟩
    · exact ⟨_, hr, C03_refl (.float (.fin s m))⟩
    · have hd127 := int_of_read (by decide) hd h
      cases s with
      | true =>
        rw [if_pos rfl, if_pos (by omega)] at hr
        refine ⟨_, hr, ?_⟩
        have : ofInt (- (d : Int)) = .fin (decide (0 < d)) m := by
          unfold ofInt
          have h1 : (decide (- (d : Int) < 0)) = decide (0 < d) := decide_eq_decide.mpr (by omega)
          rw [h1, Int.natAbs_neg, Int.natAbs_natCast]
          exact ofRat_neg _ hd
        simp only [Number.eq, Number.asF64, this]
        rw [ieeeEq_iff]
        rcases Nat.eq_zero_or_pos d with rfl | hp
        · have : ofRat true 0 1 = .fin true 0 := by have := ofRat_nat true (n := 0) (by decide); simpa using this
          rw [this] at hd
          simp only [F64.fin.injEq, true_and] at hd
          subst hd
          simp [placeF]
        · simp only [hp, decide_true]
          exact ⟨trivial, by simp [placeF]⟩
      | false =>
        rw [if_neg (by decide), if_pos (by omega)] at hr
        refine ⟨_, hr, ?_⟩
        simp only [Number.eq, Number.asF64, ofNat, hd]
        rw [ieeeEq_iff]
        exact ⟨rfl, by simp [placeF]⟩

/-- **C08 is sharp:** `2^100` prints as `1267650600228229400000000000000`, which reads back as an integer the
float is `==` to, but which is not `==` to the float. -/
theorem C08_large_asymmetric :
    let f := Number.float (.fin false (2 ^ 100 * 2 ^ 1074))
    f.WF ∧ Number.disp f = str "1267650600228229400000000000000" ∧
    ∃ g, Number.fromStr (Number.disp f) = some g ∧ Number.eq f g = true ∧ Number.eq g f = false := by
  refine ⟨by decide +kernel, by decide +kernel, .uint 1267650600228229400000000000000, ?_⟩
  decide +kernel

/-- Integral floats beyond the integer types cannot be read back at all. -/
theorem C08_huge_unreadable :
    F64.WF (.fin false (2 ^ 129 * 2 ^ 1074)) ∧
    Number.fromStr (Number.disp (.float (.fin false (2 ^ 129 * 2 ^ 1074)))) = none ∧
    Number.fromStr (Number.disp (.float (.fin true (2 ^ 128 * 2 ^ 1074)))) = none := by decide +kernel

end KS.Props
