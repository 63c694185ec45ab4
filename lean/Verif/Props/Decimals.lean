import Verif.Lemmas.Best
/-!
# C61, C62: number texts and floating point numbers

C61: reading a decimal literal gives the nearest `f64`. C62: a float is written with the fewest digits that read back, and as
the nearest of those decimals.

Code: `Number::from_str` and `Display`, `/repo/src/ds/num.rs` 213-252, which call `fast_float::parse` and std's `Display for f64`;
`f32_to_f64`, `/repo/src/ds/num.rs` 507-509, which goes through std's `Display for f32`. These theorems compare the models of
the three library functions with their documented contracts.
-/

namespace KS.Spec

/-- The number a finite `f64` stands for. -/
def floatQ : F64 → ℚ
  | .fin s m => (if s then -1 else 1) * m / 2 ^ 1074
  | _ => 0

/-- The number a finite `f32` stands for. -/
def float32Q : F32 → ℚ
  | .fin s m => (if s then -1 else 1) * m / 2 ^ 149
  | _ => 0

/-- The last bit of the significand is zero. -/
def EvenFloat : F64 → Prop
  | .fin _ m => 2 * 2 ^ (m.log2 - 52) ∣ m
  | _ => False

/-- The last bit of the significand is zero. -/
def EvenFloat32 : F32 → Prop
  | .fin _ m => 2 * 2 ^ (m.log2 - 23) ∣ m
  | _ => False

end KS.Spec

namespace KS.Props

open Spec Rnd DL Sh

attribute [local irreducible] F64.scale F64.magLimit F64.decScale F64.decExact F64.shortest F64.decText F64.decNorm
  F32.scale F32.magLimit F32.decScale F32.decExact F32.shortest

theorem scaleQ : ((F64.scale : Nat) : ℚ) = 2 ^ 1074 := by
  have : F64.scale = 2 ^ 1074 := by unfold F64.scale; rfl
  rw [this]; exact Nat.cast_pow 2 1074

theorem scale32Q : ((F32.scale : Nat) : ℚ) = 2 ^ 149 := by
  have : F32.scale = 2 ^ 149 := by unfold F32.scale; rfl
  rw [this]; exact Nat.cast_pow 2 149

theorem scaleQ_pos : (0 : ℚ) < ((F64.scale : Nat) : ℚ) := by exact_mod_cast F64.scale_pos

/-- Halfway between the largest `f64` and the power of two that would follow. -/
theorem overflow_mid : F64.magLimit ≤ rnd 52 F64.scale (2 ^ 1024 - 2 ^ 970) 1 := by decide +kernel

theorem overflow_pred : ulp 52 ((2 ^ 53 - 1) * 2 ^ 2045) ∣ (2 ^ 53 - 1) * 2 ^ 2045 := by decide +kernel

theorem overflow_lt : (2 ^ 53 - 1) * 2 ^ 2045 < F64.magLimit := by decide +kernel

theorem overflow_half : (2 ^ 53 - 1) * 2 ^ 2045 + F64.magLimit = 2 * ((2 ^ 1024 - 2 ^ 970) * F64.scale) := by decide +kernel

/-- The difference of two numbers of the same sign. -/
theorem sign_sub (s : Bool) (a b : ℚ) : |(if s then -1 else 1) * a - (if s then -1 else 1) * b| = |a - b| := by
  cases s with
  | false => simp
  | true =>
    simp only [if_true]
    rw [show (-1 : ℚ) * a - -1 * b = -(a - b) by ring, abs_neg]

theorem value_sign (d : Decimal) : d.value = (if d.neg then -1 else 1) * |d.value| := by
  rw [abs_value]; unfold Decimal.value; ring

theorem floatQ_fin (s : Bool) (m : Nat) : floatQ (.fin s m) = (if s then -1 else 1) * ((m : ℚ) / F64.scale) := by
  rw [scaleQ]; unfold floatQ; ring

theorem floatQ_abs (s : Bool) (m : Nat) : |floatQ (.fin s m)| = (m : ℚ) / F64.scale := by
  rw [floatQ_fin]
  have h := sign_sub s ((m : ℚ) / F64.scale) 0
  rw [mul_zero, sub_zero, sub_zero] at h
  rw [h]
  exact abs_of_nonneg (div_nonneg (Nat.cast_nonneg _) (Nat.cast_nonneg _))

/-- Distance of a float from a literal of the same sign. -/
theorem float_dist (d : Decimal) (m : Nat) : |floatQ (.fin d.neg m) - d.value| = |(m : ℚ) - |d.value| * F64.scale| / F64.scale := by
  have hS := scaleQ_pos
  have hv := value_sign d
  generalize |d.value| = v at *
  rw [floatQ_fin, hv, sign_sub]
  conv_rhs => rw [← abs_of_pos hS, ← abs_div, abs_of_pos hS]
  congr 1
  field_simp

/-- A float of any sign is at least as far from a literal. -/
theorem float_dist_le (d : Decimal) (s : Bool) (m : Nat) :
    |(m : ℚ) - |d.value| * F64.scale| / F64.scale ≤ |floatQ (.fin s m) - d.value| := by
  have hS := scaleQ_pos
  refine le_trans (le_of_eq ?_) (abs_abs_sub_abs_le (floatQ (.fin s m)) d.value)
  rw [floatQ_abs]
  conv_lhs => rw [← abs_of_pos hS, ← abs_div, abs_of_pos hS]
  congr 1
  field_simp

theorem read_finish {d : Decimal} (hok : d.Ok) {t : Str} (ht : d.Text t) :
    F64.parse t = some (finish d.neg (rndQ 52 F64.scale |d.value|)) := parse_text hok ht

theorem read_overflow (q : ℚ) (hq : 0 ≤ q) :
    F64.magLimit ≤ rndQ 52 F64.scale q ↔ 2 ^ 1024 - 2 ^ 970 ≤ q := by
  have hS := scaleQ_pos
  have hle : (2 : Nat) ^ 970 ≤ 2 ^ 1024 := Nat.pow_le_pow_right (by decide) (by decide)
  have hc : (((2 ^ 1024 - 2 ^ 970 : Nat)) : ℚ) = 2 ^ 1024 - 2 ^ 970 := by
    rw [Nat.cast_sub hle, Nat.cast_pow, Nat.cast_pow, Nat.cast_ofNat]
  constructor
  · intro h
    by_contra hlt
    rw [not_le, ← hc] at hlt
    have hn := rndQ_nearest (S := F64.scale) hq overflow_pred
    have hh := overflow_half
    have hpl := overflow_lt
    generalize rndQ 52 F64.scale q = r at *
    generalize (2 ^ 53 - 1) * 2 ^ 2045 = pr at *
    generalize 2 ^ 1024 - 2 ^ 970 = M at *
    generalize F64.magLimit = lim at *
    have hh' : (pr : ℚ) + lim = 2 * (M * F64.scale) := by exact_mod_cast hh
    have h' : (lim : ℚ) ≤ r := by exact_mod_cast h
    have hx : q * F64.scale < M * F64.scale := mul_lt_mul_of_pos_right hlt hS
    have hpl' : (pr : ℚ) < lim := by exact_mod_cast hpl
    rcases le_total (pr : ℚ) (q * F64.scale) with hp | hp
    · rw [abs_of_nonneg (by linarith), abs_of_nonpos (by linarith)] at hn
      linarith
    · rw [abs_of_nonneg (show (0 : ℚ) ≤ pr - q * F64.scale by linarith), abs_of_nonneg (by linarith)] at hn
      linarith
  · intro h
    have : F64.magLimit ≤ rndQ 52 F64.scale (((2 ^ 1024 - 2 ^ 970 : Nat)) : ℚ) := by
      rw [rndQ_nat]; exact overflow_mid
    exact le_trans this (rndQ_mono (Nat.cast_nonneg _) (by rw [hc]; exact h))

/-- **C61** (reading). A decimal literal in any of its spellings is read as an `f64` of its sign: infinity exactly when the
value is at least halfway from the largest float to the next power of two, otherwise a float with no other float nearer to the
value, and of two equally near ones the one with an even significand. -/
theorem C61_reads_nearest (d : Decimal) (hok : d.Ok) (t : Str) (ht : d.Text t) :
    ∃ x, F64.parse t = some x ∧ x.WF ∧ x.signNeg = d.neg ∧ x.isNan = false ∧
      (x.isInf = true ↔ 2 ^ 1024 - 2 ^ 970 ≤ |d.value|) ∧
      (x.isFinite = true → ∀ y : F64, y.WF → y.isFinite = true →
        |floatQ x - d.value| ≤ |floatQ y - d.value| ∧
        (|floatQ x - d.value| = |floatQ y - d.value| → |floatQ y| ≠ |floatQ x| → EvenFloat x)) := by
  have hS := scaleQ_pos
  have hwf : ∀ q : ℚ, 0 ≤ q → (finish d.neg (rndQ 52 F64.scale q)).WF := by
    intro q _
    exact F64.ofRat_WF d.neg (n := q.num.toNat) q.den_pos
  refine ⟨_, read_finish hok ht, hwf _ (abs_nonneg _), ?_, ?_, ?_, ?_⟩
  · unfold finish; split <;> rfl
  · unfold finish; split <;> rfl
  · rw [← read_overflow _ (abs_nonneg _)]
    unfold finish
    split
    · rename_i h; exact ⟨fun _ => h, fun _ => rfl⟩
    · rename_i h; exact ⟨fun h' => (by cases h'), fun h' => absurd h' h⟩
  · intro hfin y hy hyf
    have hx : finish d.neg (rndQ 52 F64.scale |d.value|) = .fin d.neg (rndQ 52 F64.scale |d.value|) := by
      unfold finish at hfin ⊢
      split
      · rename_i h; rw [if_pos h] at hfin; cases hfin
      · rfl
    rw [hx]
    cases y with
    | nan s p => cases hyf
    | inf s => cases hyf
    | fin s v =>
      have hv : ulp 52 v ∣ v := hy.2
      have hn := rndQ_nearest (S := F64.scale) (abs_nonneg d.value) hv
      constructor
      · rw [float_dist]
        refine le_trans ?_ (float_dist_le d s v)
        exact div_le_div_of_nonneg_right hn hS.le
      · intro heq hne
        rw [float_dist] at heq
        have h1 := float_dist_le d s v
        rw [← heq] at h1
        have h2 : |(v : ℚ) - |d.value| * F64.scale| ≤ |(rndQ 52 F64.scale |d.value| : ℚ) - |d.value| * F64.scale| :=
          (div_le_div_iff_of_pos_right hS).mp h1
        refine rndQ_tie (v := v) (by decide) (abs_nonneg d.value) hv ?_ (le_antisymm hn h2)
        rintro rfl
        rw [floatQ_abs, floatQ_abs] at hne
        exact hne rfl

/-- **C61** (accepted texts). The texts read as finite numbers are all spellings of decimal literals. -/
theorem C61_only_literals (t : Str) (x : F64) (hx : x.isFinite = true) (h : F64.parse t = some x) :
    ∃ d : Decimal, d.Ok ∧ d.Text t ∧ x.signNeg = d.neg := by
  cases x with
  | nan s p => cases hx
  | inf s => cases hx
  | fin s m =>
    obtain ⟨d, h1, h2⟩ := parse_inv h
    refine ⟨d, h1, h2, ?_⟩
    rw [read_finish h1 h2, Option.some.injEq] at h
    rw [← h]
    unfold finish; split <;> rfl

/-! ## Writing -/

theorem shortest_zero : F64.shortest 0 = 0 := by decide +kernel
theorem shortest32_zero : F32.shortest 0 = 0 := by decide +kernel

theorem decScale_pow : F64.decScale = 10 ^ 1074 := by unfold F64.decScale; rfl
theorem decScale32_pow : F32.decScale = 10 ^ 149 := by unfold F32.decScale; rfl

theorem exact64 : F64.decExact * F64.scale = 10 ^ 1074 := by rw [scale_pow10, decScale_pow]
theorem exact32 : F32.decExact * F32.scale = 10 ^ 149 := by rw [F32.scale_dec, decScale32_pow]

theorem best64 {m : Nat} (hm : F64.RepMag m) (hm0 : 0 < m) : Best 52 F64.scale 1074 17 m (F64.shortest m) :=
  best (b := 52) (S := F64.scale) (E := F64.decExact) (W := 1074) (P := 17) (m := m) (by decide) (by decide +kernel) F64.scale_pos
    exact64 (by decide) (by decide) (by decide +kernel) hm.2 hm0
    (fun D => decide (F64.ofRat false D F64.decScale = .fin false m))
    (by
      intro D
      rw [decide_eq_true_eq, decScale_pow, F64.ofRat_eq, rnd64]
      have := hm.1
      constructor
      · intro h
        split at h
        · cases h
        · simpa using h
      · intro h
        rw [h, if_neg (by omega)])
    (F64.shortest m) (by unfold F64.shortest; rfl)

theorem best32 {m : Nat} (hm : F32.RepMag m) (hm0 : 0 < m) : Best 23 F32.scale 149 9 m (F32.shortest m) :=
  best (b := 23) (S := F32.scale) (E := F32.decExact) (W := 149) (P := 9) (m := m) (by decide) (by decide +kernel) F32.scale_pos
    exact32 (by decide) (by decide) (by decide +kernel) hm.2 hm0
    (fun D => decide (F32.ofRat false D F32.decScale = .fin false m))
    (by
      intro D
      rw [decide_eq_true_eq, decScale32_pow, F32.ofRat_eq, rnd32]
      have := hm.1
      constructor
      · intro h
        split at h
        · cases h
        · simpa using h
      · intro h
        rw [h, if_neg (by omega)])
    (F32.shortest m) (by unfold F32.shortest; rfl)

theorem disp64 (s : Bool) (m : Nat) : F64.disp (.fin s m) = withSign s (F64.decText (F64.shortest m) 1074) := by
  have : ∀ t : Str, (if s then ['-'] else []) ++ t = withSign s t := by
    intro t; cases s <;> simp [withSign]
  rw [← this, F64.disp]

theorem disp32 (s : Bool) (m : Nat) : F32.disp (.fin s m) = withSign s (F64.decText (F32.shortest m) 149) := by
  have : ∀ t : Str, (if s then ['-'] else []) ++ t = withSign s t := by
    intro t; cases s <;> simp [withSign]
  rw [← this, F32.disp]

/-- From the shortest decimal to statements about literals. -/
theorem best_literal {b S W P m D : Nat} (h : Best b S W P m D) {d : Decimal} (hok : d.Ok) (hd : |d.value| = (D : ℚ) / 10 ^ W) :
    d.sig ≤ P ∧ ∀ d' : Decimal, d'.Ok → rndQ b S |d'.value| = m → d.sig ≤ d'.sig ∧
      (d'.sig = d.sig → |(|d.value| - (m : ℚ) / S)| ≤ |(|d'.value| - (m : ℚ) / S)| ∧
        (|(|d.value| - (m : ℚ) / S)| = |(|d'.value| - (m : ℚ) / S)| → |d'.value| ≤ |d.value|)) := by
  obtain ⟨p, p1, p2, ⟨c, e, hc, hD⟩, p4, p5⟩ := h
  have hsig : d.sig ≤ p := by
    apply sig_le hok (c := c) (e := (e : Int) - W) hc
    rw [hd, hD, zpow_sub₀ (by norm_num), zpow_natCast, zpow_natCast]
    push_cast
    ring
  refine ⟨le_trans hsig p2, fun d' hok' hr => ?_⟩
  obtain ⟨c', e', hc', hv'⟩ := sig_form hok'
  rw [hv'] at hr
  obtain ⟨r1, r2⟩ := p5 d'.sig c' e' hc' hr
  refine ⟨le_trans hsig r1, fun he => ?_⟩
  have := r2 (by omega)
  rw [hd, hv']
  exact this

theorem dist_same (s : Bool) (d : Decimal) (hs : d.neg = s) (m S : ℚ) :
    |d.value - (if s then -1 else 1) * (m / S)| = |(|d.value| - m / S)| := by
  have hv := value_sign d
  rw [hs] at hv
  generalize |d.value| = v at *
  rw [hv, sign_sub]

/-- **C62** (`f64`). A finite float is written as a decimal literal with at most 17 significant digits, which reads back as the
float. No literal that reads back has fewer significant digits; none with as many is nearer to the float; and if another is
equally near, the larger one is written. -/
theorem C62_shortest_nearest (x : F64) (hx : x.WF) (hf : x.isFinite = true) :
    ∃ d : Decimal, d.Ok ∧ d.Text (F64.disp x) ∧ d.exp = 0 ∧ d.sig ≤ 17 ∧ F64.parse (F64.disp x) = some x ∧
      ∀ (t : Str) (d' : Decimal), d'.Ok → d'.Text t → F64.parse t = some x → d.sig ≤ d'.sig ∧
        (d'.sig = d.sig → |d.value - floatQ x| ≤ |d'.value - floatQ x| ∧
          (|d.value - floatQ x| = |d'.value - floatQ x| → |d'.value| ≤ |d.value|)) := by
  cases x with
  | nan s p => cases hf
  | inf s => cases hf
  | fin s m =>
    rw [disp64]
    obtain ⟨d, h1, h2, h3, h4, h5⟩ := decText_text s (F64.shortest m) 1074
    have hread : F64.parse (withSign s (F64.decText (F64.shortest m) 1074)) = some (.fin s m) := by
      have hr := F64.ofRat_neg s (shortest_reads m hx)
      rw [parse_text h1 h4, h2, h5]
      have hc := rndQ_div (b := 52) (S := F64.scale) (n := F64.shortest m) (d := 10 ^ 1074) (Nat.pow_pos (by decide))
      rw [Nat.cast_pow, Nat.cast_ofNat] at hc
      rw [hc, ← ofRat_finish, ← decScale_pow, hr]
    have hback : ∀ (t : Str) (d' : Decimal), d'.Ok → d'.Text t → F64.parse t = some (.fin s m) →
        d'.neg = s ∧ rndQ 52 F64.scale |d'.value| = m := by
      intro t d' ho ht hp
      rw [parse_text ho ht, Option.some.injEq] at hp
      unfold finish at hp
      split at hp
      · cases hp
      · cases hp; exact ⟨rfl, rfl⟩
    rcases Nat.eq_zero_or_pos m with rfl | hm0
    · have hv0 : d.value = 0 := by
        rw [shortest_zero] at h5
        rw [← abs_eq_zero, h5]; simp
      have hs0 : d.sig ≤ 0 := sig_le h1 (c := 0) (e := 0) (by decide) (by rw [hv0]; simp)
      have hf0 : floatQ (.fin s 0) = 0 := by rw [floatQ_fin]; simp
      refine ⟨d, h1, h4, h3, by omega, hread, fun t d' _ _ _ => ⟨by omega, fun _ => ?_⟩⟩
      rw [hv0, hf0, sub_zero, sub_zero, abs_zero]
      exact ⟨abs_nonneg _, fun h => le_of_eq h.symm⟩
    · obtain ⟨b1, b2⟩ := best_literal (best64 hx hm0) h1 h5
      refine ⟨d, h1, h4, h3, b1, hread, fun t d' ho ht hp => ?_⟩
      obtain ⟨g1, g2⟩ := hback t d' ho ht hp
      rw [floatQ_fin, dist_same s d h2, dist_same s d' g1]
      exact b2 d' ho g2

/-- **C62** (`f32`, as used when an `f32` becomes a `Number`). The same with 9 digits; a literal reads back as an `f32` when
rounding its value gives that `f32`. -/
theorem C62_shortest_nearest32 (s : Bool) (m : Nat) (hx : F32.WF (.fin s m)) :
    ∃ d : Decimal, d.Ok ∧ d.neg = s ∧ d.Text (F32.disp (.fin s m)) ∧ d.exp = 0 ∧ d.sig ≤ 9 ∧
      (∀ n k : Nat, 0 < k → |d.value| = (n : ℚ) / k → F32.ofRat s n k = .fin s m) ∧
      ∀ d' : Decimal, d'.Ok → d'.neg = s →
        (∃ n k : Nat, 0 < k ∧ |d'.value| = (n : ℚ) / k ∧ F32.ofRat s n k = .fin s m) → d.sig ≤ d'.sig ∧
        (d'.sig = d.sig → |d.value - float32Q (.fin s m)| ≤ |d'.value - float32Q (.fin s m)| ∧
          (|d.value - float32Q (.fin s m)| = |d'.value - float32Q (.fin s m)| → |d'.value| ≤ |d.value|)) := by
  rw [disp32]
  obtain ⟨d, h1, h2, h3, h4, h5⟩ := decText_text s (F32.shortest m) 149
  have hfq : float32Q (.fin s m) = (if s then -1 else 1) * ((m : ℚ) / F32.scale) := by
    rw [scale32Q]; unfold float32Q; ring
  have hc : |d.value| = ((F32.shortest m : Nat) : ℚ) / ((10 ^ 149 : Nat) : ℚ) := by
    rw [h5, Nat.cast_pow, Nat.cast_ofNat]
  have hrd : rndQ 23 F32.scale |d.value| = m := by
    rw [hc, rndQ_div (Nat.pow_pos (by decide)), ← decScale32_pow]
    have hr := F32.shortest_reads m hx
    rw [F32.ofRat_eq, rnd32] at hr
    split at hr
    · cases hr
    · simpa using hr
  have hrd' : ∀ n k : Nat, 0 < k → |d.value| = (n : ℚ) / k → F32.ofRat s n k = .fin s m := by
    intro n k hk he
    rw [F32.ofRat_eq, rnd32, ← rndQ_div (n := n) hk, ← he, hrd, if_neg (by have := hx.1; omega)]
  have hback : ∀ d' : Decimal, (∃ n k : Nat, 0 < k ∧ |d'.value| = (n : ℚ) / k ∧ F32.ofRat s n k = .fin s m) →
      rndQ 23 F32.scale |d'.value| = m := by
    rintro d' ⟨n, k, hk, he, hr⟩
    rw [he, rndQ_div hk]
    rw [F32.ofRat_eq, rnd32] at hr
    split at hr
    · cases hr
    · simpa using hr
  rcases Nat.eq_zero_or_pos m with rfl | hm0
  · have hv0 : d.value = 0 := by
      rw [shortest32_zero] at h5
      rw [← abs_eq_zero, h5]; simp
    have hs0 : d.sig ≤ 0 := sig_le h1 (c := 0) (e := 0) (by decide) (by rw [hv0]; simp)
    have hf0 : float32Q (.fin s 0) = 0 := by rw [hfq]; simp
    refine ⟨d, h1, h2, h4, h3, by omega, hrd', fun d' _ _ _ => ⟨by omega, fun _ => ?_⟩⟩
    rw [hv0, hf0, sub_zero, sub_zero, abs_zero]
    exact ⟨abs_nonneg _, fun h => le_of_eq h.symm⟩
  · obtain ⟨b1, b2⟩ := best_literal (best32 hx hm0) h1 h5
    refine ⟨d, h1, h2, h4, h3, b1, hrd', fun d' ho hn hp => ?_⟩
    rw [hfq, dist_same s d h2, dist_same s d' hn]
    exact b2 d' ho (hback d' hp)

/-! ## Conversions between number types -/

/-- **C61** (`u128 as f64`, `i128 as f64`, as in `Number::as_f64`, `/repo/src/ds/num.rs` 204-210). The nearest float, of two
equally near ones the even one. -/
theorem C61_integer_nearest (i : Int) (x : F64) (h : F64.ofInt i = x) (hx : x.isFinite = true) (y : F64) (hy : y.WF)
    (hyf : y.isFinite = true) :
    |floatQ x - i| ≤ |floatQ y - i| ∧ (|floatQ x - i| = |floatQ y - i| → |floatQ y| ≠ |floatQ x| → EvenFloat x) := by
  -- the digits of `i` are a literal
  have hok : (⟨decide (i < 0), natDigits i.natAbs, [], 0⟩ : Decimal).Ok :=
    ⟨by simp [Decimal.digits, natDigits_ne_nil], digits_of (by simp [Decimal.digits, natDigits_all])⟩
  have habs : |(⟨decide (i < 0), natDigits i.natAbs, [], 0⟩ : Decimal).value| = ((i.natAbs : Nat) : ℚ) := by
    rw [abs_value, natOf_eq]
    simp [Decimal.digits, digitsVal_natDigits]
  have hval : (⟨decide (i < 0), natDigits i.natAbs, [], 0⟩ : Decimal).value = (i : ℚ) := by
    rw [value_sign, habs]
    simp only [decide_eq_true_eq]
    split
    · rename_i hi
      rw [Nat.cast_natAbs, abs_of_neg hi, Int.cast_neg]; ring
    · rename_i hi
      rw [Nat.cast_natAbs, abs_of_nonneg (not_lt.mp hi)]; ring
  obtain ⟨x', h1, _, _, _, _, h6⟩ := C61_reads_nearest _ hok (withSign (decide (i < 0)) (natDigits i.natAbs)) (by
    cases hs : decide (i < 0) with
    | true => exact ⟨['-'], [], [], rfl, Or.inr ⟨rfl, rfl⟩, Or.inl ⟨rfl, rfl⟩, by simp [withSign]⟩
    | false => exact ⟨[], [], [], Or.inl rfl, Or.inr ⟨rfl, rfl⟩, Or.inl ⟨rfl, rfl⟩, by simp [withSign]⟩)
  have hxx : x' = x := by
    have h2 := parse_text hok (t := withSign (decide (i < 0)) (natDigits i.natAbs)) (by
      cases hs : decide (i < 0) with
      | true => exact ⟨['-'], [], [], rfl, Or.inr ⟨rfl, rfl⟩, Or.inl ⟨rfl, rfl⟩, by simp [withSign]⟩
      | false => exact ⟨[], [], [], Or.inl rfl, Or.inr ⟨rfl, rfl⟩, Or.inl ⟨rfl, rfl⟩, by simp [withSign]⟩)
    rw [h1, habs, rndQ_nat, ← ofRat_finish, Option.some.injEq] at h2
    rw [h2, ← h]; rfl
  rw [hxx, hval] at h6
  exact h6 hx y hy hyf

/-- Distance of an `f32` from a number of the same sign. -/
theorem dist32 (s : Bool) (m : Nat) (v : ℚ) :
    |float32Q (.fin s m) - (if s then -1 else 1) * v| = |(m : ℚ) - v * F32.scale| / F32.scale := by
  have hS : (0 : ℚ) < ((F32.scale : Nat) : ℚ) := by exact_mod_cast F32.scale_pos
  have hfq : float32Q (.fin s m) = (if s then -1 else 1) * ((m : ℚ) / F32.scale) := by
    rw [scale32Q]; unfold float32Q; ring
  rw [hfq, sign_sub]
  conv_rhs => rw [← abs_of_pos hS, ← abs_div, abs_of_pos hS]
  congr 1
  field_simp

/-- **C61** (`f64 as f32`, as in decoding to `f32`, `/repo/src/encode/decoder.rs` 204-208). A finite `f64` becomes the nearest
`f32`, of two equally near ones the even one. -/
theorem C61_narrow_nearest (x : F64) (hx : x.isFinite = true) (y : F32) (h : F32.ofF64 x = y) (t : Bool) (m : Nat)
    (hy : y = .fin t m) (z : F32) (s : Bool) (v : Nat) (hz : z = .fin s v) (hzw : z.WF) :
    |float32Q y - floatQ x| ≤ |float32Q z - floatQ x| ∧
      (|float32Q y - floatQ x| = |float32Q z - floatQ x| → |float32Q z| ≠ |float32Q y| → EvenFloat32 y) := by
  have hS : (0 : ℚ) < ((F32.scale : Nat) : ℚ) := by exact_mod_cast F32.scale_pos
  cases x with
  | nan s p => cases hx
  | inf s => cases hx
  | fin a n =>
    subst hy hz
    change F32.ofRat a n F64.scale = _ at h
    rw [F32.ofRat_eq, rnd32] at h
    split at h
    · cases h
    · rw [F32.fin.injEq] at h
      obtain ⟨rfl, h⟩ := h
      have hv : ulp 23 v ∣ v := hzw.2
      have hq : (0 : ℚ) ≤ (n : ℚ) / F64.scale := div_nonneg (Nat.cast_nonneg _) (Nat.cast_nonneg _)
      have hr : rndQ 23 F32.scale ((n : ℚ) / F64.scale) = m := by rw [rndQ_div F64.scale_pos, h]
      have habs : ∀ (b : Bool) (k : Nat), |float32Q (.fin b k)| = (k : ℚ) / F32.scale := by
        intro b k
        have := dist32 b k 0
        rw [mul_zero, sub_zero, zero_mul, sub_zero, abs_of_nonneg (Nat.cast_nonneg k : (0 : ℚ) ≤ (k : ℚ))] at this
        exact this
      have hle : |(v : ℚ) - (n : ℚ) / F64.scale * F32.scale| / F32.scale ≤ |float32Q (.fin s v) - floatQ (.fin a n)| := by
        refine le_trans (le_of_eq ?_) (abs_abs_sub_abs_le _ _)
        rw [habs, floatQ_abs]
        conv_lhs => rw [← abs_of_pos hS, ← abs_div, abs_of_pos hS]
        congr 1
        generalize (n : ℚ) / F64.scale = w
        field_simp
      have hn := rndQ_nearest (S := F32.scale) hq hv
      rw [hr] at hn
      constructor
      · rw [floatQ_fin, dist32]
        rw [floatQ_fin] at hle
        exact le_trans (div_le_div_of_nonneg_right hn hS.le) hle
      · intro heq hne
        rw [floatQ_fin, dist32] at heq
        rw [floatQ_fin, ← heq] at hle
        have h2 := (div_le_div_iff_of_pos_right hS).mp hle
        have := rndQ_tie (b := 23) (S := F32.scale) (v := v) (by decide) hq hv (by
          rw [hr]; rintro rfl
          rw [habs, habs] at hne
          exact hne rfl) (by rw [hr]; exact le_antisymm hn h2)
        rw [hr] at this
        exact this

/-! ## Concrete cases -/

/-- `-1.50E+2` is a spelling of a literal with two significant digits and the value -150. -/
example : ∃ d : Decimal, d.Ok ∧ d.Text (str "-1.50E+2") ∧ d.sig = 2 ∧ d.value = -150 :=
  ⟨⟨true, str "1", str "50", 2⟩, ⟨by decide, digits_of (by decide)⟩,
    ⟨str "-", str ".50", str "E+2", rfl, Or.inl rfl,
      Or.inr ⟨'E', false, str "+", str "2", Or.inr rfl, Or.inr rfl, by decide, digits_of (by decide), rfl, by decide⟩, rfl⟩,
    by decide, by
      have h : natOf (Decimal.digits ⟨true, str "1", str "50", 2⟩) = 150 := by decide
      unfold Decimal.value
      rw [h]
      have h2 : ((2 : Int) - ((str "50").length : Nat) : Int) = 0 := by decide
      simp only [if_true, h2]
      norm_num⟩

/-- `2^50 + 1/4` is exactly halfway between the two shortest decimals that read back; the larger is written. -/
example : F64.disp (.fin false ((2 ^ 52 + 1) * 2 ^ 1072)) = str "1125899906842624.3" := by decide +kernel

example : F64.parse (str "1125899906842624.2") = some (.fin false ((2 ^ 52 + 1) * 2 ^ 1072)) ∧
    F64.parse (str "1125899906842624.3") = some (.fin false ((2 ^ 52 + 1) * 2 ^ 1072)) := by decide +kernel

/-- The first integer that is not an `f64` is halfway and becomes the even neighbour. -/
example : F64.ofInt (2 ^ 53 + 1) = .fin false (2 ^ 53 * F64.scale) := by decide +kernel

/-- **C61.** An infinity narrows to the infinity of its sign. A NaN stays a NaN of its sign, made quiet (bit 22 of
the f32 payload set), with the 22 payload bits below the quiet bit taken from the top of the f64 payload. -/
theorem C61_narrow_special (s : Bool) (p : Nat) :
    F32.ofF64 (.inf s) = .inf s ∧
    ∃ q, F32.ofF64 (.nan s p) = .nan s q ∧ q < 2 ^ 23 ∧ q.testBit 22 = true ∧ ∀ i < 22, q.testBit i = p.testBit (i + 29) := by
  refine ⟨rfl, _, rfl, ?_, ?_, ?_⟩
  · have := Nat.mod_lt (p / 2 ^ 29) (show 0 < 2 ^ 22 by decide)
    omega
  · have := Nat.mod_lt (p / 2 ^ 29) (show 0 < 2 ^ 22 by decide)
    rw [Nat.testBit_two_pow_add_eq, Nat.testBit_lt_two_pow this]; rfl
  · intro i hi
    rw [Nat.testBit_two_pow_add_gt hi, Nat.testBit_mod_two_pow, Nat.testBit_div_two_pow]
    simp [hi]

/-- a signalling NaN with one payload bit set which is kept -/
example : F32.ofF64 (.nan true (2 ^ 40 + 1)) = .nan true (2 ^ 22 + 2 ^ 11) := by decide

end KS.Props
