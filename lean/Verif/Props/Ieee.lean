import Verif.Spec.Ieee
import Verif.Props.Bits
/-!
# Which floats the theorems are about: all of them

C05 and C78 assume well-formed floats. Those are exactly the floats that have a bit pattern.
-/

namespace KS.Props
open KS.Spec

/-- The magnitude with exponent `e` and fraction `f`. -/
def mag (M e f : Nat) : Nat := if e = 0 then f else (2 ^ M + f) * 2 ^ (e - 1)

theorem mag_log2 {M e f : Nat} (he : e ≠ 0) (hf : f < 2 ^ M) : (mag M e f).log2 = M + (e - 1) := by
  rw [mag, if_neg he]
  have hp : 0 < 2 ^ (e - 1) := Nat.pow_pos (by decide)
  have h0 : (2 ^ M + f) * 2 ^ (e - 1) ≠ 0 := by
    have : 0 < 2 ^ M := Nat.pow_pos (by decide)
    exact Nat.mul_ne_zero (by omega) (by omega)
  refine (Nat.log2_eq_iff h0).mpr ⟨?_, ?_⟩
  · rw [Nat.pow_add]; exact Nat.mul_le_mul_right _ (by omega)
  · rw [show M + (e - 1) + 1 = (M + 1) + (e - 1) by omega, Nat.pow_add]
    exact Nat.mul_lt_mul_of_pos_right (by rw [Nat.pow_succ]; omega) hp

/-- Magnitudes with at most `M + 1` significant bits below the limit are those of an exponent up to `T` and a fraction. -/
theorem mag_iff {M T m : Nat} (hT : 1 ≤ T) :
    (m < 2 ^ (M + T) ∧ 2 ^ (m.log2 - M) ∣ m) ↔ ∃ e f, e ≤ T ∧ f < 2 ^ M ∧ m = mag M e f := by
  constructor
  · rintro ⟨h1, q, hq⟩
    by_cases hm : m < 2 ^ M
    · exact ⟨0, m, by omega, hm, by rw [mag, if_pos rfl]⟩
    · have hP : 0 < 2 ^ M := Nat.pow_pos (by decide)
      have hm0 : m ≠ 0 := by omega
      have hL : M ≤ m.log2 := (Nat.le_log2 hm0).mpr (by omega)
      have hU : m.log2 < M + T := (Nat.log2_lt hm0).mpr h1
      have hpos : 0 < 2 ^ (m.log2 - M) := Nat.pow_pos (by decide)
      have hlo : 2 ^ M ≤ q := by
        have h := Nat.log2_self_le hm0
        rw [show 2 ^ m.log2 = 2 ^ (m.log2 - M) * 2 ^ M by rw [← Nat.pow_add]; congr 1; omega] at h
        exact Nat.le_of_mul_le_mul_left (by rw [← hq]; exact h) hpos
      have hhi : q < 2 ^ (M + 1) := by
        have h : m < 2 ^ (m.log2 + 1) := Nat.lt_log2_self
        rw [show 2 ^ (m.log2 + 1) = 2 ^ (m.log2 - M) * 2 ^ (M + 1) by rw [← Nat.pow_add]; congr 1; omega] at h
        exact Nat.lt_of_mul_lt_mul_left (a := 2 ^ (m.log2 - M)) (by rw [← hq]; exact h)
      rw [Nat.pow_succ] at hhi
      refine ⟨m.log2 - M + 1, q - 2 ^ M, by omega, by omega, ?_⟩
      rw [mag, if_neg (by omega), Nat.add_sub_cancel, show 2 ^ M + (q - 2 ^ M) = q by omega, Nat.mul_comm]
      exact hq
  · rintro ⟨e, f, he, hf, rfl⟩
    by_cases h0 : e = 0
    · subst h0
      have hm : mag M 0 f = f := by rw [mag, if_pos rfl]
      rw [hm]
      refine ⟨lt_of_lt_of_le hf (Nat.pow_le_pow_right (by decide) (by omega)), ?_⟩
      have : f.log2 - M = 0 := by
        by_cases hf0 : f = 0
        · subst hf0; simp
        · have := (Nat.log2_lt hf0).mpr hf; omega
      rw [this]; simp
    · have hl := mag_log2 h0 hf
      refine ⟨?_, ?_⟩
      · have : mag M e f < 2 ^ ((mag M e f).log2 + 1) := Nat.lt_log2_self
        exact lt_of_lt_of_le this (Nat.pow_le_pow_right (by decide) (by omega))
      · rw [hl, show M + (e - 1) - M = e - 1 by omega, mag, if_neg h0]
        exact ⟨2 ^ M + f, Nat.mul_comm _ _⟩

/-- Exponent and fraction are told by the magnitude. -/
theorem mag_inj {M e f e' f' : Nat} (hf : f < 2 ^ M) (hf' : f' < 2 ^ M) (h : mag M e f = mag M e' f') : e = e' ∧ f = f' := by
  have big : ∀ {e f}, e ≠ 0 → 2 ^ M ≤ mag M e f := by
    intro e f he
    rw [mag, if_neg he]
    exact le_trans (by omega) (Nat.le_mul_of_pos_right _ (Nat.pow_pos (by decide)))
  by_cases h0 : e = 0 <;> by_cases h0' : e' = 0
  · subst h0 h0'; simp only [mag, if_true] at h; exact ⟨rfl, h⟩
  · subst h0
    have := big (f := f') h0'
    rw [← h] at this; simp only [mag, if_true] at this; omega
  · subst h0'
    have := big (f := f) h0
    rw [h] at this; simp only [mag, if_true] at this; omega
  · have h1 := mag_log2 h0 hf
    have h2 := mag_log2 h0' hf'
    rw [h] at h1
    have he : e = e' := by omega
    subst he
    simp only [mag, if_neg h0] at h
    have := Nat.eq_of_mul_eq_mul_right (Nat.pow_pos (by decide)) h
    exact ⟨rfl, by omega⟩

set_option exponentiation.threshold 3000

/-- **C05** (every float). The floats the theorems are about, the well-formed ones, are exactly those with a 64-bit pattern, that is, all values of `f64`; and
different patterns are different floats. -/
theorem C05_every_float : (∀ x : F64, x.WF ↔ ∃ b, b < 2 ^ 64 ∧ f64OfBits b = x) ∧
    ∀ b c, b < 2 ^ 64 → c < 2 ^ 64 → f64OfBits b = f64OfBits c → b = c := by
  constructor
  · intro x
    constructor
    · intro hx
      cases x with
      | nan s p =>
        have h1 : 1 ≤ p := by have h : _ := hx.1; omega
        have h2 : p < 2 ^ 52 := hx.2
        obtain ⟨a, b, c, d⟩ := bits_fields (s := s) (e := 2047) (f := p) (by decide) h2
        unfold bitSign at b; unfold bitExp at c; unfold bitFrac at d
        refine ⟨_, a, ?_⟩
        simp only [f64OfBits, b, c, d, if_true, if_neg (show p ≠ 0 by omega)]
        cases s <;> rfl
      | inf s =>
        obtain ⟨a, b, c, d⟩ := bits_fields (s := s) (e := 2047) (f := 0) (by decide) (by decide)
        unfold bitSign at b; unfold bitExp at c; unfold bitFrac at d
        refine ⟨_, a, ?_⟩
        simp only [f64OfBits, b, c, d, if_true]
        cases s <;> rfl
      | fin s m =>
        obtain ⟨e, f, he, hf, hm⟩ := (mag_iff (M := 52) (T := 2046) (by decide)).mp hx
        obtain ⟨a, b, c, d⟩ := bits_fields (s := s) (e := e) (f := f) (by omega) hf
        unfold bitSign at b; unfold bitExp at c; unfold bitFrac at d
        refine ⟨_, a, ?_⟩
        simp only [f64OfBits, b, c, d, if_neg (show e ≠ 2047 by omega)]
        rw [hm, mag]
        cases s <;> rfl
    · rintro ⟨b, hb, rfl⟩
      have hf : b % 2 ^ 52 < 2 ^ 52 := Nat.mod_lt _ (Nat.pow_pos (by decide))
      have he : b / 2 ^ 52 % 2 ^ 11 < 2 ^ 11 := Nat.mod_lt _ (Nat.pow_pos (by decide))
      simp only [f64OfBits]
      split
      · split
        · trivial
        · rename_i h; exact ⟨Nat.one_le_iff_ne_zero.mpr h, hf⟩
      · rename_i h
        exact (mag_iff (M := 52) (T := 2046) (by decide)).mpr ⟨_, _, by omega, hf, rfl⟩
  · intro b c hb hc h
    have hf : b % 2 ^ 52 < 2 ^ 52 := Nat.mod_lt _ (Nat.pow_pos (by decide))
    have hf' : c % 2 ^ 52 < 2 ^ 52 := Nat.mod_lt _ (Nat.pow_pos (by decide))
    have key : (b / 2 ^ 63 = 1 ↔ c / 2 ^ 63 = 1) ∧ b / 2 ^ 52 % 2 ^ 11 = c / 2 ^ 52 % 2 ^ 11 ∧ b % 2 ^ 52 = c % 2 ^ 52 := by
      simp only [f64OfBits] at h
      by_cases e1 : b / 2 ^ 52 % 2 ^ 11 = 2047 <;> by_cases e2 : c / 2 ^ 52 % 2 ^ 11 = 2047
      · rw [if_pos e1, if_pos e2] at h
        by_cases f1 : b % 2 ^ 52 = 0 <;> by_cases f2 : c % 2 ^ 52 = 0
        · rw [if_pos f1, if_pos f2] at h
          exact ⟨decide_eq_decide.mp (F64.inf.inj h), e1.trans e2.symm, f1.trans f2.symm⟩
        · rw [if_pos f1, if_neg f2] at h; exact F64.noConfusion h
        · rw [if_neg f1, if_pos f2] at h; exact F64.noConfusion h
        · rw [if_neg f1, if_neg f2] at h
          obtain ⟨h1, h2⟩ := F64.nan.inj h
          exact ⟨decide_eq_decide.mp h1, e1.trans e2.symm, h2⟩
      · rw [if_pos e1, if_neg e2] at h
        by_cases f1 : b % 2 ^ 52 = 0
        · rw [if_pos f1] at h; exact F64.noConfusion h
        · rw [if_neg f1] at h; exact F64.noConfusion h
      · rw [if_neg e1, if_pos e2] at h
        by_cases f2 : c % 2 ^ 52 = 0
        · rw [if_pos f2] at h; exact F64.noConfusion h
        · rw [if_neg f2] at h; exact F64.noConfusion h
      · rw [if_neg e1, if_neg e2] at h
        obtain ⟨h1, h2⟩ := F64.fin.inj h
        obtain ⟨h3, h4⟩ := mag_inj (M := 52) hf hf' h2
        exact ⟨decide_eq_decide.mp h1, h3, h4⟩
    omega

/-- The smallest and the largest pattern of a NaN without sign are well-formed. -/
example : F64.WF (.nan false 1) ∧ F64.WF (.nan false (2 ^ 52 - 1)) :=
  ⟨(C05_every_float.1 _).mpr ⟨2047 * 2 ^ 52 + 1, by decide, by decide +kernel⟩,
   (C05_every_float.1 _).mpr ⟨2 ^ 63 - 1, by decide, by decide +kernel⟩⟩

/-- **C05** (what `to_bits` hands to the hasher). The bits hashed for a float are its one bit pattern. -/
theorem C05_pattern (b : Nat) (hb : b < 2 ^ 64) : (f64OfBits b).toBits = b := by
  have hx : (f64OfBits b).WF := (C05_every_float.1 _).mpr ⟨b, hb, rfl⟩
  have hl := (C05_bits _ hx).1
  refine C05_every_float.2 _ _ hl hb ?_
  generalize f64OfBits b = x at hx
  cases x with
  | nan s p =>
    obtain ⟨a, b, c, d⟩ := bits_fields (s := s) (e := 2047) (f := p) (by decide) hx.2
    unfold bitSign at b; unfold bitExp at c; unfold bitFrac at d
    have h1 : 1 ≤ p := by have h : _ := hx.1; omega
    simp only [f64OfBits, F64.toBits, b, c, d, if_true, if_neg (show p ≠ 0 by omega)]
    cases s <;> rfl
  | inf s =>
    obtain ⟨a, b, c, d⟩ := bits_fields (s := s) (e := 2047) (f := 0) (by decide) (by decide)
    unfold bitSign at b; unfold bitExp at c; unfold bitFrac at d
    rw [Nat.add_zero] at b c d
    simp only [f64OfBits, F64.toBits, b, c, d, if_true]
    cases s <;> rfl
  | fin s m =>
    obtain ⟨e, f, he, hf, hbits, hm⟩ := fin_fields hx
    obtain ⟨a, b, c, d⟩ := bits_fields (s := s) (e := e) (f := f) (by omega) hf
    unfold bitSign at b; unfold bitExp at c; unfold bitFrac at d
    rw [F64.toBits, hbits, ← Nat.add_assoc]
    simp only [f64OfBits, b, c, d, if_neg (show e ≠ 2047 by omega)]
    rw [← hm]
    cases s <;> rfl

/-- The pattern of `-1.5`. -/
example : (f64OfBits (3071 * 2 ^ 52 + 2 ^ 51)).toBits = 13832806255468478464 := C05_pattern _ (by decide)

theorem bits_fields32 {s : Bool} {e f : Nat} (he : e < 2 ^ 8) (hf : f < 2 ^ 23) :
    (if s then 2 ^ 31 else 0) + e * 2 ^ 23 + f < 2 ^ 32 ∧
    ((if s then 2 ^ 31 else 0) + e * 2 ^ 23 + f) / 2 ^ 31 = (if s then 1 else 0) ∧
    ((if s then 2 ^ 31 else 0) + e * 2 ^ 23 + f) / 2 ^ 23 % 2 ^ 8 = e ∧ ((if s then 2 ^ 31 else 0) + e * 2 ^ 23 + f) % 2 ^ 23 = f := by
  cases s <;> simp only [Bool.false_eq_true, if_false, if_true] <;> refine ⟨?_, ?_, ?_, ?_⟩ <;> omega

/-- **C78** (every `f32`). The same for `f32`: the well-formed ones are exactly those with a 32-bit pattern, and different patterns are different floats. -/
theorem C78_every_f32 : (∀ x : F32, x.WF ↔ ∃ b, b < 2 ^ 32 ∧ f32OfBits b = x) ∧
    ∀ b c, b < 2 ^ 32 → c < 2 ^ 32 → f32OfBits b = f32OfBits c → b = c := by
  constructor
  · intro x
    constructor
    · intro hx
      cases x with
      | nan s p =>
        have h1 : 1 ≤ p := by have h : _ := hx.1; omega
        have h2 : p < 2 ^ 23 := hx.2
        obtain ⟨a, b, c, d⟩ := bits_fields32 (s := s) (e := 255) (f := p) (by decide) h2
        refine ⟨_, a, ?_⟩
        simp only [f32OfBits, b, c, d, if_true, if_neg (show p ≠ 0 by omega)]
        cases s <;> rfl
      | inf s =>
        obtain ⟨a, b, c, d⟩ := bits_fields32 (s := s) (e := 255) (f := 0) (by decide) (by decide)
        refine ⟨_, a, ?_⟩
        simp only [f32OfBits, b, c, d, if_true]
        cases s <;> rfl
      | fin s m =>
        obtain ⟨e, f, he, hf, hm⟩ := (mag_iff (M := 23) (T := 254) (by decide)).mp hx
        obtain ⟨a, b, c, d⟩ := bits_fields32 (s := s) (e := e) (f := f) (by omega) hf
        refine ⟨_, a, ?_⟩
        simp only [f32OfBits, b, c, d, if_neg (show e ≠ 255 by omega)]
        rw [hm, mag]
        cases s <;> rfl
    · rintro ⟨b, hb, rfl⟩
      have hf : b % 2 ^ 23 < 2 ^ 23 := Nat.mod_lt _ (Nat.pow_pos (by decide))
      have he : b / 2 ^ 23 % 2 ^ 8 < 2 ^ 8 := Nat.mod_lt _ (Nat.pow_pos (by decide))
      simp only [f32OfBits]
      split
      · split
        · trivial
        · rename_i h; exact ⟨Nat.one_le_iff_ne_zero.mpr h, hf⟩
      · rename_i h
        exact (mag_iff (M := 23) (T := 254) (by decide)).mpr ⟨_, _, by omega, hf, rfl⟩
  · intro b c hb hc h
    have hf : b % 2 ^ 23 < 2 ^ 23 := Nat.mod_lt _ (Nat.pow_pos (by decide))
    have hf' : c % 2 ^ 23 < 2 ^ 23 := Nat.mod_lt _ (Nat.pow_pos (by decide))
    have key : (b / 2 ^ 31 = 1 ↔ c / 2 ^ 31 = 1) ∧ b / 2 ^ 23 % 2 ^ 8 = c / 2 ^ 23 % 2 ^ 8 ∧ b % 2 ^ 23 = c % 2 ^ 23 := by
      simp only [f32OfBits] at h
      by_cases e1 : b / 2 ^ 23 % 2 ^ 8 = 255 <;> by_cases e2 : c / 2 ^ 23 % 2 ^ 8 = 255
      · rw [if_pos e1, if_pos e2] at h
        by_cases f1 : b % 2 ^ 23 = 0 <;> by_cases f2 : c % 2 ^ 23 = 0
        · rw [if_pos f1, if_pos f2] at h
          exact ⟨decide_eq_decide.mp (F32.inf.inj h), e1.trans e2.symm, f1.trans f2.symm⟩
        · rw [if_pos f1, if_neg f2] at h; exact F32.noConfusion h
        · rw [if_neg f1, if_pos f2] at h; exact F32.noConfusion h
        · rw [if_neg f1, if_neg f2] at h
          obtain ⟨h1, h2⟩ := F32.nan.inj h
          exact ⟨decide_eq_decide.mp h1, e1.trans e2.symm, h2⟩
      · rw [if_pos e1, if_neg e2] at h
        by_cases f1 : b % 2 ^ 23 = 0
        · rw [if_pos f1] at h; exact F32.noConfusion h
        · rw [if_neg f1] at h; exact F32.noConfusion h
      · rw [if_neg e1, if_pos e2] at h
        by_cases f2 : c % 2 ^ 23 = 0
        · rw [if_pos f2] at h; exact F32.noConfusion h
        · rw [if_neg f2] at h; exact F32.noConfusion h
      · rw [if_neg e1, if_neg e2] at h
        obtain ⟨h1, h2⟩ := F32.fin.inj h
        obtain ⟨h3, h4⟩ := mag_inj (M := 23) hf hf' h2
        exact ⟨decide_eq_decide.mp h1, h3, h4⟩
    omega

/-- The NaN with the smallest payload. -/
example : F32.WF (.nan false 1) := (C78_every_f32.1 _).mpr ⟨255 * 2 ^ 23 + 1, by decide, by decide +kernel⟩

end KS.Props
