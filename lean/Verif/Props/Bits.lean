import Verif.Props.Decimals
import Verif.Lemmas.DecodeTy
/-!
# C05: the bits that are hashed
-/

namespace KS.Props
open KS.Spec

/-- Sign bit of a 64-bit pattern. -/
def bitSign (b : Nat) : Nat := b / 2 ^ 63
/-- The eleven bits of the exponent. -/
def bitExp (b : Nat) : Nat := b / 2 ^ 52 % 2 ^ 11
/-- The 52 bits of the fraction. -/
def bitFrac (b : Nat) : Nat := b % 2 ^ 52

set_option exponentiation.threshold 3000

theorem bits_fields {s : Bool} {e f : Nat} (he : e < 2 ^ 11) (hf : f < 2 ^ 52) :
    (if s then 2 ^ 63 else 0) + e * 2 ^ 52 + f < 2 ^ 64 ∧
    bitSign ((if s then 2 ^ 63 else 0) + e * 2 ^ 52 + f) = (if s then 1 else 0) ∧
    bitExp ((if s then 2 ^ 63 else 0) + e * 2 ^ 52 + f) = e ∧ bitFrac ((if s then 2 ^ 63 else 0) + e * 2 ^ 52 + f) = f := by
  unfold bitSign bitExp bitFrac
  cases s <;> simp only [Bool.false_eq_true, if_false, if_true] <;> refine ⟨?_, ?_, ?_, ?_⟩ <;> omega

/-- Exponent and fraction of a finite float. -/
theorem fin_fields {m : Nat} (h : F64.RepMag m) : ∃ e f, e < 2047 ∧ f < 2 ^ 52 ∧
    (if m < 2 ^ 52 then m else (m.log2 - 51) * 2 ^ 52 + (m / 2 ^ (m.log2 - 52) - 2 ^ 52)) = e * 2 ^ 52 + f ∧
    m = if e = 0 then f else (2 ^ 52 + f) * 2 ^ (e - 1) := by
  by_cases hm : m < 2 ^ 52
  · exact ⟨0, m, by decide, hm, by rw [if_pos hm]; omega, by rw [if_pos rfl]⟩
  · have hm0 : m ≠ 0 := by omega
    obtain ⟨h1, h2⟩ := h
    have hL : 52 ≤ m.log2 := (Nat.le_log2 hm0).mpr (by omega)
    have hU : m.log2 < 2098 := (Nat.log2_lt hm0).mpr h1
    obtain ⟨q, hq⟩ := h2
    have hpos : 0 < 2 ^ (m.log2 - 52) := Nat.pow_pos (by decide)
    have hdiv : m / 2 ^ (m.log2 - 52) = q := Nat.div_eq_of_eq_mul_right hpos hq
    have hlo : 2 ^ 52 ≤ q := by
      have := Nat.log2_self_le hm0
      have e1 : 2 ^ m.log2 = 2 ^ (m.log2 - 52) * 2 ^ 52 := by rw [← Nat.pow_add]; congr 1; omega
      rw [e1] at this
      exact Nat.le_of_mul_le_mul_left (by rw [← hq]; exact this) hpos
    have hhi : q < 2 ^ 53 := by
      have : m < 2 ^ (m.log2 + 1) := Nat.lt_log2_self
      have e1 : 2 ^ (m.log2 + 1) = 2 ^ (m.log2 - 52) * 2 ^ 53 := by rw [← Nat.pow_add]; congr 1; omega
      rw [e1] at this
      exact Nat.lt_of_mul_lt_mul_left (a := 2 ^ (m.log2 - 52)) (by rw [← hq]; exact this)
    refine ⟨m.log2 - 51, q - 2 ^ 52, by omega, by omega, by rw [if_neg hm, hdiv], ?_⟩
    rw [if_neg (by omega), show m.log2 - 51 - 1 = m.log2 - 52 by omega, show 2 ^ 52 + (q - 2 ^ 52) = q by omega, Nat.mul_comm]
    exact hq

/-- **C05** (what is hashed). The hashed number is the 64-bit IEEE-754 pattern of the float: sign, exponent and fraction are its
fields, with 2047 as the exponent of infinities and NaNs, and 0 as that of subnormal numbers. -/
theorem C05_bits (x : F64) (hx : x.WF) :
    x.toBits < 2 ^ 64 ∧ bitSign x.toBits = (if x.signNeg then 1 else 0) ∧
    (x.isNan = true ↔ bitExp x.toBits = 2047 ∧ bitFrac x.toBits ≠ 0) ∧
    (x.isInf = true ↔ bitExp x.toBits = 2047 ∧ bitFrac x.toBits = 0) ∧
    (x.isFinite = true → floatQ x = (if x.signNeg then -1 else 1) *
      (if bitExp x.toBits = 0 then (bitFrac x.toBits : ℚ) * 2 ^ (-1074 : ℤ)
       else (2 ^ 52 + (bitFrac x.toBits : ℚ)) * 2 ^ ((bitExp x.toBits : ℤ) - 1075))) := by
  cases x with
  | nan s p =>
    obtain ⟨h1, h2, h3, h4⟩ := bits_fields (s := s) (e := 2047) (f := p) (by decide) hx.2
    rw [show F64.toBits (.nan s p) = (if s then 2 ^ 63 else 0) + 2047 * 2 ^ 52 + p from rfl, h2, h3, h4]
    have := hx.1
    refine ⟨h1, rfl, ⟨fun _ => ⟨rfl, by omega⟩, fun _ => rfl⟩, ⟨fun h => (by cases h), fun h => by omega⟩, fun h => (by cases h)⟩
  | inf s =>
    obtain ⟨h1, h2, h3, h4⟩ := bits_fields (s := s) (e := 2047) (f := 0) (by decide) (by decide)
    rw [Nat.add_zero] at h1 h2 h3 h4
    rw [show F64.toBits (.inf s) = (if s then 2 ^ 63 else 0) + 2047 * 2 ^ 52 from rfl, h2, h3, h4]
    exact ⟨h1, rfl, ⟨fun h => (by cases h), fun h => absurd rfl h.2⟩, ⟨fun _ => ⟨rfl, rfl⟩, fun _ => rfl⟩, fun h => (by cases h)⟩
  | fin s m =>
    obtain ⟨e, f, he, hf, hb, hm⟩ := fin_fields hx
    obtain ⟨h1, h2, h3, h4⟩ := bits_fields (s := s) (e := e) (f := f) (by omega) hf
    have hbits : F64.toBits (.fin s m) = (if s then 2 ^ 63 else 0) + e * 2 ^ 52 + f := by
      rw [F64.toBits, hb, Nat.add_assoc]
    rw [hbits, h2, h3, h4]
    refine ⟨h1, rfl, ⟨fun h => (by cases h), fun h => by omega⟩, ⟨fun h => (by cases h), fun h => by omega⟩, fun _ => ?_⟩
    have hq : floatQ (.fin s m) = (if s then -1 else 1) * ((m : ℚ) * 2 ^ (-1074 : ℤ)) := by
      unfold floatQ; ring
    rw [hq]
    change _ = (if s then -1 else 1) * _
    congr 1
    by_cases h0 : e = 0
    · rw [if_pos h0]; rw [if_pos h0] at hm; rw [hm]
    · rw [if_neg h0]; rw [if_neg h0] at hm
      rw [hm]
      push_cast
      rw [mul_assoc]
      congr 1
      rw [← zpow_natCast, ← zpow_add₀ (by norm_num)]
      congr 1
      omega

/-- Applied to minus infinity. -/
example : bitExp (F64.inf true).toBits = 2047 ∧ bitFrac (F64.inf true).toBits = 0 := ((C05_bits (.inf true) (by decide)).2.2.2.1).mp rfl

/-- The bits determine the float. -/
theorem toBits_inj (x y : F64) (hx : x.WF) (hy : y.WF) (h : x.toBits = y.toBits) : x = y := by
  obtain ⟨_, hs, hn, hi, _⟩ := C05_bits x hx
  obtain ⟨_, hs', hn', hi', _⟩ := C05_bits y hy
  rw [h] at hs hn hi
  have es : x.signNeg = y.signNeg := by
    rw [hs'] at hs
    cases hx' : x.signNeg <;> cases hy' : y.signNeg <;> rw [hx', hy'] at hs <;> simp_all
  have en : x.isNan = y.isNan := by rw [Bool.eq_iff_iff, hn, hn']
  have ei : x.isInf = y.isInf := by rw [Bool.eq_iff_iff, hi, hi']
  cases x with
  | nan s p =>
    cases y with
    | nan s' p' =>
      have : s = s' := es
      subst this
      have : p = p' := by
        have : (if s then 2 ^ 63 else 0) + 2047 * 2 ^ 52 + p = (if s then 2 ^ 63 else 0) + 2047 * 2 ^ 52 + p' := h
        omega
      rw [this]
    | inf s' => cases en
    | fin s' m' => cases en
  | inf s =>
    cases y with
    | nan s' p' => cases en
    | inf s' => have : s = s' := es; rw [this]
    | fin s' m' => cases ei
  | fin s m =>
    cases y with
    | nan s' p' => cases en
    | inf s' => cases ei
    | fin s' m' =>
      have : s = s' := es
      subst this
      obtain ⟨e, f, he, hf, hb, hm⟩ := fin_fields hx
      obtain ⟨e', f', he', hf', hb', hm'⟩ := fin_fields hy
      rw [F64.toBits, F64.toBits, hb, hb'] at h
      have h1 : e = e' := by omega
      have h2 : f = f' := by omega
      rw [hm, hm', h1, h2]

/-- **C05** (exactly). Two numbers hash alike exactly when they are the same as `f64`. -/
theorem C05_hash_exact (a b : Number) (ha : a.WF) (hb : b.WF) :
    Number.hashInput a = Number.hashInput b ↔ a.asF64 = b.asF64 :=
  ⟨fun h => toBits_inj _ _ (DT.asF64_WF ha) (DT.asF64_WF hb) h, fun h => by rw [Number.hashInput, Number.hashInput, h]⟩

/-- `1.5` has exponent 1023 and half of the fraction; the smallest float has only the last bit. -/
example : (F64.fin false (3 * 2 ^ 1073)).toBits = 0x3FF8000000000000 ∧ (F64.fin true 1).toBits = 0x8000000000000001 := by decide +kernel

end KS.Props
