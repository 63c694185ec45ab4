import Verif.Lemmas.Digits
/-! Correct rounding: facts about `F64.ofRat`. -/

namespace KS.F64

theorem scale_pos : 0 < scale := by unfold scale; exact Nat.pow_pos (by decide)

theorem rneDiv_ge {a b k : Nat} (hb : 0 < b) (h : k * b ≤ a) : k ≤ rneDiv a b := by
  have h1 : k ≤ a / b := (Nat.le_div_iff_mul_le hb).mpr h
  unfold rneDiv
  simp only
  split
  · exact h1
  split
  · omega
  split
  · exact h1
  · omega

theorem rneDiv_le {a b k : Nat} (hb : 0 < b) (h : a ≤ k * b) : rneDiv a b ≤ k := by
  have hq : a / b ≤ k := by
    calc a / b ≤ k * b / b := Nat.div_le_div_right h
      _ = k := Nat.mul_div_cancel _ hb
  have hd := Nat.div_add_mod a b
  rcases Nat.lt_or_ge (a / b) k with hlt | hge
  · unfold rneDiv
    simp only
    split
    · omega
    split
    · omega
    split <;> omega
  · have he : a / b = k := le_antisymm hq hge
    have hr : a % b = 0 := by
      rw [he, mul_comm] at hd; omega
    unfold rneDiv
    simp only [hr]
    rw [if_pos (by omega)]; omega

theorem rneDiv_mul {a b c : Nat} (hc : 0 < c) : rneDiv (a * c) (b * c) = rneDiv a b := by
  unfold rneDiv
  simp only
  rw [Nat.mul_div_mul_right _ _ hc, Nat.mul_mod_mul_right]
  have h1 : (2 * (a % b * c) < b * c) = (2 * (a % b) < b) := by
    rw [← mul_assoc]; exact propext (Nat.mul_lt_mul_right hc)
  have h2 : (b * c < 2 * (a % b * c)) = (b < 2 * (a % b)) := by
    rw [← mul_assoc]; exact propext (Nat.mul_lt_mul_right hc)
  simp only [h1, h2]

theorem rneDiv_exact {k b : Nat} (hb : 0 < b) : rneDiv (k * b) b = k :=
  le_antisymm (rneDiv_le hb le_rfl) (rneDiv_ge hb le_rfl)

theorem log2_mono {a b : Nat} (h : a ≤ b) : a.log2 ≤ b.log2 := by
  rcases Nat.eq_zero_or_pos a with rfl | ha
  · simp
  · rw [Nat.le_log2 (by omega)]
    exact le_trans (Nat.log2_self_le (by omega)) h

/-- The scaled magnitude computed by `ofRat` before the overflow test. -/
def roundTo (n d : Nat) : Nat :=
  rneDiv (n * scale) (d * 2 ^ ((n * scale / d).log2 - 52)) * 2 ^ ((n * scale / d).log2 - 52)

theorem ofRat_eq (neg : Bool) (n d : Nat) :
    ofRat neg n d = if magLimit ≤ roundTo n d then .inf neg else .fin neg (roundTo n d) := rfl

theorem ofRat_neg {n d m : Nat} (neg : Bool) {s : Bool} (h : ofRat s n d = .fin s m) :
    ofRat neg n d = .fin neg m := by
  rw [ofRat_eq] at h ⊢
  split at h
  · cases h
  · rename_i hh
    rw [if_neg hh]
    simp only [fin.injEq, true_and] at h
    rw [h]

theorem roundTo_exact {n d m : Nat} (hd : 0 < d) (h : n * scale = m * d) (hm : RepMag m) : roundTo n d = m := by
  unfold roundTo
  rw [h, Nat.mul_div_cancel _ hd]
  obtain ⟨k, hk⟩ := hm.2
  generalize m.log2 - 52 = s at *
  have hp : 0 < 2 ^ s := Nat.pow_pos (by decide)
  have : m * d = k * (d * 2 ^ s) := by rw [hk]; ring
  rw [this, rneDiv_exact (Nat.mul_pos hd hp), hk]; ring

/-- A representable value is converted exactly. -/
theorem ofRat_exact {n d m : Nat} (neg : Bool) (hd : 0 < d) (h : n * scale = m * d) (hm : RepMag m) :
    ofRat neg n d = .fin neg m := by
  rw [ofRat_eq, roundTo_exact hd h hm, if_neg (by have := hm.1; omega)]

theorem roundTo_scale {n d c : Nat} (hc : 0 < c) : roundTo (n * c) (d * c) = roundTo n d := by
  unfold roundTo
  have h1 : n * c * scale / (d * c) = n * scale / d := by
    rw [show n * c * scale = n * scale * c by ring, Nat.mul_div_mul_right _ _ hc]
  rw [h1]
  generalize (n * scale / d).log2 - 52 = s
  rw [show n * c * scale = n * scale * c by ring, show d * c * 2 ^ s = d * 2 ^ s * c by ring, rneDiv_mul hc]

theorem ofRat_scale {n d c : Nat} (neg : Bool) (hc : 0 < c) : ofRat neg (n * c) (d * c) = ofRat neg n d := by
  rw [ofRat_eq, ofRat_eq, roundTo_scale hc]

theorem RepMag.dvd_of_le {v s : Nat} (hv : RepMag v) (hs : s ≤ v.log2 - 52) : 2 ^ s ∣ v :=
  dvd_trans (pow_dvd_pow 2 hs) hv.2

theorem roundTo_ge {n d v : Nat} (hd : 0 < d) (hv : RepMag v) (h : v * d ≤ n * scale) : v ≤ roundTo n d := by
  have hq : v ≤ n * scale / d := (Nat.le_div_iff_mul_le hd).mpr h
  have hl := log2_mono hq
  unfold roundTo
  have hqd : n * scale / d * d ≤ n * scale := Nat.div_mul_le_self _ _
  generalize hQ : n * scale / d = q at *
  generalize hS : q.log2 - 52 = s at *
  have hp : 0 < 2 ^ s := Nat.pow_pos (by decide)
  rcases Nat.lt_or_ge (v.log2 - 52) s with hlt | hge
  · have hv' : v < 2 ^ (s + 52) := by
      refine lt_of_lt_of_le (Nat.lt_log2_self) (Nat.pow_le_pow_right (by decide) ?_)
      omega
    have hq0 : q ≠ 0 := by rintro rfl; simp at hS; omega
    have h2 : 2 ^ 52 * (d * 2 ^ s) ≤ n * scale := by
      have : 2 ^ (s + 52) ≤ q := by
        have := Nat.log2_self_le hq0
        rwa [show s + 52 = q.log2 by omega]
      calc 2 ^ 52 * (d * 2 ^ s) = 2 ^ (s + 52) * d := by rw [pow_add]; ring
        _ ≤ q * d := Nat.mul_le_mul_right _ this
        _ ≤ _ := hqd
    have := rneDiv_ge (Nat.mul_pos hd hp) h2
    calc v ≤ 2 ^ 52 * 2 ^ s := by rw [← pow_add, add_comm]; omega
      _ ≤ _ := Nat.mul_le_mul_right _ this
  · obtain ⟨k, hk⟩ := hv.dvd_of_le hge
    have : k * (d * 2 ^ s) ≤ n * scale := by
      calc k * (d * 2 ^ s) = v * d := by rw [hk]; ring
        _ ≤ _ := h
    have := rneDiv_ge (Nat.mul_pos hd hp) this
    calc v = k * 2 ^ s := by rw [hk]; ring
      _ ≤ _ := Nat.mul_le_mul_right _ this

theorem roundTo_le {n d v : Nat} (hd : 0 < d) (hv : RepMag v) (h : n * scale ≤ v * d) : roundTo n d ≤ v := by
  have hq : n * scale / d ≤ v := by
    calc n * scale / d ≤ v * d / d := Nat.div_le_div_right h
      _ = v := Nat.mul_div_cancel _ hd
  have hl := log2_mono hq
  unfold roundTo
  generalize hQ : n * scale / d = q at *
  generalize hS : q.log2 - 52 = s at *
  have hp : 0 < 2 ^ s := Nat.pow_pos (by decide)
  obtain ⟨k, hk⟩ := hv.dvd_of_le (s := s) (by omega)
  have : n * scale ≤ k * (d * 2 ^ s) := by
    calc n * scale ≤ v * d := h
      _ = k * (d * 2 ^ s) := by rw [hk]; ring
  have := rneDiv_le (Nat.mul_pos hd hp) this
  calc _ ≤ k * 2 ^ s := Nat.mul_le_mul_right _ this
    _ = v := by rw [hk]; ring

theorem log2_lt_of_lt {m k : Nat} (h : m < 2 ^ k) (hk : 0 < k) : m.log2 < k := by
  rcases Nat.eq_zero_or_pos m with rfl | hm
  · simpa using hk
  · exact (Nat.log2_lt (by omega)).mpr h

theorem log2_two_pow (k : Nat) : (2 ^ k).log2 = k := Nat.log2_two_pow

/-- The rounded magnitude has at most 53 significant bits. -/
theorem roundTo_dvd {n d : Nat} (hd : 0 < d) : 2 ^ ((roundTo n d).log2 - 52) ∣ roundTo n d := by
  unfold roundTo
  have hqd : n * scale < (n * scale / d + 1) * d := by
    have := Nat.div_add_mod (n * scale) d
    have := Nat.mod_lt (n * scale) hd
    rw [add_mul, mul_comm (n * scale / d)]; omega
  generalize hQ : n * scale / d = q at *
  generalize hS : q.log2 - 52 = s at *
  have hp : 0 < 2 ^ s := Nat.pow_pos (by decide)
  have hR : rneDiv (n * scale) (d * 2 ^ s) ≤ 2 ^ 53 := by
    apply rneDiv_le (Nat.mul_pos hd hp)
    have : q + 1 ≤ 2 ^ (s + 53) := by
      refine le_trans (Nat.lt_log2_self (n := q)) (Nat.pow_le_pow_right (by decide) ?_)
      omega
    calc n * scale ≤ (q + 1) * d := hqd.le
      _ ≤ 2 ^ (s + 53) * d := Nat.mul_le_mul_right _ this
      _ = _ := by rw [pow_add]; ring
  generalize rneDiv (n * scale) (d * 2 ^ s) = R at *
  rcases Nat.lt_or_ge R (2 ^ 53) with hlt | hge
  · have : R * 2 ^ s < 2 ^ (53 + s) := by rw [pow_add]; exact Nat.mul_lt_mul_of_pos_right hlt hp
    have := log2_lt_of_lt this (by omega)
    exact dvd_trans (pow_dvd_pow 2 (by omega)) (Dvd.intro_left _ rfl)
  · have hR' : R = 2 ^ 53 := by omega
    subst hR'
    rw [← pow_add, log2_two_pow]
    exact pow_dvd_pow 2 (by omega)

section
attribute [local irreducible] magLimit roundTo
/-- Conversions yield well-formed floats. -/
theorem ofRat_WF (neg : Bool) {n d : Nat} (hd : 0 < d) : (ofRat neg n d).WF := by
  rw [ofRat_eq]
  by_cases h : magLimit ≤ roundTo n d
  · rw [if_pos h]
    trivial
  · rw [if_neg h]
    exact ⟨Nat.not_le.mp h, roundTo_dvd hd⟩
end

theorem log2_mul_pow {n : Nat} (hn : n ≠ 0) (k : Nat) : (n * 2 ^ k).log2 = n.log2 + k := by
  have h1 := Nat.log2_self_le hn
  have h2 := Nat.lt_log2_self (n := n)
  have hk : 0 < 2 ^ k := Nat.pow_pos (by decide)
  have hne : n * 2 ^ k ≠ 0 := Nat.mul_ne_zero hn (by omega)
  apply le_antisymm
  · have : n * 2 ^ k < 2 ^ (n.log2 + k + 1) := by
      calc n * 2 ^ k < 2 ^ (n.log2 + 1) * 2 ^ k := Nat.mul_lt_mul_of_pos_right h2 hk
        _ = _ := by rw [← pow_add]; congr 1; omega
    have := (Nat.log2_lt hne).mpr this
    omega
  · rw [Nat.le_log2 hne, pow_add]
    exact Nat.mul_le_mul_right _ h1

/-- Integers up to `2^53` are representable. -/
theorem repMag_nat {n : Nat} (h : n ≤ 2 ^ 53) : RepMag (n * scale) := by
  unfold RepMag magLimit scale
  constructor
  · calc n * 2 ^ 1074 ≤ 2 ^ 53 * 2 ^ 1074 := Nat.mul_le_mul_right _ h
      _ = 2 ^ 1127 := by rw [← pow_add]
      _ < 2 ^ 2098 := Nat.pow_lt_pow_right (by decide) (by decide)
  · rcases Nat.lt_or_ge n (2 ^ 53) with hlt | hge
    · rcases Nat.eq_zero_or_pos n with rfl | hn
      · simp
      · rw [log2_mul_pow (by omega)]
        have := log2_lt_of_lt hlt (by decide)
        exact dvd_trans (pow_dvd_pow 2 (by omega)) (Dvd.intro_left _ rfl)
    · have hR' : n = 2 ^ 53 := le_antisymm h hge
      rw [hR', ← pow_add, log2_two_pow]
      exact pow_dvd_pow 2 (by omega)

theorem repMag_pow {k : Nat} (h : k < 1024) : RepMag (2 ^ k * scale) := by
  unfold RepMag magLimit scale
  rw [← pow_add, log2_two_pow]
  exact ⟨Nat.pow_lt_pow_right (by decide) (by omega), pow_dvd_pow 2 (by omega)⟩

theorem ofRat_nat {n : Nat} (neg : Bool) (h : n ≤ 2 ^ 53) : ofRat neg n 1 = .fin neg (n * scale) :=
  ofRat_exact neg (by decide) (by ring) (repMag_nat h)

end KS.F64
