import Verif.Lemmas.DecimalText
/-! The shortest and nearest decimal of a binary floating point number, for any precision. -/

namespace KS.Sh

open F64 (searchFrom)
open Rnd Spec DL

theorem natDigits_bounds {N : Nat} (h : 0 < N) : 10 ^ ((natDigits N).length - 1) ≤ N ∧ N < 10 ^ (natDigits N).length := by
  obtain ⟨h1, h2, h3, h4, _⟩ := natDigits_spec N
  have hd := digits_of h2
  refine ⟨?_, ?_⟩
  · cases hr : natDigits N with
    | nil => exact absurd hr h1
    | cons c r =>
      rw [hr] at h3 h4 hd
      have hc0 : c ≠ '0' := by rintro rfl; have := h4 rfl; omega
      have hp := digitVal_pos (hd c (by simp)) hc0
      rw [digitsVal_cons] at h3
      have := Nat.mul_le_mul_right (10 ^ r.length) hp
      simp only [List.length_cons, Nat.add_sub_cancel]
      omega
  · have := digitsVal_lt hd
    rwa [h3] at this

theorem rndQ_zero {b S : Nat} : rndQ b S 0 = 0 := by
  have := rndQ_nat (b := b) (S := S) (n := 0)
  rw [Nat.cast_zero] at this
  rw [this]
  have h := rnd_nearest (b := b) (S := S) (n := 0) (d := 1) (v := 0) (by decide) (dvd_zero _)
  simp at h
  exact h

/-- `D / 10^W` is the shortest decimal that rounds to `m / S`, and the nearest of these, and the larger of two such. -/
def Best (b S W P m D : Nat) : Prop :=
    ∃ p : Nat, 1 ≤ p ∧ p ≤ P ∧ (∃ c e, c < 10 ^ p ∧ D = c * 10 ^ e) ∧ rnd b S D (10 ^ W) = m ∧
      ∀ (q c : Nat) (e : Int), c < 10 ^ q → rndQ b S ((c : ℚ) * 10 ^ e) = m → p ≤ q ∧
        (q = p → |(D : ℚ) / 10 ^ W - (m : ℚ) / S| ≤ |(c : ℚ) * 10 ^ e - (m : ℚ) / S| ∧
          (|(D : ℚ) / 10 ^ W - (m : ℚ) / S| = |(c : ℚ) * 10 ^ e - (m : ℚ) / S| → (c : ℚ) * 10 ^ e ≤ (D : ℚ) / 10 ^ W))

theorem best {b S E W P m : Nat} (hb : 0 < b) (hE : 0 < E) (hS : 0 < S) (hd : E * S = 10 ^ W) (hP : 2 ^ (b + 1) < 10 ^ (P - 1))
    (hP1 : 1 ≤ P) (hPE : 10 ^ P ≤ E) (hm : ulp b m ∣ m) (hm0 : 0 < m) (rd : Nat → Bool)
    (hrd : ∀ D, rd D = true ↔ rnd b S D (10 ^ W) = m) (D : Nat)
    (hD : D = searchFrom (cand rd (m * E) (natDigits (m * E)).length) (m * E) P 1) : Best b S W P m D := by
  have hN0 : 0 < m * E := Nat.mul_pos hm0 hE
  obtain ⟨hN, hN'⟩ := natDigits_bounds hN0
  have hPL : P ≤ (natDigits (m * E)).length := by
    have h1 : 10 ^ P < 10 ^ (natDigits (m * E)).length :=
      lt_of_le_of_lt (le_trans hPE (Nat.le_mul_of_pos_left _ hm0)) hN'
    exact le_of_lt ((Nat.pow_lt_pow_iff_right (by decide)).mp h1)
  generalize (natDigits (m * E)).length = L at *
  have hT : (0 : ℚ) < 10 ^ W := by positivity
  have hdW : 0 < 10 ^ W := Nat.pow_pos (by decide)
  have hcast : ∀ n : Nat, rndQ b S ((n : ℚ) / 10 ^ W) = rnd b S n (10 ^ W) := by
    intro n
    have := rndQ_div (b := b) (S := S) (n := n) hdW
    push_cast at this
    exact this
  have hexact : rnd b S (m * E) (10 ^ W) = m := by
    have h := rnd_nearest (b := b) (S := S) (n := m * E) (d := 10 ^ W) hdW hm
    have e : ((m * E : Nat) : ℚ) * S / ((10 ^ W : Nat) : ℚ) = m := by
      rw [← hd]
      have : (E : ℚ) ≠ 0 := by exact_mod_cast hE.ne'
      have : (S : ℚ) ≠ 0 := by exact_mod_cast hS.ne'
      push_cast
      field_simp
    rw [e, sub_self, abs_zero] at h
    have := abs_nonpos_iff.mp h
    have : (rnd b S (m * E) (10 ^ W) : ℚ) = m := by linarith
    exact_mod_cast this
  have hsv : (m : ℚ) / S = ((m * E : Nat) : ℚ) / 10 ^ W := by
    have h1 : (10 : ℚ) ^ W = ((E * S : Nat) : ℚ) := by rw [hd]; push_cast; rfl
    rw [h1]
    have : (E : ℚ) ≠ 0 := by exact_mod_cast hE.ne'
    have : (S : ℚ) ≠ 0 := by exact_mod_cast hS.ne'
    push_cast
    field_simp
  have hfin : cand rd (m * E) L P ≠ none := by
    obtain ⟨a1, a2⟩ := around (m * E) L P
    have hu : 10 ^ (L - P) * 10 ^ (P - 1) ≤ m * E := by
      rw [← pow_add, show L - P + (P - 1) = L - 1 by omega]; exact hN
    unfold cand
    simp only
    generalize m * E / 10 ^ (L - P) * 10 ^ (L - P) = lo at *
    generalize 10 ^ (L - P) = u at *
    have hdig := fun D => rnd_of_digits (D := D) hb hd hE hS hP hm hm0 hu
    have h : rd lo = true ∨ rd (lo + u) = true := by
      rcases Nat.le_total (2 * (m * E)) (2 * lo + u) with h | h
      · left; exact (hrd _).mpr (hdig lo (by omega) h)
      · right; exact (hrd _).mpr (hdig (lo + u) (by omega) (by omega))
    rcases h with h | h <;> cases h1 : rd lo <;> cases h2 : rd (lo + u) <;> simp_all <;> split <;> simp
  have hbest := search_best (rd := rd) (R := fun q => 0 ≤ q ∧ rndQ b S (q / 10 ^ W) = m) (N := m * E) (L := L) (P := P)
    (by
      rintro x y z ⟨hx0, hx⟩ ⟨hz0, hz⟩ hxy hyz
      have hy0 : 0 ≤ y := le_trans hx0 hxy
      refine ⟨hy0, le_antisymm ?_ ?_⟩
      · rw [← hz]; exact rndQ_mono (div_nonneg hy0 hT.le) (div_le_div_of_nonneg_right hyz hT.le)
      · rw [← hx]; exact rndQ_mono (div_nonneg hx0 hT.le) (div_le_div_of_nonneg_right hxy hT.le))
    (by
      intro D
      rw [hrd, hcast]
      exact ⟨fun h => ⟨Nat.cast_nonneg _, h⟩, fun h => h.2⟩)
    (by rw [hcast]; exact ⟨Nat.cast_nonneg _, hexact⟩)
    hN hN' hP1 hPL hfin
  rw [← hD] at hbest
  obtain ⟨p, p1, p2, p3, p4, p5⟩ := hbest
  rw [hcast] at p4
  refine ⟨p, p1, p2, p3, p4.2, ?_⟩
  intro q c e hc hr
  have hq : 1 ≤ q := by
    rcases Nat.eq_zero_or_pos q with rfl | h
    · simp only [pow_zero, Nat.lt_one_iff] at hc
      subst hc
      rw [Nat.cast_zero, zero_mul, rndQ_zero] at hr
      omega
    · exact h
  have hval : (c : ℚ) * 10 ^ (e + W) = (c : ℚ) * 10 ^ e * 10 ^ W := by
    rw [zpow_add₀ (by norm_num), zpow_natCast]; ring
  obtain ⟨r1, r2⟩ := p5 q c (e + W) hc hq (by
    refine ⟨mul_nonneg (Nat.cast_nonneg _) (zpow_nonneg (by norm_num) _), ?_⟩
    rw [hval, mul_div_cancel_right₀ _ hT.ne']
    exact hr)
  refine ⟨r1, fun hqp => ?_⟩
  obtain ⟨s1, s2⟩ := r2 hqp
  rw [hval] at s1 s2
  have k1 : |(D : ℚ) / 10 ^ W - (m : ℚ) / S| = |(D : ℚ) - ((m * E : Nat) : ℚ)| / 10 ^ W := by
    rw [hsv, ← sub_div, abs_div, abs_of_pos hT]
  have k2 : |(c : ℚ) * 10 ^ e - (m : ℚ) / S| = |(c : ℚ) * 10 ^ e * 10 ^ W - ((m * E : Nat) : ℚ)| / 10 ^ W := by
    rw [hsv, ← abs_of_pos hT, ← abs_div, abs_of_pos hT, sub_div, mul_div_cancel_right₀ _ hT.ne']
  rw [k1, k2]
  refine ⟨div_le_div_of_nonneg_right s1 hT.le, fun he => ?_⟩
  rw [le_div_iff₀ hT]
  exact s2 ((div_left_inj' hT.ne').mp he)

end KS.Sh
