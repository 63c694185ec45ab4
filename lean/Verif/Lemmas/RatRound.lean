import Verif.Lemmas.Shortest
import Mathlib.Tactic.Qify
/-! Rounding of rational numbers. -/

namespace KS.Rnd

open F64 (rneDiv rneDiv_ge rneDiv_le log2_mono)
open F32 (rneDiv_near)

/-- `rnd` of a rational number. -/
def rndQ (b S : Nat) (q : ℚ) : Nat := rnd b S q.num.toNat q.den

theorem num_toNat {q : ℚ} (h : 0 ≤ q) : ((q.num.toNat : Nat) : ℚ) = q * q.den := by
  have h1 : (0 : Int) ≤ q.num := Rat.num_nonneg.mpr h
  have h2 : ((q.num.toNat : Nat) : ℚ) = (q.num : ℚ) := by
    have : ((q.num.toNat : Nat) : Int) = q.num := Int.toNat_of_nonneg h1
    exact_mod_cast this
  rw [h2, Rat.mul_den_eq_num]

theorem rndQ_mono {b S : Nat} {q r : ℚ} (hq : 0 ≤ q) (h : q ≤ r) : rndQ b S q ≤ rndQ b S r := by
  apply rnd_mono q.den_pos r.den_pos
  have hr : 0 ≤ r := le_trans hq h
  have : (q.num.toNat : ℚ) * r.den ≤ (r.num.toNat : ℚ) * q.den := by
    rw [num_toNat hq, num_toNat hr, mul_assoc, mul_assoc, mul_comm (r.den : ℚ)]
    exact mul_le_mul_of_nonneg_right h (by positivity)
  exact_mod_cast this

theorem rndQ_div {b S n d : Nat} (hd : 0 < d) : rndQ b S ((n : ℚ) / d) = rnd b S n d := by
  have hd' : (0 : ℚ) < d := by exact_mod_cast hd
  have h0 : 0 ≤ (n : ℚ) / d := by positivity
  have e : ((((n : ℚ) / d).num.toNat : Nat) : ℚ) * d = (n : ℚ) * ((n : ℚ) / d).den := by
    rw [num_toNat h0]
    field_simp
  have e' : ((n : ℚ) / d).num.toNat * d = n * ((n : ℚ) / d).den := by exact_mod_cast e
  apply le_antisymm
  · exact rnd_mono (Rat.den_pos _) hd (le_of_eq e')
  · exact rnd_mono hd (Rat.den_pos _) (le_of_eq e'.symm)

theorem rndQ_nat {b S n : Nat} : rndQ b S (n : ℚ) = rnd b S n 1 := by
  have := rndQ_div (b := b) (S := S) (n := n) (d := 1) (by decide)
  simpa using this

/-- Nearest among the multiples. -/
theorem rneDiv_nearest {a B : Nat} (hB : 0 < B) (k : Nat) :
    |(rneDiv a B * B : ℚ) - a| ≤ |(k * B : ℚ) - a| := by
  obtain ⟨h1, h2⟩ := rneDiv_near (a := a) hB
  generalize rneDiv a B = R at *
  have g1 : (2 : ℚ) * a ≤ (2 * R + 1) * B := by exact_mod_cast h1
  have g2 : (2 : ℚ) * R * B ≤ 2 * a + B := by exact_mod_cast h2
  have hB' : (0 : ℚ) < B := by exact_mod_cast hB
  rcases Nat.lt_trichotomy k R with h | h | h
  · have hk : ((k : ℚ) + 1) * B ≤ R * B := by
      apply mul_le_mul_of_nonneg_right _ hB'.le
      exact_mod_cast h
    rw [abs_sub_comm ((k : ℚ) * B)]
    refine le_trans ?_ (le_abs_self _)
    rw [abs_le]
    constructor <;> nlinarith
  · rw [h]
  · have hk : ((R : ℚ) + 1) * B ≤ k * B := by
      apply mul_le_mul_of_nonneg_right _ hB'.le
      exact_mod_cast h
    refine le_trans ?_ (le_abs_self _)
    rw [abs_le]
    constructor <;> nlinarith

/-- On a tie the quotient is even. -/
theorem rneDiv_tie {a B k : Nat} (hB : 0 < B) (hk : k ≠ rneDiv a B)
    (h : |(rneDiv a B * B : ℚ) - a| = |(k * B : ℚ) - a|) : rneDiv a B % 2 = 0 := by
  have hd := Nat.div_add_mod a B
  have hm := Nat.mod_lt a hB
  obtain ⟨h1, h2⟩ := rneDiv_near (a := a) hB
  -- the tie is exact
  have hB' : (0 : ℚ) < B := by exact_mod_cast hB
  have htie : 2 * (a % B) = B := by
    have key : ∀ R : Nat, rneDiv a B = R → (2 : ℚ) * a = (2 * R + 1) * B ∨ (2 : ℚ) * a + B = 2 * R * B := by
      intro R hR
      rw [hR] at h h1 h2 hk
      have g1 : (2 : ℚ) * a ≤ (2 * R + 1) * B := by exact_mod_cast h1
      have g2 : (2 : ℚ) * R * B ≤ 2 * a + B := by exact_mod_cast h2
      rcases Nat.lt_or_gt_of_ne hk with hlt | hlt
      · have hk' : ((k : ℚ) + 1) * B ≤ R * B := by
          apply mul_le_mul_of_nonneg_right _ hB'.le
          exact_mod_cast hlt
        right
        rcases abs_cases ((R * B : ℚ) - a) with ⟨e1, _⟩ | ⟨e1, _⟩ <;>
          rcases abs_cases ((k * B : ℚ) - a) with ⟨e2, _⟩ | ⟨e2, _⟩ <;> rw [e1, e2] at h <;> nlinarith
      · have hk' : ((R : ℚ) + 1) * B ≤ k * B := by
          apply mul_le_mul_of_nonneg_right _ hB'.le
          exact_mod_cast hlt
        left
        rcases abs_cases ((R * B : ℚ) - a) with ⟨e1, _⟩ | ⟨e1, _⟩ <;>
          rcases abs_cases ((k * B : ℚ) - a) with ⟨e2, _⟩ | ⟨e2, _⟩ <;> rw [e1, e2] at h <;> nlinarith
    have key2 : ∀ R : Nat, 2 * a = (2 * R + 1) * B ∨ 2 * a + B = 2 * R * B → 2 * (a % B) = B := by
      intro R hR
      have hq : (2 * (a / B) + 1) * B = 2 * (B * (a / B)) + B := by ring
      rcases hR with hR | hR
      · have : a / B = R := by
          apply Nat.div_eq_of_lt_le
          · have : (2 * R + 1) * B = 2 * (R * B) + B := by ring
            omega
          · have e1 : (2 * R + 1) * B = 2 * (R * B) + B := by ring
            have e2 : (R + 1) * B = R * B + B := by ring
            omega
        rw [this] at hd
        have : (2 * R + 1) * B = 2 * (B * R) + B := by ring
        omega
      · have hR0 : 0 < R := by
          rcases Nat.eq_zero_or_pos R with rfl | h
          · simp at hR; omega
          · exact h
        obtain ⟨i, rfl⟩ : ∃ i, R = i + 1 := ⟨R - 1, by omega⟩
        have e : 2 * (i + 1) * B = 2 * (i * B) + 2 * B := by ring
        have : a / B = i := by
          apply Nat.div_eq_of_lt_le
          · omega
          · have : (i + 1) * B = i * B + B := by ring
            omega
        rw [this] at hd
        have : B * i = i * B := by ring
        omega
    rcases key _ rfl with g | g
    · exact key2 _ (Or.inl (by exact_mod_cast g))
    · exact key2 _ (Or.inr (by exact_mod_cast g))
  unfold rneDiv
  simp only
  rw [if_neg (by omega), if_neg (by omega)]
  split <;> omega

/-- The result of rounding is at least as near as any number with no more than `b + 1` bits; on a tie it is even. -/
theorem rnd_nearest {b S n d v : Nat} (hd : 0 < d) (hv : ulp b v ∣ v) :
    |(rnd b S n d : ℚ) - n * S / d| ≤ |(v : ℚ) - n * S / d| := by
  have hd' : (0 : ℚ) < d := by exact_mod_cast hd
  have hqd : n * S / d * d ≤ n * S := Nat.div_mul_le_self _ _
  unfold rnd
  generalize hQ : n * S / d = q at *
  generalize hs : q.log2 - b = s at *
  have hp : 0 < 2 ^ s := Nat.pow_pos (by decide)
  have hp' : (0 : ℚ) < 2 ^ s := by positivity
  have hB : 0 < d * 2 ^ s := Nat.mul_pos hd hp
  have main : ∀ k : Nat, |((rneDiv (n * S) (d * 2 ^ s) * 2 ^ s : Nat) : ℚ) - n * S / d| ≤ |((k * 2 ^ s : Nat) : ℚ) - n * S / d| := by
    intro k
    have := rneDiv_nearest (a := n * S) hB k
    generalize rneDiv (n * S) (d * 2 ^ s) = R at *
    have e : ∀ j : Nat, |((j : ℚ) * ((d * 2 ^ s : Nat) : ℚ)) - ((n * S : Nat) : ℚ)| = |((j * 2 ^ s : Nat) : ℚ) - n * S / d| * d := by
      intro j
      rw [← abs_of_pos hd', ← abs_mul, abs_of_pos hd']
      congr 1
      push_cast
      field_simp
    rw [e R, e k] at this
    exact le_of_mul_le_mul_right this hd'
  by_cases hdv : 2 ^ s ∣ v
  · obtain ⟨k, rfl⟩ := hdv
    rw [mul_comm (2 ^ s) k]
    exact main k
  · have hlt : v.log2 - b < s := by
      by_contra hc
      exact hdv (dvd_trans (pow_dvd_pow 2 (by omega)) hv)
    have hq0 : q ≠ 0 := by rintro rfl; simp at hs; omega
    have h1 : v ≤ 2 ^ b * 2 ^ s := by
      rw [← pow_add]
      calc v ≤ 2 ^ (v.log2 + 1) := le_of_lt Nat.lt_log2_self
        _ ≤ _ := Nat.pow_le_pow_right (by decide) (by omega)
    have h2 : 2 ^ b * 2 ^ s ≤ q := by
      rw [← pow_add, show b + s = q.log2 by omega]
      exact Nat.log2_self_le hq0
    have h3 : ((2 ^ b * 2 ^ s : Nat) : ℚ) ≤ n * S / d := by
      rw [le_div_iff₀ hd']
      exact_mod_cast le_trans (Nat.mul_le_mul_right d h2) hqd
    refine le_trans (main (2 ^ b)) ?_
    have h1' : (v : ℚ) ≤ ((2 ^ b * 2 ^ s : Nat) : ℚ) := by exact_mod_cast h1
    rw [abs_sub_comm, abs_sub_comm (v : ℚ), abs_of_nonneg (by linarith), abs_of_nonneg (by linarith)]
    linarith

/-- On a tie the significand is even. -/
theorem rnd_tie {b S n d v : Nat} (hb : 0 < b) (hd : 0 < d) (hv : ulp b v ∣ v) (hne : v ≠ rnd b S n d)
    (h : |(rnd b S n d : ℚ) - n * S / d| = |(v : ℚ) - n * S / d|) : 2 * ulp b (rnd b S n d) ∣ rnd b S n d := by
  have hd' : (0 : ℚ) < d := by exact_mod_cast hd
  have hqd : n * S / d * d ≤ n * S := Nat.div_mul_le_self _ _
  have hqu : n * S < (n * S / d + 1) * d := by
    have := Nat.div_add_mod (n * S) d
    have := Nat.mod_lt (n * S) hd
    have e : (n * S / d + 1) * d = d * (n * S / d) + d := by ring
    omega
  unfold rnd at *
  generalize hQ : n * S / d = q at *
  generalize hs : q.log2 - b = s at *
  have hp : 0 < 2 ^ s := Nat.pow_pos (by decide)
  have hp' : (0 : ℚ) < 2 ^ s := by positivity
  have hB : 0 < d * 2 ^ s := Nat.mul_pos hd hp
  have e : ∀ j : Nat, |((j : ℚ) * ((d * 2 ^ s : Nat) : ℚ)) - ((n * S : Nat) : ℚ)| = |((j * 2 ^ s : Nat) : ℚ) - n * S / d| * d := by
    intro j
    rw [← abs_of_pos hd', ← abs_mul, abs_of_pos hd']
    congr 1
    push_cast
    field_simp
  have hle : rneDiv (n * S) (d * 2 ^ s) ≤ 2 ^ (b + 1) := by
    apply rneDiv_le hB
    have : q + 1 ≤ 2 ^ (b + 1) * 2 ^ s := by
      rw [← pow_add]
      calc q + 1 ≤ 2 ^ (q.log2 + 1) := Nat.lt_log2_self
        _ ≤ _ := Nat.pow_le_pow_right (by decide) (by omega)
    calc n * S ≤ (q + 1) * d := le_of_lt hqu
      _ ≤ 2 ^ (b + 1) * 2 ^ s * d := Nat.mul_le_mul_right _ this
      _ = _ := by ring
  have heven : rneDiv (n * S) (d * 2 ^ s) % 2 = 0 := by
    by_cases hdv : 2 ^ s ∣ v
    · obtain ⟨k, rfl⟩ := hdv
      refine rneDiv_tie (k := k) hB (fun hk => hne (by rw [hk]; ring)) ?_
      rw [e, e, h, mul_comm (2 ^ s) k]
    · exfalso
      have hlt : v.log2 - b < s := by
        by_contra hc
        exact hdv (dvd_trans (pow_dvd_pow 2 (by omega)) hv)
      have hq0 : q ≠ 0 := by rintro rfl; simp at hs; omega
      have h1 : v < 2 ^ b * 2 ^ s := by
        rw [← pow_add]
        calc v < 2 ^ (v.log2 + 1) := Nat.lt_log2_self
          _ ≤ _ := Nat.pow_le_pow_right (by decide) (by omega)
      have h2 : 2 ^ b * 2 ^ s ≤ q := by
        rw [← pow_add, show b + s = q.log2 by omega]
        exact Nat.log2_self_le hq0
      have h3 : ((2 ^ b * 2 ^ s : Nat) : ℚ) ≤ n * S / d := by
        rw [le_div_iff₀ hd']
        exact_mod_cast le_trans (Nat.mul_le_mul_right d h2) hqd
      have := rneDiv_nearest (a := n * S) hB (2 ^ b)
      rw [e, e] at this
      have := le_of_mul_le_mul_right this hd'
      rw [h] at this
      have h1' : (v : ℚ) < ((2 ^ b * 2 ^ s : Nat) : ℚ) := by exact_mod_cast h1
      rw [abs_sub_comm, abs_sub_comm ((2 ^ b * 2 ^ s : Nat) : ℚ), abs_of_nonneg (by linarith), abs_of_nonneg (by linarith)] at this
      linarith
  generalize rneDiv (n * S) (d * 2 ^ s) = R at *
  obtain ⟨j, hj⟩ : ∃ j, R = 2 * j := ⟨R / 2, by omega⟩
  rcases Nat.eq_or_lt_of_le hle with hR | hR
  · rw [hR]
    unfold ulp
    rw [← pow_add, F64.log2_two_pow, show 2 * 2 ^ (b + 1 + s - b) = 2 ^ (s + 2) by rw [show b + 1 + s - b = s + 1 by omega]; ring]
    exact pow_dvd_pow 2 (by omega)
  · rcases Nat.eq_zero_or_pos R with hR0 | hR0
    · rw [hR0]; simp
    · have hlog : (R * 2 ^ s).log2 - b ≤ s := by
        have : (R * 2 ^ s).log2 < b + 1 + s := by
          apply F64.log2_lt_of_lt _ (by omega)
          rw [pow_add]
          exact Nat.mul_lt_mul_of_pos_right hR hp
        omega
      calc 2 * ulp b (R * 2 ^ s) ∣ 2 * 2 ^ s := Nat.mul_dvd_mul_left _ (pow_dvd_pow 2 hlog)
        _ ∣ R * 2 ^ s := by rw [hj]; exact ⟨j, by ring⟩

theorem rndQ_tie {b S v : Nat} {q : ℚ} (hb : 0 < b) (hq : 0 ≤ q) (hv : ulp b v ∣ v) (hne : v ≠ rndQ b S q)
    (h : |(rndQ b S q : ℚ) - q * S| = |(v : ℚ) - q * S|) : 2 * ulp b (rndQ b S q) ∣ rndQ b S q := by
  have hden : (q.den : ℚ) ≠ 0 := by exact_mod_cast q.den_pos.ne'
  have e : (q.num.toNat : ℚ) * S / q.den = q * S := by
    rw [num_toNat hq]; field_simp
  apply rnd_tie hb q.den_pos hv hne
  rw [e]; exact h

theorem rndQ_nearest {b S v : Nat} {q : ℚ} (hq : 0 ≤ q) (hv : ulp b v ∣ v) :
    |(rndQ b S q : ℚ) - q * S| ≤ |(v : ℚ) - q * S| := by
  have := rnd_nearest (S := S) (n := q.num.toNat) q.den_pos hv
  have hden : (q.den : ℚ) ≠ 0 := by exact_mod_cast q.den_pos.ne'
  have e : (q.num.toNat : ℚ) * S / q.den = q * S := by
    rw [num_toNat hq]; field_simp
  rw [e] at this
  exact this

end KS.Rnd
