import Verif.Lemmas.F32
/-!
# Rounding to a binary format, for any precision

`rnd b S` is `F64.roundTo` for `b = 52` and `F32.roundTo` for `b = 23`.
-/

namespace KS.Rnd

open F64 (rneDiv rneDiv_mul rneDiv_ge rneDiv_le log2_mono log2_lt_of_lt log2_two_pow)
open F32 (rneDiv_above rneDiv_below)

/-- Rounding of `n * S / d` to `b + 1` significant bits. -/
def rnd (b S n d : Nat) : Nat :=
  rneDiv (n * S) (d * 2 ^ ((n * S / d).log2 - b)) * 2 ^ ((n * S / d).log2 - b)

theorem rnd64 : F64.roundTo = rnd 52 F64.scale := rfl
theorem rnd32 : F32.roundTo = rnd 23 F32.scale := rfl

/-- Unit in the last place of `m`. -/
def ulp (b m : Nat) : Nat := 2 ^ (m.log2 - b)

theorem ulp_pos (b m : Nat) : 0 < ulp b m := Nat.pow_pos (by decide)

theorem log2_eq {q L : Nat} (h1 : 2 ^ L ≤ q) (h2 : q < 2 ^ (L + 1)) : q.log2 = L := by
  have hq : q ≠ 0 := by have : 0 < 2 ^ L := Nat.pow_pos (by decide); omega
  have := (Nat.le_log2 hq).mpr h1
  have := (Nat.log2_lt hq).mpr h2
  omega

/-- Every value less than half a unit from a representable `m` is rounded to it, provided it is not on the edge
of the interval or `m` has an even significand. -/
theorem rnd_of_near {b S n d m : Nat} (hb1 : 0 < b) (hd : 0 < d) (hm : ulp b m ∣ m)
    (h1 : 2 * (n * S) ≤ (2 * m + ulp b m) * d)
    (h2 : 0 < m → 2 * m * d ≤ 2 * (n * S) + ulp b (m - 1) * d)
    (h3 : m / ulp b m % 2 = 0 ∨ (2 * (n * S) < (2 * m + ulp b m) * d ∧
      (0 < m → 2 * m * d < 2 * (n * S) + ulp b (m - 1) * d))) : rnd b S n d = m := by
  have hu := ulp_pos b m
  obtain ⟨k, hk⟩ := hm
  rcases Nat.lt_or_ge (n * S) (m * d) with hlt | hge
  · -- below
    have hm0 : 0 < m := by
      rcases Nat.eq_zero_or_pos m with rfl | h
      · simp at hlt
      · exact h
    have h2 := h2 hm0
    -- unit below
    have hl : 0 < ulp b (m - 1) := ulp_pos _ _
    obtain ⟨j, hj⟩ : ∃ j, m = ulp b (m - 1) * j := by
      have : ulp b (m - 1) ∣ ulp b m := by
        apply pow_dvd_pow
        have := log2_mono (show m - 1 ≤ m by omega)
        omega
      exact dvd_trans this (Dvd.intro _ hk.symm)
    have heven : m / ulp b m % 2 = 0 → j % 2 = 0 := by
      intro h
      have : ulp b (m - 1) ∣ ulp b m := by
        apply pow_dvd_pow
        have := log2_mono (show m - 1 ≤ m by omega)
        omega
      obtain ⟨c, hc⟩ := this
      have hkk : m / ulp b m = k := Nat.div_eq_of_eq_mul_right hu hk
      rw [hkk] at h
      have : ulp b (m - 1) * j = ulp b (m - 1) * (c * k) := by rw [← hj, ← mul_assoc, ← hc]; exact hk
      have := Nat.eq_of_mul_eq_mul_left hl this
      rw [this, Nat.mul_mod, h]; simp
    have hlog : (n * S / d).log2 - b = (m - 1).log2 - b := by
      have hqle : n * S / d ≤ m - 1 := by
        have : n * S / d < m := (Nat.div_lt_iff_lt_mul hd).mpr hlt
        omega
      have hup := log2_mono hqle
      rcases Nat.lt_or_ge (m - 1).log2 b with h23 | h23
      · omega
      · have hm1 : m - 1 ≠ 0 := by
          intro h; rw [h] at h23; simp at h23; omega
        have hbase := Nat.log2_self_le hm1
        generalize hL : (m - 1).log2 = L at *
        have hpow : 2 ^ L = ulp b (m - 1) * 2 ^ b := by
          unfold ulp; rw [hL, ← pow_add]; congr 1; omega
        have hjlt : 2 ^ b < j := by
          by_contra hc
          have : ulp b (m - 1) * j ≤ ulp b (m - 1) * 2 ^ b := Nat.mul_le_mul_left _ (by omega)
          omega
        have : 2 ^ L ≤ n * S / d := by
          rw [Nat.le_div_iff_mul_le hd]
          have : ulp b (m - 1) * (2 ^ b + 1) ≤ m :=
            calc ulp b (m - 1) * (2 ^ b + 1) ≤ ulp b (m - 1) * j := Nat.mul_le_mul_left _ hjlt
              _ = m := hj.symm
          have h5 : (2 ^ L + ulp b (m - 1)) * d ≤ m * d := by
            apply Nat.mul_le_mul_right
            rw [hpow]; calc _ = ulp b (m - 1) * (2 ^ b + 1) := by ring
              _ ≤ m := this
          have h6 : (2 ^ L + ulp b (m - 1)) * d = 2 ^ L * d + ulp b (m - 1) * d := by ring
          have h7 : 2 * m * d = 2 * (m * d) := by ring
          omega
        have hlow := log2_mono this
        rw [log2_two_pow] at hlow
        omega
    unfold rnd
    rw [hlog]
    change rneDiv (n * S) (d * ulp b (m - 1)) * ulp b (m - 1) = m
    generalize ulp b (m - 1) = l at *
    have hj0 : 0 < j := by
      rcases Nat.eq_zero_or_pos j with rfl | h
      · simp at hj; omega
      · exact h
    obtain ⟨i, rfl⟩ : ∃ i, j = i + 1 := ⟨j - 1, by omega⟩
    have := rneDiv_below (a := n * S) (b := d * l) (k := i) (Nat.mul_pos hd hl) (by
        calc n * S < m * d := hlt
          _ = (i + 1) * (d * l) := by rw [hj]; ring) (by
        have e1 : 2 * m * d = (2 * i + 1) * (d * l) + l * d := by rw [hj]; ring
        omega) (by
        rcases h3 with h3 | h3
        · have := heven h3; left; omega
        · right
          have e1 : 2 * m * d = (2 * i + 1) * (d * l) + l * d := by rw [hj]; ring
          have := h3.2 hm0
          omega)
    rw [this, hj]; ring
  · -- at or above
    have hlog : (n * S / d).log2 - b = m.log2 - b := by
      have hqge : m ≤ n * S / d := (Nat.le_div_iff_mul_le hd).mpr hge
      have hlow := log2_mono hqge
      have hqlt : n * S / d < m + ulp b m := by
        rw [Nat.div_lt_iff_lt_mul hd]
        have : (2 * m + ulp b m) * d + ulp b m * d = 2 * ((m + ulp b m) * d) := by ring
        have : 0 < ulp b m * d := Nat.mul_pos hu hd
        omega
      rcases Nat.lt_or_ge m.log2 b with h23 | h23
      · have : ulp b m = 1 := by unfold ulp; rw [show m.log2 - b = 0 by omega]; rfl
        rw [this] at hqlt
        have : n * S / d = m := by omega
        rw [this]
      · have hm0 : m ≠ 0 := by rintro rfl; simp at h23; omega
        have hbase := Nat.lt_log2_self (n := m)
        have hbase' := Nat.log2_self_le hm0
        generalize hL : m.log2 = L at *
        have hpow : 2 ^ (L + 1) = ulp b m * 2 ^ (b + 1) := by
          unfold ulp; rw [hL, ← pow_add]; congr 1; omega
        have hklt : k < 2 ^ (b + 1) := by
          by_contra hc
          have : ulp b m * 2 ^ (b + 1) ≤ ulp b m * k := Nat.mul_le_mul_left _ (by omega)
          omega
        have hle : m + ulp b m ≤ 2 ^ (L + 1) := by
          rw [hpow]
          calc m + ulp b m = ulp b m * k + ulp b m := by omega
            _ = ulp b m * (k + 1) := by ring
            _ ≤ _ := Nat.mul_le_mul_left _ hklt
        rw [log2_eq (L := L) (by omega) (by omega)]
    unfold rnd
    rw [hlog]
    change rneDiv (n * S) (d * ulp b m) * ulp b m = m
    have hkk : m / ulp b m = k := Nat.div_eq_of_eq_mul_right hu hk
    rw [hkk] at h3
    generalize ulp b m = u at *
    have e0 : m * d = k * (d * u) := by rw [hk]; ring
    have e1 : (2 * m + u) * d = (2 * k + 1) * (d * u) := by rw [hk]; ring
    have := rneDiv_above (a := n * S) (b := d * u) (k := k) (Nat.mul_pos hd hu) (by omega) (by omega) (by
        rcases h3 with h3 | h3
        · exact Or.inl h3
        · right; omega)
    rw [this, hk]; ring


/-! ## Rounding is monotone -/

theorem rneDiv_mono {a a' b : Nat} (hb : 0 < b) (h : a ≤ a') : rneDiv a b ≤ rneDiv a' b := by
  have hq : a / b ≤ a' / b := Nat.div_le_div_right h
  rcases Nat.lt_or_ge (a / b) (a' / b) with hlt | hge
  · have h1 : rneDiv a b ≤ a / b + 1 := by
      apply rneDiv_le hb
      have := Nat.div_add_mod a b
      have := Nat.mod_lt a hb
      have e : (a / b + 1) * b = b * (a / b) + b := by ring
      omega
    have h2 : a' / b ≤ rneDiv a' b := rneDiv_ge hb (Nat.div_mul_le_self _ _)
    omega
  · have he : a / b = a' / b := le_antisymm hq hge
    have h1 := Nat.div_add_mod a b
    have h2 := Nat.div_add_mod a' b
    rw [← he] at h2
    have hr : a % b ≤ a' % b := by omega
    unfold rneDiv
    simp only [← he]
    generalize a / b = q at *
    generalize a % b = r at *
    generalize a' % b = r' at *
    repeat' split
    all_goals omega

theorem rnd_scale {b S n d c : Nat} (hc : 0 < c) : rnd b S (n * c) (d * c) = rnd b S n d := by
  unfold rnd
  have h1 : n * c * S / (d * c) = n * S / d := by
    rw [show n * c * S = n * S * c by ring, Nat.mul_div_mul_right _ _ hc]
  rw [h1]
  generalize (n * S / d).log2 - b = s
  rw [show n * c * S = n * S * c by ring, show d * c * 2 ^ s = d * 2 ^ s * c by ring, rneDiv_mul hc]

theorem rnd_mono_same {b S n n' d : Nat} (hd : 0 < d) (h : n ≤ n') : rnd b S n d ≤ rnd b S n' d := by
  have hS : n * S ≤ n' * S := Nat.mul_le_mul_right _ h
  have hq : n * S / d ≤ n' * S / d := Nat.div_le_div_right hS
  have hl := log2_mono hq
  have hup : n * S < (n * S / d + 1) * d := by
    have := Nat.div_add_mod (n * S) d
    have := Nat.mod_lt (n * S) hd
    have e : (n * S / d + 1) * d = d * (n * S / d) + d := by ring
    omega
  have hlo : n' * S / d * d ≤ n' * S := Nat.div_mul_le_self _ _
  unfold rnd
  generalize n * S / d = q at *
  generalize hq' : n' * S / d = q' at *
  rcases Nat.lt_or_ge (q.log2 - b) (q'.log2 - b) with hlt | hge
  · have h1 : rneDiv (n * S) (d * 2 ^ (q.log2 - b)) ≤ 2 ^ (b + 1) := by
      apply rneDiv_le (Nat.mul_pos hd (Nat.pow_pos (by decide)))
      have : q + 1 ≤ 2 ^ (b + 1) * 2 ^ (q.log2 - b) := by
        rw [← pow_add]
        calc q + 1 ≤ 2 ^ (q.log2 + 1) := Nat.lt_log2_self
          _ ≤ _ := Nat.pow_le_pow_right (by decide) (by omega)
      calc n * S ≤ (q + 1) * d := le_of_lt hup
        _ ≤ 2 ^ (b + 1) * 2 ^ (q.log2 - b) * d := Nat.mul_le_mul_right _ this
        _ = _ := by ring
    have h2 : 2 ^ b ≤ rneDiv (n' * S) (d * 2 ^ (q'.log2 - b)) := by
      apply rneDiv_ge (Nat.mul_pos hd (Nat.pow_pos (by decide)))
      have hq0 : q' ≠ 0 := by rintro rfl; simp at hlt
      have : 2 ^ b * 2 ^ (q'.log2 - b) ≤ q' := by
        rw [← pow_add, show b + (q'.log2 - b) = q'.log2 by omega]
        exact Nat.log2_self_le hq0
      calc 2 ^ b * (d * 2 ^ (q'.log2 - b)) = 2 ^ b * 2 ^ (q'.log2 - b) * d := by ring
        _ ≤ q' * d := Nat.mul_le_mul_right _ this
        _ ≤ _ := hlo
    calc rneDiv (n * S) (d * 2 ^ (q.log2 - b)) * 2 ^ (q.log2 - b)
        ≤ 2 ^ (b + 1) * 2 ^ (q.log2 - b) := Nat.mul_le_mul_right _ h1
      _ = 2 ^ b * 2 ^ (q.log2 - b + 1) := by ring
      _ ≤ 2 ^ b * 2 ^ (q'.log2 - b) := Nat.mul_le_mul_left _ (Nat.pow_le_pow_right (by decide) hlt)
      _ ≤ _ := Nat.mul_le_mul_right _ h2
  · have he : q.log2 - b = q'.log2 - b := by omega
    rw [he]
    exact Nat.mul_le_mul_right _ (rneDiv_mono (Nat.mul_pos hd (Nat.pow_pos (by decide))) hS)

theorem rnd_mono {b S n d n' d' : Nat} (hd : 0 < d) (hd' : 0 < d') (h : n * d' ≤ n' * d) :
    rnd b S n d ≤ rnd b S n' d' := by
  rw [← rnd_scale (n := n) (d := d) hd', ← rnd_scale (n := n') (d := d') hd, mul_comm d' d]
  exact rnd_mono_same (Nat.mul_pos hd hd') h

/-! ## Enough digits always read back -/

/-- A decimal that differs from the exact value `m * E` by at most half a unit of its `P`-th digit is rounded to `m`. -/
theorem rnd_of_digits {b S E d m u D P : Nat} (hb : 0 < b) (hd : E * S = d) (hE : 0 < E) (hS : 0 < S)
    (hP : 2 ^ (b + 1) < 10 ^ (P - 1)) (hm : ulp b m ∣ m) (hm0 : 0 < m)
    (hu : u * 10 ^ (P - 1) ≤ m * E) (h1 : 2 * D ≤ 2 * (m * E) + u) (h2 : 2 * (m * E) ≤ 2 * D + u) :
    rnd b S D d = m := by
  have hd0 : 0 < d := by rw [← hd]; exact Nat.mul_pos hE hS
  have key : ∀ w, m ≤ w * 2 ^ (b + 1) → u < w * E := by
    intro w hw
    have hw0 : 0 < w := by
      rcases Nat.eq_zero_or_pos w with rfl | h
      · omega
      · exact h
    have : u * 10 ^ (P - 1) < w * E * 10 ^ (P - 1) := by
      calc u * 10 ^ (P - 1) ≤ m * E := hu
        _ ≤ w * 2 ^ (b + 1) * E := Nat.mul_le_mul_right _ hw
        _ = w * E * 2 ^ (b + 1) := by ring
        _ < w * E * 10 ^ (P - 1) := Nat.mul_lt_mul_of_pos_left hP (Nat.mul_pos hw0 hE)
    exact Nat.lt_of_mul_lt_mul_right this
  have k1 : u < ulp b m * E := by
    apply key
    unfold ulp
    rw [← pow_add]
    calc m ≤ 2 ^ (m.log2 + 1) := le_of_lt Nat.lt_log2_self
      _ ≤ _ := Nat.pow_le_pow_right (by decide) (by omega)
  have k2 : u < ulp b (m - 1) * E := by
    apply key
    unfold ulp
    rw [← pow_add]
    have : m - 1 < 2 ^ ((m - 1).log2 + 1) := Nat.lt_log2_self
    calc m ≤ 2 ^ ((m - 1).log2 + 1) := by omega
      _ ≤ _ := Nat.pow_le_pow_right (by decide) (by omega)
  have e1 : 2 * (D * S) < (2 * m + ulp b m) * d := by
    calc 2 * (D * S) = 2 * D * S := by ring
      _ ≤ (2 * (m * E) + u) * S := Nat.mul_le_mul_right _ h1
      _ < (2 * (m * E) + ulp b m * E) * S := Nat.mul_lt_mul_of_pos_right (by omega) hS
      _ = _ := by rw [← hd]; ring
  have e2 : 2 * m * d < 2 * (D * S) + ulp b (m - 1) * d := by
    calc 2 * m * d = 2 * (m * E) * S := by rw [← hd]; ring
      _ ≤ (2 * D + u) * S := Nat.mul_le_mul_right _ h2
      _ < (2 * D + ulp b (m - 1) * E) * S := Nat.mul_lt_mul_of_pos_right (by omega) hS
      _ = _ := by rw [← hd]; ring
  exact rnd_of_near hb hd0 hm (le_of_lt e1) (fun _ => le_of_lt e2) (Or.inr ⟨e1, fun _ => e2⟩)

end KS.Rnd
