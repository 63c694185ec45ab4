import Verif.Lemmas.Rounding
import Mathlib.Data.Rat.Defs
import Mathlib.Algebra.Order.Field.Basic
import Mathlib.Algebra.Order.Field.Rat
import Mathlib.Tactic.FieldSimp
import Mathlib.Tactic.Linarith
import Mathlib.Tactic.Positivity
/-! The search for the shortest decimal that reads back, for any way of reading. -/

namespace KS.Sh

open F64 (searchFrom)

/-- `F64.shortestAt` and `F32.shortestAt` for any test of what reads back. -/
def cand (rd : Nat → Bool) (N L p : Nat) : Option Nat :=
  let u := 10 ^ (L - p)
  let lo := N / u * u
  let hi := lo + u
  if rd lo && rd hi then (if N - lo < hi - N then some lo else some hi)
  else if rd lo then some lo
  else if rd hi then some hi
  else none

theorem search_spec (f : Nat → Option Nat) (N : Nat) : ∀ k p, (∃ q, p ≤ q ∧ q < p + k ∧ f q ≠ none) →
    ∃ q, p ≤ q ∧ q < p + k ∧ f q = some (searchFrom f N k p) ∧ ∀ r, p ≤ r → r < q → f r = none
  | 0, p, h => by obtain ⟨q, h1, h2, _⟩ := h; omega
  | k + 1, p, h => by
    unfold searchFrom
    cases hf : f p with
    | some D => exact ⟨p, le_rfl, by omega, hf, fun r h1 h2 => by omega⟩
    | none =>
      obtain ⟨q, h1, h2, h3⟩ := h
      have hne : q ≠ p := by rintro rfl; exact h3 hf
      obtain ⟨q', g1, g2, g3, g4⟩ := search_spec f N k (p + 1) ⟨q, by omega, by omega, h3⟩
      refine ⟨q', by omega, by omega, g3, fun r r1 r2 => ?_⟩
      rcases Nat.eq_or_lt_of_le r1 with rfl | r1
      · exact hf
      · exact g4 r r1 r2

/-- No decimal with at most `p` digits lies strictly between the two candidates. -/
theorem outside {N L p c : Nat} {e : Int} (hN : 10 ^ (L - 1) ≤ N) (hp : 1 ≤ p) (hpL : p ≤ L)
    (hc : c < 10 ^ p) :
    (c : ℚ) * 10 ^ e ≤ ((N / 10 ^ (L - p) * 10 ^ (L - p) : Nat) : ℚ) ∨
    ((N / 10 ^ (L - p) * 10 ^ (L - p) + 10 ^ (L - p) : Nat) : ℚ) ≤ (c : ℚ) * 10 ^ e := by
  rcases lt_or_ge e ((L : Int) - p) with he | he
  · left
    have h1 : (c : ℚ) * 10 ^ e ≤ ((10 ^ (L - 1) : Nat) : ℚ) := by
      have hc' : (c : ℚ) ≤ (10 : ℚ) ^ (p : Int) := by
        rw [zpow_natCast]; exact_mod_cast le_of_lt hc
      calc (c : ℚ) * 10 ^ e ≤ (10 : ℚ) ^ (p : Int) * 10 ^ e := mul_le_mul_of_nonneg_right hc' (zpow_nonneg (by norm_num) _)
        _ = (10 : ℚ) ^ ((p : Int) + e) := (zpow_add₀ (by norm_num) _ _).symm
        _ ≤ (10 : ℚ) ^ (((L - 1 : Nat)) : Int) := by
            apply zpow_le_zpow_right₀ (by norm_num); omega
        _ = _ := by rw [zpow_natCast]; push_cast; rfl
    have h2 : 10 ^ (L - 1) ≤ N / 10 ^ (L - p) * 10 ^ (L - p) := by
      have e1 : 10 ^ (L - 1) = 10 ^ (p - 1) * 10 ^ (L - p) := by rw [← pow_add]; congr 1; omega
      rw [e1] at hN ⊢
      apply Nat.mul_le_mul_right
      exact (Nat.le_div_iff_mul_le (Nat.pow_pos (by decide))).mpr hN
    exact le_trans h1 (by exact_mod_cast h2)
  · obtain ⟨k, hk⟩ : ∃ k : Nat, e = ((L - p : Nat) : Int) + k := ⟨(e - (L - p : Nat)).toNat, by omega⟩
    have hv : (c : ℚ) * 10 ^ e = ((c * 10 ^ k * 10 ^ (L - p) : Nat) : ℚ) := by
      rw [hk, zpow_add₀ (by norm_num), zpow_natCast, zpow_natCast]; push_cast; ring
    rw [hv]
    generalize c * 10 ^ k = j
    generalize 10 ^ (L - p) = u
    rcases Nat.lt_or_ge (N / u) j with h | h
    · right
      have : (N / u + 1) * u ≤ j * u := Nat.mul_le_mul_right _ h
      have e2 : (N / u + 1) * u = N / u * u + u := by ring
      exact_mod_cast (by omega : N / u * u + u ≤ j * u)
    · left
      exact_mod_cast Nat.mul_le_mul_right u h

section
variable {rd : Nat → Bool} {R : ℚ → Prop} {N L : Nat}

/-- The candidates at `p` digits are on both sides of `N`. -/
theorem around (N L p : Nat) : N / 10 ^ (L - p) * 10 ^ (L - p) ≤ N ∧ N < N / 10 ^ (L - p) * 10 ^ (L - p) + 10 ^ (L - p) := by
  have h0 : 0 < 10 ^ (L - p) := Nat.pow_pos (by decide)
  have h1 := Nat.div_add_mod N (10 ^ (L - p))
  have h2 := Nat.mod_lt N h0
  rw [mul_comm] at h1
  omega

/-- If a decimal with at most `p` digits reads back, one of the candidates does. -/
theorem cand_some (hconv : ∀ a b c, R a → R c → a ≤ b → b ≤ c → R b) (hrd : ∀ D : Nat, rd D = true ↔ R D) (hRN : R N)
    (hN : 10 ^ (L - 1) ≤ N) {p c : Nat} {e : Int} (hp : 1 ≤ p) (hpL : p ≤ L) (hc : c < 10 ^ p)
    (hR : R ((c : ℚ) * 10 ^ e)) : cand rd N L p ≠ none := by
  obtain ⟨a1, a2⟩ := around N L p
  have := outside (e := e) hN hp hpL hc
  unfold cand
  simp only
  generalize N / 10 ^ (L - p) * 10 ^ (L - p) = lo at *
  generalize 10 ^ (L - p) = u at *
  have h : rd lo = true ∨ rd (lo + u) = true := by
    rcases this with h | h
    · left
      exact (hrd _).mpr (hconv _ _ _ hR hRN h (by exact_mod_cast a1))
    · right
      exact (hrd _).mpr (hconv _ _ _ hRN hR (by exact_mod_cast le_of_lt a2) h)
  rcases h with h | h <;> cases h1 : rd lo <;> cases h2 : rd (lo + u) <;> simp_all <;> split <;> simp

/-- The chosen candidate is the nearest of all decimals with at most `p` digits that read back; of two equally near ones
it is the larger. -/
theorem cand_nearest (hconv : ∀ a b c, R a → R c → a ≤ b → b ≤ c → R b) (hrd : ∀ D : Nat, rd D = true ↔ R D) (hRN : R N)
    (hN : 10 ^ (L - 1) ≤ N) {p c D : Nat} {e : Int} (hp : 1 ≤ p) (hpL : p ≤ L) (hc : c < 10 ^ p)
    (hR : R ((c : ℚ) * 10 ^ e)) (hD : cand rd N L p = some D) :
    |(D : ℚ) - N| ≤ |(c : ℚ) * 10 ^ e - N| ∧
    (|(D : ℚ) - N| = |(c : ℚ) * 10 ^ e - N| → (c : ℚ) * 10 ^ e ≤ D) := by
  obtain ⟨a1, a2⟩ := around N L p
  have hout := outside (e := e) hN hp hpL hc
  unfold cand at hD
  simp only at hD
  generalize N / 10 ^ (L - p) * 10 ^ (L - p) = lo at *
  generalize 10 ^ (L - p) = u at *
  generalize (c : ℚ) * 10 ^ e = v at *
  have b1 : (lo : ℚ) ≤ N := by exact_mod_cast a1
  have b2 : (N : ℚ) < (lo : ℚ) + u := by exact_mod_cast a2
  have dlo : |(lo : ℚ) - N| = N - lo := by rw [abs_sub_comm]; exact abs_of_nonneg (by linarith)
  have dhi : |((lo + u : Nat) : ℚ) - N| = (lo : ℚ) + u - N := by
    push_cast; exact abs_of_nonneg (by linarith)
  have vlo : v ≤ lo → |v - N| = N - v := fun h => by rw [abs_sub_comm]; exact abs_of_nonneg (by linarith)
  have vhi : ((lo + u : Nat) : ℚ) ≤ v → |v - N| = v - N := fun h => by
    push_cast at h; exact abs_of_nonneg (by linarith)
  have rlo : v ≤ lo → rd lo = true := fun h => (hrd _).mpr (hconv _ _ _ hR hRN h b1)
  have rhi : ((lo + u : Nat) : ℚ) ≤ v → rd (lo + u) = true := fun h =>
    (hrd _).mpr (hconv _ _ _ hRN hR (by push_cast; exact le_of_lt b2) h)
  split at hD
  · split at hD <;> rename_i hlt
    · obtain rfl : lo = D := by simpa using hD
      have q : (N : ℚ) - lo < (lo : ℚ) + u - N := by
        have : (N - lo) + N < lo + u := by omega
        have : ((N - lo : Nat) : ℚ) + N < lo + u := by exact_mod_cast this
        rw [Nat.cast_sub a1] at this
        linarith
      rcases hout with h | h
      · rw [dlo, vlo h]; exact ⟨by linarith, fun _ => h⟩
      · rw [dlo, vhi h]; push_cast at h; exact ⟨by linarith, fun e => by linarith⟩
    · obtain rfl : lo + u = D := by simpa using hD
      have q : (lo : ℚ) + u - N ≤ (N : ℚ) - lo := by
        have : lo + u ≤ (N - lo) + N := by omega
        have : (lo : ℚ) + u ≤ ((N - lo : Nat) : ℚ) + N := by exact_mod_cast this
        rw [Nat.cast_sub a1] at this
        linarith
      rcases hout with h | h
      · rw [dhi, vlo h]; push_cast; exact ⟨by linarith, fun _ => by linarith⟩
      · rw [dhi, vhi h]; push_cast at h ⊢; exact ⟨by linarith, fun _ => by linarith⟩
  · rename_i hboth
    split at hD
    · rename_i h1
      obtain rfl : lo = D := by simpa using hD
      rcases hout with h | h
      · rw [dlo, vlo h]; exact ⟨by linarith, fun _ => h⟩
      · exact absurd (rhi h) (by simp_all)
    · rename_i h1
      split at hD
      · obtain rfl : lo + u = D := by simpa using hD
        rcases hout with h | h
        · exact absurd (rlo h) (by simp_all)
        · rw [dhi, vhi h]; push_cast at h ⊢; exact ⟨by linarith, fun _ => by linarith⟩
      · cases hD

theorem cand_form {p D : Nat} (hN' : N < 10 ^ L) (hp : 1 ≤ p) (hpL : p ≤ L) (hD : cand rd N L p = some D) :
    ∃ c e, c < 10 ^ p ∧ D = c * 10 ^ e := by
  have hj : ∀ j, j ≤ 10 ^ p → ∃ c e, c < 10 ^ p ∧ j * 10 ^ (L - p) = c * 10 ^ e := by
    intro j hj
    rcases Nat.eq_or_lt_of_le hj with rfl | h
    · exact ⟨1, L, Nat.one_lt_pow (by omega) (by decide), by rw [← pow_add, one_mul]; congr 1; omega⟩
    · exact ⟨j, _, h, rfl⟩
  have hq : N / 10 ^ (L - p) < 10 ^ p := by
    rw [Nat.div_lt_iff_lt_mul (Nat.pow_pos (by decide)), ← pow_add, show p + (L - p) = L by omega]
    exact hN'
  have hcases : D = N / 10 ^ (L - p) * 10 ^ (L - p) ∨ D = N / 10 ^ (L - p) * 10 ^ (L - p) + 10 ^ (L - p) := by
    unfold cand at hD
    simp only at hD
    split at hD
    · split at hD
      · left; simpa using hD.symm
      · right; simpa using hD.symm
    · split at hD
      · left; simpa using hD.symm
      · split at hD
        · right; simpa using hD.symm
        · cases hD
  rcases hcases with rfl | rfl
  · exact hj _ (le_of_lt hq)
  · rw [show N / 10 ^ (L - p) * 10 ^ (L - p) + 10 ^ (L - p) = (N / 10 ^ (L - p) + 1) * 10 ^ (L - p) by ring]
    exact hj _ hq

/-- What the search finds: a decimal with the fewest digits of all that read back, the nearest of those, and of two
equally near ones the larger. -/
theorem search_best (hconv : ∀ a b c, R a → R c → a ≤ b → b ≤ c → R b) (hrd : ∀ D : Nat, rd D = true ↔ R D) (hRN : R N)
    (hN : 10 ^ (L - 1) ≤ N) (hN' : N < 10 ^ L) {P : Nat} (hP : 1 ≤ P) (hPL : P ≤ L) (hfin : cand rd N L P ≠ none) :
    ∃ p : Nat, 1 ≤ p ∧ p ≤ P ∧
      (∃ c e, c < 10 ^ p ∧ searchFrom (cand rd N L) N P 1 = c * 10 ^ e) ∧
      R (searchFrom (cand rd N L) N P 1 : Nat) ∧
      ∀ (q c : Nat) (e : Int), c < 10 ^ q → 1 ≤ q → R ((c : ℚ) * 10 ^ e) → p ≤ q ∧
        (q = p → |((searchFrom (cand rd N L) N P 1 : Nat) : ℚ) - N| ≤ |(c : ℚ) * 10 ^ e - N| ∧
          (|((searchFrom (cand rd N L) N P 1 : Nat) : ℚ) - N| = |(c : ℚ) * 10 ^ e - N| →
            (c : ℚ) * 10 ^ e ≤ (searchFrom (cand rd N L) N P 1 : Nat))) := by
  obtain ⟨p, h1, h2, h3, h4⟩ := search_spec (cand rd N L) N P 1 ⟨P, hP, by omega, hfin⟩
  refine ⟨p, h1, by omega, cand_form hN' h1 (by omega) h3, ?_, ?_⟩
  · rw [← hrd]
    generalize searchFrom (cand rd N L) N P 1 = D at h3
    unfold cand at h3
    simp only at h3
    split at h3
    · rename_i hb
      simp only [Bool.and_eq_true] at hb
      split at h3
      · obtain rfl := by simpa using h3
        exact hb.1
      · obtain rfl := by simpa using h3
        exact hb.2
    · split at h3
      · rename_i hb; obtain rfl := by simpa using h3
        exact hb
      · split at h3
        · rename_i hb; obtain rfl := by simpa using h3
          exact hb
        · cases h3
  · intro q c e hc hq hR
    have hle : p ≤ q := by
      by_contra hlt
      exact cand_some hconv hrd hRN hN hq (by omega) hc hR (h4 q hq (by omega))
    refine ⟨hle, ?_⟩
    rintro rfl
    exact cand_nearest hconv hrd hRN hN h1 (by omega) hc hR h3

end

end KS.Sh
