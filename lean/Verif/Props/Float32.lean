import Verif.Lemmas.F32
/-!
# C47: `f32` values in a Kserd

`Kserd::new_num(x: f32)` (and so serde encoding) stores the `f64` read from the decimal text of `x`;
decoding rounds that `f64` back with `as f32`.
-/

namespace KS.Props

open F32

set_option exponentiation.threshold 3000

/-- Even significand: the integer in front of the power of two that makes up the magnitude. -/
def evenSignificand (m : Nat) : Prop := m / 2 ^ (m.log2 - 23) % 2 = 0

instance (m : Nat) : Decidable (evenSignificand m) := by unfold evenSignificand; infer_instance

/-- C47. The `expect` of `f32_to_f64` never panics. -/
theorem C47_never_panics (f : F32) : (F32.toF64? f).isSome = true := by
  cases f with
  | nan s p => rfl
  | inf s => cases s <;> decide
  | fin s m => rw [toF64?_fin]; rfl

section
attribute [local irreducible] F32.scale F32.magLimit F32.roundTo F32.decScale F32.decExact F32.shortest
  F64.magLimit F64.roundTo

theorem scale_rel : F64.scale = F32.scale * 2 ^ 925 := by decide +kernel

theorem magLimit_rel : F32.magLimit * 2 ^ 1000 ≤ F64.magLimit := by decide +kernel

theorem magLimit_def : F32.magLimit = 2 ^ 277 := by unfold F32.magLimit; rfl

theorem rep64_of {k e : Nat} (hk : k < 2 ^ 25) (hlim : k * 2 ^ e < F64.magLimit) :
    F64.RepMag (k * 2 ^ e) := by
  refine ⟨hlim, ?_⟩
  rcases Nat.eq_zero_or_pos k with rfl | h0
  · simp
  · rw [F64.log2_mul_pow (by omega)]
    have := F64.log2_lt_of_lt hk (by decide)
    exact dvd_trans (pow_dvd_pow 2 (by omega)) (Dvd.intro_left _ rfl)

theorem unit_mul {m : Nat} (hm : F32.RepMag m) : ∃ k, m = ulp m * k ∧ k < 2 ^ 24 := by
  obtain ⟨k, hk⟩ := hm.2
  refine ⟨k, hk, ?_⟩
  by_contra hc
  have h1 : 2 ^ (m.log2 - 23) * 2 ^ 24 ≤ m := by
    calc _ ≤ 2 ^ (m.log2 - 23) * k := Nat.mul_le_mul_left _ (by omega)
      _ = m := hk.symm
  have h2 := Nat.lt_log2_self (n := m)
  rw [← pow_add] at h1
  have : m.log2 + 1 ≤ m.log2 - 23 + 24 := by omega
  have := Nat.pow_le_pow_right (n := 2) (by decide) this
  omega

/-- Where the `f64` read from the text of an `f32` lies: inside the closed rounding interval of the `f32`. -/
theorem toF64_between (s : Bool) (m : Nat) (hm : F32.RepMag m) :
    ∃ M, F32.toF64 (.fin s m) = .fin s M ∧ M ≤ (2 * m + ulp m) * 2 ^ 924 ∧
      (0 < m → 2 * m * 2 ^ 924 ≤ M + ulp (m - 1) * 2 ^ 924) := by
  have hread := F32.shortest_reads m hm
  have hR : F32.roundTo (shortest m) decScale = m := by
    rw [F32.ofRat_eq] at hread
    split at hread
    · cases hread
    · simpa using hread
  have hup := roundTo_upper (n := shortest m) F32.decScale_pos
  have hlo := roundTo_lower (n := shortest m) F32.decScale_pos
  rw [hR] at hup hlo
  generalize hD : shortest m = D at *
  obtain ⟨k, hk, hk24⟩ := unit_mul hm
  have hum : ulp m ≤ 2 ^ 277 := by
    rcases Nat.eq_zero_or_pos m with rfl | h0
    · decide
    · have := Nat.log2_self_le (n := m) (by omega)
      have h1 := hm.1
      rw [magLimit_def] at h1
      have : ulp m ≤ 2 ^ m.log2 := Nat.pow_le_pow_right (by decide) (by omega)
      omega
  have hlim : (2 * m + ulp m) * 2 ^ 924 < F64.magLimit := by
    have h1 := hm.1
    have h2 := magLimit_rel
    rw [magLimit_def] at h1 h2
    calc (2 * m + ulp m) * 2 ^ 924 < 2 ^ 279 * 2 ^ 924 := by
          apply Nat.mul_lt_mul_of_pos_right _ (Nat.pow_pos (by decide))
          have : (2:Nat) ^ 279 = 2 ^ 277 * 4 := by rw [show (279:Nat) = 277 + 2 from rfl, pow_add]; rfl
          omega
      _ = 2 ^ 1203 := by rw [← pow_add]
      _ ≤ 2 ^ 277 * 2 ^ 1000 := by rw [← pow_add]; exact Nat.pow_le_pow_right (by decide) (by decide)
      _ ≤ _ := h2
  have hrep1 : F64.RepMag ((2 * m + ulp m) * 2 ^ 924) := by
    have e : (2 * m + ulp m) * 2 ^ 924 = (2 * k + 1) * 2 ^ (m.log2 - 23 + 924) := by
      rw [pow_add]
      have : 2 * m + ulp m = (2 * k + 1) * 2 ^ (m.log2 - 23) := by
        change _ = (2 * k + 1) * ulp m
        calc 2 * m + ulp m = 2 * (ulp m * k) + ulp m := by omega
          _ = _ := by ring
      rw [this]; ring
    rw [e] at hlim ⊢
    exact rep64_of (by omega) hlim
  have hle : F64.roundTo D F32.decScale ≤ (2 * m + ulp m) * 2 ^ 924 := by
    apply F64.roundTo_le F32.decScale_pos hrep1
    rw [scale_rel]
    calc D * (F32.scale * 2 ^ 925) = 2 * (D * F32.scale) * 2 ^ 924 := by rw [show (925:Nat) = 924 + 1 from rfl, pow_succ]; ring
      _ ≤ (2 * m + ulp m) * decScale * 2 ^ 924 := Nat.mul_le_mul_right _ hup
      _ = _ := by ring
  refine ⟨F64.roundTo D F32.decScale, ?_, hle, ?_⟩
  · unfold F32.toF64
    rw [toF64?_fin, hD, F64.ofRat_eq, if_neg]
    · rfl
    · omega
  · intro h0
    have hlo := hlo h0
    have hl : 0 < ulp (m - 1) := ulp_pos _
    have hdvd : ulp (m - 1) ∣ ulp m := by
      apply pow_dvd_pow
      have := F64.log2_mono (show m - 1 ≤ m by omega)
      omega
    obtain ⟨j, hj⟩ : ulp (m - 1) ∣ m := dvd_trans hdvd (Dvd.intro _ hk.symm)
    have hj24 : j ≤ 2 ^ 24 := by
      have h2 := Nat.lt_log2_self (n := m - 1)
      have h1 : m ≤ ulp (m - 1) * 2 ^ 24 := by
        have : 2 ^ ((m - 1).log2 + 1) ≤ 2 ^ ((m - 1).log2 - 23 + 24) :=
          Nat.pow_le_pow_right (by decide) (by omega)
        rw [pow_add _ _ 24] at this
        change _ ≤ ulp (m - 1) * _ at this
        omega
      exact Nat.le_of_mul_le_mul_left (hj ▸ h1 : ulp (m - 1) * j ≤ ulp (m - 1) * 2 ^ 24) hl
    have hj0 : 0 < j := by
      rcases Nat.eq_zero_or_pos j with rfl | h
      · simp at hj; omega
      · exact h
    have hlm : ulp (m - 1) ≤ m := by
      calc ulp (m - 1) = ulp (m - 1) * 1 := by ring
        _ ≤ ulp (m - 1) * j := Nat.mul_le_mul_left _ hj0
        _ = m := hj.symm
    have e0 : 2 * m - ulp (m - 1) = (2 * j - 1) * ulp (m - 1) := by
      have : 2 * m = (2 * j - 1) * ulp (m - 1) + ulp (m - 1) := by
        obtain ⟨i, rfl⟩ : ∃ i, j = i + 1 := ⟨j - 1, by omega⟩
        calc 2 * m = 2 * (ulp (m - 1) * (i + 1)) := by omega
          _ = (2 * i + 1) * ulp (m - 1) + ulp (m - 1) := by ring
          _ = _ := by rw [show 2 * (i + 1) - 1 = 2 * i + 1 by omega]
      omega
    have hlim2 : (2 * m - ulp (m - 1)) * 2 ^ 924 < F64.magLimit :=
      lt_of_le_of_lt (Nat.mul_le_mul_right _ (by omega)) hlim
    have hrep2 : F64.RepMag ((2 * m - ulp (m - 1)) * 2 ^ 924) := by
      have e : (2 * m - ulp (m - 1)) * 2 ^ 924 = (2 * j - 1) * 2 ^ ((m - 1).log2 - 23 + 924) := by
        rw [e0, pow_add]; unfold ulp; ring
      rw [e] at hlim2 ⊢
      exact rep64_of (by omega) hlim2
    have hge : (2 * m - ulp (m - 1)) * 2 ^ 924 ≤ F64.roundTo D F32.decScale := by
      apply F64.roundTo_ge F32.decScale_pos hrep2
      rw [scale_rel]
      have h5 : (2 * m - ulp (m - 1)) * decScale ≤ 2 * (D * F32.scale) := by
        rw [Nat.sub_mul]; omega
      calc (2 * m - ulp (m - 1)) * 2 ^ 924 * decScale = (2 * m - ulp (m - 1)) * decScale * 2 ^ 924 := by ring
        _ ≤ 2 * (D * F32.scale) * 2 ^ 924 := Nat.mul_le_mul_right _ h5
        _ = _ := by rw [show (925:Nat) = 924 + 1 from rfl, pow_succ]; ring
    rw [Nat.sub_mul] at hge
    omega
end

section
attribute [local irreducible] F32.scale F32.magLimit F32.roundTo F32.decScale F32.decExact F32.shortest
  F64.magLimit F64.roundTo F32.toF64

/-- C47. An `f32` stored in a Kserd and decoded again as `f32` is unchanged unless the `f64` read from its text
is exactly halfway to a neighbouring `f32` and its significand is odd. `2^924` relates the two scales:
`x = m / 2^149 = m * 2^925 / 2^1074`.
Missing for a full characterisation: which `f32`s have such a text (`C47_lost` shows one that does); `C47_exact` gives the rest. -/
theorem C47_survives_partial (s : Bool) (m : Nat) (hm : F32.WF (.fin s m))
    (h : evenSignificand m ∨ (F32.toF64 (.fin s m) ≠ .fin s ((2 * m + 2 ^ (m.log2 - 23)) * 2 ^ 924) ∧
      F32.toF64 (.fin s m) ≠ .fin s ((2 * m - 2 ^ ((m - 1).log2 - 23)) * 2 ^ 924))) :
    F32.ofF64 (F32.toF64 (.fin s m)) = .fin s m := by
  obtain ⟨M, hM, h1, h2⟩ := toF64_between s m hm
  rw [hM] at h ⊢
  simp only [ne_eq, F64.fin.injEq, true_and] at h
  change evenSignificand m ∨ (¬ M = (2 * m + ulp m) * 2 ^ 924 ∧ ¬ M = (2 * m - ulp (m - 1)) * 2 ^ 924) at h
  have hround : F32.roundTo M F64.scale = m := by
    have e : 2 * (M * F32.scale) * 2 ^ 924 = M * F64.scale := by
      rw [scale_rel, show (925:Nat) = 924 + 1 from rfl, pow_succ]; ring
    have hp : 0 < (2:Nat) ^ 924 := Nat.pow_pos (by decide)
    have hs : 0 < F64.scale := F64.scale_pos
    have ea : ∀ x : Nat, x * F64.scale * 2 ^ 924 = x * 2 ^ 924 * F64.scale := by intro x; ring
    apply roundTo_of_near hs hm
    · apply Nat.le_of_mul_le_mul_right _ hp
      rw [e, ea]
      exact Nat.mul_le_mul_right _ h1
    · intro h0
      apply Nat.le_of_mul_le_mul_right _ hp
      rw [Nat.add_mul, e, ea, ea, ← Nat.add_mul]
      exact Nat.mul_le_mul_right _ (h2 h0)
    · rcases h with h | ⟨h3, h4⟩
      · exact Or.inl h
      · right
        constructor
        · apply Nat.lt_of_mul_lt_mul_right (a := 2 ^ 924)
          rw [e, ea]
          exact Nat.mul_lt_mul_of_pos_right (by omega) hs
        · intro h0
          have h2 := h2 h0
          apply Nat.lt_of_mul_lt_mul_right (a := 2 ^ 924)
          rw [Nat.add_mul, e, ea, ea, ← Nat.add_mul]
          apply Nat.mul_lt_mul_of_pos_right _ hs
          rw [Nat.sub_mul] at h4
          omega
  unfold F32.ofF64
  simp only
  rw [F32.ofRat_eq, hround, if_neg (by have := hm.1; omega)]
end

/-- C47. Infinities survive; NaNs come back as the (positive) NaN. -/
theorem C47_special (s : Bool) (p : Nat) :
    F32.ofF64 (F32.toF64 (.inf s)) = .inf s ∧ F32.ofF64 (F32.toF64 (.nan s p)) = .nan false (2 ^ 22) := by
  refine ⟨by cases s <;> decide, rfl⟩

/-- C47, negation: `7.038531e-26_f32` comes back as the next larger `f32`, `7.0385313e-26`. -/
theorem C47_lost : F32.WF (.fin false (11420669 * 2 ^ 42)) ∧
    F32.disp (.fin false (11420669 * 2 ^ 42)) = str "0.00000000000000000000000007038531" ∧
    F32.ofF64 (F32.toF64 (.fin false (11420669 * 2 ^ 42))) = .fin false (11420670 * 2 ^ 42) := by
  decide +kernel

example : F32.WF (.fin false (13421774 * 2 ^ 122)) ∧ evenSignificand (13421774 * 2 ^ 122) ∧
    F32.disp (.fin false (13421774 * 2 ^ 122)) = str "0.10000001" := by decide +kernel

end KS.Props
