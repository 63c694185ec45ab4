import Verif.Props.EqExact
/-!
# C03: the bound on the distance from an integer is the right one
-/

namespace KS.Props
open KS.Spec

section
attribute [local irreducible] F64.scale Spec.one F64.magLimit F64.eps F64.roundTo

/-- **C03.** Below `2^53`, the floats that `C03_equivalence_partial` is about are all on which an integer equals the float exactly if it has its value.
So nothing closer to an integer could be let in, and nothing farther away is left out. -/
theorem C03_tame_exact (s : Bool) (m : Nat) (hw : (F64.fin s m).WF) (hm : (m : Int) < 2 ^ 53 * one) :
    tame (.float (.fin s m)) ↔
      ∀ i : Int, (Number.int i).WF → (Number.eq (.int i) (.float (.fin s m)) = true ↔ place (.int i) = place (.float (.fin s m))) := by
  constructor
  · intro ht i hi
    exact eq_tame _ _ hi hw trivial ht
  · intro h
    refine ⟨hm, ?_⟩
    by_contra hc
    obtain ⟨h1, h2⟩ := not_or.mp hc
    obtain ⟨k, hk⟩ := not_forall.mp h2
    have hk : ((m : Int) - (k : Int) * one).natAbs < F64.eps := by
      have e : F64.eps = 7737125245533627 * 2 ^ 988 := eps_def
      omega
    have hr := round_unique m k hk
    have hn : Number.nearInt m = true := by rw [near_iff, hr]; exact hk
    have hle : (k : Int) ≤ 2 ^ 53 := by
      by_contra hgt
      have e1 : (2 ^ 53 + 1) * one ≤ (k : Int) * one := mul_le_mul_of_nonneg_right (by omega) (le_of_lt one_pos)
      have e2 := eps_lt
      have e3 := scale_one
      have e4 : ((2 : Int) ^ 53 + 1) * one = 2 ^ 53 * one + one := by ring
      omega
    have hwf : (Number.int (F64.sval s k)).WF := by
      change i128Min ≤ _ ∧ _ ≤ i128Max
      have hM : i128Max = 2 ^ 127 - 1 := rfl
      have hL : i128Min = - 2 ^ 127 := rfl
      cases s <;> simp only [F64.sval, Bool.false_eq_true, if_false, if_true] <;> omega
    have he : Number.eq (.int (F64.sval s k)) (.float (.fin s m)) = true := by
      have hsat : Number.satI128 (F64.sval s k) = F64.sval s k := by
        obtain ⟨a, b⟩ : i128Min ≤ F64.sval s k ∧ F64.sval s k ≤ i128Max := hwf
        unfold Number.satI128
        generalize F64.sval s k = x at *
        omega
      simp only [Number.eq, Number.asI128, hn, hr, if_true, hsat, Option.map_some, Option.getD_some, beq_self_eq_true]
    have hp := (h _ hwf).mp he
    rw [place, place, placeF_fin, Place.fin.injEq] at hp
    refine h1 ⟨k, ?_⟩
    cases s <;> simp only [F64.sval, Bool.false_eq_true, if_false, if_true] at hp
    · exact hp.symm
    · rw [neg_mul] at hp
      omega
end

/-- Both sides of the bound: `1e-10` is not equal to 0, the float next below it is. -/
example : Number.eq (.int 0) (.float (.fin false (7737125245533627 * 2 ^ 988))) = false ∧
    Number.eq (.int 0) (.float (.fin false (7737125245533626 * 2 ^ 988))) = true ∧
    (F64.fin false (7737125245533626 * 2 ^ 988)).WF ∧ ((7737125245533626 * 2 ^ 988 : Nat) : Int) < 2 ^ 53 * one := by
  decide +kernel

/-- `2^53 + 2` as a float. Its neighbours are `2^53` and `2^53 + 4`, and the integers halfway between are rounded to those. -/
def beyond : F64 := .fin false ((2 ^ 53 + 2) * 2 ^ 1074)

theorem ofRat_beyond (neg : Bool) (n : Nat) (h : n ≤ 2 ^ 128) :
    ∃ m, F64.ofRat neg n 1 = .fin neg m ∧ (m = (2 ^ 53 + 2) * F64.scale ↔ n = 2 ^ 53 + 2) := by
  have hle : F64.roundTo n 1 ≤ 2 ^ 128 * F64.scale :=
    F64.roundTo_le (by decide) (F64.repMag_pow (by decide)) (by rw [Nat.mul_one]; exact Nat.mul_le_mul_right _ h)
  have hlim : 2 ^ 128 * F64.scale < F64.magLimit := (F64.repMag_pow (k := 128) (by decide)).1
  refine ⟨F64.roundTo n 1, by rw [F64.ofRat_eq, if_neg (Nat.not_le.mpr (Nat.lt_of_le_of_lt hle hlim))], ?_, ?_⟩
  · intro hm
    have e1 : F64.roundTo (2 ^ 53 + 1) 1 ≠ (2 ^ 53 + 2) * F64.scale := by decide +kernel
    have e3 : F64.roundTo (2 ^ 53 + 3) 1 ≠ (2 ^ 53 + 2) * F64.scale := by decide +kernel
    have l1 : 2 ^ 53 * F64.scale < (2 ^ 53 + 2) * F64.scale := by decide +kernel
    have l2 : (2 ^ 53 + 2) * F64.scale < (2 ^ 53 + 4) * F64.scale := by decide +kernel
    have r2 : F64.RepMag ((2 ^ 53 + 4) * F64.scale) := by
      refine ⟨by decide +kernel, ?_⟩
      decide +kernel
    by_contra hne
    have hn : n ≤ 2 ^ 53 ∨ n = 2 ^ 53 + 1 ∨ n = 2 ^ 53 + 3 ∨ 2 ^ 53 + 4 ≤ n := by omega
    rcases hn with hn | rfl | rfl | hn
    · have := F64.roundTo_le (n := n) (d := 1) (by decide) (F64.repMag_pow (k := 53) (by decide)) (by rw [Nat.mul_one]; exact Nat.mul_le_mul_right _ hn)
      rw [hm] at this
      exact absurd (Nat.lt_of_lt_of_le l1 this) (Nat.lt_irrefl _)
    · exact e1 hm
    · exact e3 hm
    · have := F64.roundTo_ge (n := n) (d := 1) (by decide) r2 (by rw [Nat.mul_one]; exact Nat.mul_le_mul_right _ hn)
      rw [hm] at this
      exact absurd (Nat.lt_of_lt_of_le l2 this) (Nat.lt_irrefl _)
  · rintro rfl
    decide +kernel

/-- **C03.** From `2^53` on the condition leaves out some floats on which equality with integers is exact: `2^53 + 2` is one. -/
theorem C03_beyond : beyond.WF ∧ ¬ tame (.float beyond) ∧ ∀ (b : Number) (i : Int), b.WF → intVal b = some i →
    (Number.eq (.float beyond) b = true ↔ i = 2 ^ 53 + 2) ∧ (Number.eq b (.float beyond) = true ↔ i = 2 ^ 53 + 2) := by
  refine ⟨by decide +kernel, ?_, ?_⟩
  · rintro ⟨h, _⟩
    revert h
    decide +kernel
  · intro b i hb hi
    have hr : i.natAbs ≤ 2 ^ 128 := by
      have hU : u128Max = 2 ^ 128 - 1 := rfl
      have hM : i128Max = 2 ^ 127 - 1 := rfl
      have hL : i128Min = - 2 ^ 127 := rfl
      cases b with
      | uint n => cases hi; have : n ≤ u128Max := hb; omega
      | int j => cases hi; obtain ⟨h1, h2⟩ : i128Min ≤ i ∧ i ≤ i128Max := hb; omega
      | float f => cases hi
    constructor
    · obtain ⟨m, h1, h2⟩ := ofRat_beyond (decide (i < 0)) i.natAbs hr
      have hs : (2 ^ 53 + 2) * F64.scale = (2 ^ 53 + 2) * 2 ^ 1074 := by decide +kernel
      have hpos : 0 < (2 ^ 53 + 2) * F64.scale := by decide +kernel
      rw [float_eq_int beyond b i hi, F64.ofInt, h1, beyond, ← hs]
      generalize (2 ^ 53 + 2) * F64.scale = B at h2 hpos
      by_cases hneg : i < 0
      · rw [decide_eq_true hneg]
        simp only [placeF, Place.fin.injEq]
        omega
      · rw [decide_eq_false hneg]
        simp only [placeF, Place.fin.injEq]
        constructor
        · intro h
          have := h2.mp (by omega)
          omega
        · intro h
          have := h2.mpr (by omega)
          omega
    · have hu : Number.asU128 (.float beyond) = some (2 ^ 53 + 2) := by decide +kernel
      have hj : Number.asI128 (.float beyond) = some (2 ^ 53 + 2) := by decide +kernel
      cases b with
      | uint n =>
        cases hi
        simp only [Number.eq, hu, Option.map_some, Option.getD_some, beq_iff_eq]
        omega
      | int j =>
        cases hi
        simp only [Number.eq, hj, Option.map_some, Option.getD_some, beq_iff_eq]
      | float f => cases hi

/-- Its even neighbour is equal to an integer next to it. -/
example : Number.eq (.float (.fin false (2 ^ 53 * 2 ^ 1074))) (.uint (2 ^ 53 + 1)) = true ∧ Number.eq (.float beyond) (.uint (2 ^ 53 + 1)) = false := by
  decide +kernel

end KS.Props
