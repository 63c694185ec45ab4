import Verif.Lemmas.Num
namespace KS
open Spec

theorem eps_def : F64.eps = 7737125245533627 * 2 ^ 988 := by decide +kernel

attribute [local irreducible] F64.scale Spec.one F64.magLimit F64.eps F64.roundTo

theorem satU128_nat (r : Nat) : Number.satU128 (r : Int) = min r u128Max := by
  unfold Number.satU128; rw [Int.toNat_natCast]

theorem int_mul_one {k : Nat} {m : Nat} (h : (m : Int) = k * one) : m = k * F64.scale := by
  rw [← scale_one] at h; exact_mod_cast h

theorem tame_near {s : Bool} {m : Nat} (h : tameF (.fin s m)) :
    (∃ k, m = k * F64.scale ∧ k < 2 ^ 53 ∧ Number.nearInt m = true ∧ F64.roundMag m = k) ∨
    (Number.nearInt m = false ∧ ∀ k : Int, F64.sval s m ≠ k * one) := by
  obtain ⟨h1, ⟨k, hk⟩ | h2⟩ := h
  · left
    have hk' := int_mul_one hk
    refine ⟨k, hk', ?_, by rw [hk', near_int], by rw [hk', round_int]⟩
    rw [hk] at h1
    have : (k : Int) < 2 ^ 53 := lt_of_mul_lt_mul_right h1 one_pos.le
    exact_mod_cast this
  · right
    constructor
    · rw [← Bool.not_eq_true, near_iff]
      have := h2 (F64.roundMag m)
      have e : F64.eps = 7737125245533627 * 2 ^ 988 := eps_def
      omega
    · intro k hk
      have hk' : (m : Int) = (k.natAbs : Int) * one := by
        have ho := one_pos
        cases s
        · simp only [F64.sval, Bool.false_eq_true, if_false] at hk
          have : 0 ≤ k := by
            by_contra hneg
            have : k * one < 0 := Int.mul_neg_of_neg_of_pos (by omega) ho
            omega
          rw [hk]; congr 1; omega
        · simp only [F64.sval, if_true] at hk
          have : k ≤ 0 := by
            by_contra hneg
            have : 0 < k * one := Int.mul_pos (by omega) ho
            omega
          have e : ((k.natAbs : Nat) : Int) = -k := by omega
          rw [e]
          have : -k * one = -(k * one) := by ring
          omega
      have := h2 k.natAbs
      rw [hk'] at this
      simp at this

theorem placeF_fin (s : Bool) (m : Nat) : placeF (.fin s m) = .fin (F64.sval s m) := by
  cases s <;> rfl

theorem mul_one_inj {a b : Int} : a * one = b * one ↔ a = b :=
  ⟨fun h => Int.eq_of_mul_eq_mul_right (ne_of_gt one_pos) h, fun h => by rw [h]⟩

theorem sval_int (s : Bool) (k : Nat) : F64.sval s (k * F64.scale) = (F64.sval s k) * one := by
  rw [← scale_one]
  cases s <;> simp [F64.sval]

theorem tame_asU128 {f : F64} (hf : tameF f) (n : Nat) :
    Number.asU128 (.float f) = some n ↔ placeF f = .fin ((n : Int) * one) := by
  cases f with
  | nan s p => simp [Number.asU128, placeF]
  | inf s => cases s <;> simp [Number.asU128, placeF]
  | fin s m =>
    rw [placeF_fin, Place.fin.injEq]
    rcases tame_near hf with ⟨k, rfl, hk, hn, hr⟩ | ⟨hn, hne⟩
    · rw [sval_int, mul_one_inj]
      have hU : u128Max = 2 ^ 128 - 1 := rfl
      have hle : (0 ≤ F64.sval s k * one) ↔ 0 ≤ F64.sval s k :=
        ⟨fun h => nonneg_of_mul_nonneg_left h one_pos, fun h => Int.mul_nonneg h one_pos.le⟩
      simp only [Number.asU128, hn, hr, if_true, Number.satU128, sval_int, hle]
      cases s <;> simp only [F64.sval, Bool.false_eq_true, if_false, if_true]
      · simp; omega
      · by_cases h0 : k = 0
        · subst h0; simp; omega
        · rw [if_neg (by omega)]; simp; omega
    · simp only [Number.asU128, hn, Bool.false_eq_true, if_false, ite_self]
      simp [hne]

theorem tame_asI128 {f : F64} (hf : tameF f) (n : Int) :
    Number.asI128 (.float f) = some n ↔ placeF f = .fin (n * one) := by
  cases f with
  | nan s p => simp [Number.asI128, placeF]
  | inf s => cases s <;> simp [Number.asI128, placeF]
  | fin s m =>
    rw [placeF_fin, Place.fin.injEq]
    rcases tame_near hf with ⟨k, rfl, hk, hn, hr⟩ | ⟨hn, hne⟩
    · rw [sval_int, mul_one_inj]
      have hU : i128Max = 2 ^ 127 - 1 := rfl
      have hL : i128Min = - 2 ^ 127 := rfl
      simp only [Number.asI128, hn, hr, if_true, Number.satI128]
      simp only [Option.some.injEq]
      have : i128Min ≤ F64.sval s k ∧ F64.sval s k ≤ i128Max := by
        cases s <;> simp only [F64.sval, Bool.false_eq_true, if_false, if_true] <;> omega
      generalize F64.sval s k = x at *
      omega
    · simp only [Number.asI128, hn, Bool.false_eq_true, if_false]
      simp [hne]

theorem tame_ieee {f : F64} (hf : tameF f) (neg : Bool) (n : Nat) (hn : n ≤ 2 ^ 128) :
    F64.ieeeEq f (F64.ofRat neg n 1) = true ↔ placeF f = .fin (F64.sval neg n * one) := by
  obtain ⟨m', h1, h2, h3⟩ := ofRat_int neg n hn
  rw [ieeeEq_iff, h1, placeF_fin]
  cases f with
  | nan s p => simp [placeF]
  | inf s => cases s <;> simp [placeF]
  | fin s m =>
    rw [placeF_fin]
    simp only [Place.fin.injEq, ne_eq, reduceCtorEq, not_false_eq_true, and_true]
    rcases Nat.le_total n (2 ^ 53) with hle | hge
    · rw [h2 hle, sval_int]
    · have hm : (m : Int) < 2 ^ 53 * one := hf.1
      have h3' : (2 : Int) ^ 53 * one ≤ m' := by
        have := h3 hge
        rw [← scale_one]; exact_mod_cast this
      have h4 : (2 : Int) ^ 53 * one ≤ (n : Int) * one :=
        Int.mul_le_mul_of_nonneg_right (by exact_mod_cast hge) one_pos.le
      have h5 : F64.sval neg n * one = if neg then - ((n : Int) * one) else (n : Int) * one := by
        cases neg <;> simp [F64.sval]
      rw [h5]
      have h6 : (0 : Int) < 2 ^ 53 * one := Int.mul_pos (by decide) one_pos
      cases s <;> cases neg <;> simp only [F64.sval, Bool.false_eq_true, if_false, if_true] <;> omega

theorem sval_natAbs (i : Int) : F64.sval (decide (i < 0)) i.natAbs = i := by
  unfold F64.sval
  by_cases h : i < 0
  · simp only [h, decide_true, if_true]; omega
  · simp only [h, decide_false, Bool.false_eq_true, if_false]; omega

/-- On tame numbers `==` is equality of places. -/
theorem eq_tame (a b : Number) (ha : a.WF) (hb : b.WF) (ta : tame a) (tb : tame b) :
    Number.eq a b = true ↔ place a = place b := by
  have hU : u128Max = 2 ^ 128 - 1 := rfl
  have hM : i128Max = 2 ^ 127 - 1 := rfl
  have hL : i128Min = - 2 ^ 127 := rfl
  cases a with
  | uint l => cases b with
    | uint r =>
      simp only [Number.eq, place, Place.fin.injEq, mul_one_inj]
      simp
    | int r =>
      simp only [Number.eq, place, Number.asU128, Number.tryU128OfInt, Place.fin.injEq, mul_one_inj]
      by_cases h : 0 ≤ r
      · simp [h]; omega
      · simp [h]; omega
    | float f =>
      have := tame_asU128 tb l
      simp only [Number.eq, place]
      rw [eq_comm (a := Place.fin _), ← this]
      generalize Number.asU128 (.float f) = o
      cases o
      · simp
      · simp only [Option.map_some, Option.getD_some, beq_iff_eq, Option.some.injEq]; exact eq_comm
  | int l => cases b with
    | uint r =>
      simp only [Number.WF] at ha
      simp only [Number.eq, place, Number.asI128, Number.tryI128OfNat, Place.fin.injEq, mul_one_inj]
      by_cases h : (r : Int) ≤ i128Max
      · simp [h]
      · simp [h]; omega
    | int r =>
      simp only [Number.eq, place, Place.fin.injEq, mul_one_inj]
      simp
    | float f =>
      have := tame_asI128 tb l
      simp only [Number.eq, place]
      rw [eq_comm (a := Place.fin _), ← this]
      generalize Number.asI128 (.float f) = o
      cases o
      · simp
      · simp only [Option.map_some, Option.getD_some, beq_iff_eq, Option.some.injEq]; exact eq_comm
  | float f => cases b with
    | uint r =>
      simp only [Number.WF] at hb
      have := tame_ieee ta false r (by omega)
      simp only [Number.eq, place, Number.asF64, F64.ofNat]
      rw [this]; simp [F64.sval]
    | int r =>
      simp only [Number.WF] at hb
      have := tame_ieee ta (decide (r < 0)) r.natAbs (by omega)
      simp only [Number.eq, place, Number.asF64, F64.ofInt]
      rw [this, sval_natAbs]
    | float g =>
      simp only [Number.eq, place]
      rw [placeF_cmp, beq_iff_eq, Place.cmp_eq_iff]

end KS
