import Verif.Props.Debug
import Verif.Props.Decimals
/-!
# C66: when the `Debug` text of a float has an exponent
-/

namespace KS.Props
open KS.Spec

private theorem small_fin : F64.parse (str "0.0001") = some (.fin false Dbg.small) := by decide +kernel
private theorem small_above : F64.scale < Dbg.small * 10 ^ 4 := by decide +kernel
attribute [local irreducible] F64.shortest F64.decText F64.scale Dbg.small

private def tenth4 : Decimal := ⟨false, str "0", str "0001", 0⟩

/-- No float lies between `1e-4` and the float nearest to it. -/
private theorem lt_small {m : Nat} (h : (F64.fin false m).WF) : m < Dbg.small ↔ m * 10 ^ 4 < F64.scale := by
  have habove := small_above
  refine ⟨fun hm => ?_, fun hm => by omega⟩
  by_contra hc
  have hok : tenth4.Ok := by
    refine ⟨by decide, ?_⟩
    have : ∀ c ∈ str "00001", DigitC c := by unfold DigitC; decide
    exact this
  have ht : tenth4.Text (str "0.0001") := ⟨[], str ".0001", [], .inl rfl, .inl rfl, .inl ⟨rfl, rfl⟩, by decide⟩
  have hv : tenth4.value = 1 / 10 ^ 4 := by
    have : natOf tenth4.digits = 1 := by decide
    have h4 : tenth4.frac.length = 4 := by decide
    rw [Decimal.value, this, h4]
    norm_num [tenth4]
  obtain ⟨x, h1, -, -, -, -, h2⟩ := C61_reads_nearest tenth4 hok _ ht
  rw [small_fin, Option.some.injEq] at h1
  subst h1
  have h3 := (h2 rfl (.fin false m) h rfl).1
  have hS := scaleQ_pos
  have f1 := float_dist tenth4 m
  have f2 := float_dist tenth4 Dbg.small
  have e1 : (1 : ℚ) / 10 ^ 4 * F64.scale ≤ m := by
    have : ((F64.scale : Nat) : ℚ) ≤ m * 10 ^ 4 := by exact_mod_cast Nat.le_of_not_lt hc
    linarith
  have e2 : (m : ℚ) < Dbg.small := by exact_mod_cast hm
  change |floatQ (.fin false m) - _| = _ at f1
  change |floatQ (.fin false Dbg.small) - _| = _ at f2
  rw [f1, f2, div_le_div_iff_of_pos_right hS, hv, abs_of_nonneg (by norm_num : (0 : ℚ) ≤ 1 / 10 ^ 4), abs_of_nonneg (by linarith),
    abs_of_nonneg (by linarith)] at h3
  linarith

theorem decText_no_e (D W : Nat) : 'e' ∉ F64.decText D W := by
  intro hc
  have hd : isDigit 'e' = false := by decide
  rcases decText_spec false D W with ⟨d, h1, _⟩ | ⟨a, b, h1, _, h3, _, h5, _⟩
  · rw [h1] at hc; rw [digit_mem_natDigits _ _ hc] at hd; cases hd
  · rw [h1] at hc
    rcases List.mem_append.mp hc with hc | hc
    · rw [List.all_eq_true.mp h3 _ hc] at hd; cases hd
    · rcases List.mem_cons.mp hc with hc | hc
      · exact absurd hc (by decide)
      · rw [List.all_eq_true.mp h5 _ hc] at hd; cases hd

/-- **C66**: the text of a finite float has an exponent exactly when the float is not zero and smaller than `1e-4`, or at least `1e16`. -/
theorem C66_exponent {x : F64} (hx : x.WF) (hf : x.isFinite = true) :
    'e' ∈ Dbg.float x ↔ floatQ x ≠ 0 ∧ (|floatQ x| < 1 / 10 ^ 4 ∨ 10 ^ 16 ≤ |floatQ x|) := by
  cases x with
  | nan s p => cases hf
  | inf s => cases hf
  | fin s m =>
    have hS := scaleQ_pos
    have hw : (F64.fin false m).WF := hx
    have hcond : (floatQ (.fin s m) ≠ 0 ∧ (|floatQ (.fin s m)| < 1 / 10 ^ 4 ∨ 10 ^ 16 ≤ |floatQ (.fin s m)|)) ↔
        (m ≠ 0 ∧ (m < Dbg.small ∨ 10 ^ 16 * F64.scale ≤ m)) := by
      rw [← abs_ne_zero, floatQ_abs, lt_small hw]
      refine and_congr ?_ (or_congr ?_ ?_)
      · rw [div_ne_zero_iff]
        exact ⟨fun h => by exact_mod_cast h.1, fun h => ⟨by exact_mod_cast h, ne_of_gt hS⟩⟩
      · rw [div_lt_div_iff₀ hS (by positivity), one_mul]
        exact_mod_cast Iff.rfl
      · rw [le_div_iff₀ hS]
        exact_mod_cast Iff.rfl
    rw [hcond]
    by_cases hc : m ≠ 0 ∧ (m < Dbg.small ∨ 10 ^ 16 * F64.scale ≤ m)
    · refine iff_of_true ?_ hc
      rw [Dbg.float, if_pos hc]
      exact List.mem_append_right _ (List.mem_append_right _ List.mem_cons_self)
    · simp only [hc, iff_false]
      rw [Dbg.float, if_neg hc]
      intro h
      rcases List.mem_append.mp h with h | h
      · cases s
        · cases h
        · exact absurd h (by decide)
      · have ht := decText_no_e (F64.shortest m) 1074
        dsimp only at h
        revert h ht
        generalize F64.decText (F64.shortest m) 1074 = t
        intro h ht
        by_cases hp : t.contains '.' = true
        · rw [if_pos hp] at h; exact ht h
        · rw [if_neg hp] at h
          rcases List.mem_append.mp h with h | h
          · exact ht h
          · exact absurd h (by decide)

example : 'e' ∈ Dbg.float (F64.ofRat true 1 100000) ∧ 'e' ∉ Dbg.float (F64.ofRat false 1 10000) ∧
    'e' ∉ Dbg.float (F64.ofRat false (10 ^ 16 - 2) 1) ∧ 'e' ∈ Dbg.float (F64.ofRat false (10 ^ 16) 1) := by decide +kernel

end KS.Props
