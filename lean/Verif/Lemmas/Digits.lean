import Verif.Model.F64
import Mathlib.Tactic.Ring
import Mathlib.Tactic.Linarith
/-! Decimal digit strings. -/

namespace KS

theorem lt10 {P : Nat → Prop} (h : ∀ d ∈ List.range 10, P d) (d : Nat) (hd : d < 10) : P d :=
  h d (List.mem_range.mpr hd)

theorem digitVal_digitChar (d : Nat) (hd : d < 10) : digitVal (digitChar d) = d :=
  lt10 (P := fun d => digitVal (digitChar d) = d) (by decide) d hd

theorem isDigit_digitChar (d : Nat) (hd : d < 10) : isDigit (digitChar d) = true :=
  lt10 (P := fun d => isDigit (digitChar d) = true) (by decide) d hd

theorem foldl_digits (s : Str) (a : Nat) :
    s.foldl (fun a c => a * 10 + digitVal c) a = a * 10 ^ s.length + digitsVal s := by
  induction s generalizing a with
  | nil => simp [digitsVal]
  | cons c r ih =>
    simp only [List.foldl_cons, List.length_cons, digitsVal]
    rw [ih, ih (0 * 10 + digitVal c)]
    ring

@[simp] theorem digitsVal_nil : digitsVal [] = 0 := rfl

theorem digitsVal_append (a b : Str) : digitsVal (a ++ b) = digitsVal a * 10 ^ b.length + digitsVal b := by
  unfold digitsVal
  rw [List.foldl_append, foldl_digits]
  rfl

theorem digitsVal_cons (c : Char) (b : Str) : digitsVal (c :: b) = digitVal c * 10 ^ b.length + digitsVal b := by
  have := digitsVal_append [c] b
  simpa [digitsVal] using this

/-- What the accumulator version produces: the digits of `n` in front of `acc`. -/
theorem natDigitsAcc_spec (f n : Nat) (acc : Str) (h : n < 10 ^ f) (hf : 0 < f) :
    ∃ ds : Str, natDigitsAcc f n acc = ds ++ acc ∧ ds ≠ [] ∧ ds.all isDigit = true ∧ digitsVal ds = n ∧
      (ds.head? = some '0' → n = 0) ∧ ds.length ≤ f ∧ (n = 0 → ds = ['0']) := by
  induction f generalizing n acc with
  | zero => omega
  | succ f ih =>
    unfold natDigitsAcc
    split
    · rename_i hn
      refine ⟨[digitChar n], by simp, by simp, by simp [isDigit_digitChar n hn], ?_, ?_, ?_, ?_⟩
      · simp [digitsVal, digitVal_digitChar n hn]
      · exact lt10 (P := fun n => ([digitChar n] : Str).head? = some '0' → n = 0) (by decide) n hn
      · simp
      · rintro rfl; decide
    · rename_i hn
      have hm : n % 10 < 10 := Nat.mod_lt _ (by decide)
      have hf0 : 0 < f := by
        rcases Nat.eq_zero_or_pos f with rfl | h'
        · simp at h; omega
        · exact h'
      obtain ⟨ds, h1, h2, h3, h4, h5, h6, h7⟩ := ih (n / 10) (digitChar (n % 10) :: acc)
        (by rw [pow_succ] at h; omega) hf0
      refine ⟨ds ++ [digitChar (n % 10)], by simp [h1], by simp, ?_, ?_, ?_, ?_, ?_⟩
      · simp [h3, isDigit_digitChar _ hm]
      · rw [digitsVal_append, h4]
        simp only [List.length_singleton, pow_one]
        rw [digitsVal_cons, digitVal_digitChar _ hm]
        simp; omega
      · intro hh
        cases ds with
        | nil => simp at h2
        | cons c r =>
          have := h5 (by simpa using hh)
          omega
      · simp; omega
      · omega

theorem pow10_log2 (n : Nat) : n < 10 ^ (n.log2 + 1) := by
  calc n < 2 ^ (n.log2 + 1) := Nat.lt_log2_self
    _ ≤ 10 ^ (n.log2 + 1) := Nat.pow_le_pow_left (by decide) _

theorem natDigits_spec (n : Nat) :
    natDigits n ≠ [] ∧ (natDigits n).all isDigit = true ∧ digitsVal (natDigits n) = n ∧
      ((natDigits n).head? = some '0' → n = 0) ∧ (n = 0 → natDigits n = ['0']) := by
  obtain ⟨ds, h1, h2, h3, h4, h5, _, h7⟩ := natDigitsAcc_spec (n.log2 + 1) n [] (pow10_log2 n) (by omega)
  unfold natDigits
  rw [h1]
  simp only [List.append_nil]
  exact ⟨h2, h3, h4, h5, h7⟩

theorem natDigits_ne_nil (n : Nat) : natDigits n ≠ [] := (natDigits_spec n).1
theorem natDigits_all (n : Nat) : (natDigits n).all isDigit = true := (natDigits_spec n).2.1
theorem digitsVal_natDigits (n : Nat) : digitsVal (natDigits n) = n := (natDigits_spec n).2.2.1

theorem digit_mem_natDigits (n : Nat) (c : Char) (h : c ∈ natDigits n) : isDigit c = true :=
  List.all_eq_true.mp (natDigits_all n) c h

theorem fracDigits_spec (w r : Nat) (acc : Str) :
    ∃ ds : Str, F64.fracDigits w r acc = ds ++ acc ∧ ds.length = w ∧ ds.all isDigit = true ∧
      digitsVal ds = r % 10 ^ w := by
  induction w generalizing r acc with
  | zero => exact ⟨[], by simp [F64.fracDigits], rfl, rfl, by simp [Nat.mod_one]⟩
  | succ w ih =>
    have hm : r % 10 < 10 := Nat.mod_lt _ (by decide)
    obtain ⟨ds, h1, h2, h3, h4⟩ := ih (r / 10) (digitChar (r % 10) :: acc)
    refine ⟨ds ++ [digitChar (r % 10)], by simp [F64.fracDigits, h1], by simp [h2],
      by simp [h3, isDigit_digitChar _ hm], ?_⟩
    rw [digitsVal_append, h4, digitsVal_cons, digitVal_digitChar _ hm]
    simp only [List.length_singleton, pow_one, List.length_nil, pow_zero, mul_one, digitsVal_nil, add_zero]
    have : r % 10 ^ (w + 1) = r % 10 + 10 * (r / 10 % 10 ^ w) := by
      rw [pow_succ, mul_comm, Nat.mod_mul]
    omega

theorem isDigit_iff (c : Char) : isDigit c = true ↔ 48 ≤ c.toNat ∧ c.toNat ≤ 57 := by
  unfold isDigit
  simp only [decide_eq_true_eq]
  exact Iff.rfl

theorem isDigit_ne {c : Char} (h : isDigit c = true) (d : Char) (hd : isDigit d = false) : c ≠ d := by
  rintro rfl; rw [h] at hd; cases hd

end KS
