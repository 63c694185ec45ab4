import Verif.Lemmas.NumEq
/-! Text of numbers. -/

namespace KS

open Spec F64

theorem pow10_eq (k : Nat) : pow10 k = 10 ^ k := rfl
theorem decScale_def : decScale = pow10 1074 := rfl
theorem decScale_pos : 0 < decScale := by decide +kernel
theorem scale_pow10 : decExact * scale = decScale := by decide +kernel

attribute [local irreducible] F64.scale Spec.one F64.magLimit F64.eps F64.roundTo F64.ofRat F64.decScale F64.decExact

theorem all_digit_or {s : Str} (h : s.all isDigit = true) : s.all (fun b => isDigit b || b == '_') = true := by
  rw [List.all_eq_true] at *
  intro c hc; simp [h c hc]

theorem fromStr_digits (s : Str) (hne : s ≠ []) (hd : s.all isDigit = true) :
    Number.fromStr s = if digitsVal s ≤ u128Max then some (.uint (digitsVal s)) else none := by
  cases s with
  | nil => exact absurd rfl hne
  | cons c r =>
    have hc : isDigit c = true := by simp at hd; exact hd.1
    have hcn : c ≠ '-' := isDigit_ne hc '-' (by decide)
    unfold Number.fromStr
    simp only [hcn, if_false, all_digit_or hd, not_true, Number.parseU128]
    simp only [hd, ne_eq, reduceCtorEq, not_false_eq_true, and_self, if_true]
    split <;> rfl

theorem fromStr_neg (s : Str) (hne : s ≠ []) (hd : s.all isDigit = true) :
    Number.fromStr ('-' :: s) = if i128Min ≤ - (digitsVal s : Int) then some (.int (- (digitsVal s : Int))) else none := by
  unfold Number.fromStr
  simp only [if_true, all_digit_or hd, not_true, if_false, Number.parseNegI128]
  simp only [hd, hne, ne_eq, not_false_eq_true, and_self, if_true]
  split <;> rfl

theorem spanDigits_append (a b : Str) (ha : a.all isDigit = true) (hb : ∀ c r, b = c :: r → isDigit c = false) :
    spanDigits (a ++ b) = (a, b) := by
  induction a with
  | nil =>
    cases b with
    | nil => rfl
    | cons c r => simp [spanDigits, hb c r rfl]
  | cons c r ih =>
    simp at ha
    simp [spanDigits, ha.1, ih (by simpa using ha.2)]

theorem decNorm_spec (w n : Nat) : ∃ n' w', decNorm w n = (n', w') ∧ w' ≤ w ∧ n' * 10 ^ (w - w') = n := by
  induction w generalizing n with
  | zero => exact ⟨n, 0, rfl, le_rfl, by simp⟩
  | succ w ih =>
    unfold decNorm
    split
    · rename_i h
      obtain ⟨n', w', h1, h2, h3⟩ := ih (n / 10)
      refine ⟨n', w', h1, by omega, ?_⟩
      rw [show w + 1 - w' = (w - w') + 1 by omega, pow_succ, ← mul_assoc, h3]
      omega
    · exact ⟨n, w + 1, rfl, le_rfl, by simp⟩

theorem shortestAt_reads (m N L p D : Nat) (h : shortestAt m N L p = some D) :
    ofRat false D decScale = .fin false m := by
  unfold shortestAt at h
  simp only at h
  generalize N / 10 ^ (L - p) * 10 ^ (L - p) = lo at h
  generalize lo + 10 ^ (L - p) = hi at h
  generalize hF : (F64.fin false m) = F at h ⊢
  clear hF
  by_cases h1 : ofRat false lo decScale = F <;>
    by_cases h2 : ofRat false hi decScale = F
  · simp only [h1, h2, decide_true, Bool.and_self, if_true] at h
    split at h <;> simp only [Option.some.injEq] at h <;> subst h <;> assumption
  · simp only [h1, h2, decide_true, decide_false, Bool.and_false, Bool.false_eq_true, if_false, if_true,
      Option.some.injEq] at h
    subst h; assumption
  · simp only [h1, h2, decide_true, decide_false, Bool.and_true, Bool.false_eq_true, if_false, if_true,
      Option.some.injEq] at h
    subst h; assumption
  · simp [h1, h2] at h

theorem searchFrom_reads (P : Nat → Prop) (f : Nat → Option Nat) (N : Nat) (hf : ∀ p D, f p = some D → P D)
    (hN : P N) (k p : Nat) : P (searchFrom f N k p) := by
  induction k generalizing p with
  | zero => exact hN
  | succ k ih =>
    unfold searchFrom
    split
    · rename_i h; exact hf _ _ h
    · exact ih _

theorem pow10_pos (w : Nat) : 0 < 10 ^ w := Nat.pow_pos (by decide)

/-- The printed decimal always reads back. -/
theorem shortest_reads (m : Nat) (hm : RepMag m) : ofRat false (shortest m) decScale = .fin false m := by
  unfold shortest
  apply searchFrom_reads (fun D => ofRat false D decScale = .fin false m) _ _
    (fun p D h => shortestAt_reads _ _ _ _ _ h)
  apply ofRat_exact _ decScale_pos _ hm
  rw [mul_assoc, scale_pow10]

/-- Signed text. -/
def withSign (s : Bool) (t : Str) : Str := if s then '-' :: t else t

theorem parse_withSign (s : Bool) (t : Str) (h : ∀ c r, t = c :: r → isDigit c = true) :
    F64.parse (withSign s t) = parseUnsigned s t := by
  cases s with
  | true => simp [withSign, F64.parse]
  | false =>
    simp only [withSign, Bool.false_eq_true, if_false]
    cases t with
    | nil => rfl
    | cons c r =>
      have hc := h c r rfl
      have h1 : c ≠ '-' := isDigit_ne hc '-' (by decide)
      have h2 : c ≠ '+' := isDigit_ne hc '+' (by decide)
      unfold F64.parse
      split
      · rename_i heq; simp only [List.cons.injEq] at heq; exact absurd heq.1 h1
      · rename_i heq; simp only [List.cons.injEq] at heq; exact absurd heq.1 h2
      · rfl

theorem parseUnsigned_frac (neg : Bool) (a b : Str) (ha : a ≠ []) (hda : a.all isDigit = true)
    (hdb : b.all isDigit = true) (hb : b ≠ []) :
    parseUnsigned neg (a ++ '.' :: b) = some (ofRat neg (digitsVal (a ++ b)) (10 ^ b.length)) := by
  unfold parseUnsigned
  rw [spanDigits_append a ('.' :: b) hda (by rintro c r h; simp at h; rw [← h.1]; decide)]
  have hb2 : spanDigits b = (b, []) := by
    have := spanDigits_append b [] hdb (by simp)
    simpa using this
  simp only [hb2, ha, false_and, if_false, parseExp]
  have hl : 0 < b.length := List.length_pos_iff.mpr hb
  rw [if_neg (by omega)]
  congr 2
  simp

theorem digits_head {t : Str} (ht : t.all isDigit = true) : ∀ c r, t = c :: r → isDigit c = true := by
  rintro c r rfl; simp at ht; exact ht.1

theorem fromStr_point (s : Bool) (a b : Str) (ha : a ≠ []) (hda : a.all isDigit = true) :
    Number.fromStr (withSign s (a ++ '.' :: b)) = (F64.parse (withSign s (a ++ '.' :: b))).map .float := by
  have hbad : (a ++ '.' :: b).all (fun b => isDigit b || b == '_') = false := by
    rw [List.all_eq_false]
    exact ⟨'.', by simp, by decide⟩
  cases s with
  | true =>
    simp only [withSign, if_true]
    unfold Number.fromStr
    simp [hbad]
  | false =>
    simp only [withSign, Bool.false_eq_true, if_false]
    cases a with
    | nil => exact absurd rfl ha
    | cons c r =>
      have hc : isDigit c = true := digits_head hda c r rfl
      have h1 : c ≠ '-' := isDigit_ne hc '-' (by decide)
      simp only [List.cons_append] at hbad ⊢
      unfold Number.fromStr
      simp only [h1, if_false, hbad, Bool.false_eq_true, not_false_eq_true, if_true]

theorem decText_spec (neg : Bool) (D W : Nat) :
    (∃ d : Nat, decText D W = natDigits d ∧ ofRat neg D (10 ^ W) = ofRat neg d 1) ∨
    (∃ a b : Str, decText D W = a ++ '.' :: b ∧ a ≠ [] ∧ a.all isDigit = true ∧ b ≠ [] ∧
      b.all isDigit = true ∧ ofRat neg (digitsVal (a ++ b)) (10 ^ b.length) = ofRat neg D (10 ^ W)) := by
  obtain ⟨n', w', h1, h2, h3⟩ := decNorm_spec W D
  have hr : ofRat neg D (10 ^ W) = ofRat neg n' (10 ^ w') := by
    have : 10 ^ W = 10 ^ w' * 10 ^ (W - w') := by rw [← pow_add]; congr 1; omega
    rw [← h3, this, ofRat_scale _ (pow10_pos _)]
  unfold decText
  simp only [h1]
  rcases Nat.eq_zero_or_pos w' with hw | hw
  · left
    subst hw
    exact ⟨n', by simp, by simpa using hr⟩
  · right
    obtain ⟨ds, hd1, hd2, hd3, hd4⟩ := fracDigits_spec w' n' []
    refine ⟨natDigits (n' / 10 ^ w'), ds, ?_, natDigits_ne_nil _, natDigits_all _, ?_, hd3, ?_⟩
    · rw [hd1, if_neg (by omega)]; simp
    · rintro rfl; simp at hd2; omega
    · rw [digitsVal_append, digitsVal_natDigits, hd4, hd2, mul_comm, Nat.div_add_mod]
      exact hr.symm

attribute [local irreducible] F64.shortest F64.decText F64.decNorm F64.pow10

theorem disp_fin_eq (s : Bool) (m : Nat) :
    ∃ W, decScale = pow10 W ∧ F64.disp (.fin s m) = withSign s (decText (shortest m) W) := by
  refine ⟨1074, decScale_def, ?_⟩
  have : ∀ t : Str, (if s then ['-'] else []) ++ t = withSign s t := by
    intro t; cases s <;> simp [withSign]
  rw [← this, F64.disp]

/-- What a finite float prints as: an integer that reads back, or a decimal that reads back. -/
theorem disp_fin (s : Bool) (m : Nat) (hm : RepMag m) :
    (∃ d : Nat, F64.disp (.fin s m) = withSign s (natDigits d) ∧ ofRat s d 1 = .fin s m) ∨
    (∃ a b : Str, F64.disp (.fin s m) = withSign s (a ++ '.' :: b) ∧ a ≠ [] ∧ a.all isDigit = true ∧ b ≠ [] ∧
      b.all isDigit = true ∧ ofRat s (digitsVal (a ++ b)) (10 ^ b.length) = .fin s m) := by
  have hread := ofRat_neg s (shortest_reads m hm)
  obtain ⟨W, hW, hdisp⟩ := disp_fin_eq s m
  rw [hdisp]
  rw [hW, pow10_eq] at hread
  rcases decText_spec s (shortest m) W with ⟨d, h1, h2⟩ | ⟨a, b, h1, h2, h3, h4, h5, h6⟩
  · exact Or.inl ⟨d, by rw [h1], by rw [← h2]; exact hread⟩
  · exact Or.inr ⟨a, b, by rw [h1], h2, h3, h4, h5, by rw [h6]; exact hread⟩

end KS
