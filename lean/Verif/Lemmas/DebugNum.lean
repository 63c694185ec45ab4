import Verif.Model.Debug
import Verif.Props.Decimals
/-!
# `Debug` of floats reads back
-/

namespace KS.Dbg
open KS.Spec KS.DL KS.Rnd KS.Sh

attribute [local irreducible] F64.scale F64.magLimit F64.decScale F64.decExact F64.shortest F64.decNorm small

theorem signed (s : Bool) : SignText s (if s then ['-'] else []) := by
  cases s
  · exact .inl rfl
  · rfl

/-- With a digit after the point. -/
theorem point_text (s : Bool) (D W : Nat) : ∃ d : Decimal, d.Ok ∧ d.neg = s ∧
    d.Text ((if s then ['-'] else []) ++ (if (F64.decText D W).contains '.' then F64.decText D W else F64.decText D W ++ str ".0")) ∧
    |d.value| = (D : ℚ) / 10 ^ W := by
  obtain ⟨n', w', h1, h2, h3⟩ := decNorm_spec W D
  have hval : (n' : ℚ) * 10 ^ (-(w' : Int)) = (D : ℚ) / 10 ^ W := by
    rw [← h3, zpow_neg, zpow_natCast, show (10 : ℚ) ^ W = 10 ^ w' * 10 ^ (W - w') by rw [← pow_add]; congr 1; omega]
    push_cast
    field_simp
  unfold F64.decText
  simp only [h1]
  rcases Nat.eq_zero_or_pos w' with hw | hw
  · subst hw
    have hno : (natDigits (n' / 10 ^ 0) ++ if (0 : Nat) = 0 then [] else '.' :: F64.fracDigits 0 n' []).contains '.' = false := by
      rw [if_pos rfl, List.append_nil, Bool.eq_false_iff]
      intro h
      rw [List.contains_iff_mem] at h
      exact absurd (digit_mem_natDigits _ _ h) (by decide)
    rw [hno]
    refine ⟨⟨s, natDigits n', ['0'], 0⟩, ⟨by simp [Decimal.digits], ?_⟩, rfl, ⟨_, ['.', '0'], [], signed s, .inl rfl, .inl ⟨rfl, rfl⟩, ?_⟩, ?_⟩
    · apply digits_of; simp [Decimal.digits, natDigits_all]; decide
    · simp; rfl
    · rw [abs_value, ← hval, natOf_eq]
      simp only [Decimal.digits, digitsVal_append, digitsVal_natDigits]
      simp [digitsVal, digitVal]
  · obtain ⟨ds, hd1, hd2, hd3, hd4⟩ := fracDigits_spec w' n' []
    have hyes : (natDigits (n' / 10 ^ w') ++ if w' = 0 then [] else '.' :: F64.fracDigits w' n' []).contains '.' = true := by
      rw [if_neg (by omega), List.contains_iff_mem]; simp
    rw [hyes]
    refine ⟨⟨s, natDigits (n' / 10 ^ w'), ds, 0⟩, ⟨?_, ?_⟩, rfl,
      ⟨_, '.' :: ds, [], signed s, Or.inl rfl, Or.inl ⟨rfl, rfl⟩, ?_⟩, ?_⟩
    · simp [Decimal.digits, natDigits_ne_nil]
    · apply digits_of; simp [Decimal.digits, natDigits_all, hd3]
    · rw [if_neg (Nat.ne_of_gt hw), hd1]; simp
    · rw [abs_value, ← hval, natOf_eq]
      simp only [Decimal.digits]
      rw [digitsVal_append, digitsVal_natDigits, hd4, hd2, mul_comm (n' / 10 ^ w'), Nat.div_add_mod]
      simp

/-- Zeros at the end. -/
theorem sig_split (ds : Str) : ∃ k, ds = (ds.reverse.dropWhile (· = '0')).reverse ++ List.replicate k '0' := by
  refine ⟨(ds.reverse.takeWhile (· = '0')).length, ?_⟩
  have h : ds.reverse.takeWhile (· = '0') = List.replicate (ds.reverse.takeWhile (· = '0')).length '0' := by
    rw [List.eq_replicate_iff]
    exact ⟨rfl, fun c hc => by simpa using List.mem_takeWhile_imp hc⟩
  have := congrArg List.reverse (List.takeWhile_append_dropWhile (p := (· = '0')) (l := ds.reverse))
  rw [List.reverse_append, List.reverse_reverse, h, List.reverse_replicate] at this
  exact this.symm

theorem exp_part (e : Int) : ∃ (c : Char) (neg : Bool) (sign ds : Str), (c = 'e' ∨ c = 'E') ∧ SignText neg sign ∧ ds ≠ [] ∧ (∀ x ∈ ds, DigitC x) ∧
    'e' :: intText e = c :: (sign ++ ds) ∧ e = (if neg then -1 else 1) * natOf ds := by
  refine ⟨'e', decide (e < 0), if e < 0 then ['-'] else [], natDigits e.natAbs, .inl rfl, ?_, natDigits_ne_nil _, digits_of (natDigits_all _), ?_, ?_⟩
  · by_cases h : e < 0
    · simp only [h, decide_true, if_true]; rfl
    · simp only [h, decide_false, if_false]; exact .inl rfl
  · rfl
  · rw [natOf_eq, digitsVal_natDigits]
    by_cases h : e < 0
    · simp only [h, decide_true, if_true]; omega
    · simp only [h, decide_false, Bool.false_eq_true, if_false]; omega

theorem shift {n k D W : Nat} {e : Int} (h : n * 10 ^ k = D) (he : e = (k : Int) - W) : (n : ℚ) * 10 ^ e = (D : ℚ) / 10 ^ W := by
  rw [he, zpow_sub₀ (by norm_num), zpow_natCast, zpow_natCast, ← h]
  push_cast
  ring

/-- With an exponent. -/
theorem exp_text (s : Bool) (D W : Nat) : ∃ d : Decimal, d.Ok ∧ d.neg = s ∧ d.Text ((if s then ['-'] else []) ++ expText D W) ∧
    |d.value| = (D : ℚ) / 10 ^ W := by
  obtain ⟨k, hk⟩ := sig_split (natDigits D)
  have hall : ∀ c ∈ natDigits D, DigitC c := digits_of (natDigits_all D)
  have hval : digitsVal ((natDigits D).reverse.dropWhile (· = '0')).reverse * 10 ^ k = D := by
    have := digitsVal_natDigits D
    rw [hk, digitsVal_append, digitsVal_zeros, List.length_replicate] at this
    exact this
  have hlen := congrArg List.length hk
  rw [List.length_append, List.length_replicate] at hlen
  unfold expText
  simp only
  generalize ((natDigits D).reverse.dropWhile (· = '0')).reverse = sig at *
  generalize hL : (natDigits D).length = L at *
  have hsig : ∀ c ∈ sig, DigitC c := fun c hc => hall c (by rw [hk]; exact List.mem_append_left _ hc)
  match sig with
  | [] =>
    refine ⟨⟨s, ['0'], [], (L : Int) - 1 - W⟩, ⟨by simp [Decimal.digits], by intro c hc; rw [List.mem_singleton.mp hc]; constructor <;> decide⟩, rfl,
      ⟨_, [], 'e' :: intText ((L : Int) - 1 - W), signed s, .inr ⟨rfl, rfl⟩, .inr (exp_part _), by simp; rfl⟩, ?_⟩
    have : D = 0 := by rw [← hval]; simp
    rw [abs_value, natOf_eq, this]
    simp [Decimal.digits, digitsVal, digitVal]
  | [c] =>
    refine ⟨⟨s, [c], [], (L : Int) - 1 - W⟩, ⟨by simp [Decimal.digits], by simpa [Decimal.digits] using hsig⟩, rfl,
      ⟨_, [], 'e' :: intText ((L : Int) - 1 - W), signed s, .inr ⟨rfl, rfl⟩, .inr (exp_part _), by simp⟩, ?_⟩
    rw [abs_value, natOf_eq]
    exact shift (by simpa [Decimal.digits] using hval) (by simp at hlen; simp; omega)
  | c :: a :: r =>
    refine ⟨⟨s, [c], a :: r, (L : Int) - 1 - W⟩, ⟨by simp [Decimal.digits], by simpa [Decimal.digits] using hsig⟩, rfl,
      ⟨_, '.' :: a :: r, 'e' :: intText ((L : Int) - 1 - W), signed s, .inl rfl, .inr (exp_part _), by simp⟩, ?_⟩
    rw [abs_value, natOf_eq]
    exact shift (by simpa [Decimal.digits] using hval) (by simp at hlen; simp; omega)

/-- A finite float in `Debug` is a literal that reads back. -/
theorem float_literal {x : F64} (hx : x.WF) (hf : x.isFinite = true) : ∃ d : Decimal, d.Ok ∧ d.Text (float x) ∧ F64.parse (float x) = some x := by
  cases x with
  | nan s p => cases hf
  | inf s => cases hf
  | fin s m =>
    have key : ∃ d : Decimal, d.Ok ∧ d.neg = s ∧ d.Text (float (.fin s m)) ∧ |d.value| = (F64.shortest m : ℚ) / 10 ^ 1074 := by
      by_cases hm : m ≠ 0 ∧ (m < small ∨ 10 ^ 16 * F64.scale ≤ m)
      · rw [float, if_pos hm]
        exact exp_text s _ _
      · rw [float, if_neg hm]
        exact point_text s _ _
    obtain ⟨d, h1, h2, h3, h4⟩ := key
    refine ⟨d, h1, h3, ?_⟩
    have hr := F64.ofRat_neg s (shortest_reads m hx)
    rw [parse_text h1 h3, h2, h4]
    have hc := rndQ_div (b := 52) (S := F64.scale) (n := F64.shortest m) (d := 10 ^ 1074) (Nat.pow_pos (by decide))
    rw [Nat.cast_pow, Nat.cast_ofNat] at hc
    rw [hc, ← ofRat_finish, ← Props.decScale_pow, hr]

end KS.Dbg
