import Verif.Lemmas.RatRound
import Verif.Lemmas.ParseGood
import Verif.Spec.Decimal
/-! Reading and writing decimal literals: how `F64.parse` and `F64.decText` relate to `Spec.Decimal`. -/

namespace KS.DL

open Spec F64 Rnd

theorem natOf_eq (s : Str) : natOf s = digitsVal s := by
  unfold natOf
  induction s using List.reverseRecOn with
  | nil => rfl
  | append_singleton r c ih =>
    rw [List.reverse_append, digitsVal_append]
    simp only [List.reverse_cons, List.reverse_nil, List.nil_append, List.singleton_append, revNat, ih, List.length_singleton,
      pow_one]
    simp only [digitsVal, List.foldl_cons, List.foldl_nil, digitVal]
    omega

theorem all_digits {s : Str} (h : ∀ c ∈ s, DigitC c) : s.all isDigit = true := by
  rw [List.all_eq_true]
  exact fun c hc => (PG.isDigit_iff' c).mpr (h c hc)

theorem digits_of {s : Str} (h : s.all isDigit = true) : ∀ c ∈ s, DigitC c := by
  rw [List.all_eq_true] at h
  exact fun c hc => (PG.isDigit_iff' c).mp (h c hc)

/-! ## Reading -/

/-- The exponent as read. -/
theorem parseExp_text {e : Int} {s : Str} (h : ExpText e s) : parseExp s = some e := by
  rcases h with ⟨rfl, rfl⟩ | ⟨c, neg, sign, ds, hc, hs, hne, hd, rfl, rfl⟩
  · rfl
  · have hall := all_digits hd
    unfold parseExp
    simp only
    rw [if_pos hc]
    have hhead : ∀ x r, ds = x :: r → x ≠ '-' ∧ x ≠ '+' := by
      intro x r hx
      have := digits_head hall x r hx
      exact ⟨isDigit_ne this '-' (by decide), isDigit_ne this '+' (by decide)⟩
    cases neg with
    | true =>
      simp only [SignText, if_true] at hs
      subst hs
      simp only [List.cons_append, List.nil_append]
      rw [if_pos ⟨hne, hall⟩, natOf_eq]
      simp
    | false =>
      simp only [SignText, Bool.false_eq_true, if_false] at hs
      rcases hs with rfl | rfl
      · simp only [List.nil_append]
        cases ds with
        | nil => exact absurd rfl hne
        | cons x r =>
          obtain ⟨h1, h2⟩ := hhead x r rfl
          split
          · rename_i h; simp only [List.cons.injEq] at h; exact absurd h.1 h1
          · rename_i h; simp only [List.cons.injEq] at h; exact absurd h.1 h2
          · rw [if_pos ⟨hne, hall⟩, natOf_eq]
            simp
      · simp only [List.cons_append, List.nil_append]
        rw [if_pos ⟨hne, hall⟩, natOf_eq]
        simp

theorem parseExp_inv {e : Int} {s : Str} (h : parseExp s = some e) : ExpText e s := by
  cases s with
  | nil => left; simp only [parseExp, Option.some.injEq] at h; exact ⟨h.symm, rfl⟩
  | cons c r =>
    right
    unfold parseExp at h
    simp only at h
    split at h
    · rename_i hc
      split at h
      · split at h
        · rename_i hd
          simp only [Option.some.injEq] at h
          exact ⟨c, true, ['-'], _, hc, rfl, hd.1, digits_of hd.2, rfl, by rw [← h, natOf_eq]; simp⟩
        · cases h
      · split at h
        · rename_i hd
          simp only [Option.some.injEq] at h
          exact ⟨c, false, ['+'], _, hc, Or.inr rfl, hd.1, digits_of hd.2, rfl, by rw [← h, natOf_eq]; simp⟩
        · cases h
      · split at h
        · rename_i hd
          simp only [Option.some.injEq] at h
          exact ⟨c, false, [], _, hc, Or.inl rfl, hd.1, digits_of hd.2, rfl, by rw [← h, natOf_eq]; simp⟩
        · cases h
    · cases h

theorem expText_head {e : Int} {s : Str} (h : ExpText e s) : ∀ c r, s = c :: r → isDigit c = false ∧ c ≠ '.' := by
  rcases h with ⟨_, rfl⟩ | ⟨c, neg, sign, ds, hc, hs, hne, hd, rfl, _⟩
  · intro c r h; cases h
  · intro x r h
    simp only [List.cons.injEq] at h
    rw [← h.1]
    rcases hc with rfl | rfl <;> decide

/-- The result of reading a literal, before the overflow test. -/
def finish (neg : Bool) (m : Nat) : F64 := if magLimit ≤ m then .inf neg else .fin neg m

theorem ofRat_finish (neg : Bool) (n d : Nat) : ofRat neg n d = finish neg (rnd 52 scale n d) := rfl

theorem abs_value (d : Decimal) : |d.value| = natOf d.digits * 10 ^ (d.exp - d.frac.length) := by
  unfold Decimal.value
  have h : (0 : ℚ) ≤ natOf d.digits * 10 ^ (d.exp - d.frac.length) :=
    mul_nonneg (Nat.cast_nonneg _) (zpow_nonneg (by norm_num) _)
  split
  · rw [show (-1 : ℚ) * natOf d.digits * 10 ^ (d.exp - (d.frac.length : Int)) = -(natOf d.digits * 10 ^ (d.exp - (d.frac.length : Int))) by ring,
      abs_neg, abs_of_nonneg h]
  · rw [one_mul, abs_of_nonneg h]

/-- The last part of reading. -/
theorem read_value (neg : Bool) (n : Nat) (e : Int) :
    (if 0 ≤ e then ofRat neg (n * 10 ^ e.toNat) 1 else ofRat neg n (10 ^ (-e).toNat)) =
      finish neg (rndQ 52 scale ((n : ℚ) * 10 ^ e)) := by
  split
  · rename_i h
    obtain ⟨k, rfl⟩ := Int.eq_ofNat_of_zero_le h
    rw [ofRat_finish]
    have : (n : ℚ) * 10 ^ (k : Int) = ((n * 10 ^ k : Nat) : ℚ) := by
      rw [zpow_natCast]; push_cast; rfl
    rw [this, rndQ_nat]
    simp
  · rename_i h
    obtain ⟨k, rfl⟩ : ∃ k : Nat, e = -(k : Int) := ⟨(-e).toNat, by omega⟩
    rw [ofRat_finish]
    have : (n : ℚ) * 10 ^ (-(k : Int)) = (n : ℚ) / ((10 ^ k : Nat) : ℚ) := by
      rw [zpow_neg, zpow_natCast]; push_cast; rfl
    rw [this, rndQ_div (Nat.pow_pos (by decide))]
    simp

theorem parseUnsigned_text {d : Decimal} (hok : d.Ok) {fr ex : Str} (hf : FracText d.frac fr) (he : ExpText d.exp ex) (neg : Bool) :
    parseUnsigned neg (d.whole ++ (fr ++ ex)) = some (finish neg (rndQ 52 scale |d.value|)) := by
  obtain ⟨hne, hdig⟩ := hok
  have hall := all_digits hdig
  simp only [Decimal.digits] at hne hall
  rw [List.all_append, Bool.and_eq_true] at hall
  have hexp := parseExp_text he
  have hhead := expText_head he
  unfold parseUnsigned
  have hspan : spanDigits (d.whole ++ (fr ++ ex)) = (d.whole, fr ++ ex) := by
    apply spanDigits_append _ _ hall.1
    intro c r hc
    rcases hf with rfl | ⟨_, rfl⟩
    · simp only [List.cons_append, List.cons.injEq] at hc; rw [← hc.1]; decide
    · exact (hhead c r (by simpa using hc)).1
  have hne' : ¬ (d.whole = [] ∧ d.frac = []) := by
    rintro ⟨h1, h2⟩; rw [h1, h2] at hne; exact hne rfl
  have := read_value neg (digitsVal (d.whole ++ d.frac)) (d.exp - d.frac.length)
  rw [abs_value, natOf_eq, Decimal.digits, ← this]
  simp only [hspan]
  rcases hf with rfl | ⟨h0, rfl⟩
  · have hs2 : spanDigits (d.frac ++ ex) = (d.frac, ex) := spanDigits_append _ _ hall.2 (fun c r hc => (hhead c r hc).1)
    simp only [List.cons_append, hs2, hne', if_false, hexp]
    split <;> rfl
  · rw [h0] at hne' ⊢
    simp only [List.nil_append]
    split
    · exact absurd rfl (hhead _ _ rfl).2
    · have hw : d.whole ≠ [] := fun h => hne' ⟨h, rfl⟩
      simp only [hw, false_and, if_false, hexp]
      split <;> rfl

theorem parse_text {d : Decimal} (hok : d.Ok) {t : Str} (ht : d.Text t) :
    F64.parse t = some (finish d.neg (rndQ 52 scale |d.value|)) := by
  obtain ⟨sign, fr, ex, hs, hf, he, rfl⟩ := ht
  have hp := fun neg => parseUnsigned_text hok hf he neg
  cases hneg : d.neg with
  | true =>
    rw [hneg] at hs
    simp only [SignText, if_true] at hs
    subst hs
    exact hp true
  | false =>
    rw [hneg] at hs
    simp only [SignText, Bool.false_eq_true, if_false] at hs
    rcases hs with rfl | rfl
    · rw [List.nil_append, ← hp false]
      have hhd : ∀ c r, d.whole ++ (fr ++ ex) = c :: r → c ≠ '-' ∧ c ≠ '+' := by
        intro c r h
        have hall := all_digits hok.2
        simp only [Decimal.digits, List.all_append, Bool.and_eq_true] at hall
        cases hw : d.whole with
        | cons x y =>
          rw [hw] at h hall
          simp only [List.cons_append, List.cons.injEq] at h
          rw [← h.1]
          have := digits_head hall.1 x y rfl
          exact ⟨isDigit_ne this '-' (by decide), isDigit_ne this '+' (by decide)⟩
        | nil =>
          rw [hw] at h
          rcases hf with rfl | ⟨h0, _⟩
          · simp only [List.cons_append, List.nil_append, List.cons.injEq] at h
            rw [← h.1]; decide
          · exact absurd (by simp [Decimal.digits, hw, h0]) hok.1
      generalize d.whole ++ (fr ++ ex) = t at *
      cases t with
      | nil => rfl
      | cons c r =>
        obtain ⟨h1, h2⟩ := hhd c r rfl
        unfold F64.parse
        split
        · rename_i h; simp only [List.cons.injEq] at h; exact absurd h.1 h1
        · rename_i h; simp only [List.cons.injEq] at h; exact absurd h.1 h2
        · rfl
    · exact hp false

theorem spanDigits_inv (s : Str) : ∃ a b, spanDigits s = (a, b) ∧ s = a ++ b ∧ a.all isDigit = true := by
  induction s with
  | nil => exact ⟨[], [], rfl, rfl, rfl⟩
  | cons c r ih =>
    obtain ⟨a, b, h1, h2, h3⟩ := ih
    unfold spanDigits
    split
    · rename_i hc
      rw [h1]
      exact ⟨c :: a, b, rfl, by rw [h2]; rfl, by simp [hc, h3]⟩
    · exact ⟨[], c :: r, rfl, rfl, rfl⟩

theorem read_inv {neg s : Bool} {t ip fp fr r' : Str} {m : Nat} (h3 : ip.all isDigit = true) (f1 : FracText fp fr)
    (f2 : fp.all isDigit = true) (ht : t = ip ++ (fr ++ r'))
    (h : (if ip = [] ∧ fp = [] then
        if eqIgnoreCase t (str "inf") || eqIgnoreCase t (str "infinity") then some (.inf neg)
        else if eqIgnoreCase t (str "nan") then some (.nan neg (2 ^ 51))
        else none
      else match parseExp r' with
        | none => none
        | some e =>
          if 0 ≤ e - (fp.length : Int) then some (ofRat neg (digitsVal (ip ++ fp) * 10 ^ (e - (fp.length : Int)).toNat) 1)
          else some (ofRat neg (digitsVal (ip ++ fp)) (10 ^ (-(e - (fp.length : Int))).toNat))) = some (F64.fin s m)) :
    ∃ d : Decimal, d.Ok ∧ d.neg = neg ∧ ∃ fr ex, FracText d.frac fr ∧ ExpText d.exp ex ∧ t = d.whole ++ (fr ++ ex) := by
  split at h
  · split at h
    · simp at h
    · split at h
      · simp at h
      · cases h
  · rename_i hne
    cases hx : parseExp r' with
    | none => rw [hx] at h; cases h
    | some e =>
      refine ⟨⟨neg, ip, fp, e⟩, ⟨?_, ?_⟩, rfl, fr, r', f1, parseExp_inv hx, ht⟩
      · simp only [Decimal.digits]
        intro h0
        rw [List.append_eq_nil_iff] at h0
        exact hne h0
      · apply digits_of
        simp [Decimal.digits, h3, f2]

/-- A text read as a finite number is a literal. -/
theorem parseUnsigned_inv {neg s : Bool} {t : Str} {m : Nat} (h : parseUnsigned neg t = some (.fin s m)) :
    ∃ d : Decimal, d.Ok ∧ d.neg = neg ∧ ∃ fr ex, FracText d.frac fr ∧ ExpText d.exp ex ∧ t = d.whole ++ (fr ++ ex) := by
  obtain ⟨ip, r, h1, h2, h3⟩ := spanDigits_inv t
  unfold parseUnsigned at h
  simp only [h1] at h
  split at h
  · rename_i r1
    obtain ⟨a, b, g1, g2, g3⟩ := spanDigits_inv r1
    simp only [g1] at h
    exact read_inv (fr := '.' :: a) h3 (Or.inl rfl) g3 (by rw [h2, g2]; rfl) h
  · exact read_inv (fp := []) (fr := []) h3 (Or.inr ⟨rfl, rfl⟩) rfl h2 h

theorem parse_inv {t : Str} {s : Bool} {m : Nat} (h : F64.parse t = some (.fin s m)) :
    ∃ d : Decimal, d.Ok ∧ d.Text t := by
  unfold F64.parse at h
  split at h
  · obtain ⟨d, h1, h2, fr, ex, h3, h4, h5⟩ := parseUnsigned_inv h
    exact ⟨d, h1, ['-'], fr, ex, by rw [h2]; rfl, h3, h4, by rw [h5]; rfl⟩
  · obtain ⟨d, h1, h2, fr, ex, h3, h4, h5⟩ := parseUnsigned_inv h
    exact ⟨d, h1, ['+'], fr, ex, by rw [h2]; exact Or.inr rfl, h3, h4, by rw [h5]; rfl⟩
  · obtain ⟨d, h1, h2, fr, ex, h3, h4, h5⟩ := parseUnsigned_inv h
    exact ⟨d, h1, [], fr, ex, by rw [h2]; exact Or.inl rfl, h3, h4, by rw [h5]; rfl⟩

/-! ## Significant digits -/

theorem digitVal_zero : digitVal '0' = 0 := rfl

theorem strip_spec (s : Str) : ∃ k, s = List.replicate k '0' ++ stripZeros s ∧
    (∀ c r, stripZeros s = c :: r → c ≠ '0') := by
  unfold stripZeros
  induction s with
  | nil => exact ⟨0, rfl, by simp⟩
  | cons c r ih =>
    by_cases hc : c = '0'
    · subst hc
      obtain ⟨k, h1, h2⟩ := ih
      refine ⟨k + 1, ?_, ?_⟩
      · simp only [List.dropWhile_cons, decide_true, if_true, List.replicate_succ, List.cons_append]
        rw [← h1]
      · simpa [List.dropWhile_cons] using h2
    · refine ⟨0, ?_, ?_⟩
      · simp [hc]
      · simp [hc]

theorem digitsVal_zeros (k : Nat) : digitsVal (List.replicate k '0') = 0 := by
  induction k with
  | zero => rfl
  | succ k ih => rw [List.replicate_succ, digitsVal_cons, ih, digitVal_zero]; simp

theorem digitVal_lt {c : Char} (h : DigitC c) : digitVal c < 10 := by
  have h2 : c.toNat ≤ '9'.toNat := h.2
  have : '9'.toNat = 57 := rfl
  have : '0'.toNat = 48 := rfl
  unfold digitVal
  omega

theorem digitVal_pos {c : Char} (h : DigitC c) (hc : c ≠ '0') : 0 < digitVal c := by
  have h1 : '0'.toNat ≤ c.toNat := h.1
  have hne : c.toNat ≠ '0'.toNat := fun e => hc (Char.toNat_inj.mp e)
  unfold digitVal
  omega

theorem digitsVal_lt {s : Str} (h : ∀ c ∈ s, DigitC c) : digitsVal s < 10 ^ s.length := by
  induction s with
  | nil => simp
  | cons c r ih =>
    rw [digitsVal_cons, List.length_cons, pow_succ]
    have h1 := digitVal_lt (h c (by simp))
    have h2 := ih (fun x hx => h x (by simp [hx]))
    have : digitVal c * 10 ^ r.length ≤ 9 * 10 ^ r.length := Nat.mul_le_mul_right _ (by omega)
    omega

/-- What the significant digits are: a number without a zero at either end. -/
theorem sig_spec (s : Str) (h : ∀ c ∈ s, DigitC c) :
    ∃ c k, digitsVal s = c * 10 ^ k ∧ c < 10 ^ (stripZeros (stripZeros s).reverse).length ∧
      (0 < (stripZeros (stripZeros s).reverse).length →
        10 ^ ((stripZeros (stripZeros s).reverse).length - 1) ≤ c ∧ c % 10 ≠ 0) := by
  obtain ⟨k, h1, h2⟩ := strip_spec s
  obtain ⟨j, h3, h4⟩ := strip_spec (stripZeros s).reverse
  generalize ha : stripZeros s = a at *
  generalize hb : stripZeros a.reverse = b at *
  have ha' : a = b.reverse ++ List.replicate j '0' := by
    have := congrArg List.reverse h3
    rw [List.reverse_reverse, List.reverse_append, List.reverse_replicate] at this
    exact this
  have hda : ∀ c ∈ a, DigitC c := fun c hc => h c (by rw [h1]; exact List.mem_append_right _ hc)
  have hdb : ∀ c ∈ b.reverse, DigitC c := fun c hc => hda c (by rw [ha']; exact List.mem_append_left _ hc)
  refine ⟨digitsVal b.reverse, j, ?_, ?_, ?_⟩
  · rw [h1, digitsVal_append, digitsVal_zeros, Nat.zero_mul, Nat.zero_add, ha', digitsVal_append, digitsVal_zeros,
      List.length_replicate, Nat.add_zero]
  · have := digitsVal_lt hdb
    rwa [List.length_reverse] at this
  · intro hlen
    constructor
    · cases hr : b.reverse with
      | nil => rw [List.reverse_eq_nil_iff] at hr; rw [hr] at hlen; simp at hlen
      | cons c r =>
        have hc0 : c ≠ '0' := h2 c (r ++ List.replicate j '0') (by rw [ha', hr]; rfl)
        have hcd := hdb c (by rw [hr]; simp)
        have hl : b.length = r.length + 1 := by
          rw [← List.length_reverse, hr]; rfl
        rw [hl, digitsVal_cons, Nat.add_sub_cancel]
        have := Nat.mul_le_mul_right (10 ^ r.length) (digitVal_pos hcd hc0)
        omega
    · cases hr : b with
      | nil => rw [hr] at hlen; simp at hlen
      | cons c r =>
        have hc0 : c ≠ '0' := h4 c r hr
        have hcd := hdb c (by rw [hr]; simp)
        rw [List.reverse_cons, digitsVal_append]
        have e : digitsVal [c] = digitVal c := by simp [digitsVal]
        rw [e]
        have g1 := digitVal_pos hcd hc0
        have g2 := digitVal_lt hcd
        simp only [List.length_singleton, pow_one]
        omega

theorem sig_form {d : Decimal} (hok : d.Ok) : ∃ (c : Nat) (e : Int), c < 10 ^ d.sig ∧ |d.value| = c * 10 ^ e := by
  obtain ⟨c, k, h1, h2, _⟩ := sig_spec d.digits hok.2
  refine ⟨c, k + (d.exp - d.frac.length), h2, ?_⟩
  rw [abs_value, natOf_eq, h1, zpow_add₀ (by norm_num), zpow_natCast]
  push_cast; ring

theorem sig_le {d : Decimal} (hok : d.Ok) {p c : Nat} {e : Int} (hc : c < 10 ^ p) (h : |d.value| = c * 10 ^ e) : d.sig ≤ p := by
  obtain ⟨a, k, h1, h2, h3⟩ := sig_spec d.digits hok.2
  rcases Nat.eq_zero_or_pos d.sig with h0 | hpos
  · omega
  obtain ⟨h4, h5⟩ := h3 hpos
  have hv : (a : ℚ) * 10 ^ ((k : Int) + (d.exp - d.frac.length)) = c * 10 ^ e := by
    rw [← h, abs_value, natOf_eq, h1, zpow_add₀ (by norm_num), zpow_natCast]
    push_cast; ring
  have hac : a ≤ c := by
    generalize (k : Int) + (d.exp - d.frac.length) = f at hv
    rcases lt_or_ge f e with hlt | hge
    · obtain ⟨j, rfl⟩ : ∃ j : Nat, e = f + (j + 1 : Nat) := ⟨(e - f - 1).toNat, by omega⟩
      rw [zpow_add₀ (by norm_num), zpow_natCast] at hv
      have hf : (10 : ℚ) ^ f ≠ 0 := zpow_ne_zero _ (by norm_num)
      have : (a : ℚ) = c * 10 ^ (j + 1) := by
        apply mul_right_cancel₀ hf
        rw [hv]; ring
      have : a = c * 10 ^ (j + 1) := by exact_mod_cast this
      rw [this, pow_succ, ← mul_assoc, Nat.mul_mod_left] at h5
      exact absurd rfl h5
    · obtain ⟨j, rfl⟩ : ∃ j : Nat, f = e + (j : Nat) := ⟨(f - e).toNat, by omega⟩
      rw [zpow_add₀ (by norm_num), zpow_natCast] at hv
      have hf : (10 : ℚ) ^ e ≠ 0 := zpow_ne_zero _ (by norm_num)
      have : (a : ℚ) * 10 ^ j = c := by
        apply mul_right_cancel₀ hf
        rw [← hv]; ring
      have : a * 10 ^ j = c := by exact_mod_cast this
      rw [← this]
      exact Nat.le_mul_of_pos_right _ (Nat.pow_pos (by decide))
  have : 10 ^ (d.sig - 1) < 10 ^ p := lt_of_le_of_lt (le_trans h4 hac) hc
  have := (Nat.pow_lt_pow_iff_right (by decide)).mp this
  omega

/-! ## Writing -/

theorem decText_text (neg : Bool) (D W : Nat) : ∃ d : Decimal, d.Ok ∧ d.neg = neg ∧ d.exp = 0 ∧
    d.Text (withSign neg (decText D W)) ∧ |d.value| = (D : ℚ) / 10 ^ W := by
  obtain ⟨n', w', h1, h2, h3⟩ := decNorm_spec W D
  have hsign : ∃ sg, SignText neg sg ∧ ∀ t, withSign neg t = sg ++ t := by
    cases neg with
    | true => exact ⟨['-'], rfl, fun t => rfl⟩
    | false => exact ⟨[], Or.inl rfl, fun t => rfl⟩
  obtain ⟨sg, hs1, hs2⟩ := hsign
  have hval : (n' : ℚ) * 10 ^ (-(w' : Int)) = (D : ℚ) / 10 ^ W := by
    rw [← h3, zpow_neg, zpow_natCast, show (10 : ℚ) ^ W = 10 ^ w' * 10 ^ (W - w') by rw [← pow_add]; congr 1; omega]
    push_cast
    field_simp
  unfold decText
  simp only [h1]
  rcases Nat.eq_zero_or_pos w' with hw | hw
  · subst hw
    refine ⟨⟨neg, natDigits n', [], 0⟩, ⟨?_, ?_⟩, rfl, rfl, ⟨sg, [], [], hs1, Or.inr ⟨rfl, rfl⟩, Or.inl ⟨rfl, rfl⟩, ?_⟩, ?_⟩
    · simp [Decimal.digits, natDigits_ne_nil]
    · apply digits_of; simp [Decimal.digits, natDigits_all]
    · rw [hs2]; simp
    · rw [abs_value, ← hval, natOf_eq]
      simp [Decimal.digits, digitsVal_natDigits]
  · obtain ⟨ds, hd1, hd2, hd3, hd4⟩ := fracDigits_spec w' n' []
    refine ⟨⟨neg, natDigits (n' / 10 ^ w'), ds, 0⟩, ⟨?_, ?_⟩, rfl, rfl,
      ⟨sg, '.' :: ds, [], hs1, Or.inl rfl, Or.inl ⟨rfl, rfl⟩, ?_⟩, ?_⟩
    · simp [Decimal.digits, natDigits_ne_nil]
    · apply digits_of; simp [Decimal.digits, natDigits_all, hd3]
    · rw [hs2, hd1, if_neg (by omega)]; simp
    · rw [abs_value, ← hval, natOf_eq]
      simp only [Decimal.digits]
      rw [digitsVal_append, digitsVal_natDigits, hd4, hd2, mul_comm (n' / 10 ^ w'), Nat.div_add_mod]
      simp

end KS.DL
