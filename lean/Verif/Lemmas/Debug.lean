import Verif.Lemmas.DebugNum
import Verif.Spec.Debug
/-!
# `Debug` text determines the Kserd
-/

namespace KS.Dbg
open KS.Spec

/-- Two texts without `c`, each closed by `c`. -/
theorem split_at {c : Char} : ∀ {s t x y : Str}, c ∉ s → c ∉ t → s ++ c :: x = t ++ c :: y → s = t ∧ x = y
  | [], [], x, y, _, _, h => by injection h with _ h; exact ⟨rfl, h⟩
  | [], d :: t, x, y, _, ht, h => by injection h with h _; exact absurd (List.mem_cons.mpr (.inl h)) ht
  | d :: s, [], x, y, hs, _, h => by injection h with h _; exact absurd (List.mem_cons.mpr (.inl h.symm)) hs
  | d :: s, e :: t, x, y, hs, ht, h => by
    injection h with h1 h2
    obtain ⟨r1, r2⟩ := split_at (fun h => hs (List.mem_cons_of_mem _ h)) (fun h => ht (List.mem_cons_of_mem _ h)) h2
    exact ⟨by rw [h1, r1], r2⟩

/-! ## Strings -/

def hexVal (c : Char) : Nat := if c.toNat < 58 then c.toNat - 48 else c.toNat - 87

theorem hexVal_digit : ∀ n < 16, hexVal (hexDigit n) = n := by decide
theorem hexDigit_close : ∀ n < 16, hexDigit n ≠ '}' := by decide

theorem hex_close : ∀ (f n : Nat), '}' ∉ hex f n
  | 0, n => by
    simp only [hex, List.mem_singleton]
    exact fun h => hexDigit_close _ (Nat.mod_lt _ (by decide)) h.symm
  | f + 1, n => by
    unfold hex
    split
    · rename_i h
      simp only [List.mem_singleton]
      exact fun e => hexDigit_close _ h e.symm
    · simp only [List.mem_append, List.mem_singleton, not_or]
      exact ⟨hex_close f _, fun h => hexDigit_close _ (Nat.mod_lt _ (by decide)) h.symm⟩

theorem hex_val : ∀ (f n : Nat), n < 16 ^ (f + 1) → (hex f n).foldl (fun a c => a * 16 + hexVal c) 0 = n
  | 0, n, h => by
    simp only [hex, List.foldl_cons, List.foldl_nil]
    rw [hexVal_digit _ (Nat.mod_lt _ (by decide)), Nat.mod_eq_of_lt (by simpa using h)]
    simp
  | f + 1, n, h => by
    unfold hex
    split
    · rename_i h'
      simp only [List.foldl_cons, List.foldl_nil]
      rw [hexVal_digit _ h']; simp
    · rw [List.foldl_append, hex_val f (n / 16) (by rw [pow_succ] at h; omega)]
      simp only [List.foldl_cons, List.foldl_nil]
      rw [hexVal_digit _ (Nat.mod_lt _ (by decide))]
      omega

theorem char_lt (c : Char) : c.toNat < 16 ^ 6 := by
  rcases c.valid with h | ⟨-, h⟩
  · exact lt_of_lt_of_le h (by decide)
  · exact lt_of_lt_of_le h (by decide)

/-- The character of a short escape. -/
def back (e : Char) : Char :=
  if e = '0' then '\x00' else if e = 't' then '\t' else if e = 'r' then '\r' else if e = 'n' then '\n' else e

theorem escape_cases (plain : Char → Bool) (c : Char) : (∃ e, escape plain c = ['\\', e] ∧ e ≠ 'u' ∧ c = back e) ∨ (escape plain c = [c] ∧ c ≠ '\\' ∧ c ≠ '"') ∨
    escape plain c = '\\' :: 'u' :: '{' :: (hex 5 c.toNat ++ ['}']) := by
  unfold escape
  split
  · rename_i h; exact .inl ⟨'0', rfl, by decide, h⟩
  split
  · rename_i h; exact .inl ⟨'t', rfl, by decide, h⟩
  split
  · rename_i h; exact .inl ⟨'r', rfl, by decide, h⟩
  split
  · rename_i h; exact .inl ⟨'n', rfl, by decide, h⟩
  split
  · rename_i h; exact .inl ⟨'"', rfl, by decide, h⟩
  split
  · rename_i h; exact .inl ⟨'\\', rfl, by decide, h⟩
  rename_i h1 h2
  split
  · exact .inr (.inl ⟨rfl, h2, h1⟩)
  · exact .inr (.inr rfl)

theorem escape_inj {plain : Char → Bool} {c d : Char} {x y : Str} (h : escape plain c ++ x = escape plain d ++ y) : c = d ∧ x = y := by
  rcases escape_cases plain c with ⟨e, h1, h2, h3⟩ | ⟨h1, h2, -⟩ | h1 <;> rcases escape_cases plain d with ⟨g, k1, k2, k3⟩ | ⟨k1, k2, -⟩ | k1 <;>
    rw [h1, k1] at h
  · injection h with _ h; injection h with h h'
    exact ⟨by rw [h3, k3, h], h'⟩
  · injection h with h _; exact absurd h.symm k2
  · injection h with _ h; injection h with h _; exact absurd h h2
  · injection h with h _; exact absurd h h2
  · injection h with h h'; exact ⟨h, h'⟩
  · injection h with h _; exact absurd h h2
  · injection h with _ h; injection h with h _; exact absurd h.symm k2
  · injection h with h _; exact absurd h.symm k2
  · simp only [List.cons_append, List.cons.injEq, true_and, List.append_assoc, List.nil_append] at h
    obtain ⟨e1, e2⟩ := split_at (hex_close _ _) (hex_close _ _) h
    refine ⟨?_, e2⟩
    have := congrArg (List.foldl (fun a c => a * 16 + hexVal c) 0) e1
    rw [hex_val 5 _ (char_lt c), hex_val 5 _ (char_lt d)] at this
    exact Char.toNat_inj.mp this

theorem escape_quote {plain : Char → Bool} {c : Char} {x y : Str} (h : escape plain c ++ x = '"' :: y) : False := by
  rcases escape_cases plain c with ⟨e, h1, -⟩ | ⟨h1, -, h2⟩ | h1 <;> rw [h1] at h <;> injection h with h _
  · revert h; decide
  · exact h2 h
  · revert h; decide

theorem escapes_inj {plain : Char → Bool} : ∀ {s t x y : Str}, s.flatMap (escape plain) ++ '"' :: x = t.flatMap (escape plain) ++ '"' :: y → s = t ∧ x = y
  | [], [], x, y, h => by injection h with _ h; exact ⟨rfl, h⟩
  | [], d :: t, x, y, h => by rw [List.flatMap_cons, List.append_assoc] at h; exact (escape_quote h.symm).elim
  | d :: t, [], x, y, h => by rw [List.flatMap_cons, List.append_assoc] at h; exact (escape_quote h).elim
  | c :: s, d :: t, x, y, h => by
    rw [List.flatMap_cons, List.flatMap_cons, List.append_assoc, List.append_assoc] at h
    obtain ⟨rfl, h'⟩ := escape_inj h
    obtain ⟨rfl, h''⟩ := escapes_inj h'
    exact ⟨rfl, h''⟩

theorem quote_inj {plain : Char → Bool} {s t x y : Str} (h : quote plain s ++ x = quote plain t ++ y) : s = t ∧ x = y := by
  unfold quote at h
  simp only [List.cons_append, List.cons.injEq, true_and, List.append_assoc, List.nil_append] at h
  exact escapes_inj h

theorem ident_inj {plain : Char → Bool} {i j : Option Str} {x y : Str} (h : ident plain i ++ x = ident plain j ++ y) : i = j ∧ x = y := by
  cases i with
  | none =>
    cases j with
    | none => exact ⟨rfl, List.append_cancel_left h⟩
    | some j => exact absurd (show some 'N' = some 'S' from congrArg List.head? h) (by decide)
  | some i =>
    cases j with
    | none => exact absurd (show some 'S' = some 'N' from congrArg List.head? h) (by decide)
    | some j =>
      simp only [ident, List.append_assoc] at h
      obtain ⟨rfl, h'⟩ := quote_inj (List.append_cancel_left h)
      exact ⟨rfl, List.append_cancel_left h'⟩

/-! ## Numbers -/

theorem digits_close {c : Char} (hc : isDigit c = false) (n : Nat) : c ∉ natDigits n := fun h => by
  have := digit_mem_natDigits _ _ h
  rw [hc] at this; cases this

theorem natDigits_inj {n m : Nat} (h : natDigits n = natDigits m) : n = m := by
  rw [← digitsVal_natDigits n, h, digitsVal_natDigits]

theorem intText_close (i : Int) : ')' ∉ intText i := by
  unfold intText
  split <;> simp only [List.mem_append, not_or]
  · exact ⟨by decide, digits_close (by decide) _⟩
  · exact ⟨by simp, digits_close (by decide) _⟩

theorem intText_inj {i j : Int} (h : intText i = intText j) : i = j := by
  unfold intText at h
  have head : ∀ n m, natDigits n ≠ '-' :: natDigits m := fun n m e => by
    have := digits_close (c := '-') (by decide) n
    rw [e] at this; exact this List.mem_cons_self
  split at h <;> split at h
  · have := natDigits_inj (List.append_cancel_left h); omega
  · exact absurd h.symm (head _ _)
  · exact absurd h (head _ _)
  · have := natDigits_inj (List.append_cancel_left h); omega

theorem literal_free {z : Char} (hz : ¬ DigitC z) (hz' : z ∉ ['+', '-', '.', 'e', 'E']) {d : Decimal} (hok : d.Ok) {t : Str} (ht : d.Text t) : z ∉ t := by
  obtain ⟨sign, fr, ex, h1, h2, h3, rfl⟩ := ht
  have hd : ∀ {s : Str}, (∀ c ∈ s, DigitC c) → z ∉ s := fun h hc => hz (h _ hc)
  simp only [List.mem_cons, List.not_mem_nil, or_false, not_or] at hz'
  obtain ⟨z1, z2, z3, z4, z5⟩ := hz'
  have hs : ∀ {b : Bool} {s : Str}, SignText b s → z ∉ s := by
    intro b s h
    cases b
    · rcases h with rfl | rfl
      · simp
      · simpa using z1
    · have h : s = ['-'] := h
      rw [h]; simpa using z2
  have hw : z ∉ d.whole := hd fun c hc => hok.2 c (List.mem_append_left _ hc)
  have hf : z ∉ d.frac := hd fun c hc => hok.2 c (List.mem_append_right _ hc)
  simp only [List.mem_append, not_or]
  refine ⟨hs h1, hw, ?_, ?_⟩
  · rcases h2 with rfl | ⟨-, rfl⟩
    · simp only [List.mem_cons, not_or]; exact ⟨z3, hf⟩
    · simp
  · rcases h3 with ⟨-, rfl⟩ | ⟨c, neg, sg, ds, hc, hsg, -, hds, rfl, -⟩
    · simp
    · simp only [List.mem_cons, List.mem_append, not_or]
      refine ⟨?_, hs hsg, hd hds⟩
      rcases hc with rfl | rfl
      exacts [z4, z5]

theorem literal_close {d : Decimal} (hok : d.Ok) {t : Str} (ht : d.Text t) : ')' ∉ t :=
  literal_free (fun h => absurd h.1 (by decide)) (by decide) hok ht

theorem float_close {x : F64} (hx : x.WF) : ')' ∉ float x := by
  cases x with
  | nan s p => show ')' ∉ KS.str "NaN"; decide
  | inf s => cases s <;> decide
  | fin s m =>
    obtain ⟨d, h1, h2, -⟩ := float_literal hx rfl
    exact literal_close h1 h2

/-- What is read back. -/
theorem float_parse {x : F64} (hx : x.WF) : F64.parse (float x) = some (match (generalizing := false) x with | .nan _ _ => .nan false (2 ^ 51) | y => y) := by
  cases x with
  | nan s p => show F64.parse (str "NaN") = some (.nan false (2 ^ 51)); decide +kernel
  | inf s => clear hx; cases s <;> decide +kernel
  | fin s m => obtain ⟨d, -, -, h⟩ := float_literal hx rfl; exact h

theorem float_inj {x y : F64} (hx : x.WF) (hy : y.WF) (h : float x = float y) : oneNan (.float x) = oneNan (.float y) := by
  have := float_parse hx
  rw [h, float_parse hy] at this
  have := Option.some.inj this
  cases x <;> cases y <;> simp_all [oneNan]

theorem number_inj {n m : Number} (hn : n.WF) (hm : m.WF) {x y : Str} (h : number n ++ ')' :: x = number m ++ ')' :: y) : oneNan n = oneNan m ∧ x = y := by
  cases n with
  | uint n =>
    cases m with
    | uint m =>
      simp only [number, List.append_assoc] at h
      obtain ⟨h1, h2⟩ := split_at (digits_close (by decide) _) (digits_close (by decide) _) (List.append_cancel_left h)
      injection h2 with _ h2
      exact ⟨by rw [natDigits_inj h1], h2⟩
    | int m => exact absurd (show some 'U' = some 'I' from congrArg List.head? h) (by decide)
    | float m => exact absurd (show some 'U' = some 'F' from congrArg List.head? h) (by decide)
  | int n =>
    cases m with
    | uint m => exact absurd (show some 'I' = some 'U' from congrArg List.head? h) (by decide)
    | int m =>
      simp only [number, List.append_assoc] at h
      obtain ⟨h1, h2⟩ := split_at (intText_close _) (intText_close _) (List.append_cancel_left h)
      injection h2 with _ h2
      exact ⟨by rw [intText_inj h1], h2⟩
    | float m => exact absurd (show some 'I' = some 'F' from congrArg List.head? h) (by decide)
  | float n =>
    cases m with
    | uint m => exact absurd (show some 'F' = some 'U' from congrArg List.head? h) (by decide)
    | int m => exact absurd (show some 'F' = some 'I' from congrArg List.head? h) (by decide)
    | float m =>
      simp only [number, List.append_assoc] at h
      obtain ⟨h1, h2⟩ := split_at (float_close hn) (float_close hm) (List.append_cancel_left h)
      injection h2 with _ h2
      exact ⟨float_inj hn hm h1, h2⟩

/-! ## Bytes -/

/-- Further bytes. -/
def more : Bytes → Str
  | [] => []
  | n :: b => str ", " ++ natDigits n.toNat ++ more b

theorem bytes_eq : ∀ b : Bytes, bytes b = match b with | [] => str "[]" | n :: b => str "[" ++ natDigits n.toNat ++ more b ++ str "]"
  | [] => rfl
  | n :: b => by
    have key : ∀ (b : Bytes) (t : Str), (str ", ").intercalate (t :: b.map fun x => natDigits x.toNat) = t ++ more b := by
      intro b
      induction b with
      | nil => intro t; simp [List.intercalate, more]
      | cons n b ih =>
        intro t
        have := ih (natDigits n.toNat)
        simp only [List.intercalate, List.map_cons, List.intersperse_cons_cons, List.flatten_cons] at this ⊢
        rw [this]
        simp [more]
    simp only [bytes, listed, List.map_cons, key, List.append_assoc]

theorem byte_inj {n m : UInt8} (h : natDigits n.toNat = natDigits m.toNat) : n = m := UInt8.toNat_inj.mp (natDigits_inj h)

/-- A number and what follows it, which is no digit. -/
theorem digits_end {n m : Nat} {x y : Str} (hx : ∀ c r, x = c :: r → isDigit c = false) (hy : ∀ c r, y = c :: r → isDigit c = false)
    (h : natDigits n ++ x = natDigits m ++ y) : n = m ∧ x = y := by
  have key : ∀ {s t : Str}, s.all isDigit = true → t.all isDigit = true → s ++ x = t ++ y → s = t ∧ x = y := by
    intro s
    induction s with
    | nil =>
      intro t _ ht h
      cases t with
      | nil => exact ⟨rfl, h⟩
      | cons c t =>
        have := hx c _ h
        simp [this] at ht
    | cons c s ih =>
      intro t hs ht h
      cases t with
      | nil =>
        have := hy c _ h.symm
        simp [this] at hs
      | cons d t =>
        injection h with h1 h2
        simp only [List.all_cons, Bool.and_eq_true] at hs ht
        obtain ⟨r1, r2⟩ := ih hs.2 ht.2 h2
        exact ⟨by rw [h1, r1], r2⟩
  obtain ⟨h1, h2⟩ := key (natDigits_all n) (natDigits_all m) h
  exact ⟨natDigits_inj h1, h2⟩

theorem more_head (b : Bytes) (x : Str) : ∀ c r, more b ++ ']' :: x = c :: r → isDigit c = false := by
  intro c r h
  cases b with
  | nil => injection h with h _; rw [← h]; decide
  | cons n b =>
    have : some ',' = some c := congrArg List.head? h
    rw [← Option.some.inj this]; decide

theorem more_inj : ∀ {b c : Bytes} {x y : Str}, more b ++ ']' :: x = more c ++ ']' :: y → b = c ∧ x = y
  | [], [], x, y, h => by injection h with _ h; exact ⟨rfl, h⟩
  | [], d :: t, x, y, h => absurd (show some ']' = some ',' from congrArg List.head? h) (by decide)
  | d :: t, [], x, y, h => absurd (show some ',' = some ']' from congrArg List.head? h) (by decide)
  | n :: b, m :: c, x, y, h => by
    simp only [more, List.append_assoc] at h
    obtain ⟨h1, h2⟩ := digits_end (more_head _ _) (more_head _ _) (List.append_cancel_left h)
    obtain ⟨rfl, h4⟩ := more_inj h2
    exact ⟨by rw [UInt8.toNat_inj.mp h1], h4⟩

theorem bytes_inj {b c : Bytes} {x y : Str} (h : bytes b ++ x = bytes c ++ y) : b = c ∧ x = y := by
  have dig : ∀ (n : Nat) (x : Str) (y : Str), natDigits n ++ x ≠ ']' :: y := by
    intro n x y h
    cases e : natDigits n with
    | nil => exact natDigits_ne_nil n e
    | cons d r =>
      have hd := natDigits_all n
      rw [e] at h hd
      injection h with h _
      rw [h] at hd
      simp only [List.all_cons, Bool.and_eq_true] at hd
      exact absurd hd.1 (by decide)
  rw [bytes_eq, bytes_eq] at h
  match b, c with
  | [], [] => exact ⟨rfl, List.append_cancel_left h⟩
  | [], m :: c =>
    simp only [List.append_assoc] at h
    exact absurd (List.append_cancel_left (as := str "[") h).symm (dig _ _ _)
  | n :: b, [] =>
    simp only [List.append_assoc] at h
    exact absurd (List.append_cancel_left (as := str "[") h) (dig _ _ _)
  | n :: b, m :: c =>
    simp only [List.append_assoc] at h
    obtain ⟨h1, h2⟩ := digits_end (more_head _ _) (more_head _ _) (List.append_cancel_left h)
    obtain ⟨rfl, h4⟩ := more_inj h2
    exact ⟨by rw [UInt8.toNat_inj.mp h1], h4⟩

/-! ## Kserds -/

/-- What a value begins with. -/
def lead : Str → Nat
  | 'B' :: 'o' :: _ => 1
  | 'B' :: 'a' :: _ => 2
  | c :: _ => c.toNat
  | [] => 0

def tag : Value → Nat
  | .unit => 85
  | .bool _ => 1
  | .num _ => 78
  | .str _ => 83
  | .barr _ => 2
  | .tuple _ => 84
  | .cntr _ => 67
  | .seq _ => 91
  | .map _ => 123

theorem value_lead (plain : Char → Bool) (v : Value) (x : Str) : lead (value plain v ++ x) = tag v := by
  cases v with
  | tuple l => cases l <;> rfl
  | cntr l => cases l <;> rfl
  | seq l => cases l <;> rfl
  | map l => cases l <;> rfl
  | _ => rfl

theorem value_tag {plain : Char → Bool} {v w : Value} {x y : Str} (h : value plain v ++ x = value plain w ++ y) : tag v = tag w := by
  rw [← value_lead plain v x, ← value_lead plain w y, h]

theorem bool_inj {a b : Bool} {x y : Str} (h : (if a then str "true" else str "false") ++ x = (if b then str "true" else str "false") ++ y) :
    a = b ∧ x = y := by
  cases a <;> cases b
  · exact ⟨rfl, List.append_cancel_left h⟩
  · exact absurd (show some 'f' = some 't' from congrArg List.head? h) (by decide)
  · exact absurd (show some 't' = some 'f' from congrArg List.head? h) (by decide)
  · exact ⟨rfl, List.append_cancel_left h⟩

theorem name_inj {n m x y : Str} (hn : ' ' ∉ n) (hm : ' ' ∉ m) (h : n ++ (str ": " ++ x) = m ++ (str ": " ++ y)) : n = m ∧ x = y := by
  have h' : (n ++ [':']) ++ ' ' :: x = (m ++ [':']) ++ ' ' :: y := by
    rw [List.append_assoc, List.append_assoc]; exact h
  obtain ⟨h1, h2⟩ := split_at (by simpa using hn) (by simpa using hm) h'
  exact ⟨List.append_cancel_right h1, h2⟩

theorem num_len {n : Number} : ∃ r, number n = r ++ [')'] := by
  cases n <;> exact ⟨_, rfl⟩

variable {plain : Char → Bool}

theorem kserd_mk (i : Option Str) (v : Value) : kserd plain (.mk i v) = str "Kserd { id: " ++ ident plain i ++ str ", val: " ++ value plain v ++ str " }" := rfl
theorem value_bool (b : Bool) : value plain (.bool b) = str "Bool(" ++ (if b then str "true" else str "false") ++ str ")" := rfl
theorem value_num (n : Number) : value plain (.num n) = str "Num(" ++ number n ++ str ")" := rfl
theorem value_str (s : Str) : value plain (.str s) = str "Str(" ++ quote plain s ++ str ")" := rfl
theorem value_barr (b : Bytes) : value plain (.barr b) = str "Barr(" ++ bytes b ++ str ")" := rfl
theorem value_tuple (k : Kserd) (l : List Kserd) : value plain (.tuple (k :: l)) = str "Tuple(" ++ kserd plain k ++ kserds plain l ++ str ")" := rfl
theorem value_seq (k : Kserd) (l : List Kserd) : value plain (.seq (k :: l)) = str "[" ++ kserd plain k ++ kserds plain l ++ str "]" := rfl
theorem value_cntr (n : Str) (k : Kserd) (f : List (Str × Kserd)) :
    value plain (.cntr ((n, k) :: f)) = str "Cntr { " ++ n ++ str ": " ++ kserd plain k ++ fields plain f ++ str " }" := rfl
theorem value_map (k v : Kserd) (m : List (Kserd × Kserd)) :
    value plain (.map ((k, v) :: m)) = str "{" ++ kserd plain k ++ str ": " ++ kserd plain v ++ entries plain m ++ str "}" := rfl
theorem kserds_cons (k : Kserd) (l : List Kserd) : kserds plain (k :: l) = str ", " ++ kserd plain k ++ kserds plain l := rfl
theorem fields_cons (n : Str) (k : Kserd) (f : List (Str × Kserd)) :
    fields plain ((n, k) :: f) = str ", " ++ n ++ str ": " ++ kserd plain k ++ fields plain f := rfl
theorem entries_cons (k v : Kserd) (m : List (Kserd × Kserd)) :
    entries plain ((k, v) :: m) = str ", " ++ kserd plain k ++ str ": " ++ kserd plain v ++ entries plain m := rfl

mutual
theorem kserd_inj (k : Kserd) : ∀ {k' : Kserd} {x y : Str}, All Plainly k → All Plainly k' → kserd plain k ++ x = kserd plain k' ++ y →
    mapNum oneNan k = mapNum oneNan k' ∧ x = y := by
  match k with
  | .mk i v =>
    intro k' x y hk hk' h
    obtain ⟨j, w⟩ := k'
    simp only [kserd_mk, List.append_assoc] at h
    obtain ⟨h1, h2⟩ := ident_inj (List.append_cancel_left h)
    obtain ⟨h3, h4⟩ := value_inj v hk.1 hk'.1 hk.2 hk'.2 (List.append_cancel_left h2)
    exact ⟨by simp only [mapNum, h1, h3], h4⟩
termination_by structural k
theorem value_inj (v : Value) : ∀ {i j : Option Str} {w : Value} {x y : Str}, Plainly (.mk i v) → Plainly (.mk j w) → AllV Plainly v → AllV Plainly w →
    value plain v ++ (str " }" ++ x) = value plain w ++ (str " }" ++ y) → mapNumV oneNan v = mapNumV oneNan w ∧ x = y := by
  intro i j w x y pv pw av aw h
  have ht := value_tag h
  match v with
  | .unit  =>
    cases w with
    | unit  =>
      exact ⟨rfl, List.append_cancel_left (List.append_cancel_left h)⟩
    | _ => simp [tag] at ht
  | .bool a =>
    cases w with
    | bool b =>
      simp only [value_bool, List.append_assoc] at h
      obtain ⟨rfl, h2⟩ := bool_inj (List.append_cancel_left h)
      exact ⟨rfl, List.append_cancel_left (List.append_cancel_left h2)⟩
    | _ => simp [tag] at ht
  | .num n =>
    cases w with
    | num m =>
      simp only [value_num, List.append_assoc] at h
      obtain ⟨h1, h2⟩ := number_inj pv pw (List.append_cancel_left h)
      exact ⟨by simp only [mapNumV, h1], List.append_cancel_left h2⟩
    | _ => simp [tag] at ht
  | .str s =>
    cases w with
    | str t =>
      simp only [value_str, List.append_assoc] at h
      obtain ⟨rfl, h2⟩ := quote_inj (List.append_cancel_left h)
      exact ⟨rfl, List.append_cancel_left (List.append_cancel_left h2)⟩
    | _ => simp [tag] at ht
  | .barr b =>
    cases w with
    | barr c =>
      simp only [value_barr, List.append_assoc] at h
      obtain ⟨rfl, h2⟩ := bytes_inj (List.append_cancel_left h)
      exact ⟨rfl, List.append_cancel_left (List.append_cancel_left h2)⟩
    | _ => simp [tag] at ht
  | .tuple [] =>
    cases w with
    | tuple w =>
      match w with
      | [] =>
        exact ⟨rfl, List.append_cancel_left (List.append_cancel_left h)⟩
      | (a :: l) =>
        exact absurd (show some ' ' = some '(' from congrArg (fun t => (t.drop 5).head?) h) (by decide)
    | _ => simp [tag] at ht
  | .tuple (a :: l) =>
    cases w with
    | tuple w =>
      match w with
      | [] =>
        exact absurd (show some '(' = some ' ' from congrArg (fun t => (t.drop 5).head?) h) (by decide)
      | (b :: m) =>
        simp only [value_tuple, List.append_assoc] at h
        obtain ⟨h1, h2⟩ := kserd_inj a av.1 aw.1 (List.append_cancel_left h)
        obtain ⟨h3, h4⟩ := kserds_inj l (c := ')') (by decide) av.2 aw.2 h2
        exact ⟨by simp only [mapNumV, mapNumL, h1, h3], List.append_cancel_left h4⟩
    | _ => simp [tag] at ht
  | .cntr [] =>
    cases w with
    | cntr w =>
      match w with
      | [] =>
        exact ⟨rfl, List.append_cancel_left (List.append_cancel_left h)⟩
      | ((n, a) :: l) =>
        exact absurd (show some '}' = some '{' from congrArg (fun t => (t.drop 5).head?) h) (by decide)
    | _ => simp [tag] at ht
  | .cntr ((n, a) :: l) =>
    cases w with
    | cntr w =>
      match w with
      | [] =>
        exact absurd (show some '{' = some '}' from congrArg (fun t => (t.drop 5).head?) h) (by decide)
      | ((m, b) :: r) =>
        simp only [value_cntr, List.append_assoc] at h
        obtain ⟨h0, h1⟩ := name_inj (n := n) (pv _ List.mem_cons_self) (pw _ List.mem_cons_self) (List.append_cancel_left h)
        obtain ⟨h1, h2⟩ := kserd_inj a av.1 aw.1 h1
        obtain ⟨h3, h4⟩ := fields_inj l (fun p hp => pv p (List.mem_cons_of_mem _ hp)) (fun p hp => pw p (List.mem_cons_of_mem _ hp)) av.2 aw.2 h2
        exact ⟨by simp only [mapNumV, mapNumF, h0, h1, h3], List.append_cancel_left (as := str "} }") h4⟩
    | _ => simp [tag] at ht
  | .seq [] =>
    cases w with
    | seq w =>
      match w with
      | [] =>
        exact ⟨rfl, List.append_cancel_left (List.append_cancel_left h)⟩
      | (⟨_, _⟩ :: l) =>
        exact absurd (show some ']' = some 'K' from congrArg (fun t => (t.drop 1).head?) h) (by decide)
    | _ => simp [tag] at ht
  | .seq (a :: l) =>
    cases w with
    | seq w =>
      match w with
      | [] =>
        obtain ⟨_, _⟩ := a
        exact absurd (show some 'K' = some ']' from congrArg (fun t => (t.drop 1).head?) h) (by decide)
      | (b :: m) =>
        simp only [value_seq, List.append_assoc] at h
        obtain ⟨h1, h2⟩ := kserd_inj a av.1 aw.1 (List.append_cancel_left h)
        obtain ⟨h3, h4⟩ := kserds_inj l (c := ']') (by decide) av.2 aw.2 h2
        exact ⟨by simp only [mapNumV, mapNumL, h1, h3], List.append_cancel_left h4⟩
    | _ => simp [tag] at ht
  | .map [] =>
    cases w with
    | map w =>
      match w with
      | [] =>
        exact ⟨rfl, List.append_cancel_left (List.append_cancel_left h)⟩
      | ((⟨_, _⟩, _) :: l) =>
        exact absurd (show some '}' = some 'K' from congrArg (fun t => (t.drop 1).head?) h) (by decide)
    | _ => simp [tag] at ht
  | .map ((a, b) :: l) =>
    cases w with
    | map w =>
      match w with
      | [] =>
        obtain ⟨_, _⟩ := a
        exact absurd (show some 'K' = some '}' from congrArg (fun t => (t.drop 1).head?) h) (by decide)
      | ((c, d) :: m) =>
        simp only [value_map, List.append_assoc] at h
        obtain ⟨h1, h2⟩ := kserd_inj a av.1 aw.1 (List.append_cancel_left h)
        obtain ⟨h3, h4⟩ := kserd_inj b av.2.1 aw.2.1 (List.append_cancel_left h2)
        obtain ⟨h5, h6⟩ := entries_inj l av.2.2 aw.2.2 h4
        exact ⟨by simp only [mapNumV, mapNumM, h1, h3, h5], List.append_cancel_left h6⟩
    | _ => simp [tag] at ht
termination_by structural v
theorem kserds_inj (l : List Kserd) : ∀ {m : List Kserd} {c : Char} {x y : Str}, c ≠ ',' → AllL Plainly l → AllL Plainly m →
    kserds plain l ++ c :: x = kserds plain m ++ c :: y → mapNumL oneNan l = mapNumL oneNan m ∧ x = y := by
  intro m c x y hc hl hm h
  match l, m with
  | [], [] => injection h with _ h; exact ⟨rfl, h⟩
  | [], b :: m => exact absurd (Option.some.inj (show some c = some ',' from congrArg List.head? h)) hc
  | b :: l, [] => exact absurd (Option.some.inj (show some ',' = some c from congrArg List.head? h)).symm hc
  | a :: l, b :: m =>
    simp only [kserds_cons, List.append_assoc] at h
    obtain ⟨h1, h2⟩ := kserd_inj a hl.1 hm.1 (List.append_cancel_left h)
    obtain ⟨h3, h4⟩ := kserds_inj l hc hl.2 hm.2 h2
    exact ⟨by simp only [mapNumL, h1, h3], h4⟩
termination_by structural l
theorem fields_inj (l : List (Str × Kserd)) : ∀ {m : List (Str × Kserd)} {x y : Str}, (∀ p ∈ l, ' ' ∉ p.1) → (∀ p ∈ m, ' ' ∉ p.1) →
    AllF Plainly l → AllF Plainly m →
    fields plain l ++ ' ' :: x = fields plain m ++ ' ' :: y → mapNumF oneNan l = mapNumF oneNan m ∧ x = y := by
  intro m x y pl pm hl hm h
  match l, m with
  | [], [] => injection h with _ h; exact ⟨rfl, h⟩
  | [], (n, b) :: m => exact absurd (show some ' ' = some ',' from congrArg List.head? h) (by decide)
  | (n, b) :: l, [] => exact absurd (show some ',' = some ' ' from congrArg List.head? h) (by decide)
  | (n, a) :: l, (n', b) :: m =>
    simp only [fields_cons, List.append_assoc] at h
    obtain ⟨h0, h1⟩ := name_inj (n := n) (pl _ List.mem_cons_self) (pm _ List.mem_cons_self) (List.append_cancel_left h)
    obtain ⟨h1, h2⟩ := kserd_inj a hl.1 hm.1 h1
    obtain ⟨h3, h4⟩ := fields_inj l (fun p hp => pl p (List.mem_cons_of_mem _ hp)) (fun p hp => pm p (List.mem_cons_of_mem _ hp)) hl.2 hm.2 h2
    exact ⟨by simp only [mapNumF, h0, h1, h3], h4⟩
termination_by structural l
theorem entries_inj (l : List (Kserd × Kserd)) : ∀ {m : List (Kserd × Kserd)} {x y : Str}, AllM Plainly l → AllM Plainly m →
    entries plain l ++ '}' :: x = entries plain m ++ '}' :: y → mapNumM oneNan l = mapNumM oneNan m ∧ x = y := by
  intro m x y hl hm h
  match l, m with
  | [], [] => injection h with _ h; exact ⟨rfl, h⟩
  | [], (n, b) :: m => exact absurd (show some '}' = some ',' from congrArg List.head? h) (by decide)
  | (n, b) :: l, [] => exact absurd (show some ',' = some '}' from congrArg List.head? h) (by decide)
  | (a, b) :: l, (c, d) :: m =>
    simp only [entries_cons, List.append_assoc] at h
    obtain ⟨h1, h2⟩ := kserd_inj a hl.1 hm.1 (List.append_cancel_left h)
    obtain ⟨h3, h4⟩ := kserd_inj b hl.2.1 hm.2.1 (List.append_cancel_left h2)
    obtain ⟨h5, h6⟩ := entries_inj l hl.2.2 hm.2.2 h4
    exact ⟨by simp only [mapNumM, h1, h3, h5], h6⟩
termination_by structural l
end

/-! ## The converse: only NaNs are confused -/

theorem number_oneNan (n : Number) : number (oneNan n) = number n := by
  cases n with
  | float x => cases x <;> rfl
  | _ => rfl

mutual
theorem kserd_oneNan (k : Kserd) : kserd plain (mapNum oneNan k) = kserd plain k := by
  match k with
  | .mk i v => simp only [mapNum, kserd_mk, value_oneNan v]
termination_by structural k
theorem value_oneNan (v : Value) : value plain (mapNumV oneNan v) = value plain v := by
  match v with
  | .unit | .bool _ | .str _ | .barr _ | .tuple [] | .cntr [] | .seq [] | .map [] => rfl
  | .num n => simp only [mapNumV, value_num, number_oneNan]
  | .tuple (a :: l) => simp only [mapNumV, mapNumL, value_tuple, kserd_oneNan a, kserds_oneNan l]
  | .seq (a :: l) => simp only [mapNumV, mapNumL, value_seq, kserd_oneNan a, kserds_oneNan l]
  | .cntr ((n, a) :: l) => simp only [mapNumV, mapNumF, value_cntr, kserd_oneNan a, fields_oneNan l]
  | .map ((a, b) :: l) => simp only [mapNumV, mapNumM, value_map, kserd_oneNan a, kserd_oneNan b, entries_oneNan l]
termination_by structural v
theorem kserds_oneNan (l : List Kserd) : kserds plain (mapNumL oneNan l) = kserds plain l := by
  match l with
  | [] => rfl
  | a :: l => simp only [mapNumL, kserds_cons, kserd_oneNan a, kserds_oneNan l]
termination_by structural l
theorem fields_oneNan (l : List (Str × Kserd)) : fields plain (mapNumF oneNan l) = fields plain l := by
  match l with
  | [] => rfl
  | (n, a) :: l => simp only [mapNumF, fields_cons, kserd_oneNan a, fields_oneNan l]
termination_by structural l
theorem entries_oneNan (l : List (Kserd × Kserd)) : entries plain (mapNumM oneNan l) = entries plain l := by
  match l with
  | [] => rfl
  | (a, b) :: l => simp only [mapNumM, entries_cons, kserd_oneNan a, kserd_oneNan b, entries_oneNan l]
termination_by structural l
end

end KS.Dbg
