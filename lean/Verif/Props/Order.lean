import Verif.Spec.Order
import Verif.Lemmas.Order
import Verif.Props.Kserds
/-!
# The order of Kserds

C56. The specification is `Verif/Spec/Order.lean`.
-/

namespace KS.Props

open Spec

theorem lexBefore_cons {α : Type} {same before : α → α → Prop} {x y : α} {a b : List α} :
    LexBefore same before (x :: a) (y :: b) ↔ before x y ∨ (same x y ∧ LexBefore same before a b) := by
  constructor
  · rintro ⟨p, q, h, h'⟩
    cases h with
    | nil =>
      rcases h' with ⟨h, -⟩ | ⟨x', s, y', r, h1, h2, h3⟩
      · cases h
      · cases h1; cases h2; exact .inl h3
    | cons hxy h =>
      rcases h' with ⟨h0, y', r, h1⟩ | ⟨x', s, y', r, h1, h2, h3⟩
      · cases h1; cases h0; exact .inr ⟨hxy, _, _, h, .inl ⟨rfl, _, _, rfl⟩⟩
      · cases h1; cases h2; exact .inr ⟨hxy, _, _, h, .inr ⟨_, _, _, _, rfl, rfl, h3⟩⟩
  · rintro (h | ⟨h, p, q, hpq, h'⟩)
    · exact ⟨[], [], .nil, .inr ⟨x, a, y, b, rfl, rfl, h⟩⟩
    · refine ⟨x :: p, y :: q, .cons h hpq, ?_⟩
      rcases h' with ⟨rfl, y', r, rfl⟩ | ⟨x', s, y', r, rfl, rfl, h3⟩
      · exact .inl ⟨rfl, y', r, rfl⟩
      · exact .inr ⟨x', s, y', r, rfl, rfl, h3⟩

theorem lexBefore_nil {α : Type} {same before : α → α → Prop} (a : List α) : ¬ LexBefore same before a [] := by
  rintro ⟨p, q, h, h' | h'⟩
  · obtain ⟨-, y, r, h⟩ := h'; simp at h
  · obtain ⟨x, s, y, r, -, h, -⟩ := h'; simp at h

theorem nil_lexBefore {α : Type} {same before : α → α → Prop} (y : α) (b : List α) : LexBefore same before [] (y :: b) :=
  ⟨[], [], .nil, .inl ⟨rfl, y, b, rfl⟩⟩

theorem then_lt_iff {a b : Ordering} : a.then b = .lt ↔ a = .lt ∨ (a = .eq ∧ b = .lt) := by cases a <;> simp [Ordering.then]

theorem lex_lt {α : Type} {f : α → α → Ordering} {same before : α → α → Prop} (hs : ∀ x y, f x y = .eq ↔ same x y)
    (hb : ∀ x y, f x y = .lt ↔ before x y) : ∀ a b : List α, lexCmp f a b = .lt ↔ LexBefore same before a b
  | [], [] => by simp [lexCmp, lexBefore_nil]
  | [], y :: b => by simp [lexCmp, nil_lexBefore]
  | x :: a, [] => by simp [lexCmp, lexBefore_nil]
  | x :: a, y :: b => by simp only [lexCmp, then_lt_iff, lexBefore_cons, hs, hb, lex_lt hs hb a b]

theorem list_lex : ∀ a b : List Kserd, Kserd.cmpList a b = lexCmp Kserd.cmp a b
  | [], [] => rfl
  | [], _ :: _ => rfl
  | _ :: _, [] => rfl
  | a :: r, b :: s => by simp only [Kserd.cmpList, lexCmp, list_lex r s]

theorem fields_lex : ∀ a b : List (Str × Kserd), Kserd.cmpFields a b =
    lexCmp (fun p q => (cmpStr p.1 q.1).then (Kserd.cmp p.2 q.2)) a b
  | [], [] => rfl
  | [], _ :: _ => rfl
  | _ :: _, [] => rfl
  | (n, a) :: r, (m, b) :: s => by simp only [Kserd.cmpFields, lexCmp, fields_lex r s]

theorem map_lex : ∀ a b : List (Kserd × Kserd), Kserd.cmpMap a b =
    lexCmp (fun p q => (Kserd.cmp p.1 q.1).then (Kserd.cmp p.2 q.2)) a b
  | [], [] => rfl
  | [], _ :: _ => rfl
  | _ :: _, [] => rfl
  | (n, a) :: r, (m, b) :: s => by simp only [Kserd.cmpMap, lexCmp, map_lex r s]

theorem lt_nat (a b : Nat) : compare a b = .lt ↔ a < b := by
  rcases Nat.lt_trichotomy a b with h | h | h
  · simp [ncompare_lt h, h]
  · simp [h]
  · rw [ncompare_gt h]; simp; omega

/-- **C56** (strings): field names and strings are ordered by code point, a start before the whole. -/
theorem C56_strings (a b : Str) : cmpStr a b = .lt ↔ StrBefore a b :=
  lex_lt (fun x y => by rw [eq_nat]; exact Char.toNat_inj) (fun x y => lt_nat _ _) a b

theorem bytes_lt (a b : Bytes) : cmpBytes a b = .lt ↔ LexBefore (· = ·) (· < ·) a b :=
  lex_lt (fun x y => by rw [eq_nat]; exact UInt8.toNat_inj) (fun x y => by rw [lt_nat]; exact Iff.rfl) a b

theorem place_eq (v : Value) : Kserd.rankV v = kindPlace v := by cases v <;> rfl

/-- **C56**: one Kserd comes before another exactly if its kind comes earlier in the list unit, `bool`, number, string, byte
array, tuple, container, sequence, map, or it is of the same kind and its content comes earlier: element by element, a start
before the whole; containers and maps entry by entry, first by key then by value. Identities do not count. -/
theorem C56_order (a b : Kserd) : Kserd.cmp a b = .lt ↔ Before a.val b.val := by
  rcases a with ⟨i, v⟩
  rcases b with ⟨j, w⟩
  rw [Kserd.val_mk, Kserd.val_mk, Kserd.cmp]
  have hp : ∀ {κ : Type} {f : κ → κ → Ordering} {same before : κ → κ → Prop}, (∀ x y, f x y = .eq ↔ same x y) →
      (∀ x y, f x y = .lt ↔ before x y) → ∀ x y : List (κ × Kserd),
      lexCmp (fun p q => (f p.1 q.1).then (Kserd.cmp p.2 q.2)) x y = .lt ↔ LexBefore (PairSame same) (PairBefore same before) x y := by
    intro κ f same before hs hb x y
    refine lex_lt (fun p q => ?_) (fun p q => ?_) x y
    · rw [then_eq_iff, hs]; rfl
    · rw [then_lt_iff, hs, hb]; rfl
  cases v <;> cases w <;> simp only [Kserd.cmpV, Before, lt_nat, kindPlace, Kserd.rankV]
  · simp
  · rename_i x y; cases x <;> cases y <;> simp
  · exact C56_strings _ _
  · exact bytes_lt _ _
  · rw [list_lex]; exact lex_lt (fun _ _ => Iff.rfl) (fun _ _ => Iff.rfl) _ _
  · rw [fields_lex]; exact hp (fun _ _ => cmpStr_eq _ _) C56_strings _ _
  · rw [list_lex]; exact lex_lt (fun _ _ => Iff.rfl) (fun _ _ => Iff.rfl) _ _
  · rw [map_lex]; exact hp (fun _ _ => Iff.rfl) (fun _ _ => Iff.rfl) _ _

/-! ## Bytes and code points -/

theorem ofNat_toNat (n : Nat) (h : n < 256) : (UInt8.ofNat n).toNat = n := by
  rw [UInt8.toNat_ofNat']; omega

theorem cmpBytes_cons (x y : UInt8) (a b : Bytes) : cmpBytes (x :: a) (y :: b) = (compare x.toNat y.toNat).then (cmpBytes a b) := rfl

theorem enc_append_same : ∀ (e x y : Bytes), cmpBytes (e ++ x) (e ++ y) = cmpBytes x y
  | [], _, _ => rfl
  | c :: e, x, y => by
    rw [List.cons_append, List.cons_append, cmpBytes_cons, ncompare_self rfl, enc_append_same e x y]; rfl

theorem char_bound (c : Char) : c.toNat < 1114112 := by
  have := c.valid
  rcases this with h | ⟨_, h⟩
  · have : c.toNat < 0xd800 := h
    omega
  · exact h

theorem enc_lt {a b : Char} (h : a.toNat < b.toNat) (x y : Bytes) :
    cmpBytes (String.utf8EncodeChar a ++ x) (String.utf8EncodeChar b ++ y) = .lt := by
  have ha := char_bound a
  have hb := char_bound b
  unfold String.utf8EncodeChar
  rw [show a.val.toNat = a.toNat from rfl, show b.val.toNat = b.toNat from rfl]
  generalize a.toNat = m at *
  generalize b.toNat = n at *
  have e1 : ∀ k : Nat, (k % 0x40 + 0x80) % 2 ^ 8 = k % 64 + 128 := fun k => by omega
  have e2 : ∀ k : Nat, (k % 0x20 + 0xc0) % 2 ^ 8 = k % 32 + 192 := fun k => by omega
  have e3 : ∀ k : Nat, (k % 0x10 + 0xe0) % 2 ^ 8 = k % 16 + 224 := fun k => by omega
  have e4 : ∀ k : Nat, k < 1114112 → (k / 262144 % 0x08 + 0xf0) % 2 ^ 8 = k / 262144 + 240 := fun k h => by omega
  have e5 : ∀ k : Nat, k / 4096 = k / 64 / 64 := fun k => by omega
  have e6 : ∀ k : Nat, k / 262144 = k / 64 / 64 / 64 := fun k => by omega
  simp only
  split <;> split <;> (repeat' split) <;>
    simp only [List.cons_append, cmpBytes_cons, then_lt_iff, lt_nat, eq_nat, UInt8.toNat_ofNat', e1, e2, e3, e4 m ha, e4 n hb, e5, e6]
    <;> omega

/-- **C56** (bytes): comparing the bytes of two strings in UTF-8, as Rust does, orders them by code point. -/
theorem C56_utf8 : ∀ a b : Str, cmpBytes (utf8 a) (utf8 b) = cmpStr a b
  | [], [] => rfl
  | [], c :: b => by
    rw [show utf8 (c :: b) = String.utf8EncodeChar c ++ utf8 b from rfl]
    have : String.utf8EncodeChar c ≠ [] := by unfold String.utf8EncodeChar; simp only; (repeat' split) <;> simp only [ne_eq, reduceCtorEq, not_false_eq_true]
    obtain ⟨y, r, h⟩ := List.exists_cons_of_ne_nil this
    rw [h]; rfl
  | c :: a, [] => by
    rw [show utf8 (c :: a) = String.utf8EncodeChar c ++ utf8 a from rfl]
    have : String.utf8EncodeChar c ≠ [] := by unfold String.utf8EncodeChar; simp only; (repeat' split) <;> simp only [ne_eq, reduceCtorEq, not_false_eq_true]
    obtain ⟨y, r, h⟩ := List.exists_cons_of_ne_nil this
    rw [h]; rfl
  | c :: a, d :: b => by
    rw [show utf8 (c :: a) = String.utf8EncodeChar c ++ utf8 a from rfl, show utf8 (d :: b) = String.utf8EncodeChar d ++ utf8 b from rfl]
    change _ = (compare c.toNat d.toNat).then (cmpStr a b)
    rcases Nat.lt_trichotomy c.toNat d.toNat with h | h | h
    · rw [enc_lt h, ncompare_lt h]; rfl
    · rw [ncompare_self h, Char.toNat_inj.mp h, enc_append_same, C56_utf8 a b]; rfl
    · rw [cmpBytes_swap, enc_lt h, ncompare_gt h]; rfl

/-- `é` (two bytes) comes before `€` (three), and `ab` before `abc`. -/
example : utf8 ['é'] = [195, 169] ∧ utf8 ['€'] = [226, 130, 172] ∧ cmpStr ['é'] ['€'] = .lt ∧
    cmpStr (str "ab") (str "abc") = .lt := by decide

/-- Every text comes before every byte array; within a container the first differing field decides. -/
example : Kserd.cmp (.mk (some ['z']) (.str ['z'])) (.mk none (.barr [])) = .lt ∧
    Kserd.cmp (.mk none (.cntr [(['a'], .mk none (.bool true)), (['b'], .mk none .unit)]))
      (.mk none (.cntr [(['a'], .mk none (.bool true)), (['c'], .mk none .unit)])) = .lt := by decide

end KS.Props
