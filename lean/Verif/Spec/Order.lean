import Verif.Model.Kserd
import Mathlib.Data.List.Forall2
/-!
# Specification of the order of Kserds
-/

namespace KS.Spec

/-- Lexicographic order: one list is a proper start of the other, or at the first place where the lists differ the element
of the first comes before that of the second. -/
def LexBefore {α : Type} (same before : α → α → Prop) (a b : List α) : Prop :=
  ∃ p q, List.Forall₂ same p q ∧
    ((a = p ∧ ∃ y r, b = q ++ y :: r) ∨ ∃ x s y r, a = p ++ x :: s ∧ b = q ++ y :: r ∧ before x y)

/-- Strings are ordered by code point. -/
def StrBefore : Str → Str → Prop := LexBefore (· = ·) (fun a b => a.toNat < b.toNat)

/-- The kinds of values in ascending order. -/
def kindPlace : Value → Nat
  | .unit => 0
  | .bool _ => 1
  | .num _ => 2
  | .str _ => 3
  | .barr _ => 4
  | .tuple _ => 5
  | .cntr _ => 6
  | .seq _ => 7
  | .map _ => 8

/-- Key first, then value. -/
def PairBefore {κ : Type} (same before : κ → κ → Prop) (p q : κ × Kserd) : Prop :=
  before p.1 q.1 ∨ (same p.1 q.1 ∧ Kserd.cmp p.2 q.2 = .lt)

/-- Key and value. -/
def PairSame {κ : Type} (same : κ → κ → Prop) (p q : κ × Kserd) : Prop := same p.1 q.1 ∧ Kserd.cmp p.2 q.2 = .eq

/-- When one value comes before another, in terms of their parts. -/
def Before : Value → Value → Prop
  | .bool x, .bool y => x = false ∧ y = true
  | .num x, .num y => Number.cmp x y = .lt
  | .str x, .str y => StrBefore x y
  | .barr x, .barr y => LexBefore (· = ·) (· < ·) x y
  | .tuple x, .tuple y => LexBefore (Kserd.cmp · · = .eq) (Kserd.cmp · · = .lt) x y
  | .seq x, .seq y => LexBefore (Kserd.cmp · · = .eq) (Kserd.cmp · · = .lt) x y
  | .cntr x, .cntr y => LexBefore (PairSame (· = ·)) (PairBefore (· = ·) StrBefore) x y
  | .map x, .map y => LexBefore (PairSame (Kserd.cmp · · = .eq)) (PairBefore (Kserd.cmp · · = .eq) (Kserd.cmp · · = .lt)) x y
  | v, w => kindPlace v < kindPlace w

/-- The bytes of a string in UTF-8. -/
def utf8 (s : Str) : Bytes := s.flatMap String.utf8EncodeChar

end KS.Spec
