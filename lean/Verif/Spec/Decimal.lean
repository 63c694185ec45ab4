import Verif.Spec.Parse
import Mathlib.Data.Rat.Defs
import Mathlib.Algebra.Order.Field.Rat
import Mathlib.Algebra.Order.Field.Basic
/-!
# What a number text says

A decimal literal taken apart, its text, its value as a rational number and its significant digits.
-/

namespace KS.Spec

/-- A decimal literal. -/
structure Decimal where
  /-- With a minus sign. -/
  neg : Bool
  /-- Digits before the point. -/
  whole : Str
  /-- Digits after the point. -/
  frac : Str
  /-- Exponent, a power of ten. -/
  exp : Int

/-- All digits in order. -/
def Decimal.digits (d : Decimal) : Str := d.whole ++ d.frac

/-- Only digits, and at least one. -/
def Decimal.Ok (d : Decimal) : Prop := d.digits ≠ [] ∧ ∀ c ∈ d.digits, DigitC c

/-- Natural number written with some digits, the last digit first. -/
def revNat : Str → Nat
  | [] => 0
  | c :: r => (c.toNat - '0'.toNat) + 10 * revNat r

/-- Natural number written with some digits. -/
def natOf (s : Str) : Nat := revNat s.reverse

/-- The value: all digits as one number, moved by the exponent and the digits after the point. -/
def Decimal.value (d : Decimal) : ℚ :=
  (if d.neg then -1 else 1) * natOf d.digits * 10 ^ (d.exp - d.frac.length)

/-- Without zeros at the front. -/
def stripZeros (s : Str) : Str := s.dropWhile (· = '0')

/-- Number of significant digits: zeros at both ends do not count. -/
def Decimal.sig (d : Decimal) : Nat := (stripZeros (stripZeros d.digits).reverse).length

/-- Text of a sign; `+` may be left out. -/
def SignText (neg : Bool) (s : Str) : Prop := if neg then s = ['-'] else s = [] ∨ s = ['+']

/-- Text of the digits after the point; without digits the point may be left out. -/
def FracText (frac s : Str) : Prop := s = '.' :: frac ∨ (frac = [] ∧ s = [])

/-- Text of an exponent; zero may be left out. -/
def ExpText (e : Int) (s : Str) : Prop :=
  (e = 0 ∧ s = []) ∨
  ∃ (c : Char) (neg : Bool) (sign ds : Str), (c = 'e' ∨ c = 'E') ∧ SignText neg sign ∧ ds ≠ [] ∧ (∀ x ∈ ds, DigitC x) ∧
    s = c :: (sign ++ ds) ∧ e = (if neg then -1 else 1) * natOf ds

/-- The texts of a literal. -/
def Decimal.Text (d : Decimal) (t : Str) : Prop :=
  ∃ sign frac ex, SignText d.neg sign ∧ FracText d.frac frac ∧ ExpText d.exp ex ∧ t = sign ++ (d.whole ++ (frac ++ ex))

end KS.Spec
