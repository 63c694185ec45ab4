/-!
# Basic carriers

`str`, `String` and `Kstr` (`/repo/src/ds/kstr.rs` 1-130) are modelled as `List Char`.
A Lean `Char` is exactly a Unicode scalar value, i.e. a Rust `char`.
Simplification: whether a `Kstr` is borrowed or owned is not recorded here
(`Verif/Model/Own.lean` models ownership).
-/

namespace KS

/-- Text. `/repo/src/ds/kstr.rs` 8-40 (`Kstr::as_str`). -/
abbrev Str := List Char

/-- Bytes. `/repo/src/ds/barr.rs` 8-41 (`Barr::as_bytes`). -/
abbrev Bytes := List UInt8

/-- String literal as text. -/
abbrev str (s : String) : Str := s.toList

/-- `char::is_ascii_digit` (std). -/
def isDigit (c : Char) : Bool := decide ('0'.toNat ≤ c.toNat ∧ c.toNat ≤ '9'.toNat)

/-- `char::is_ascii_alphabetic` (std); also nom's `is_alpha` on `char`. -/
def isAlpha (c : Char) : Bool :=
  decide (('a'.toNat ≤ c.toNat ∧ c.toNat ≤ 'z'.toNat) ∨ ('A'.toNat ≤ c.toNat ∧ c.toNat ≤ 'Z'.toNat))

/-- `char::is_ascii_alphanumeric` (std). -/
def isAlnum (c : Char) : Bool := isAlpha c || isDigit c

/-- Decimal digit character. -/
def digitChar (d : Nat) : Char := Char.ofNat ('0'.toNat + d)

/-- Value of a decimal digit character. -/
def digitVal (c : Char) : Nat := c.toNat - '0'.toNat

/-- Decimal digits of `n` in front of `acc`, with recursion fuel. -/
def natDigitsAcc : Nat → Nat → Str → Str
  | 0, _, acc => acc
  | f + 1, n, acc =>
    if n < 10 then digitChar n :: acc else natDigitsAcc f (n / 10) (digitChar (n % 10) :: acc)

/-- `Display` for unsigned integers (std): decimal digits, no leading zeros.
A number has at most `log2 n + 1` decimal digits. -/
def natDigits (n : Nat) : Str := natDigitsAcc (n.log2 + 1) n []

/-- Value of a string of decimal digits (most significant first). -/
def digitsVal (s : Str) : Nat := s.foldl (fun a c => a * 10 + digitVal c) 0

end KS
