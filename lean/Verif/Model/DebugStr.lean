import Verif.Model.Basic
/-!
# `Debug` of strings
-/

namespace KS.Dbg

/-- Lower-case hexadecimal digit. -/
def hexDigit (n : Nat) : Char := if n < 10 then Char.ofNat (48 + n) else Char.ofNat (87 + n)

/-- `{:x}` of an integer below `16 ^ (f + 1)` (std). -/
def hex : Nat → Nat → Str
  | 0, n => [hexDigit (n % 16)]
  | f + 1, n => if n < 16 then [hexDigit n] else hex f (n / 16) ++ [hexDigit (n % 16)]

/-- One character in `Debug for str` (std). `plain` are the characters which std's tables call printable and not combining; it is left
open which they are. -/
def escape (plain : Char → Bool) (c : Char) : Str :=
  if c = '\x00' then str "\\0"
  else if c = '\t' then str "\\t"
  else if c = '\r' then str "\\r"
  else if c = '\n' then str "\\n"
  else if c = '"' then str "\\\""
  else if c = '\\' then str "\\\\"
  else if plain c then [c]
  else str "\\u{" ++ hex 5 c.toNat ++ str "}"

/-- `Debug for str` (std), `Debug for Kstr`, `/repo/src/ds/kstr.rs` 113-117. -/
def quote (plain : Char → Bool) (s : Str) : Str := '"' :: (s.flatMap (escape plain) ++ ['"'])

end KS.Dbg
