import Verif.Model.Basic
/-!
# Strings as bytes

std's `str::as_bytes` and `str::from_utf8`, which serde's visitors use where a string is wanted and a byte array is given, or
the other way round.
-/

namespace KS

/-- `str::as_bytes`. -/
def strBytes (s : Str) : Bytes := s.flatMap String.utf8EncodeChar

/-- The first character and what follows it. The first byte tells how many bytes there are and gives the high bits, each of the others
gives six more; a character is taken only when these bytes are its encoding (no longer form, no surrogate, nothing beyond the last code point). -/
def utf8Char (b : Bytes) : Option (Char × Bytes) :=
  match b with
  | [] => none
  | a :: _ =>
    let n := if a.toNat < 0x80 then 1 else if a.toNat < 0xe0 then 2 else if a.toNat < 0xf0 then 3 else 4
    let high := if n = 1 then a.toNat else if n = 2 then a.toNat % 32 else if n = 3 then a.toNat % 16 else a.toNat % 8
    let c := Char.ofNat ((b.take n).tail.foldl (fun v x => v * 64 + x.toNat % 64) high)
    if b.take n = String.utf8EncodeChar c then some (c, b.drop n) else none

/-- Character by character; the number bounds how many. -/
def utf8Chars : Nat → Bytes → Option Str
  | _, [] => some []
  | 0, _ :: _ => none
  | f + 1, b@(_ :: _) => match utf8Char b with
    | none => none
    | some (c, r) => match utf8Chars f r with
      | none => none
      | some s => some (c :: s)

/-- `str::from_utf8`, `none` when the bytes are not UTF-8. -/
def bytesStr (b : Bytes) : Option Str := utf8Chars b.length b

end KS
