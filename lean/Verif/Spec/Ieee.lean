import Verif.Model.F32
/-!
# The floats that bit patterns stand for (IEEE 754)
-/

namespace KS.Spec

/-- The `f64` of a 64-bit pattern: one bit sign, eleven bits exponent, 52 bits fraction. Magnitudes are multiples of `2^-1074`. -/
def f64OfBits (b : Nat) : F64 :=
  let s := decide (b / 2 ^ 63 = 1)
  let e := b / 2 ^ 52 % 2 ^ 11
  let f := b % 2 ^ 52
  if e = 2047 then (if f = 0 then .inf s else .nan s f)
  else .fin s (if e = 0 then f else (2 ^ 52 + f) * 2 ^ (e - 1))

/-- The `f32` of a 32-bit pattern: one bit sign, eight bits exponent, 23 bits fraction. Magnitudes are multiples of `2^-149`. -/
def f32OfBits (b : Nat) : F32 :=
  let s := decide (b / 2 ^ 31 = 1)
  let e := b / 2 ^ 23 % 2 ^ 8
  let f := b % 2 ^ 23
  if e = 255 then (if f = 0 then .inf s else .nan s f)
  else .fin s (if e = 0 then f else (2 ^ 23 + f) * 2 ^ (e - 1))

end KS.Spec
