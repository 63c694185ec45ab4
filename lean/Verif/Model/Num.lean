import Verif.Model.F64
/-!
# `Number` — `/repo/src/ds/num.rs`
-/

namespace KS

/-- `enum Number`, `/repo/src/ds/num.rs` 97-103. `uint` carries a `u128`, `int` an `i128`;
the ranges are the separate predicate `Number.WF`. -/
inductive Number where
  | uint (n : Nat)
  | int (i : Int)
  | float (f : F64)
deriving DecidableEq, Repr

def u128Max : Nat := 2 ^ 128 - 1
def i128Max : Int := 2 ^ 127 - 1
def i128Min : Int := - 2 ^ 127

namespace Number

/-- The values a Rust `Number` can hold. -/
def WF : Number → Prop
  | .uint n => n ≤ u128Max
  | .int i => i128Min ≤ i ∧ i ≤ i128Max
  | .float f => f.WF

instance : (x : Number) → Decidable (WF x)
  | .uint _ => by unfold WF; infer_instance
  | .int _ => by unfold WF; infer_instance
  | .float _ => by unfold WF; infer_instance

/-- `u128::try_from(i128)` -/
def tryU128OfInt (i : Int) : Option Nat := if 0 ≤ i then some i.toNat else none

/-- `i128::try_from(u128)` -/
def tryI128OfNat (n : Nat) : Option Int := if (n : Int) ≤ i128Max then some n else none

/-- Saturating `f64 as u128` of an integral value. -/
def satU128 (r : Int) : Nat := min r.toNat u128Max

/-- Saturating `f64 as i128` of an integral value. -/
def satI128 (r : Int) : Int := max i128Min (min r i128Max)

/-- The closeness test `(r - x).abs() < 1e-10`, `/repo/src/ds/num.rs` 144-146 and 180-182.
The subtraction is exact in `f64` whenever `r` is `x` rounded, so it is computed exactly. -/
def nearInt (m : Nat) : Bool :=
  decide ((((F64.roundMag m * F64.scale : Nat) : Int) - (m : Int)).natAbs < F64.eps)

/-- `Number::as_u128`, `/repo/src/ds/num.rs` 138-153. `none` is `Err(IntoIntError)`.
`x >= 0.0` holds for `-0.0`. -/
def asU128 : Number → Option Nat
  | .uint x => some x
  | .int x => tryU128OfInt x
  | .float (.fin s m) =>
    if 0 ≤ F64.sval s m then
      if nearInt m then some (satU128 (F64.roundMag m)) else none
    else none
  | .float _ => none

/-- `Number::as_i128`, `/repo/src/ds/num.rs` 174-189. -/
def asI128 : Number → Option Int
  | .uint x => tryI128OfNat x
  | .int x => some x
  | .float (.fin s m) =>
    if nearInt m then some (satI128 (F64.sval s (F64.roundMag m))) else none
  | .float _ => none

/-- `Number::as_f64`, `/repo/src/ds/num.rs` 204-210. -/
def asF64 : Number → F64
  | .uint x => F64.ofNat x
  | .int x => F64.ofInt x
  | .float x => x

/-- `impl Display for Number`, `/repo/src/ds/num.rs` 213-221. -/
def disp : Number → Str
  | .uint x => natDigits x
  | .int x => (if x < 0 then ['-'] else []) ++ natDigits x.natAbs
  | .float x => F64.disp x

/-- Integer text to `u128`: `lexical_core::parse_with_options::<u128>` on digits, overflow is an error.
Simplification: `_` digit separators (accepted by the `OCAML_STRING` format in some positions) are
rejected here; the parser never passes them (`/repo/src/parse/prims.rs` 27-36). -/
def parseU128 (s : Str) : Option Nat :=
  if s ≠ [] ∧ s.all isDigit then
    (if digitsVal s ≤ u128Max then some (digitsVal s) else none)
  else none

/-- Digits after a `-` to `i128`; same remarks as `parseU128`. -/
def parseNegI128 (s : Str) : Option Int :=
  if s ≠ [] ∧ s.all isDigit then
    (if i128Min ≤ - (digitsVal s : Int) then some (- (digitsVal s : Int)) else none)
  else none

/-- `impl FromStr for Number`, `/repo/src/ds/num.rs` 223-252. -/
def fromStr (s : Str) : Option Number :=
  match s with
  | [] => none
  | c :: r =>
    let neg := c = '-'
    let validInt := (if neg then r else s).all (fun b => isDigit b || b == '_')
    if ¬ validInt then (F64.parse s).map .float
    else if neg then (parseNegI128 r).map .int
    else (parseU128 s).map .uint

/-- What `impl Hash for Number` feeds the hasher, `/repo/src/ds/num.rs` 254-258. -/
def hashInput (x : Number) : Nat := x.asF64.toBits

/-- `cmp_float_to_float`, `/repo/src/ds/num.rs` 356-371. -/
def cmpFloatToFloat (l r : F64) : Ordering :=
  match F64.partialCmp l r with
  | some o => o
  | none =>
    if l.isNan then (if r.isNan then .eq else .gt) else .lt

/-- `cmp_uint_to_int`, `/repo/src/ds/num.rs` 373-379. -/
def cmpUintToInt (l : Nat) (r : Int) : Ordering :=
  match tryU128OfInt r with
  | some r => compare l r
  | none => .gt

/-- `rev_ordering`, `/repo/src/ds/num.rs` 423-429. -/
def revOrdering : Ordering → Ordering
  | .gt => .lt
  | .eq => .eq
  | .lt => .gt

/-- The `match (floor.cmp(&rhs), ceil.cmp(&rhs))` of `/repo/src/ds/num.rs` 391-398 and 412-419;
`none` is the `unreachable!` panic. -/
def boundsCmp : Ordering → Ordering → Option Ordering
  | .lt, .lt => some .lt
  | .lt, .eq => some .lt
  | .eq, .eq => some .eq
  | .eq, .gt => some .gt
  | .gt, .gt => some .gt
  | _, _ => none

/-- `f64::floor` of a finite value, as an integer. -/
def floorInt (s : Bool) (m : Nat) : Int := Int.fdiv (F64.sval s m) (F64.scale : Nat)

/-- `f64::ceil` of a finite value, as an integer. -/
def ceilInt (s : Bool) (m : Nat) : Int := - Int.fdiv (- F64.sval s m) (F64.scale : Nat)

/-- `cmp_float_to_uint`, `/repo/src/ds/num.rs` 381-400 with `float_bounds_uint` 433-435;
`none` is a panic. -/
def cmpFloatToUint (l : F64) (r : Nat) : Option Ordering :=
  if l.signNeg then some .lt
  else match l with
    | .inf _ => some .gt
    | .nan _ _ => some .gt
    | .fin s m => boundsCmp (compare (satU128 (floorInt s m)) r) (compare (satU128 (ceilInt s m)) r)

/-- `cmp_float_to_int`, `/repo/src/ds/num.rs` 402-421 with `float_bounds_int` 438-440;
`none` is a panic. -/
def cmpFloatToInt (l : F64) (r : Int) : Option Ordering :=
  if l.signNeg && l.isInf then some .lt
  else match l with
    | .inf _ => some .gt
    | .nan _ _ => some .gt
    | .fin s m => boundsCmp (compare (satI128 (floorInt s m)) r) (compare (satI128 (ceilInt s m)) r)

/-- `impl Ord for Number`, `/repo/src/ds/num.rs` 319-339; `none` is a panic. -/
def cmp? : Number → Number → Option Ordering
  | .uint l, .uint r => some (compare l r)
  | .int l, .int r => some (compare l r)
  | .float l, .float r => some (cmpFloatToFloat l r)
  | .uint l, .int r => some (cmpUintToInt l r)
  | .int l, .uint r => some (revOrdering (cmpUintToInt r l))
  | .float l, .uint r => cmpFloatToUint l r
  | .uint l, .float r => (cmpFloatToUint r l).map revOrdering
  | .float l, .int r => cmpFloatToInt l r
  | .int l, .float r => (cmpFloatToInt r l).map revOrdering

/-- `cmp?` with the panic branch totalised; `Verif/Props/Numbers.lean` proves `cmp?` never panics
and equals `some (cmp ..)`. -/
def cmp (a b : Number) : Ordering := (cmp? a b).getD .eq

/-- `impl PartialEq for Number`, `/repo/src/ds/num.rs` 276-296. -/
def eq (a b : Number) : Bool :=
  match a, b with
  | .uint l, .uint r => l == r
  | .int l, .int r => l == r
  | .float l, .float r => cmpFloatToFloat l r == .eq
  | .uint l, .int _ => (b.asU128.map (fun r => l == r)).getD false
  | .uint l, .float _ => (b.asU128.map (fun r => l == r)).getD false
  | .int l, .uint _ => (b.asI128.map (fun r => l == r)).getD false
  | .int l, .float _ => (b.asI128.map (fun r => l == r)).getD false
  | .float l, .uint _ => F64.ieeeEq l b.asF64
  | .float l, .int _ => F64.ieeeEq l b.asF64

end Number
end KS
