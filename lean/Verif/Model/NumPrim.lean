import Verif.Model.Num
import Verif.Model.F32
/-!
# Comparing a `Number` with a number of a Rust type — `/repo/src/ds/num.rs` 300-318, 341-354
-/

namespace KS

/-- A number of a Rust type. The unsigned types are `usize`, `u8` to `u128`, the signed ones `isize`, `i8` to `i128`; which of them makes no
difference below. -/
inductive RNum where
  | unsigned (n : Nat)
  | signed (i : Int)
  | f32 (x : F32)
  | f64 (x : F64)
deriving DecidableEq, Repr

/-- `impl From<..> for Number`, `/repo/src/ds/num.rs` 468-505. `x as u128` and `x as i128` keep the value, as those types are the widest. The
`expect` in the conversion of an `f32` is totalised (`C47_never_panics`). -/
def RNum.number : RNum → Number
  | .unsigned n => .uint n
  | .signed i => .int i
  | .f32 x => .float x.toF64
  | .f64 x => .float x

/-- `impl PartialEq<$t> for Number`, `/repo/src/ds/num.rs` 300-312. -/
def Number.eqR (a : Number) (r : RNum) : Bool := Number.eq a r.number

/-- `impl PartialOrd<$t> for Number`, `/repo/src/ds/num.rs` 341-354. The outer `none` is a panic. -/
def Number.partialCmpR (a : Number) (r : RNum) : Option (Option Ordering) := (Number.cmp? a r.number).map some

/-- `impl PartialOrd for Number`, `/repo/src/ds/num.rs` 314-318. The outer `none` is a panic. -/
def Number.partialCmp (a b : Number) : Option (Option Ordering) := (Number.cmp? a b).map some

end KS
