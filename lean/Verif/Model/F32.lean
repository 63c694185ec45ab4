import Verif.Model.F64
/-!
# IEEE-754 binary32 and the conversions between `f32` and `f64`

A finite `f32` is a sign and the natural number `|x| * 2^149`. The text of an `f32` is the shortest
decimal that reads back as that `f32`, like the text of an `f64` in `Verif/Model/F64.lean`; std's
`Display for f32` is part of the trusted base.
-/

namespace KS

/-- The type `f32`. -/
inductive F32 where
  | nan (neg : Bool) (payload : Nat)
  | inf (neg : Bool)
  | fin (neg : Bool) (mag : Nat)
deriving DecidableEq, Repr

namespace F32

/-- `2^149`: the reciprocal of the smallest positive `f32`. -/
def scale : Nat := 2 ^ 149

/-- `2^128 * 2^149`. -/
def magLimit : Nat := 2 ^ 277

/-- Which scaled magnitudes are `f32` values: at most 24 significant bits, below `2^128`. -/
def RepMag (m : Nat) : Prop := m < magLimit ∧ 2 ^ (m.log2 - 23) ∣ m

instance (m : Nat) : Decidable (RepMag m) := by unfold RepMag; infer_instance

/-- Well-formed bit patterns. -/
def WF : F32 → Prop
  | .nan _ p => 1 ≤ p ∧ p < 2 ^ 23
  | .inf _ => True
  | .fin _ m => RepMag m

instance : (x : F32) → Decidable (WF x)
  | .nan _ _ => by unfold WF; infer_instance
  | .inf _ => by unfold WF; infer_instance
  | .fin _ _ => by unfold WF; infer_instance

/-- The `f32` nearest to the non-negative rational `n / d` (ties to even; overflow to infinity). -/
def ofRat (neg : Bool) (n d : Nat) : F32 :=
  let q := n * scale / d
  let s := q.log2 - 23
  let m := F64.rneDiv (n * scale) (d * 2 ^ s) * 2 ^ s
  if magLimit ≤ m then .inf neg else .fin neg m

/-- `5^149`: `m * 2^-149 = m * 5^149 / 10^149`. -/
def decExact : Nat := 5 ^ 149

/-- `10^149`: every finite `f32` is an integer multiple of `10^-149`. -/
def decScale : Nat := F64.pow10 149

/-- As `F64.shortestAt`, for `f32`. -/
def shortestAt (m N L p : Nat) : Option Nat :=
  let u := 10 ^ (L - p)
  let lo := N / u * u
  let hi := lo + u
  let okLo := decide (ofRat false lo decScale = .fin false m)
  let okHi := decide (ofRat false hi decScale = .fin false m)
  if okLo && okHi then (if N - lo < hi - N then some lo else some hi)
  else if okLo then some lo
  else if okHi then some hi
  else none

/-- The decimal (scaled by `10^149`) printed for magnitude `m`: the shortest one that reads back as
`m`. The fall-back is the exact decimal expansion. -/
def shortest (m : Nat) : Nat :=
  let N := m * decExact
  F64.searchFrom (shortestAt m N (natDigits N).length) N 9 1

/-- `Display for f32` / `f32::to_string` (std). -/
def disp : F32 → Str
  | .nan _ _ => str "NaN"
  | .inf false => str "inf"
  | .inf true => str "-inf"
  | .fin s m => (if s then ['-'] else []) ++ F64.decText (shortest m) 149

/-- `f32_to_f64`, `/repo/src/ds/num.rs` 507-509, before the `expect`: `f.to_string().parse::<f64>()`.
std's `parse::<f64>` and `fast_float::parse` accept the same texts and round the same way here. -/
def toF64? (f : F32) : Option F64 := F64.parse (disp f)

/-- `f32_to_f64`, `/repo/src/ds/num.rs` 507-509, with the panic of `expect` totalised;
`Verif/Props/Float32.lean` proves `toF64?` is never `none`. -/
def toF64 (f : F32) : F64 := (toF64? f).getD (.nan false 0)

/-- `f64 as f32` (Rust reference): round to nearest, ties to even, overflow to infinity. NaNs keep sign and
top payload bits and become quiet. -/
def ofF64 : F64 → F32
  | .nan s p => .nan s (2 ^ 22 + p / 2 ^ 29 % 2 ^ 22)
  | .inf s => .inf s
  | .fin s m => ofRat s m F64.scale

end F32
end KS
