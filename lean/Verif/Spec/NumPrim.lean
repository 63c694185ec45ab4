import Verif.Spec.Num
import Verif.Model.NumPrim
/-!
# The place of Rust numbers on the number line
-/

namespace KS.Spec

/-- Place of an `f32`: `m / 2^149 = m * 2^925 / 2^1074`. -/
def placeF32 : F32 → Place
  | .nan _ _ => .nan
  | .inf true => .negInf
  | .inf false => .posInf
  | .fin true m => .fin (- (m * 2 ^ 925 : Int))
  | .fin false m => .fin (m * 2 ^ 925 : Int)

/-- Place of an integer or `f64`. -/
def placeR : RNum → Place
  | .unsigned n => .fin (n * one)
  | .signed i => .fin (i * one)
  | .f64 x => placeF x
  | .f32 x => placeF32 x

/-- In range for its type. -/
def RNumOk : RNum → Prop
  | .unsigned n => n < 2 ^ 128
  | .signed i => - 2 ^ 127 ≤ i ∧ i < 2 ^ 127
  | .f32 x => x.WF
  | .f64 x => F64.WF x

instance : (r : RNum) → Decidable (RNumOk r)
  | .unsigned _ => by unfold RNumOk; infer_instance
  | .signed _ => by unfold RNumOk; infer_instance
  | .f32 _ => by unfold RNumOk; infer_instance
  | .f64 _ => by unfold RNumOk; infer_instance

end KS.Spec
