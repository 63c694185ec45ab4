import Verif.Spec.Serde
import Verif.Spec.Kserd
/-!
# What encoded Kserds look like
-/
namespace KS.Spec

/-- The numbers of a value satisfy `N`, as they are stored. -/
def numHere (N : Number → Prop) : Ser → Prop
  | .int t v => N (if t.signed then .int v else .uint v.toNat)
  | .f32 x => N (.float (F32.toF64 x))
  | .f64 x => N (.float x)
  | _ => True

/-- Integers are within their type, floats are bit patterns. -/
def inRange : Ser → Prop
  | .int t v => t.lo ≤ v ∧ v ≤ t.hi
  | .f64 x => x.WF
  | _ => True

/-- The name serde knows a value by: the type's name for primitives, `None` and `Some` for options, the name of the struct or variant
for user types. Units, sequences, tuples and maps have none. -/
def rustName : Ser → Option Str
  | .bool _ => some (str "bool")
  | .int t _ => some (match t with
    | .u8 => str "u8" | .u16 => str "u16" | .u32 => str "u32" | .u64 => str "u64" | .u128 => str "u128"
    | .i8 => str "i8" | .i16 => str "i16" | .i32 => str "i32" | .i64 => str "i64" | .i128 => str "i128")
  | .f32 _ => some (str "f32")
  | .f64 _ => some (str "f64")
  | .char _ => some (str "char")
  | .str _ => some (str "str")
  | .bytes _ => some (str "barr")
  | .none => some (str "None")
  | .some _ => some (str "Some")
  | .unitStruct n | .unitVariant n | .newtypeStruct n _ | .newtypeVariant n _ | .tupleStruct n _ | .tupleVariant n _
  | .struct n _ | .structVariant n _ => some n
  | .unit | .seq _ | .tuple _ | .map _ | .fail _ => none

end KS.Spec
