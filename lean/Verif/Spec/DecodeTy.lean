import Verif.Spec.Serde
/-!
# Specification of type definitions
-/

namespace KS.Spec

/-- Definitions as Rust has them: names of fields and of variants are distinct, and a tuple struct has zero or at least two fields (with one
it is a newtype). -/
def DefOk : TyDef → Prop
  | .unitStruct _ => True
  | .newtype _ _ => True
  | .tupleStruct _ ts => ts.length ≠ 1
  | .struct _ ds => (ds.map Prod.fst).Nodup
  | .enum vs => (vs.map Prod.fst).Nodup ∧ ∀ n ds, (n, VarDef.struct ds) ∈ vs → (ds.map Prod.fst).Nodup

def EnvOk (env : TyEnv) : Prop := ∀ m d, env m = some d → DefOk d

/-- The names of structs and variants have no reserved characters, no newtype struct is called `Some` and no field-less tuple struct `None`. -/
def DefNames : TyDef → Prop
  | .unitStruct n => ¬ badName n
  | .newtype n _ => ¬ badName n ∧ n ≠ KS.str "Some"
  | .tupleStruct n ts => ¬ badName n ∧ ¬ (n = KS.str "None" ∧ ts = [])
  | .struct n _ => ¬ badName n
  | .enum vs => ∀ p ∈ vs, ¬ badName p.1

def EnvNames (env : TyEnv) : Prop := ∀ m d, env m = some d → DefNames d

/-- What is left of `Plain`: no two keys of a map encode to Kserds that compare equal, and no `f32` is `7.038531e-26` or its negative. -/
def keysHere : Ser → Prop
  | .f32 x => plainHere (.f32 x)
  | .map ops => plainHere (.map ops)
  | _ => True

end KS.Spec
