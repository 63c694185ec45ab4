import Verif.Model.DecodeOwn
/-!
# Types with borrowed parts
-/
namespace KS.Spec

mutual
/-- The type with every reference replaced by the owned type: `&str` by `String`, `&[u8]` by bytes. -/
def ownTy : BTy → Ty
  | .unit => .unit
  | .bool => .bool
  | .int t => .int t
  | .f32 => .f32
  | .f64 => .f64
  | .char => .char
  | .string => .string
  | .bytes => .bytes
  | .strRef => .string
  | .bytesRef => .bytes
  | .option t => .option (ownTy t)
  | .seq t => .seq (ownTy t)
  | .tuple l => .tuple (ownTys l)
  | .map k v => .map (ownTy k) (ownTy v)
  | .named n => .named n
termination_by structural t => t
def ownTys : List BTy → List Ty
  | [] => []
  | t :: r => ownTy t :: ownTys r
termination_by structural t => t
end

/-- The variant with owned types. -/
def ownVar : BVarDef → VarDef
  | .unit => .unit
  | .newtype t => .newtype (ownTy t)
  | .tuple l => .tuple (l.map ownTy)
  | .struct fs => .struct (fs.map fun p => (p.1, ownTy p.2))

/-- The user type with owned types. -/
def ownDef : BTyDef → TyDef
  | .unitStruct n => .unitStruct n
  | .newtype n t => .newtype n (ownTy t)
  | .tupleStruct n l => .tupleStruct n (l.map ownTy)
  | .struct n fs => .struct n (fs.map fun p => (p.1, ownTy p.2))
  | .enum vs => .enum (vs.map fun p => (p.1, ownVar p.2))

/-- All user types with owned types. -/
def ownEnv (env : BTyEnv) : TyEnv := fun n => (env n).map ownDef

mutual
/-- A type and the types it is written with. -/
def parts : BTy → List BTy
  | .option t => .option t :: parts t
  | .seq t => .seq t :: parts t
  | .tuple l => .tuple l :: partsL l
  | .map k v => .map k v :: (parts k ++ parts v)
  | t => [t]
termination_by structural t => t
def partsL : List BTy → List BTy
  | [] => []
  | t :: r => parts t ++ partsL r
termination_by structural t => t
end

/-- The types of the fields of a user type. -/
def fieldTypes : BTyDef → List BTy
  | .unitStruct _ => []
  | .newtype _ t => [t]
  | .tupleStruct _ l => l
  | .struct _ fs => fs.map Prod.snd
  | .enum vs => vs.flatMap fun p => match p.2 with
    | .unit => []
    | .newtype t => [t]
    | .tuple l => l
    | .struct fs => fs.map Prod.snd

/-- `P` holds for every part of the type and of all user types in scope. -/
def EveryPart (P : BTy → Prop) (env : BTyEnv) (t : BTy) : Prop :=
  (∀ s ∈ parts t, P s) ∧ ∀ n d, env n = some d → ∀ u ∈ fieldTypes d, ∀ s ∈ parts u, P s

/-- Neither `&str` nor `&[u8]`. -/
def notRef : BTy → Prop
  | .strRef => False
  | .bytesRef => False
  | _ => True

/-- Not a map with keys `&str` or `&[u8]`. -/
def notRefKeyed : BTy → Prop
  | .map .strRef _ => False
  | .map .bytesRef _ => False
  | _ => True

end KS.Spec
