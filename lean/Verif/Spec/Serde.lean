import Verif.Model.Decode
import Verif.Spec.Kserd
/-!
# Small specifications about serde values
-/

namespace KS.Spec

/-- A name with a reserved character cannot be an identity (documentation of `Kserd::with_id`). -/
def badName (n : Str) : Prop := ∃ c ∈ n, c ∈ KS.str "(){}[]<> ,./\\="

instance (n : Str) : Decidable (badName n) := by unfold badName; infer_instance

/-- What is wrong with a name. -/
def nameProblem (n : Str) : List EncErr := if badName n then [.invalidId n] else []

/-- Whether a key is waiting for its value after a step. -/
def waitingAfter : MapOp → Bool → Bool
  | .key _, _ => true
  | .value _, _ => false
  | .entry _ _, waiting => waiting

mutual
/-- Everything that is wrong with a value, in the order in which serialization meets it. -/
def problems : Ser → List EncErr
  | .some v => problems v
  | .unitStruct n => nameProblem n
  | .unitVariant n => nameProblem n
  | .newtypeStruct n v => problems v ++ nameProblem n
  | .newtypeVariant n v => problems v ++ nameProblem n
  | .seq l => problemsL l
  | .tuple l => problemsL l
  | .tupleStruct n l => nameProblem n ++ problemsL l
  | .tupleVariant n l => nameProblem n ++ problemsL l
  | .map ops => problemsO ops false
  | .struct n fs => nameProblem n ++ problemsF fs
  | .structVariant n fs => nameProblem n ++ problemsF fs
  | .fail msg => [.message msg]
  | .bool _ => []
  | .int _ _ => []
  | .f32 _ => []
  | .f64 _ => []
  | .char _ => []
  | .str _ => []
  | .bytes _ => []
  | .none => []
  | .unit => []
termination_by structural s => s
def problemsL : List Ser → List EncErr
  | [] => []
  | v :: r => problems v ++ problemsL r
termination_by structural s => s
def problemsF : List (Str × Ser) → List EncErr
  | [] => []
  | (_, v) :: r => problems v ++ problemsF r
termination_by structural s => s
/-- The flag says whether a key is waiting for its value. -/
def problemsO : List MapOp → Bool → List EncErr
  | [], _ => []
  | o :: r, waiting => problemsOp o waiting ++ problemsO r (waitingAfter o waiting)
termination_by structural s => s
def problemsOp : MapOp → Bool → List EncErr
  | .key k, _ => problems k
  | .value v, waiting => (if waiting then [] else [.noKeyAvailable]) ++ problems v
  | .entry k v, _ => problems k ++ problems v
termination_by structural s => s
end

mutual
/-- `P` holds of the value and of every value inside it. -/
def SerAll (P : Ser → Prop) : Ser → Prop
  | .some v => P (.some v) ∧ SerAll P v
  | .newtypeStruct n v => P (.newtypeStruct n v) ∧ SerAll P v
  | .newtypeVariant n v => P (.newtypeVariant n v) ∧ SerAll P v
  | .seq l => P (.seq l) ∧ SerAllL P l
  | .tuple l => P (.tuple l) ∧ SerAllL P l
  | .tupleStruct n l => P (.tupleStruct n l) ∧ SerAllL P l
  | .tupleVariant n l => P (.tupleVariant n l) ∧ SerAllL P l
  | .map ops => P (.map ops) ∧ SerAllO P ops
  | .struct n fs => P (.struct n fs) ∧ SerAllF P fs
  | .structVariant n fs => P (.structVariant n fs) ∧ SerAllF P fs
  | .unitStruct n => P (.unitStruct n)
  | .unitVariant n => P (.unitVariant n)
  | .fail m => P (.fail m)
  | .bool b => P (.bool b)
  | .int t v => P (.int t v)
  | .f32 x => P (.f32 x)
  | .f64 x => P (.f64 x)
  | .char c => P (.char c)
  | .str s => P (.str s)
  | .bytes b => P (.bytes b)
  | .none => P .none
  | .unit => P .unit
termination_by structural s => s
def SerAllL (P : Ser → Prop) : List Ser → Prop
  | [] => True
  | v :: r => SerAll P v ∧ SerAllL P r
termination_by structural s => s
def SerAllF (P : Ser → Prop) : List (Str × Ser) → Prop
  | [] => True
  | (_, v) :: r => SerAll P v ∧ SerAllF P r
termination_by structural s => s
def SerAllO (P : Ser → Prop) : List MapOp → Prop
  | [] => True
  | o :: r => SerAllOp P o ∧ SerAllO P r
termination_by structural s => s
def SerAllOp (P : Ser → Prop) : MapOp → Prop
  | .key k => SerAll P k
  | .value v => SerAll P v
  | .entry k v => SerAll P k ∧ SerAll P v
termination_by structural s => s
end

mutual
/-- The value is one of the type. Field names and variant names of a type are distinct; a tuple struct has zero or at
least two fields (with one it is a newtype). Map values are lists of entries. -/
def HasTy (env : TyEnv) : Ser → Ty → Prop
  | .unit, .unit => True
  | .bool _, .bool => True
  | .int t v, .int t' => t = t' ∧ t.lo ≤ v ∧ v ≤ t.hi
  | .f32 x, .f32 => x.WF
  | .f64 x, .f64 => x.WF
  | .char _, .char => True
  | .str _, .string => True
  | .bytes _, .bytes => True
  | .none, .option _ => True
  | .some v, .option t => HasTy env v t
  | .seq l, .seq t => HasTyAll env l t
  | .tuple l, .tuple ts => HasTys env l ts
  | .map ops, .map k v => HasEntries env ops k v
  | .unitStruct n, .named m => env m = some (.unitStruct n)
  | .newtypeStruct n v, .named m => ∃ t, env m = some (.newtype n t) ∧ HasTy env v t
  | .tupleStruct n l, .named m => ∃ ts, env m = some (.tupleStruct n ts) ∧ ts.length ≠ 1 ∧ HasTys env l ts
  | .struct n fs, .named m => ∃ ds, env m = some (.struct n ds) ∧ (ds.map Prod.fst).Nodup ∧ HasFields env fs ds
  | .unitVariant n, .named m => ∃ vs, env m = some (.enum vs) ∧ (vs.map Prod.fst).Nodup ∧ (n, .unit) ∈ vs
  | .newtypeVariant n v, .named m => ∃ vs t, env m = some (.enum vs) ∧ (vs.map Prod.fst).Nodup ∧
      (n, .newtype t) ∈ vs ∧ HasTy env v t
  | .tupleVariant n l, .named m => ∃ vs ts, env m = some (.enum vs) ∧ (vs.map Prod.fst).Nodup ∧
      (n, .tuple ts) ∈ vs ∧ HasTys env l ts
  | .structVariant n fs, .named m => ∃ vs ds, env m = some (.enum vs) ∧ (vs.map Prod.fst).Nodup ∧
      (n, .struct ds) ∈ vs ∧ (ds.map Prod.fst).Nodup ∧ HasFields env fs ds
  | _, _ => False
termination_by structural s => s
def HasTyAll (env : TyEnv) : List Ser → Ty → Prop
  | [], _ => True
  | v :: r, t => HasTy env v t ∧ HasTyAll env r t
termination_by structural s => s
def HasTys (env : TyEnv) : List Ser → List Ty → Prop
  | [], [] => True
  | v :: r, t :: ts => HasTy env v t ∧ HasTys env r ts
  | _, _ => False
termination_by structural s => s
def HasFields (env : TyEnv) : List (Str × Ser) → List (Str × Ty) → Prop
  | [], [] => True
  | (n, v) :: r, (m, t) :: ts => n = m ∧ HasTy env v t ∧ HasFields env r ts
  | _, _ => False
termination_by structural s => s
def HasEntries (env : TyEnv) : List MapOp → Ty → Ty → Prop
  | [], _, _ => True
  | o :: r, k, v => HasEntry env o k v ∧ HasEntries env r k v
termination_by structural s => s
def HasEntry (env : TyEnv) : MapOp → Ty → Ty → Prop
  | .entry k v, kt, vt => HasTy env k kt ∧ HasTy env v vt
  | _, _, _ => False
termination_by structural s => s
end

mutual
/-- The same value: equal, except that maps are compared as collections of entries, in any order, and all NaNs of type
`f32` are the same. -/
def Same : Ser → Ser → Prop
  | .bool a, .bool b => a = b
  | .int t a, .int u b => t = u ∧ a = b
  | .f32 a, .f32 b => a = b ∨ ((∃ s p, a = .nan s p) ∧ ∃ s p, b = .nan s p)
  | .f64 a, .f64 b => a = b
  | .char a, .char b => a = b
  | .str a, .str b => a = b
  | .bytes a, .bytes b => a = b
  | .none, .none => True
  | .unit, .unit => True
  | .some a, .some b => Same a b
  | .unitStruct n, .unitStruct m => n = m
  | .unitVariant n, .unitVariant m => n = m
  | .newtypeStruct n a, .newtypeStruct m b => n = m ∧ Same a b
  | .newtypeVariant n a, .newtypeVariant m b => n = m ∧ Same a b
  | .seq a, .seq b => SameL a b
  | .tuple a, .tuple b => SameL a b
  | .tupleStruct n a, .tupleStruct m b => n = m ∧ SameL a b
  | .tupleVariant n a, .tupleVariant m b => n = m ∧ SameL a b
  | .map a, .map b => ∃ b', SameO a b' ∧ b'.Perm b
  | .struct n a, .struct m b => n = m ∧ SameF a b
  | .structVariant n a, .structVariant m b => n = m ∧ SameF a b
  | _, _ => False
termination_by structural s => s
def SameL : List Ser → List Ser → Prop
  | [], [] => True
  | a :: r, b :: s => Same a b ∧ SameL r s
  | _, _ => False
termination_by structural s => s
def SameF : List (Str × Ser) → List (Str × Ser) → Prop
  | [], [] => True
  | (n, a) :: r, (m, b) :: s => n = m ∧ Same a b ∧ SameF r s
  | _, _ => False
termination_by structural s => s
def SameO : List MapOp → List MapOp → Prop
  | [], [] => True
  | a :: r, b :: s => SameOp a b ∧ SameO r s
  | _, _ => False
termination_by structural s => s
def SameOp : MapOp → MapOp → Prop
  | .entry k v, .entry k' v' => Same k k' ∧ Same v v'
  | _, _ => False
termination_by structural s => s
end

/-- The name of the value, if it has one, has no reserved character. -/
def nameOk : Ser → Prop
  | .unitStruct n | .unitVariant n | .newtypeStruct n _ | .newtypeVariant n _ | .tupleStruct n _
  | .tupleVariant n _ | .struct n _ | .structVariant n _ => ¬ badName n
  | _ => True

/-- No struct or variant name has a reserved character. -/
def NamesOk : Ser → Prop := SerAll nameOk

/-- The keys of a map's entries. -/
def opKeys : List MapOp → List Ser
  | [] => []
  | .key k :: r => k :: opKeys r
  | .value _ :: r => opKeys r
  | .entry k _ :: r => k :: opKeys r

/-- The condition of `Plain` at one value. -/
def plainHere : Ser → Prop
  | .newtypeStruct n _ => n ≠ KS.str "Some"
  | .tupleStruct n l => ¬ (n = KS.str "None" ∧ l = [])
  | .f32 x => ∀ s, x ≠ .fin s (11420669 * 2 ^ 42)
  | .map ops => (opKeys ops).Pairwise (fun a b => ∀ ka kb, a.encode = .ok ka → b.encode = .ok kb →
      Kserd.cmp kb ka ≠ .eq)
  | _ => True

/-- What decoding needs beyond types and names: no newtype struct is called `Some` and no field-less tuple struct
`None` (they read back as options); no two keys of a map encode to Kserds that compare equal; no `f32` is
`7.038531e-26` or its negative, the only one that changes in a Kserd (`C47_exact`). -/
def Plain : Ser → Prop := SerAll plainHere

mutual
/-- Types whose values all encode to different Kserds: no floats (NaNs are equal, so are the zeros) and no user types (a
Kserd does not compare its identity, so variants of an enum without data are equal). -/
def Distinctive : Ty → Prop
  | .unit | .bool | .int _ | .char | .string | .bytes => True
  | .option t => Distinctive t
  | .seq t => Distinctive t
  | .tuple l => DistinctiveL l
  | .f32 | .f64 | .map _ _ | .named _ => False
termination_by structural t => t
def DistinctiveL : List Ty → Prop
  | [] => True
  | t :: r => Distinctive t ∧ DistinctiveL r
termination_by structural t => t
end

end KS.Spec
