import Verif.Spec.DecodeErr
/-!
# In which order things are looked at when decoding

Reading a value stops at the first thing that cannot be read. `Plan` lists what is looked at directly inside a value, in
order; `Fault` says which of these an error is about.
-/

namespace KS.Spec.De

/-- A key of a map that can name a field: a string, a byte array, or an unsigned integer of 64 bits. -/
def MayName (k : Kserd) : Prop := (∃ s, k.val = .str s) ∨ (∃ b, k.val = .barr b) ∨ ∃ n, n < 2 ^ 64 ∧ k.val = .num (.uint n)

/-- A name in a container that can be read as a key of type `t`. -/
def Keyed (env : TyEnv) (t : Ty) (s : Str) : Prop :=
  t = .string ∨ t = .bytes ∨ (t = .char ∧ s.length = 1) ∨ ∃ n vs, t = .named n ∧ env n = some (.enum vs) ∧ vs.lookup s = some .unit

/-- Something is looked at, or a field is met again. -/
inductive Step where
  | look (s : Subject)
  | again (f : Str)

/-- Reading goes on after this. -/
def Fine (env : TyEnv) : Step → Prop
  | .look (.value t k) => ∃ v, decode env t k = some v
  | .look (.key t s) => Keyed env t s
  | .look (.field k) => MayName k
  | .again _ => False

/-- What the value `v` of the name `n` means, after the names `before`: nothing, if there is no such field. -/
def fieldStep (fs : List (Str × Ty)) (before : List Str) (n : Str) (v : Kserd) : List Step :=
  match fs.lookup n with
  | none => []
  | some t => if n ∈ before then [.again n] else [.look (.value t v)]

/-- The entries of a container, read as fields. -/
def cntrSteps (fs : List (Str × Ty)) : List Str → Fields → List Step
  | _, [] => []
  | before, (n, v) :: r => fieldStep fs before n v ++ cntrSteps fs (n :: before) r

/-- The entries of a map, read as fields: a key is looked at before its value. -/
def mapSteps (fs : List (Str × Ty)) : List Str → KMap → List Step
  | _, [] => []
  | before, (k, v) :: r => .look (.field k) :: match nameOf (fs.map Prod.fst) k with
    | none => mapSteps fs before r
    | some n => fieldStep fs before n v ++ mapSteps fs (n :: before) r

/-- What is looked at in an enum variant. -/
inductive PlanVar : VarDef → Value → List Step → Prop
  | newtype {t x} : PlanVar (.newtype t) (.tuple [x]) [.look (.value t x)]
  | tuple {ts l} : l.length = ts.length → PlanVar (.tuple ts) (.tuple l) (List.zipWith (fun t x => .look (.value t x)) ts l)
  | struct {fs l} : PlanVar (.struct fs) (.cntr l) (cntrSteps fs [] l)

/-- What is looked at in a value of a user type. -/
inductive PlanDef : TyDef → Kserd → List Step → Prop
  | newtype {m t k x} : (IsNew k x ∨ ∃ r, Elems k (x :: r)) → PlanDef (.newtype m t) k [.look (.value t x)]
  | tupleStruct {m ts k l} : Elems k l → PlanDef (.tupleStruct m ts) k (List.zipWith (fun t x => .look (.value t x)) ts l)
  | structSeq {m fs k l} : Elems k l → PlanDef (.struct m fs) k (List.zipWith (fun f x => .look (.value f.2 x)) fs l)
  | structCntr {m fs k l} : k.val = .cntr l → PlanDef (.struct m fs) k (cntrSteps fs [] l)
  | structMap {m fs k l} : k.val = .map l → PlanDef (.struct m fs) k (mapSteps fs [] l)
  | enum {vs i v k l} : k.id = some i → vs.lookup i = some v → PlanVar v k.val l → PlanDef (.enum vs) k l

/-- What is looked at, in this order, directly inside `k` when it is read as `t`. -/
inductive Plan (env : TyEnv) : Ty → Kserd → List Step → Prop
  | some {t k x} : IsSome k x → Plan env (.option t) k [.look (.value t x)]
  | seq {t k l} : Elems k l → Plan env (.seq t) k (l.map fun x => .look (.value t x))
  | tuple {ts k l} : Elems k l → Plan env (.tuple ts) k (List.zipWith (fun t x => .look (.value t x)) ts l)
  | map {kt vt k m} : k.val = .map m →
      Plan env (.map kt vt) k (m.flatMap fun p => [.look (.value kt p.1), .look (.value vt p.2)])
  | cntr {kt vt k l} : k.val = .cntr l →
      Plan env (.map kt vt) k (l.flatMap fun p => [.look (.key kt p.1), .look (.value vt p.2)])
  | named {n d k l} : env n = some d → PlanDef d k l → Plan env (.named n) k l

/-- The first thing at which reading stops. -/
def Stops (env : TyEnv) (l : List Step) (s : Step) : Prop :=
  ∃ a b, l = a ++ s :: b ∧ (∀ x ∈ a, Fine env x) ∧ ¬ Fine env s

/-- The error belongs to the first thing that goes wrong: inside, in the order of reading, and otherwise the value
itself, once everything inside has been read. -/
inductive Fault (env : TyEnv) : Ty → Kserd → DErr → Prop
  | inside {t k l u x e} : Plan env t k l → Stops env l (.look (.value u x)) → Fault env u x e → Fault env t k e
  | name {t k l s e} : Plan env t k l → Stops env l (.look s) → (∀ u x, s ≠ .value u x) → Says env e s → Fault env t k e
  | again {t k l f} : Plan env t k l → Stops env l (.again f) → Fault env t k (.duplicate f)
  | here {t k e} : (∀ l, Plan env t k l → ∀ s ∈ l, Fine env s) → Says env e (.value t k) → Fault env t k e
  | mistaken {t k u w} : (∀ l, Plan env t k l → ∀ s ∈ l, Fine env s) → Mistaken u k → Misfit env t k w →
      Fault env t k (.type u w)

end KS.Spec.De
