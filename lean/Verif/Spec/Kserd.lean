import Verif.Model.Kserd
import Verif.Spec.Num
/-!
# Small specifications about `Kserd` trees
-/

namespace KS.Spec

mutual
/-- `P` holds of the Kserd itself and of every Kserd inside it, map keys included. -/
def All (P : Kserd → Prop) : Kserd → Prop
  | .mk i v => P (.mk i v) ∧ AllV P v
termination_by structural a => a
def AllV (P : Kserd → Prop) : Value → Prop
  | .unit => True
  | .bool _ => True
  | .num _ => True
  | .str _ => True
  | .barr _ => True
  | .tuple l => AllL P l
  | .cntr l => AllF P l
  | .seq l => AllL P l
  | .map l => AllM P l
termination_by structural a => a
def AllL (P : Kserd → Prop) : List Kserd → Prop
  | [] => True
  | k :: r => All P k ∧ AllL P r
termination_by structural a => a
def AllF (P : Kserd → Prop) : List (Str × Kserd) → Prop
  | [] => True
  | (_, k) :: r => All P k ∧ AllF P r
termination_by structural a => a
def AllM (P : Kserd → Prop) : List (Kserd × Kserd) → Prop
  | [] => True
  | (k, v) :: r => All P k ∧ All P v ∧ AllM P r
termination_by structural a => a
end

mutual
/-- Remove every identity, at every depth, map keys included. -/
def eraseIds : Kserd → Kserd
  | .mk _ v => .mk none (eraseIdsV v)
termination_by structural a => a
def eraseIdsV : Value → Value
  | .unit => .unit
  | .bool b => .bool b
  | .num n => .num n
  | .str s => .str s
  | .barr b => .barr b
  | .tuple l => .tuple (eraseIdsL l)
  | .cntr l => .cntr (eraseIdsF l)
  | .seq l => .seq (eraseIdsL l)
  | .map l => .map (eraseIdsM l)
termination_by structural a => a
def eraseIdsL : List Kserd → List Kserd
  | [] => []
  | k :: r => eraseIds k :: eraseIdsL r
termination_by structural a => a
def eraseIdsF : List (Str × Kserd) → List (Str × Kserd)
  | [] => []
  | (n, k) :: r => (n, eraseIds k) :: eraseIdsF r
termination_by structural a => a
def eraseIdsM : List (Kserd × Kserd) → List (Kserd × Kserd)
  | [] => []
  | (k, v) :: r => (eraseIds k, eraseIds v) :: eraseIdsM r
termination_by structural a => a
end

mutual
/-- Every container without fields, at every depth and in map keys, replaced by a tuple without elements. -/
def emptied : Kserd → Kserd
  | .mk id v => .mk id (emptiedV v)
termination_by structural a => a
def emptiedV : Value → Value
  | .unit => .unit
  | .bool b => .bool b
  | .num n => .num n
  | .str s => .str s
  | .barr b => .barr b
  | .tuple l => .tuple (emptiedL l)
  | .cntr l => if l.isEmpty then .tuple [] else .cntr (emptiedF l)
  | .seq l => .seq (emptiedL l)
  | .map l => .map (emptiedM l)
termination_by structural a => a
def emptiedL : List Kserd → List Kserd
  | [] => []
  | k :: r => emptied k :: emptiedL r
termination_by structural a => a
def emptiedF : List (Str × Kserd) → List (Str × Kserd)
  | [] => []
  | (n, k) :: r => (n, emptied k) :: emptiedF r
termination_by structural a => a
def emptiedM : List (Kserd × Kserd) → List (Kserd × Kserd)
  | [] => []
  | (k, v) :: r => (emptied k, emptied v) :: emptiedM r
termination_by structural a => a
end

/-- Every number inside satisfies `P`. -/
def AllNums (P : Number → Prop) : Kserd → Prop :=
  All (fun k => match k.val with | .num n => P n | _ => True)

/-- No empty container inside. -/
def NoEmptyCntr : Kserd → Prop :=
  All (fun k => match k.val with | .cntr f => f ≠ [] | _ => True)

/-- Numbers on which equality and order both follow the number line: well-formed and tame, and neither
`-0.0` nor a NaN with its sign bit set. Every integer is lawful. -/
def lawful (n : Number) : Prop :=
  n.WF ∧ tame n ∧ n ≠ .float (.fin true 0) ∧ ∀ p, n ≠ .float (.nan true p)

/-- Keys strictly ascending: the invariant of a `BTreeMap`. -/
def Ascending {κ β : Type} (cmp : κ → κ → Ordering) (l : List (κ × β)) : Prop :=
  l.Pairwise (fun a b => cmp a.1 b.1 = .lt)

/-- Fields and map entries are in strictly ascending key order at every depth: what a Rust `Kserd` can hold. -/
def Sorted : Kserd → Prop :=
  All (fun k => match k.val with
    | .cntr f => Ascending cmpStr f
    | .map m => Ascending Kserd.cmp m
    | _ => True)

/-- `kv` is the last pair supplied for its key. -/
def LastFor {κ β : Type} (same : κ → κ → Prop) (l : List (κ × β)) (kv : κ × β) : Prop :=
  ∃ before after, l = before ++ kv :: after ∧ ∀ p ∈ after, ¬ same kv.1 p.1

end KS.Spec
