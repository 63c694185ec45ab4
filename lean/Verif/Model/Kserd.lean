import Verif.Model.Num
import Verif.Model.BTree
/-!
# `Kserd` and `Value` — `/repo/src/ds/kserd.rs`, `/repo/src/ds/val.rs`, aliases in `/repo/src/lib.rs`
-/

namespace KS

mutual
/-- `struct Kserd { id, val }`, `/repo/src/ds/kserd.rs` 44-58. -/
inductive Kserd where
  | mk (id : Option Str) (val : Value)
/-- `enum Value`, `/repo/src/ds/val.rs` 40-81. `Fields` and `Map` are `BTreeMap`s
(`/repo/src/lib.rs`), i.e. association lists in ascending key order. -/
inductive Value where
  | unit
  | bool (b : Bool)
  | num (n : Number)
  | str (s : Str)
  | barr (b : Bytes)
  | tuple (l : List Kserd)
  | cntr (f : List (Str × Kserd))
  | seq (l : List Kserd)
  | map (m : List (Kserd × Kserd))
end

abbrev Fields := List (Str × Kserd)
abbrev KMap := List (Kserd × Kserd)

namespace Kserd

/-- field `id` / method `Kserd::id`, `/repo/src/ds/kserd.rs` 278-280. -/
def id : Kserd → Option Str
  | .mk i _ => i

/-- field `val` (and `Deref`), `/repo/src/ds/kserd.rs` 283-294. -/
def val : Kserd → Value
  | .mk _ v => v

@[simp] theorem id_mk (i v) : (Kserd.mk i v).id = i := rfl
@[simp] theorem val_mk (i v) : (Kserd.mk i v).val = v := rfl

/-! ## Structural equality (used only so that concrete cases can be decided) -/

mutual
def beqS : Kserd → Kserd → Bool
  | .mk i v, .mk j w => decide (i = j) && beqSV v w
termination_by structural a => a
def beqSV : Value → Value → Bool
  | .unit, .unit => true
  | .bool a, .bool b => decide (a = b)
  | .num a, .num b => decide (a = b)
  | .str a, .str b => decide (a = b)
  | .barr a, .barr b => decide (a = b)
  | .tuple a, .tuple b => beqSL a b
  | .cntr a, .cntr b => beqSF a b
  | .seq a, .seq b => beqSL a b
  | .map a, .map b => beqSM a b
  | _, _ => false
termination_by structural a => a
def beqSL : List Kserd → List Kserd → Bool
  | [], [] => true
  | a :: r, b :: s => beqS a b && beqSL r s
  | _, _ => false
termination_by structural a => a
def beqSF : List (Str × Kserd) → List (Str × Kserd) → Bool
  | [], [] => true
  | (n, a) :: r, (m, b) :: s => decide (n = m) && beqS a b && beqSF r s
  | _, _ => false
termination_by structural a => a
def beqSM : List (Kserd × Kserd) → List (Kserd × Kserd) → Bool
  | [], [] => true
  | (n, a) :: r, (m, b) :: s => beqS n m && beqS a b && beqSM r s
  | _, _ => false
termination_by structural a => a
end

mutual
theorem beqS_iff : ∀ a b, beqS a b = true ↔ a = b
  | .mk i v, .mk j w => by simp [beqS, beqSV_iff v w]
theorem beqSV_iff : ∀ a b, beqSV a b = true ↔ a = b
  | .unit, b => by cases b <;> simp [beqSV]
  | .bool _, b => by cases b <;> simp [beqSV]
  | .num _, b => by cases b <;> simp [beqSV]
  | .str _, b => by cases b <;> simp [beqSV]
  | .barr _, b => by cases b <;> simp [beqSV]
  | .tuple l, b => by cases b <;> simp [beqSV, beqSL_iff l]
  | .cntr l, b => by cases b <;> simp [beqSV, beqSF_iff l]
  | .seq l, b => by cases b <;> simp [beqSV, beqSL_iff l]
  | .map l, b => by cases b <;> simp [beqSV, beqSM_iff l]
theorem beqSL_iff : ∀ a b, beqSL a b = true ↔ a = b
  | [], b => by cases b <;> simp [beqSL]
  | a :: r, [] => by simp [beqSL]
  | a :: r, b :: s => by simp [beqSL, beqS_iff a b, beqSL_iff r s]
theorem beqSF_iff : ∀ a b, beqSF a b = true ↔ a = b
  | [], b => by cases b <;> simp [beqSF]
  | a :: r, [] => by simp [beqSF]
  | (n, a) :: r, (m, b) :: s => by simp [beqSF, beqS_iff a b, beqSF_iff r s]
theorem beqSM_iff : ∀ a b, beqSM a b = true ↔ a = b
  | [], b => by cases b <;> simp [beqSM]
  | a :: r, [] => by simp [beqSM]
  | (n, a) :: r, (m, b) :: s => by simp [beqSM, beqS_iff n m, beqS_iff a b, beqSM_iff r s]
end

instance : DecidableEq Kserd := fun a b => decidable_of_iff _ (beqS_iff a b)
instance : DecidableEq Value := fun a b => decidable_of_iff _ (beqSV_iff a b)

/-! ## `PartialEq` -/

mutual
/-- `impl PartialEq for Kserd`, `/repo/src/ds/kserd.rs` 332-336: identities are ignored. -/
def eq : Kserd → Kserd → Bool
  | .mk _ v, .mk _ w => eqV v w
termination_by structural a => a
/-- `impl PartialEq for Value`, `/repo/src/ds/val.rs` 93-111. -/
def eqV : Value → Value → Bool
  | .tuple a, .cntr b => a.isEmpty && b.isEmpty
  | .cntr a, .tuple b => a.isEmpty && b.isEmpty
  | .unit, .unit => true
  | .bool a, .bool b => a == b
  | .num a, .num b => Number.eq a b
  | .str a, .str b => a == b
  | .barr a, .barr b => a == b
  | .tuple a, .tuple b => eqList a b
  | .cntr a, .cntr b => eqFields a b
  | .seq a, .seq b => eqList a b
  | .map a, .map b => eqMap a b
  | _, _ => false
termination_by structural a => a
/-- `Vec<Kserd> == Vec<Kserd>` (std): same length, elementwise. -/
def eqList : List Kserd → List Kserd → Bool
  | [], [] => true
  | a :: r, b :: s => eq a b && eqList r s
  | _, _ => false
termination_by structural a => a
/-- `BTreeMap<Kstr, Kserd> ==` (std): same length, pairwise. -/
def eqFields : List (Str × Kserd) → List (Str × Kserd) → Bool
  | [], [] => true
  | (n, a) :: r, (m, b) :: s => (n == m && eq a b) && eqFields r s
  | _, _ => false
termination_by structural a => a
/-- `BTreeMap<Kserd, Kserd> ==` (std): same length, pairwise. -/
def eqMap : List (Kserd × Kserd) → List (Kserd × Kserd) → Bool
  | [], [] => true
  | (n, a) :: r, (m, b) :: s => (eq n m && eq a b) && eqMap r s
  | _, _ => false
termination_by structural a => a
end

/-! ## `Ord` -/

/-- Position of the variant in `enum Value`, `/repo/src/ds/val.rs` 40-81 (derived `Ord` compares it first). -/
def rankV : Value → Nat
  | .unit => 0
  | .bool _ => 1
  | .num _ => 2
  | .str _ => 3
  | .barr _ => 4
  | .tuple _ => 5
  | .cntr _ => 6
  | .seq _ => 7
  | .map _ => 8

mutual
/-- `impl Ord for Kserd`, `/repo/src/ds/kserd.rs` 346-350. -/
def cmp : Kserd → Kserd → Ordering
  | .mk _ v, .mk _ w => cmpV v w
termination_by structural a => a
/-- `#[derive(Ord)]` on `Value`, `/repo/src/ds/val.rs` 39. -/
def cmpV : Value → Value → Ordering
  | .unit, .unit => .eq
  | .bool a, .bool b => compare a.toNat b.toNat
  | .num a, .num b => Number.cmp a b
  | .str a, .str b => cmpStr a b
  | .barr a, .barr b => cmpBytes a b
  | .tuple a, .tuple b => cmpList a b
  | .cntr a, .cntr b => cmpFields a b
  | .seq a, .seq b => cmpList a b
  | .map a, .map b => cmpMap a b
  | a, b => compare (rankV a) (rankV b)
termination_by structural a => a
/-- `Ord for Vec<Kserd>` (std): lexicographic. -/
def cmpList : List Kserd → List Kserd → Ordering
  | [], [] => .eq
  | [], _ :: _ => .lt
  | _ :: _, [] => .gt
  | a :: r, b :: s => (cmp a b).then (cmpList r s)
termination_by structural a => a
/-- `Ord for BTreeMap` (std): lexicographic over the `(key, value)` pairs. -/
def cmpFields : List (Str × Kserd) → List (Str × Kserd) → Ordering
  | [], [] => .eq
  | [], _ :: _ => .lt
  | _ :: _, [] => .gt
  | (n, a) :: r, (m, b) :: s => ((cmpStr n m).then (cmp a b)).then (cmpFields r s)
termination_by structural a => a
/-- `Ord for BTreeMap` (std): lexicographic over the `(key, value)` pairs. -/
def cmpMap : List (Kserd × Kserd) → List (Kserd × Kserd) → Ordering
  | [], [] => .eq
  | [], _ :: _ => .lt
  | _ :: _, [] => .gt
  | (n, a) :: r, (m, b) :: s => ((cmp n m).then (cmp a b)).then (cmpMap r s)
termination_by structural a => a
end

/-! ## Construction -/

/-- `const INVALID`, `/repo/src/ds/kserd.rs` 7. -/
def invalidIdChars : Str := KS.str "(){}[]<> ,./\\="

/-- `Kserd::new`, `/repo/src/ds/kserd.rs` 153-160. -/
def new (v : Value) : Kserd := .mk none v

/-- `Kserd::with_id`, `/repo/src/ds/kserd.rs` 183-194; `.error` is `Err(InvalidId(id))`. -/
def withId (i : Str) (v : Value) : Except Str Kserd :=
  if i.any (fun c => invalidIdChars.contains c) then .error i else .ok (.mk (some i) v)

/-- `Kserd::with_id_unchk`, `/repo/src/ds/kserd.rs` 196-201. -/
def withIdUnchk (i : Str) (v : Value) : Kserd := .mk (some i) v

end Kserd

/-- `InvalidFieldName` messages, `/repo/src/ds/val.rs` 117-138. -/
inductive FieldNameErr where
  | empty
  | digit
  | badChar (c : Char) (name : Str)
deriving DecidableEq, Repr

/-- The local `invalid` of `/repo/src/ds/val.rs` 118. -/
def invalidFieldChars : Str := str " /\\\"\t'"

/-- `InvalidFieldName::validate`, `/repo/src/ds/val.rs` 117-138; `none` is `Ok(())`. -/
def validateField (s : Str) : Option FieldNameErr :=
  match s with
  | [] => some .empty
  | c :: _ =>
    if isDigit c then some .digit
    else match s.find? (fun c => invalidFieldChars.contains c) with
      | some c => some (.badChar c s)
      | none => none

namespace Value

/-- `Value::new_cntr`, `/repo/src/ds/val.rs` 236-247: collect into a `BTreeMap`, then validate the
names in ascending order. -/
def newCntr (l : List (Str × Kserd)) : Except FieldNameErr Value :=
  let m := BTree.fromIter cmpStr (fun a b => a == b) l
  match m.findSome? (fun kv => validateField kv.1) with
  | some e => .error e
  | none => .ok (.cntr m)

/-- `Value::new_map`, `/repo/src/ds/val.rs` 258-264. -/
def newMap (l : List (Kserd × Kserd)) : Value := .map (BTree.fromIter Kserd.cmp Kserd.eq l)

/-! ### Accessors, `/repo/src/ds/val.rs` 277-640 -/

/-- `unit`, 277-279 -/
def unit? : Value → Bool
  | .unit => true
  | _ => false

/-- `bool`, 289-294 -/
def bool? : Value → Option Bool
  | .bool b => some b
  | _ => none

/-- `ch`, 323-328 -/
def ch? : Value → Option Char
  | .str s => if s.length = 1 then s.head? else none
  | _ => none

/-- `uint`, 338-343 -/
def uint? : Value → Option Nat
  | .num n => n.asU128
  | _ => none

/-- `int`, 354-359 -/
def int? : Value → Option Int
  | .num n => n.asI128
  | _ => none

/-- `float`, 370-375 -/
def float? : Value → Option F64
  | .num n => some n.asF64
  | _ => none

/-- `num_mut` read back, 385-390; also `get_num` 863-873 -/
def num? : Value → Option Number
  | .num n => some n
  | _ => none

/-- `str`, 401-406 -/
def str? : Value → Option Str
  | .str s => some s
  | _ => none

/-- `barr`, 434-439 -/
def barr? : Value → Option Bytes
  | .barr s => some s
  | _ => none

/-- `tuple`, 467-472 -/
def tuple? : Value → Option (List Kserd)
  | .tuple s => some s
  | _ => none

/-- `cntr`, 505-510 -/
def cntr? : Value → Option Fields
  | .cntr s => some s
  | _ => none

/-- `seq`, 540-545 -/
def seq? : Value → Option (List Kserd)
  | .seq s => some s
  | _ => none

/-- `tuple_or_seq`, 576-581 -/
def tupleOrSeq? : Value → Option (List Kserd)
  | .tuple s => some s
  | .seq s => some s
  | _ => none

/-- `map`, 618-623 -/
def map? : Value → Option KMap
  | .map s => some s
  | _ => none

end Value
end KS
