import Verif.Model.Kserd
/-!
# Ownership — `/repo/src/ds/kstr.rs`, `/repo/src/ds/barr.rs`, conversions of `kserd.rs` and `val.rs`

The other models forget whether a string or byte array is borrowed or owned. Here it is kept:
`Cow` is `std::borrow::Cow`, and `OKserd` is the Rust `Kserd` with every `Kstr` and `Barr` a `Cow`.
Lifetimes are not modelled: a borrowed piece of data is only marked as such.
-/

namespace KS

/-- `std::borrow::Cow`: `owned = true` is `Cow::Owned`. `Kstr` (`/repo/src/ds/kstr.rs` 11-15) is `Cow Str`,
`Barr` (`/repo/src/ds/barr.rs` 11-15) is `Cow Bytes`. -/
structure Cow (α : Type) where
  owned : Bool
  data : α
deriving DecidableEq

namespace Cow
/-- `Kstr::brwed`, `Barr::brwed`: `/repo/src/ds/kstr.rs` 19-23, `/repo/src/ds/barr.rs` 19-23. -/
def brwed {α : Type} (a : α) : Cow α := ⟨false, a⟩
/-- `Kstr::owned`, `Barr::owned`: `/repo/src/ds/kstr.rs` 26-30, `/repo/src/ds/barr.rs` 27-31. -/
def mkOwned {α : Type} (a : α) : Cow α := ⟨true, a⟩
/-- `into_owned`: `/repo/src/ds/kstr.rs` 70-72, `/repo/src/ds/barr.rs` 71-73. -/
def intoOwned {α : Type} (c : Cow α) : Cow α := mkOwned c.data
/-- `to_mut`, `/repo/src/ds/kstr.rs` 56-58, `/repo/src/ds/barr.rs` 57-59: the data is made owned, then edited. -/
def toMut {α : Type} (f : α → α) (c : Cow α) : Cow α := ⟨true, f c.data⟩
/-- derived `PartialEq` of `Kstr`/`Barr` on `Cow`, `/repo/src/ds/kstr.rs` 11: by content. -/
def eq {α : Type} [BEq α] (a b : Cow α) : Bool := a.data == b.data
end Cow

mutual
/-- `struct Kserd`, `/repo/src/ds/kserd.rs` 44-58, with ownership. -/
inductive OKserd where
  | mk (id : Option (Cow Str)) (val : OValue)
/-- `enum Value`, `/repo/src/ds/val.rs` 40-81, with ownership. -/
inductive OValue where
  | unit
  | bool (b : Bool)
  | num (n : Number)
  | str (s : Cow Str)
  | barr (b : Cow Bytes)
  | tuple (l : List OKserd)
  | cntr (f : List (Cow Str × OKserd))
  | seq (l : List OKserd)
  | map (m : List (OKserd × OKserd))
end

namespace OKserd

mutual
/-- Forget ownership: the data seen through `Deref`/`as_str`/`as_bytes`
(`/repo/src/ds/kstr.rs` 75-81, `/repo/src/ds/barr.rs` 76-82). -/
def data : OKserd → Kserd
  | .mk i v => .mk (i.map (·.data)) (dataV v)
termination_by structural a => a
def dataV : OValue → Value
  | .unit => .unit
  | .bool b => .bool b
  | .num n => .num n
  | .str s => .str s.data
  | .barr b => .barr b.data
  | .tuple l => .tuple (dataL l)
  | .cntr f => .cntr (dataF f)
  | .seq l => .seq (dataL l)
  | .map m => .map (dataM m)
termination_by structural a => a
def dataL : List OKserd → List Kserd
  | [] => []
  | k :: r => data k :: dataL r
termination_by structural a => a
def dataF : List (Cow Str × OKserd) → List (Str × Kserd)
  | [] => []
  | (n, k) :: r => (n.data, data k) :: dataF r
termination_by structural a => a
def dataM : List (OKserd × OKserd) → List (Kserd × Kserd)
  | [] => []
  | (n, k) :: r => (data n, data k) :: dataM r
termination_by structural a => a
end

/-- `Ord for Kstr`, derived over `Cow`, `/repo/src/ds/kstr.rs` 11: by content. -/
def cmpName (a b : Cow Str) : Ordering := cmpStr a.data b.data
/-- `Ord for Barr`, derived over `Cow`, `/repo/src/ds/barr.rs` 11: by content. -/
def cmpBarr (a b : Cow Bytes) : Ordering := cmpBytes a.data b.data

mutual
/-- `impl PartialEq for Kserd`, `/repo/src/ds/kserd.rs` 332-336, with ownership. -/
def eq : OKserd → OKserd → Bool
  | .mk _ v, .mk _ w => eqV v w
termination_by structural a => a
/-- `impl PartialEq for Value`, `/repo/src/ds/val.rs` 93-111, with ownership. -/
def eqV : OValue → OValue → Bool
  | .tuple a, .cntr b => a.isEmpty && b.isEmpty
  | .cntr a, .tuple b => a.isEmpty && b.isEmpty
  | .unit, .unit => true
  | .bool a, .bool b => a == b
  | .num a, .num b => Number.eq a b
  | .str a, .str b => Cow.eq a b
  | .barr a, .barr b => Cow.eq a b
  | .tuple a, .tuple b => eqList a b
  | .cntr a, .cntr b => eqFields a b
  | .seq a, .seq b => eqList a b
  | .map a, .map b => eqMap a b
  | _, _ => false
termination_by structural a => a
/-- `Vec<Kserd> == Vec<Kserd>` (std) -/
def eqList : List OKserd → List OKserd → Bool
  | [], [] => true
  | a :: r, b :: s => eq a b && eqList r s
  | _, _ => false
termination_by structural a => a
/-- `BTreeMap<Kstr, Kserd> ==` (std) -/
def eqFields : List (Cow Str × OKserd) → List (Cow Str × OKserd) → Bool
  | [], [] => true
  | (n, a) :: r, (m, b) :: s => (Cow.eq n m && eq a b) && eqFields r s
  | _, _ => false
termination_by structural a => a
/-- `BTreeMap<Kserd, Kserd> ==` (std) -/
def eqMap : List (OKserd × OKserd) → List (OKserd × OKserd) → Bool
  | [], [] => true
  | (n, a) :: r, (m, b) :: s => (eq n m && eq a b) && eqMap r s
  | _, _ => false
termination_by structural a => a
end

/-- Position of the variant in `enum Value`, `/repo/src/ds/val.rs` 40-81. -/
def rankV : OValue → Nat
  | .unit => 0
  | .bool _ => 1
  | .num _ => 2
  | .str _ => 3
  | .barr _ => 4
  | .tuple _ => 5
  | .cntr _ => 6
  | .seq _ => 7
  | .map _ => 8

mutual
/-- `impl Ord for Kserd`, `/repo/src/ds/kserd.rs` 346-350, with ownership. -/
def cmp : OKserd → OKserd → Ordering
  | .mk _ v, .mk _ w => cmpV v w
termination_by structural a => a
/-- `#[derive(Ord)]` on `Value`, `/repo/src/ds/val.rs` 39, with ownership. -/
def cmpV : OValue → OValue → Ordering
  | .unit, .unit => .eq
  | .bool a, .bool b => compare a.toNat b.toNat
  | .num a, .num b => Number.cmp a b
  | .str a, .str b => cmpName a b
  | .barr a, .barr b => cmpBarr a b
  | .tuple a, .tuple b => cmpList a b
  | .cntr a, .cntr b => cmpFields a b
  | .seq a, .seq b => cmpList a b
  | .map a, .map b => cmpMap a b
  | a, b => compare (rankV a) (rankV b)
termination_by structural a => a
/-- `Ord for Vec<Kserd>` (std): lexicographic. -/
def cmpList : List OKserd → List OKserd → Ordering
  | [], [] => .eq
  | [], _ :: _ => .lt
  | _ :: _, [] => .gt
  | a :: r, b :: s => (cmp a b).then (cmpList r s)
termination_by structural a => a
/-- `Ord for BTreeMap` (std): lexicographic over the pairs. -/
def cmpFields : List (Cow Str × OKserd) → List (Cow Str × OKserd) → Ordering
  | [], [] => .eq
  | [], _ :: _ => .lt
  | _ :: _, [] => .gt
  | (n, a) :: r, (m, b) :: s => ((cmpName n m).then (cmp a b)).then (cmpFields r s)
termination_by structural a => a
/-- `Ord for BTreeMap` (std): lexicographic over the pairs. -/
def cmpMap : List (OKserd × OKserd) → List (OKserd × OKserd) → Ordering
  | [], [] => .eq
  | [], _ :: _ => .lt
  | _ :: _, [] => .gt
  | (n, a) :: r, (m, b) :: s => ((cmp n m).then (cmp a b)).then (cmpMap r s)
termination_by structural a => a
end

/-- The loop `let mut m = BTreeMap::new(); for (k, v) in … { m.insert(k, v); }` of
`/repo/src/ds/val.rs` 671-677, 685-691, 725-731, 739-745. -/
def rebuild {κ β : Type} (cmp : κ → κ → Ordering) (l : List (κ × β)) : List (κ × β) :=
  l.foldl (fun m kv => BTree.insert cmp kv.1 kv.2 m) []

mutual
/-- `Kserd::into_owned`, `/repo/src/ds/kserd.rs` 298-306. -/
def intoOwned : OKserd → OKserd
  | .mk i v => .mk (i.map Cow.intoOwned) (intoOwnedV v)
termination_by structural a => a
/-- `Value::into_owned`, `/repo/src/ds/val.rs` 657-693. -/
def intoOwnedV : OValue → OValue
  | .unit => .unit
  | .bool b => .bool b
  | .num n => .num n
  | .str s => .str s.intoOwned
  | .barr b => .barr b.intoOwned
  | .tuple l => .tuple (intoOwnedL l)
  | .cntr f => .cntr (rebuild cmpName (intoOwnedF f))
  | .seq l => .seq (intoOwnedL l)
  | .map m => .map (rebuild cmp (intoOwnedM m))
termination_by structural a => a
/-- the loops of `/repo/src/ds/val.rs` 664-670, 678-684 -/
def intoOwnedL : List OKserd → List OKserd
  | [] => []
  | k :: r => intoOwned k :: intoOwnedL r
termination_by structural a => a
/-- the pairs inserted at `/repo/src/ds/val.rs` 673-675 -/
def intoOwnedF : List (Cow Str × OKserd) → List (Cow Str × OKserd)
  | [] => []
  | (n, k) :: r => (n.intoOwned, intoOwned k) :: intoOwnedF r
termination_by structural a => a
/-- the pairs inserted at `/repo/src/ds/val.rs` 687-689 -/
def intoOwnedM : List (OKserd × OKserd) → List (OKserd × OKserd)
  | [] => []
  | (n, k) :: r => (intoOwned n, intoOwned k) :: intoOwnedM r
termination_by structural a => a
end

mutual
/-- `Kserd::mk_brw`, `/repo/src/ds/kserd.rs` 324-328. -/
def mkBrw : OKserd → OKserd
  | .mk i v => .mk (i.map (fun s => Cow.brwed s.data)) (mkBrwV v)
termination_by structural a => a
/-- `Value::mk_brw`, `/repo/src/ds/val.rs` 711-747. -/
def mkBrwV : OValue → OValue
  | .unit => .unit
  | .bool b => .bool b
  | .num n => .num n
  | .str s => .str (Cow.brwed s.data)
  | .barr b => .barr (Cow.brwed b.data)
  | .tuple l => .tuple (mkBrwL l)
  | .cntr f => .cntr (rebuild cmpName (mkBrwF f))
  | .seq l => .seq (mkBrwL l)
  | .map m => .map (rebuild cmp (mkBrwM m))
termination_by structural a => a
/-- the loops of `/repo/src/ds/val.rs` 718-724, 732-738 -/
def mkBrwL : List OKserd → List OKserd
  | [] => []
  | k :: r => mkBrw k :: mkBrwL r
termination_by structural a => a
/-- the pairs inserted at `/repo/src/ds/val.rs` 727-729 -/
def mkBrwF : List (Cow Str × OKserd) → List (Cow Str × OKserd)
  | [] => []
  | (n, k) :: r => (Cow.brwed n.data, mkBrw k) :: mkBrwF r
termination_by structural a => a
/-- the pairs inserted at `/repo/src/ds/val.rs` 741-743 -/
def mkBrwM : List (OKserd × OKserd) → List (OKserd × OKserd)
  | [] => []
  | (n, k) :: r => (mkBrw n, mkBrw k) :: mkBrwM r
termination_by structural a => a
end

end OKserd
end KS
