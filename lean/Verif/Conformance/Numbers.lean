import Verif.Conformance.Util
import Verif.Model.Access
import Verif.Model.Own
/-!
# Tests, not proofs: `/repo/tests/number.rs`, `/repo/tests/eq.rs` and the unit tests of `/repo/src/ds` on the model

Left out: fuzz loops, `Debug` output (in `Texts`), hash sets and `clone`.
-/

namespace KS.Conf

def num (t : String) : Number := .float (fl t)
def infty (s : Bool) : Number := .float (.inf s)
def nanN : Number := .float (.nan false (2 ^ 51))

/-! ## `/repo/tests/number.rs` -/

#guard Number.eq (.uint 100) (.int 100)
#guard Number.eq (.int 100) (num "100.0")
#guard Number.eq (num "100.0") (.uint 100)
#guard !Number.eq (.uint 100) (.int (-100))
#guard !Number.eq (.int (-100)) (num "100.1")
#guard !Number.eq (num "100.1") (.uint 100)
#guard [Number.uint 100, .int 100, num "100.0"].all fun n => [Number.uint 99, .int 99, num "99.99", num "98.0"].all fun m =>
  Number.cmp n m == .gt && Number.cmp m n == .lt

/-! ## `/repo/src/ds/num.rs` 511-777 -/

def fcmp (a b : Number) (o : Ordering) : Bool :=
  match a, b with
  | .float a, .float b => Number.cmpFloatToFloat a b == o
  | _, _ => false
#guard fcmp (num "0.0") (num "0.0") .eq
#guard fcmp (num "0.0") (num "-0.0") .eq
#guard fcmp (num "0.1") (num "0.0") .gt
#guard fcmp (num "0.0") (num "0.1") .lt
#guard fcmp (num "3.14") (num "-3.14") .gt
#guard fcmp (num "-3.14") (num "3.14") .lt
#guard [num "0.0", num "1.0", num "-1.0", infty false, infty true].all fun x => fcmp nanN x .gt && fcmp x nanN .lt
#guard fcmp (infty false) (num "0.0") .gt
#guard fcmp (infty false) (infty true) .gt
#guard fcmp (infty false) (infty false) .eq
#guard fcmp (num "0.0") (infty false) .lt
#guard fcmp (infty true) (infty false) .lt
#guard fcmp (infty true) (infty true) .eq
#guard Number.eq (infty false) (infty false) && !Number.eq (infty false) (infty true) && !Number.eq (infty false) nanN
#guard !Number.eq (infty true) (infty false) && Number.eq (infty true) (infty true) && !Number.eq (infty true) nanN
#guard !Number.eq nanN (infty false) && !Number.eq nanN (infty true) && Number.eq nanN nanN
-- `canonicalized_ordering`: the ordered set as a map whose values do not matter
#guard
  let s := [Number.int 0, num "-0.0", num "-1.0", num "0.5", infty false, .int (-100), nanN, nanN, num "-0.0", infty true, num "100.0"].foldl
    (fun s x => BTree.insert Number.cmp x () s) []
  let e := [infty true, num "-100.0", num "-1.0", num "0.0", num "0.5", num "100.0", infty false, nanN]
  s.length == e.length && (s.zip e).all fun p => Number.eq p.1.1 p.2
#guard (Number.int 100).asU128 == some 100
#guard (num "100.0").asU128 == some 100
#guard (num "3.00000000005").asU128 == some 3
#guard (num "2.99999999995").asU128 == some 3
#guard (num "0.0").asU128 == some 0
#guard [num "-1.0", .int (-100), num "0.5", infty false, infty true, nanN].all fun x => x.asU128 == none
#guard (Number.int 100).asI128 == some 100
#guard (num "100.0").asI128 == some 100
#guard (num "-2.99999999995").asI128 == some (-3)
#guard (num "-3.00000000005").asI128 == some (-3)
#guard (num "0.0").asI128 == some 0
#guard (num "-1.0").asI128 == some (-1)
#guard [num "0.5", infty false, infty true, nanN].all fun x => x.asI128 == none
#guard [Number.int 0, .uint 0, num "0.0"].all fun t => Number.eq (.uint 0) t && Number.cmp (num "-0.001") t == .lt
#guard Number.cmp (.uint 128) (.int (-128)) == .gt
#guard [Number.uint 128, .int 128].all fun x => Number.cmp x (num "-3.14") == .gt && Number.eq x (num "128.0") && Number.cmp x (num "128.1") == .lt
#guard [Number.uint u128Max, .int i128Max].all fun x => Number.cmp (infty false) x == .gt && Number.cmp nanN x == .gt
#guard !Number.eq (.int (-123)) (.uint 123) && Number.eq (.int 123) (.uint 123)
#guard Number.cmp (.uint 123) (infty false) == .lt
#guard Number.cmp (.uint 123) nanN == .lt
#guard Number.cmp (.uint 123) (.float (F32.toF64 (F32.ofRat false 123 1))) == .eq
#guard Number.cmp (.uint 123) (infty true) == .gt
#guard Number.fromStr (str "100") == some (.uint 100)
#guard Number.fromStr (str "-100") == some (.int (-100))
#guard Number.fromStr (str "3.14") == some (num "3.14")
#guard Number.fromStr (str "abcd") == none
#guard Number.fromStr (str "-3.14e7") == some (num "-31400000")
#guard Number.fromStr (str " 10.  0") == none
#guard Number.fromStr (str "") == none
#guard [Number.uint 0, .uint u128Max, .int i128Max, .int i128Min].all fun x => (Number.fromStr x.disp).any (Number.eq x)
-- `hash_testing`: equal numbers feed the hasher the same bits
#guard (Number.int 101).hashInput == (num "101.0").hashInput

/-! ## `/repo/tests/eq.rs` -/

#guard (enc .unit).val.unit? && (enc .unit).id == none && !(enc (.int .i32 1)).val.unit?
#guard (enc (.bool true)).val.bool? == some true && (enc (.bool false)).val.bool? == some false && (enc (.int .i32 1)).val.bool? == none
#guard (enc (.char 'a')).val.ch? == some 'a' && (enc (.int .i32 1)).val.ch? == none
#guard [2 ^ 64 - 1, 2 ^ 8 - 1, 2 ^ 16 - 1, 2 ^ 32 - 1, 2 ^ 128 - 1].all fun m => (Value.num (.uint m)).uint? == some m
#guard (enc (.bool true)).val.uint? == none
#guard [7, 15, 31, 63, 127].all fun (e : Nat) =>
  (Value.num (.int (2 ^ e - 1))).int? == some (2 ^ e - 1) && (Value.num (.int (- 2 ^ e))).int? == some (- 2 ^ e)
#guard (enc (.bool true)).val.int? == none
-- `eq_float` for `f32`: `EPSILON`, `MAX`, `MIN`, `MIN_POSITIVE` and the constants, all by their bits
#guard [2 ^ 126, (2 ^ 24 - 1) * 2 ^ 253, 2 ^ 23, 0xA2F983 * 2 ^ 124, 0xA2F983 * 2 ^ 125, 0x906EBB * 2 ^ 126, 0xB504F3 * 2 ^ 125, 0xC90FDB * 2 ^ 126,
    0x860A92 * 2 ^ 126, 0xC90FDB * 2 ^ 125, 0x860A92 * 2 ^ 125, 0xC90FDB * 2 ^ 124, 0xB17218 * 2 ^ 125, 0x935D8E * 2 ^ 127, 0xB8AA3B * 2 ^ 126,
    0xDE5BD9 * 2 ^ 124, 0xC90FDB * 2 ^ 127, 0xB504F3 * 2 ^ 126].all fun m => [true, false].all fun s =>
  match F64.parse (F32.disp (.fin s m)) with
  | some f => (enc (.f32 (.fin s m))).val.float? == some f
  | none => false
-- `1.2345678f32` has the bits `0x3F9E0651`
#guard (enc (.f32 (.fin false (0x9E0651 * 2 ^ 126)))).val.float? == some (fl "1.2345678")
#guard (enc (.f32 (.inf false))).val.float? == some (.inf false) && (enc (.f64 (.inf false))).val.float? == some (.inf false)
#guard (enc (.f32 (.inf true))).val.float? == some (.inf true) && (enc (.f64 (.inf true))).val.float? == some (.inf true)
#guard ((enc (.f32 (.nan false 1))).val.float?).any F64.isNan && ((enc (.f64 (.nan false 1))).val.float?).any F64.isNan
#guard (enc (.str (str "Hello, world!"))).val.str? == some (str "Hello, world!") && (enc (.bool true)).val.str? == none
#guard (ba [1, 2, 3, 4, 5]).val.barr? == some [1, 2, 3, 4, 5] && (enc (.bool true)).val.barr? == none

/-! ## `/repo/src/ds/kserd.rs` 398-446 -/

#guard (wi "an-identity" (bo true)).val.bool? == some true && (wi "an-identity" (bo true)).id == some (str "an-identity")
#guard (Kserd.withId (str "<an,> in(valid.)/{identity}\\=") .unit).toOption.isNone
#guard ((bo true).valMut.put (.num (.int 123))).val.uint? == some 123
#guard Kserd.cmp (n 0) (n 1) == .lt
#guard (match Kserd.withId (str "\\// ") (.bool true) with
  | .error e => e == str "\\// "
  | .ok _ => false)

/-! ## `/repo/src/ds/val.rs` 1031-1309 -/

#guard validateField (str "") == some .empty
#guard validateField (str "9name") == some .digit
#guard validateField (str "na\tme") == some (.badChar '\t' (str "na\tme"))
/-- `x.…_mut().map(|x| *x = …)`. -/
def upd {τ : Type} (v : Value) (a : Value → Option (MutRef Value τ)) (f : τ → τ) : Value :=
  match a v with
  | some r => r.put (f r.cur)
  | none => v
def i3 (l : List String) : List Kserd := l.map st
#guard (upd (.bool true) Value.boolMut fun _ => false).bool? == some false && (Value.numMut (.bool true)).isNone
#guard (upd (.num (.int 123)) Value.numMut fun _ => num "3.14").float? == some (fl "3.14")
#guard let v := Value.num (num "3.14"); v.boolMut.isNone && v.strMut.isNone && v.barrMut.isNone
#guard (upd (.str (str "Hello")) Value.strMut (· ++ str ", world!")).str? == some (str "Hello, world!")
#guard let v := upd (.barr [0, 1, 2]) Value.barrMut (· ++ [3]); v.barr? == some [0, 1, 2, 3] && v.tupleOrSeq?.isNone && v.tupleOrSeqMut.isNone
#guard let v := upd (.tuple (i3 ["a", "b"])) Value.tupleMut (· ++ [st "c"]); v.tuple? == some (i3 ["a", "b", "c"]) && v.seq?.isNone && v.seqMut.isNone &&
  v.tupleOrSeq? == some (i3 ["a", "b", "c"])
#guard let v := upd (.seq (i3 ["a", "b"])) Value.seqMut (· ++ [st "c"]); v.seq? == some (i3 ["a", "b", "c"]) && v.tuple?.isNone && v.tupleMut.isNone &&
  v.tupleOrSeq? == some (i3 ["a", "b", "c"]) && v.map?.isNone && v.mapMut.isNone
#guard (Value.num (.int 101)).cntr?.isNone && (Value.num (.int 101)).cntrMut.isNone
def acc : Fields :=
  match (cn [("a", un), ("b", bo false), ("c", n 101), ("d", st "hello"), ("e", ba [0]), ("f", tu [n 1]), ("g", se [n 2]), ("h", cn [("a", un)]),
    ("i", ma [(un, n 2)])]).val.cntr? with
  | some f => f
  | none => []
#guard Access.getUnit acc (str "a") == some () && (Access.getNum acc (str "a")).isNone
#guard Access.getBool acc (str "b") == some false && (Access.getNum acc (str "c")).any (Number.eq (.int 101))
#guard Access.getStr acc (str "d") == some (str "hello") && Access.getBarr acc (str "e") == some [0]
#guard Access.getTuple acc (str "f") == some [n 1] && Access.getSeq acc (str "g") == some [n 2]
#guard Access.getTupleOrSeq acc (str "f") == some [n 1] && Access.getTupleOrSeq acc (str "g") == some [n 2]
#guard (Access.getCntr acc (str "h")).isSome && (Access.getMap acc (str "i")).isSome
#guard (Access.getNumMut acc (str "a")).isNone && (Access.getBoolMut acc (str "b")).any (·.cur == false)
#guard (Access.getNumMut acc (str "c")).any (·.cur == .int 101) && (Access.getStrMut acc (str "d")).any (·.cur == str "hello")
#guard (Access.getBarrMut acc (str "e")).any (·.cur == [0]) && (Access.getTupleMut acc (str "f")).any (·.cur == [n 1])
#guard (Access.getSeqMut acc (str "g")).any (·.cur == [n 2]) && (Access.getTupleOrSeqMut acc (str "f")).any (·.cur == [n 1])
#guard (Access.getTupleOrSeqMut acc (str "g")).any (·.cur == [n 2]) && (Access.getCntrMut acc (str "h")).isSome && (Access.getMapMut acc (str "i")).isSome
-- `accessor_both`
#guard (match (cn [("a", st "Hello")]).val.cntr? with
  | some f => Access.getStr f (str "a") == some (str "Hello") && (Access.getStrMut f (str "a")).any fun r =>
      Access.getStr (r.put (r.cur ++ str ", world!")) (str "a") == some (str "Hello, world!")
  | none => false)

end KS.Conf
