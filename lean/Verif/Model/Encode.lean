import Verif.Model.Kserd
import Verif.Model.F32
/-!
# The serde serializer — `/repo/src/encode/encoder.rs`

`Ser` is what a `Serialize` implementation does with the serializer it is given: one call of the `Serializer`
trait, with nested values as trees. Map values without a key can be written too. Implementations are assumed to
propagate errors with `?`, as derived ones do. `fail` is an implementation that returns `Err(Error::custom(msg))`.
`collect_str` (232-237) is `serialize_str`. Type names and variant indexes passed by serde but ignored by the encoder (`_` arguments) are left out, as are
length hints (they only set capacities). `isize`/`usize` reach a serializer as `i64`/`u64`.
-/

namespace KS

/-- The ten integer types of the serde data model. -/
inductive IntTy where
  | u8 | u16 | u32 | u64 | u128 | i8 | i16 | i32 | i64 | i128
deriving DecidableEq, Repr

namespace IntTy

/-- Signed types. -/
def signed : IntTy → Bool
  | .u8 | .u16 | .u32 | .u64 | .u128 => false
  | _ => true

/-- Width in bits. -/
def bits : IntTy → Nat
  | .u8 | .i8 => 8
  | .u16 | .i16 => 16
  | .u32 | .i32 => 32
  | .u64 | .i64 => 64
  | .u128 | .i128 => 128

/-- Smallest value. -/
def lo (t : IntTy) : Int := if t.signed then - 2 ^ (t.bits - 1) else 0

/-- Largest value. -/
def hi (t : IntTy) : Int := if t.signed then 2 ^ (t.bits - 1) - 1 else 2 ^ t.bits - 1

/-- `NumberType::identity`, `/repo/src/ds/num.rs` 452-466. -/
def identity : IntTy → Str
  | .u8 => str "u8" | .u16 => str "u16" | .u32 => str "u32" | .u64 => str "u64" | .u128 => str "u128"
  | .i8 => str "i8" | .i16 => str "i16" | .i32 => str "i32" | .i64 => str "i64" | .i128 => str "i128"

end IntTy

mutual
/-- A serialized value: one call on a `serde::Serializer`. -/
inductive Ser where
  | bool (b : Bool)
  | int (t : IntTy) (v : Int)
  | f32 (x : F32)
  | f64 (x : F64)
  | char (c : Char)
  | str (s : Str)
  | bytes (b : Bytes)
  | none
  | some (v : Ser)
  | unit
  | unitStruct (name : Str)
  | unitVariant (variant : Str)
  | newtypeStruct (name : Str) (v : Ser)
  | newtypeVariant (variant : Str) (v : Ser)
  | seq (l : List Ser)
  | tuple (l : List Ser)
  | tupleStruct (name : Str) (l : List Ser)
  | tupleVariant (variant : Str) (l : List Ser)
  | map (ops : List MapOp)
  | struct (name : Str) (fields : List (Str × Ser))
  | structVariant (variant : Str) (fields : List (Str × Ser))
  | fail (msg : Str)
/-- A call on a `serde::ser::SerializeMap`. -/
inductive MapOp where
  | key (k : Ser)
  | value (v : Ser)
  | entry (k v : Ser)
end

/-- `enum Error`, `/repo/src/encode/encoder.rs` 240-254. -/
inductive EncErr where
  | noKeyAvailable
  | invalidId (id : Str)
  | message (msg : Str)
deriving DecidableEq, Repr

/-- `Kserd::with_id(..).map_err(Error::InvalidId)`. -/
def encId (name : Str) (v : Value) : Except EncErr Kserd :=
  match Kserd.withId name v with
  | .ok k => .ok k
  | .error i => .error (.invalidId i)

namespace Ser

/-- `impl From<$t> for Number`, `/repo/src/ds/num.rs` 467-493: `x as u128` and `x as i128` keep the value. -/
def intNumber (t : IntTy) (v : Int) : Number := if t.signed then .int v else .uint v.toNat

mutual
/-- `impl Serializer for Encoder`, `/repo/src/encode/encoder.rs` 59-238 (lines beside each arm). Newtypes encode
their content before checking the name, the compound serializers check the name first. -/
def encode : Ser → Except EncErr Kserd
  | .bool b => .ok (.withIdUnchk (KS.str "bool") (.bool b))                            -- 70-72
  | .int t v => .ok (.withIdUnchk t.identity (.num (intNumber t v)))                    -- 74-112
  | .f32 x => .ok (.withIdUnchk (KS.str "f32") (.num (.float x.toF64)))                 -- 114-116, num.rs 495-499
  | .f64 x => .ok (.withIdUnchk (KS.str "f64") (.num (.float x)))                       -- 118-120
  | .char c => .ok (.withIdUnchk (KS.str "char") (.str [c]))                            -- 122-127
  | .str s => .ok (.withIdUnchk (KS.str "str") (.str s))                                -- 129-131
  | .bytes b => .ok (.withIdUnchk (KS.str "barr") (.barr b))                            -- 133-135
  | .none => .ok (.withIdUnchk (KS.str "None") (.tuple []))                             -- 137-139
  | .some v => match encode v with                                                      -- 141-146
    | .error e => .error e
    | .ok k => .ok (.withIdUnchk (KS.str "Some") (.tuple [k]))
  | .unit => .ok (.new .unit)                                                           -- 148-150
  | .unitStruct n => encId n (.tuple [])                                                -- 152-154
  | .unitVariant n => encId n (.tuple [])                                               -- 156-158
  | .newtypeStruct n v => match encode v with                                           -- 160-162
    | .error e => .error e
    | .ok k => encId n (.tuple [k])
  | .newtypeVariant n v => match encode v with                                          -- 164-173
    | .error e => .error e
    | .ok k => encId n (.tuple [k])
  | .seq l => match encodeL l with                                                      -- 175-179, 276-296
    | .error e => .error e
    | .ok ks => .ok (.new (.seq ks))
  | .tuple l => match encodeL l with                                                    -- 181-185, 298-318
    | .error e => .error e
    | .ok ks => .ok (.new (.tuple ks))
  | .tupleStruct n l => match encId n .unit with                                        -- 187-192, 320-336
    | .error e => .error e
    | .ok _ => match encodeL l with
      | .error e => .error e
      | .ok ks => .ok (.withIdUnchk n (.tuple ks))
  | .tupleVariant n l => match encId n .unit with                                       -- 194-205, 338-354
    | .error e => .error e
    | .ok _ => match encodeL l with
      | .error e => .error e
      | .ok ks => .ok (.withIdUnchk n (.tuple ks))
  | .map ops => match encodeOps ops Option.none [] with                                 -- 207-212, 356-401
    | .error e => .error e
    | .ok m => .ok (.new (.map m))
  | .struct n fs => match encId n .unit with                                            -- 214-218, 403-428
    | .error e => .error e
    | .ok _ => match encodeF fs [] with
      | .error e => .error e
      | .ok m => .ok (.withIdUnchk n (.cntr m))
  | .structVariant n fs => match encId n .unit with                                     -- 220-230, 430-451
    | .error e => .error e
    | .ok _ => match encodeF fs [] with
      | .error e => .error e
      | .ok m => .ok (.withIdUnchk n (.cntr m))
  | .fail msg => .error (.message msg)                                                  -- 256-260
termination_by structural s => s
/-- `serialize_element` / `serialize_field` of `SeqLike` and `TupleLike`: push, `/repo/src/encode/encoder.rs` 284-351. -/
def encodeL : List Ser → Except EncErr (List Kserd)
  | [] => .ok []
  | v :: r => match encode v with
    | .error e => .error e
    | .ok k => match encodeL r with
      | .error e => .error e
      | .ok ks => .ok (k :: ks)
termination_by structural l => l
/-- `serialize_field` of `CntrLike`: `cntr.insert(key, value.serialize()?)`, `/repo/src/encode/encoder.rs` 403-448.
The container built so far is the last argument; names are not validated. -/
def encodeF : List (Str × Ser) → Fields → Except EncErr Fields
  | [], m => .ok m
  | (n, v) :: r, m => match encode v with
    | .error e => .error e
    | .ok k => encodeF r (BTree.insert cmpStr n k m)
termination_by structural l => l
/-- `MapLike`, `/repo/src/encode/encoder.rs` 356-401: the pending key, then the map built so far. -/
def encodeOps : List MapOp → Option Kserd → KMap → Except EncErr KMap
  | [], _, m => .ok m
  | o :: r, key, m => match encodeOp o key m with
    | .error e => .error e
    | .ok km => encodeOps r km.1 km.2
termination_by structural l => l
/-- `serialize_key` 365-368, `serialize_value` 370-381, `serialize_entry` 383-396 of `/repo/src/encode/encoder.rs`. -/
def encodeOp : MapOp → Option Kserd → KMap → Except EncErr (Option Kserd × KMap)
  | .key k, _, m => match encode k with
    | .error e => .error e
    | .ok kk => .ok (Option.some kk, m)
  | .value v, key, m => match key with
    | Option.none => .error .noKeyAvailable
    | Option.some kk => match encode v with
      | .error e => .error e
      | .ok kv => .ok (Option.none, BTree.insert Kserd.cmp kk kv m)
  | .entry k v, key, m => match encode k with
    | .error e => .error e
    | .ok kk => match encode v with
      | .error e => .error e
      | .ok kv => .ok (key, BTree.insert Kserd.cmp kk kv m)
termination_by structural o => o
end

end Ser
end KS
