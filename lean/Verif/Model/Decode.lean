import Verif.Model.Encode
import Verif.Model.Utf8
/-!
# The serde deserializer — `/repo/src/encode/decoder.rs`

First what the decoder itself does: `deserializeAny` tells which visitor method is called with what. Then what
that means for `Deserialize` implementations: `decode` follows the implementations of serde (1.0) for std types
and the ones written by `#[derive(Deserialize)]`. Those visitors are not code of this crate; their behaviour is
part of the trusted base. Decoded values are written as `Ser`, the same tree their `Serialize` produces.

Simplifications: error messages are dropped (`none` is any error); ownership of strings is not followed
(only owned types are decoded, no `&str`; `Verif/Model/DecodeOwn.lean` follows it); attributes such as
`#[serde(default)]`, `flatten`, `untagged` are not covered. `Ty.bytes` is serde's `Cow<[u8]>` (a field with `#[serde(borrow)]`), which
takes byte arrays and strings; other types of byte arrays are written outside serde.
-/

namespace KS

/-- The visitor method called by `deserialize_any`, with its argument. -/
inductive Visit where
  | unit
  | bool (b : Bool)
  | u64 (n : Nat)
  | u128 (n : Nat)
  | i64 (i : Int)
  | i128 (i : Int)
  | f64 (x : F64)
  | str (s : Str)
  | bytes (b : Bytes)
  | none
  | some (k : Kserd)
  | newtype (k : Kserd)
  | seq (l : List Kserd)
  | fields (f : Fields)
  | map (m : KMap)

/-- `Deserializer::deserialize_any`, `/repo/src/encode/decoder.rs` 131-182; also `bool str string bytes byte_buf
option unit newtype_struct seq tuple tuple_struct map struct identifier ignored_any`, which are forwarded to it
(184-188). Both `Cntr` and `Map` call `visit_map`; the keys are strings in the first case. -/
def deserializeAny : Kserd → Visit
  | .mk id v => match v with
    | .unit => .unit
    | .bool b => .bool b
    | .num n => match n with
      | .uint n => if n < 2 ^ 64 then .u64 n else .u128 n
      | .int i => if - 2 ^ 63 ≤ i ∧ i < 2 ^ 63 then .i64 i else .i128 i
      | .float x => .f64 x
    | .str s => .str s
    | .barr b => .bytes b
    | .tuple l => match l, id with
      | [], Option.some i => if i = KS.str "None" then .none else .seq []
      | [x], Option.some i => if i = KS.str "Some" then .some x else .newtype x
      | l, _ => .seq l
    | .cntr f => .fields f
    | .seq l => .seq l
    | .map m => .map m

/-- `deserialize_u8` .. `deserialize_i128`, `/repo/src/encode/decoder.rs` 107-126 and 190-203: `as_u128` or
`as_i128`, then `try_from` to the type. -/
def decodeInt (t : IntTy) (n : Number) : Option Int :=
  if t.signed then
    match n.asI128 with
    | Option.some x => if t.lo ≤ x ∧ x ≤ t.hi then Option.some x else Option.none
    | Option.none => Option.none
  else
    match n.asU128 with
    | Option.some x => if (x : Int) ≤ t.hi then Option.some (x : Int) else Option.none
    | Option.none => Option.none

/-- Rust types with serde implementations: std types, and user types by name. -/
inductive Ty where
  | unit
  | bool
  | int (t : IntTy)
  | f32
  | f64
  | char
  | string
  | bytes
  | option (t : Ty)
  | seq (t : Ty)
  | tuple (l : List Ty)
  | map (k v : Ty)
  | named (n : Str)

/-- The body of an enum variant. -/
inductive VarDef where
  | unit
  | newtype (t : Ty)
  | tuple (l : List Ty)
  | struct (fields : List (Str × Ty))

/-- A derived user type. -/
inductive TyDef where
  | unitStruct (name : Str)
  | newtype (name : Str) (t : Ty)
  | tupleStruct (name : Str) (l : List Ty)
  | struct (name : Str) (fields : List (Str × Ty))
  | enum (variants : List (Str × VarDef))

/-- The user types in scope; they may refer to each other and to themselves. -/
abbrev TyEnv := Str → Option TyDef

namespace Dec

/-- serde's and serde_derive's `visit_seq` for tuples, tuple structs and structs: one element per type, an error when
elements are missing. What is left of the sequence is ignored: `SeqDeserializer::end` is not called
(`/repo/src/encode/decoder.rs` 172, 174, 179, 315). -/
def tupleOf (dec : Ty → Kserd → Option Ser) : List Ty → List Kserd → Option (List Ser)
  | [], _ => Option.some []
  | _ :: _, [] => Option.none
  | t :: ts, k :: ks => match dec t k with
    | Option.none => Option.none
    | Option.some v => match tupleOf dec ts ks with
      | Option.none => Option.none
      | Option.some vs => Option.some (v :: vs)

/-- All elements, `Vec<T>`. -/
def seqOf (dec : Kserd → Option Ser) : List Kserd → Option (List Ser)
  | [] => Option.some []
  | k :: ks => match dec k with
    | Option.none => Option.none
    | Option.some v => match seqOf dec ks with
      | Option.none => Option.none
      | Option.some vs => Option.some (v :: vs)

/-- All entries, `HashMap` and `BTreeMap`. -/
def entriesOf {κ : Type} (deck : κ → Option Ser) (decv : Kserd → Option Ser) : List (κ × Kserd) → Option (List MapOp)
  | [] => Option.some []
  | (k, v) :: r => match deck k with
    | Option.none => Option.none
    | Option.some k' => match decv v with
      | Option.none => Option.none
      | Option.some v' => match entriesOf deck decv r with
        | Option.none => Option.none
        | Option.some r' => Option.some (.entry k' v' :: r')

/-- Type of a field. -/
def fieldTy (fs : List (Str × Ty)) (n : Str) : Option Ty :=
  match fs with
  | [] => Option.none
  | (m, t) :: r => if m = n then Option.some t else fieldTy r n

/-- Value collected for a field. -/
def fieldVal (vs : List (Str × Ser)) (n : Str) : Option Ser :=
  match vs with
  | [] => Option.none
  | (m, t) :: r => if m = n then Option.some t else fieldVal r n

/-- Derived `visit_map` of a struct, first half: decode the known fields, ignore the others. -/
def collect (dec : Ty → Kserd → Option Ser) (fs : List (Str × Ty)) : List (Str × Kserd) → Option (List (Str × Ser))
  | [] => Option.some []
  | (n, k) :: r => match fieldTy fs n with
    | Option.none => collect dec fs r
    | Option.some t => match dec t k with
      | Option.none => Option.none
      | Option.some v => match collect dec fs r with
        | Option.none => Option.none
        | Option.some vs => Option.some ((n, v) :: vs)

/-- Derived `visit_map` of a struct, second half: the fields in declaration order; a missing field is an error unless
its type is an `Option`. -/
def assemble (vs : List (Str × Ser)) : List (Str × Ty) → Option (List (Str × Ser))
  | [] => Option.some []
  | (n, t) :: r =>
    match (match fieldVal vs n, t with
      | Option.some v, _ => Option.some v
      | Option.none, .option _ => Option.some Ser.none
      | Option.none, _ => Option.none) with
    | Option.none => Option.none
    | Option.some v => match assemble vs r with
      | Option.none => Option.none
      | Option.some r' => Option.some ((n, v) :: r')

/-- Derived `visit_map` of a struct; a repeated field is an error. -/
def structOf (dec : Ty → Kserd → Option Ser) (fs : List (Str × Ty)) (l : List (Str × Kserd)) : Option (List (Str × Ser)) :=
  match collect dec fs l with
  | Option.none => Option.none
  | Option.some vs => if (vs.map Prod.fst).Nodup then assemble vs fs else Option.none

/-- Derived field identifier of a struct with these fields: `deserialize_identifier` of a key, forwarded to `deserialize_any`. A string is
the name, an unsigned integer the index and a byte array the bytes of the name. `some none` is no field, to be ignored; `none` an error. -/
def fieldKey (names : List Str) (k : Kserd) : Option (Option Str) :=
  match deserializeAny k with
  | .str s => Option.some (Option.some s)
  | .u64 n => Option.some names[n]?
  | .bytes b => Option.some (names.find? (fun n => strBytes n = b))
  | _ => Option.none

/-- The entries of a map with the fields they are for, without those which are for none; `none` when there is a key of another kind. -/
def fieldKeys (names : List Str) : KMap → Option (List (Str × Kserd))
  | [] => Option.some []
  | (k, v) :: r => match fieldKey names k, fieldKeys names r with
    | Option.some (Option.some s), Option.some r' => Option.some ((s, v) :: r')
    | Option.some Option.none, Option.some r' => Option.some r'
    | _, _ => Option.none

/-- Variant of an enum by name. -/
def variant (vs : List (Str × VarDef)) (n : Str) : Option VarDef :=
  match vs with
  | [] => Option.none
  | (m, d) :: r => if m = n then Option.some d else variant r n

/-- A container key (`Cow<str>`) as a map key of type `t`: serde's `CowStrDeserializer`. -/
def strKey (env : TyEnv) (t : Ty) (s : Str) : Option Ser :=
  match t with
  | .string => Option.some (.str s)
  | .bytes => Option.some (.bytes (strBytes s))
  | .char => match s with
    | [c] => Option.some (.char c)
    | _ => Option.none
  | .named n => match env n with
    | Option.some (.enum vs) => match variant vs s with
      | Option.some .unit => Option.some (.unitVariant s)
      | _ => Option.none
    | _ => Option.none
  | _ => Option.none

/-- `VariantAccess`, `/repo/src/encode/decoder.rs` 279-346, as called by a derived enum visitor. -/
def variantOf (dec : Ty → Kserd → Option Ser) (i : Str) (d : VarDef) (v : Value) : Option Ser :=
  match d, v with
  | .unit, .unit => Option.some (.unitVariant i)
  | .unit, .tuple [] => Option.some (.unitVariant i)
  | .newtype t, .tuple [x] => (dec t x).map (.newtypeVariant i)
  | .tuple ts, .tuple l => if l.length = ts.length then (tupleOf dec ts l).map (.tupleVariant i) else Option.none
  | .struct fs, .cntr l => (structOf dec fs l).map (.structVariant i)
  | _, _ => Option.none

/-- Derived `Deserialize` of a user type. `deserialize_unit_struct` 233-242, `deserialize_enum` 244-251 with
`variant_seed` 261-277 of `/repo/src/encode/decoder.rs`; the others go through `deserialize_any`. -/
def defOf (dec : Ty → Kserd → Option Ser) (d : TyDef) (k : Kserd) : Option Ser :=
  match d with
  | .unitStruct n => match k.val with
    | .tuple [] => Option.some (.unitStruct n)
    | _ => Option.none
  | .newtype n t => match deserializeAny k with
    | .newtype x => (dec t x).map (.newtypeStruct n)
    | .seq (x :: _) => (dec t x).map (.newtypeStruct n)
    | _ => Option.none
  | .tupleStruct n ts => match deserializeAny k with
    | .seq l => (tupleOf dec ts l).map (.tupleStruct n)
    | _ => Option.none
  | .struct n fs => match deserializeAny k with
    | .fields l => (structOf dec fs l).map (.struct n)
    | .map m => match fieldKeys (fs.map Prod.fst) m with
      | Option.some l => (structOf dec fs l).map (.struct n)
      | Option.none => Option.none
    | .seq l => (tupleOf dec (fs.map Prod.snd) l).map (fun vs => .struct n ((fs.map Prod.fst).zip vs))
    | _ => Option.none
  | .enum vs => match k.id with
    | Option.none => Option.none
    | Option.some i => match variant vs i with
      | Option.none => Option.none
      | Option.some d => variantOf dec i d k.val

/-- `<T as Deserialize>::deserialize(Decoder(kserd))`, given the function for nested values. -/
def step (env : TyEnv) (dec : Ty → Kserd → Option Ser) (ty : Ty) (k : Kserd) : Option Ser :=
  match ty with
  | .unit => match deserializeAny k with
    | .unit => Option.some .unit
    | _ => Option.none
  | .bool => match deserializeAny k with
    | .bool b => Option.some (.bool b)
    | _ => Option.none
  | .int t => match k.val with
    | .num n => (decodeInt t n).map (.int t)
    | _ => Option.none
  | .f32 => match k.val with                                   -- 204-208
    | .num n => Option.some (.f32 (F32.ofF64 n.asF64))
    | _ => Option.none
  | .f64 => match k.val with                                   -- 210-215
    | .num n => Option.some (.f64 n.asF64)
    | _ => Option.none
  | .char => match k.val with                                  -- 217-231
    | .str [c] => Option.some (.char c)
    | _ => Option.none
  | .string => match deserializeAny k with
    | .str s => Option.some (.str s)
    | .bytes b => (bytesStr b).map .str
    | _ => Option.none
  | .bytes => match deserializeAny k with
    | .bytes s => Option.some (.bytes s)
    | .str s => Option.some (.bytes (strBytes s))
    | _ => Option.none
  | .option t => match deserializeAny k with
    | .unit => Option.some .none
    | .none => Option.some .none
    | .some x => (dec t x).map .some
    | _ => Option.none
  | .seq t => match deserializeAny k with
    | .seq l => (seqOf (dec t) l).map .seq
    | _ => Option.none
  | .tuple ts => match deserializeAny k with
    | .seq l => (tupleOf dec ts l).map .tuple
    | _ => Option.none
  | .map kt vt => match deserializeAny k with
    | .map m => (entriesOf (dec kt) (dec vt) m).map .map
    | .fields m => (entriesOf (strKey env kt) (dec vt) m).map .map
    | _ => Option.none
  | .named n => match env n with
    | Option.none => Option.none
    | Option.some d => defOf dec d k

/-- The first number bounds the nesting followed; every nested call is on a part of the Kserd, so the depth of the
Kserd suffices and more changes nothing (`Verif/Lemmas/Decode.lean`, `decode_fuel`). -/
def decode (env : TyEnv) : Nat → Ty → Kserd → Option Ser
  | 0, _, _ => Option.none
  | f + 1, ty, k => step env (decode env f) ty k

end Dec

mutual
/-- Nesting depth. -/
def Kserd.depth : Kserd → Nat
  | .mk _ v => Value.depth v + 1
termination_by structural k => k
/-- Nesting depth of the parts. -/
def Value.depth : Value → Nat
  | .unit => 0
  | .bool _ => 0
  | .num _ => 0
  | .str _ => 0
  | .barr _ => 0
  | .tuple l => depthL l
  | .cntr l => depthF l
  | .seq l => depthL l
  | .map l => depthM l
termination_by structural k => k
def depthL : List Kserd → Nat
  | [] => 0
  | k :: r => max k.depth (depthL r)
termination_by structural k => k
def depthF : List (Str × Kserd) → Nat
  | [] => 0
  | (_, k) :: r => max k.depth (depthF r)
termination_by structural k => k
def depthM : List (Kserd × Kserd) → Nat
  | [] => 0
  | (k, v) :: r => max k.depth (max v.depth (depthM r))
termination_by structural k => k
end

/-- `Kserd::decode::<T>()`, `/repo/src/encode/mod.rs` 108-110. -/
def decode (env : TyEnv) (ty : Ty) (k : Kserd) : Option Ser := Dec.decode env k.depth ty k

end KS
