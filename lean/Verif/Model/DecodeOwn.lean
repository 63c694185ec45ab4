import Verif.Model.Decode
import Verif.Model.Own
/-!
# The serde deserializer with ownership — `/repo/src/encode/decoder.rs`

`Verif.Model.Decode` forgets which strings and byte arrays are borrowed. Here they are followed, so that types with borrowed parts
(`&str`, `&[u8]`) can be decoded as well. As there, the visitors of serde and of `#[derive(Deserialize)]` are part of the trusted
base; error messages are dropped.
-/

namespace KS

/-- The visitor method called by `deserialize_any`, with its argument; strings and byte arrays tell whether they are owned
(`visit_string`, `visit_byte_buf`) or borrowed (`visit_borrowed_str`, `visit_borrowed_bytes`). -/
inductive OVisit where
  | unit
  | bool (b : Bool)
  | number (n : Number)
  | str (s : Cow Str)
  | bytes (b : Cow Bytes)
  | none
  | some (k : OKserd)
  | newtype (k : OKserd)
  | seq (l : List OKserd)
  | fields (f : List (Cow Str × OKserd))
  | map (m : List (OKserd × OKserd))

/-- Field `val`. -/
def OKserd.val : OKserd → OValue
  | .mk _ v => v

/-- `Kserd::id` as text. -/
def OKserd.idText : OKserd → Option Str
  | .mk i _ => i.map (·.data)

/-- `Deserializer::deserialize_any`, `/repo/src/encode/decoder.rs` 131-182. The visits of numbers are not told apart: numeric types have
their own methods (190-215), and among the rest only field identifiers take numbers (`fieldKey` looks at which). -/
def ODeserializeAny : OKserd → OVisit
  | .mk id v => match v with
    | .unit => .unit
    | .bool b => .bool b
    | .num n => .number n
    | .str s => .str s
    | .barr b => .bytes b
    | .tuple l => match l, id with
      | [], Option.some i => if i.data = KS.str "None" then .none else .seq []
      | [x], Option.some i => if i.data = KS.str "Some" then .some x else .newtype x
      | l, _ => .seq l
    | .cntr f => .fields f
    | .seq l => .seq l
    | .map m => .map m

/-- Rust types with serde implementations, with borrowed strings and byte arrays. -/
inductive BTy where
  | unit
  | bool
  | int (t : IntTy)
  | f32
  | f64
  | char
  | string
  | bytes
  | strRef
  | bytesRef
  | option (t : BTy)
  | seq (t : BTy)
  | tuple (l : List BTy)
  | map (k v : BTy)
  | named (n : Str)

/-- The body of an enum variant. -/
inductive BVarDef where
  | unit
  | newtype (t : BTy)
  | tuple (l : List BTy)
  | struct (fields : List (Str × BTy))

/-- A derived user type. -/
inductive BTyDef where
  | unitStruct (name : Str)
  | newtype (name : Str) (t : BTy)
  | tupleStruct (name : Str) (l : List BTy)
  | struct (name : Str) (fields : List (Str × BTy))
  | enum (variants : List (Str × BVarDef))

/-- The user types in scope. -/
abbrev BTyEnv := Str → Option BTyDef

namespace ODec

/-- As `Dec.tupleOf`. -/
def tupleOf (dec : BTy → OKserd → Option Ser) : List BTy → List OKserd → Option (List Ser)
  | [], _ => some []
  | _ :: _, [] => none
  | t :: ts, k :: ks => (dec t k).bind fun v => (tupleOf dec ts ks).map (v :: ·)

/-- As `Dec.seqOf`. -/
def seqOf (dec : OKserd → Option Ser) : List OKserd → Option (List Ser)
  | [] => some []
  | k :: ks => (dec k).bind fun v => (seqOf dec ks).map (v :: ·)

/-- As `Dec.entriesOf`. -/
def entriesOf {κ : Type} (deck : κ → Option Ser) (decv : OKserd → Option Ser) : List (κ × OKserd) → Option (List MapOp)
  | [] => some []
  | (k, v) :: r => (deck k).bind fun k' => (decv v).bind fun v' => (entriesOf deck decv r).map (.entry k' v' :: ·)

/-- As `Dec.fieldTy`. -/
def fieldTy (fs : List (Str × BTy)) (n : Str) : Option BTy :=
  match fs with
  | [] => none
  | (m, t) :: r => if m = n then some t else fieldTy r n

/-- As `Dec.collect`. -/
def collect (dec : BTy → OKserd → Option Ser) (fs : List (Str × BTy)) : List (Str × OKserd) → Option (List (Str × Ser))
  | [] => some []
  | (n, k) :: r => match fieldTy fs n with
    | none => collect dec fs r
    | some t => (dec t k).bind fun v => (collect dec fs r).map ((n, v) :: ·)

/-- As `Dec.assemble`. -/
def assemble (vs : List (Str × Ser)) : List (Str × BTy) → Option (List (Str × Ser))
  | [] => some []
  | (n, t) :: r =>
    (match Dec.fieldVal vs n, t with
      | some v, _ => some v
      | none, .option _ => some Ser.none
      | none, _ => none).bind fun v => (assemble vs r).map ((n, v) :: ·)

/-- As `Dec.structOf`. -/
def structOf (dec : BTy → OKserd → Option Ser) (fs : List (Str × BTy)) (l : List (Str × OKserd)) : Option (List (Str × Ser)) :=
  (collect dec fs l).bind fun vs => if (vs.map Prod.fst).Nodup then assemble vs fs else none

/-- As `Dec.fieldKey`; `visit_u64` is called for unsigned integers of 64 bits. -/
def fieldKey (names : List Str) (k : OKserd) : Option (Option Str) :=
  match ODeserializeAny k with
  | .str s => some (some s.data)
  | .number (.uint n) => if n < 2 ^ 64 then some names[n]? else none
  | .bytes b => some (names.find? (fun n => strBytes n = b.data))
  | _ => none

/-- As `Dec.fieldKeys`. -/
def fieldKeys (names : List Str) : List (OKserd × OKserd) → Option (List (Str × OKserd))
  | [] => some []
  | (k, v) :: r => match fieldKey names k, fieldKeys names r with
    | some (some s), some r' => some ((s, v) :: r')
    | some none, some r' => some r'
    | _, _ => none

/-- Names of fields are read from borrowed and owned strings alike. -/
def names (l : List (Cow Str × OKserd)) : List (Str × OKserd) := l.map fun p => (p.1.data, p.2)

/-- As `Dec.variant`. -/
def variant (vs : List (Str × BVarDef)) (n : Str) : Option BVarDef :=
  match vs with
  | [] => none
  | (m, d) :: r => if m = n then some d else variant r n

/-- A container key as a map key of type `t`, `/repo/src/encode/decoder.rs` 176-178: the key is handed over as `Cow<str>`, and serde's
`CowStrDeserializer` calls `visit_str` or `visit_string`, never `visit_borrowed_str`. So `&str` and `&[u8]` are refused. -/
def strKey (env : BTyEnv) (t : BTy) (s : Str) : Option Ser :=
  match t with
  | .string => some (.str s)
  | .bytes => some (.bytes (strBytes s))
  | .char => match s with
    | [c] => some (.char c)
    | _ => none
  | .named n => match env n with
    | some (.enum vs) => match variant vs s with
      | some .unit => some (.unitVariant s)
      | _ => none
    | _ => none
  | _ => none

/-- `VariantAccess`, `/repo/src/encode/decoder.rs` 279-346. -/
def variantOf (dec : BTy → OKserd → Option Ser) (i : Str) (d : BVarDef) (v : OValue) : Option Ser :=
  match d, v with
  | .unit, .unit => some (.unitVariant i)
  | .unit, .tuple [] => some (.unitVariant i)
  | .newtype t, .tuple [x] => (dec t x).map (.newtypeVariant i)
  | .tuple ts, .tuple l => if l.length = ts.length then (tupleOf dec ts l).map (.tupleVariant i) else none
  | .struct fs, .cntr l => (structOf dec fs (names l)).map (.structVariant i)
  | _, _ => none

/-- Derived `Deserialize` of a user type, as `Dec.defOf`. -/
def defOf (dec : BTy → OKserd → Option Ser) (d : BTyDef) (k : OKserd) : Option Ser :=
  match d with
  | .unitStruct n => match k.val with
    | .tuple [] => some (.unitStruct n)
    | _ => none
  | .newtype n t => match ODeserializeAny k with
    | .newtype x => (dec t x).map (.newtypeStruct n)
    | .seq (x :: _) => (dec t x).map (.newtypeStruct n)
    | _ => none
  | .tupleStruct n ts => match ODeserializeAny k with
    | .seq l => (tupleOf dec ts l).map (.tupleStruct n)
    | _ => none
  | .struct n fs => match ODeserializeAny k with
    | .fields l => (structOf dec fs (names l)).map (.struct n)
    | .map m => match fieldKeys (fs.map Prod.fst) m with
      | some l => (structOf dec fs l).map (.struct n)
      | none => none
    | .seq l => (tupleOf dec (fs.map Prod.snd) l).map (fun vs => .struct n ((fs.map Prod.fst).zip vs))
    | _ => none
  | .enum vs => match k.idText with
    | none => none
    | some i => match variant vs i with
      | none => none
      | some d => variantOf dec i d k.val

/-- `<T as Deserialize>::deserialize(Decoder(kserd))`, given the function for nested values; 190-231 for the types that have their own
method. `String` takes both kinds of strings and byte arrays which are UTF-8, `&str` only borrowed ones (serde);
likewise bytes take byte arrays and strings. -/
def step (env : BTyEnv) (dec : BTy → OKserd → Option Ser) (ty : BTy) (k : OKserd) : Option Ser :=
  match ty with
  | .unit => match ODeserializeAny k with
    | .unit => some .unit
    | _ => none
  | .bool => match ODeserializeAny k with
    | .bool b => some (.bool b)
    | _ => none
  | .int t => match k.val with
    | .num n => (decodeInt t n).map (.int t)
    | _ => none
  | .f32 => match k.val with
    | .num n => some (.f32 (F32.ofF64 n.asF64))
    | _ => none
  | .f64 => match k.val with
    | .num n => some (.f64 n.asF64)
    | _ => none
  | .char => match k.val with
    | .str s => match s.data with
      | [c] => some (.char c)
      | _ => none
    | _ => none
  | .string => match ODeserializeAny k with
    | .str s => some (.str s.data)
    | .bytes b => (bytesStr b.data).map .str
    | _ => none
  | .bytes => match ODeserializeAny k with
    | .bytes s => some (.bytes s.data)
    | .str s => some (.bytes (strBytes s.data))
    | _ => none
  | .strRef => match ODeserializeAny k with
    | .str s => if s.owned then none else some (.str s.data)
    | .bytes b => if b.owned then none else (bytesStr b.data).map .str
    | _ => none
  | .bytesRef => match ODeserializeAny k with
    | .bytes s => if s.owned then none else some (.bytes s.data)
    | .str s => if s.owned then none else some (.bytes (strBytes s.data))
    | _ => none
  | .option t => match ODeserializeAny k with
    | .unit => some .none
    | .none => some .none
    | .some x => (dec t x).map .some
    | _ => none
  | .seq t => match ODeserializeAny k with
    | .seq l => (seqOf (dec t) l).map .seq
    | _ => none
  | .tuple ts => match ODeserializeAny k with
    | .seq l => (tupleOf dec ts l).map .tuple
    | _ => none
  | .map kt vt => match ODeserializeAny k with
    | .map m => (entriesOf (dec kt) (dec vt) m).map .map
    | .fields m => (entriesOf (fun s : Cow Str => strKey env kt s.data) (dec vt) m).map .map
    | _ => none
  | .named n => match env n with
    | none => none
    | some d => defOf dec d k

/-- The first number bounds the nesting followed, as in `Dec.decode`. -/
def decode (env : BTyEnv) : Nat → BTy → OKserd → Option Ser
  | 0, _, _ => none
  | f + 1, ty, k => step env (decode env f) ty k

end ODec

/-- `Kserd::decode::<T>()`, `/repo/src/encode/mod.rs` 108-110. -/
def OKserd.decode (env : BTyEnv) (ty : BTy) (k : OKserd) : Option Ser := ODec.decode env k.data.depth ty k

end KS
