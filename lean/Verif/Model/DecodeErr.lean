import Verif.Model.Decode
import Verif.Model.DebugStr
/-!
# Errors of the decoder — `/repo/src/encode/decoder.rs`

The same decoder as in `Verif/Model/Decode.lean`, with the error it gives. The errors made by the crate are those of
`de_integer!` (104-126), `deserialize_f32` .. `deserialize_unit_struct` (204-242), `variant_seed` (261-277) and
`VariantAccess` (279-346). The others come from visitors of serde 1.0 and `serde_derive`; their texts are part of the
trusted base. `Verif/Lemmas/DecodeErr.lean` proves that success and result are those of `decode`.
-/

namespace KS

/-- `serde::de::Unexpected`, as far as it is used. -/
inductive Unexp where
  | bool (b : Bool)
  | unsigned (n : Nat)
  | signed (i : Int)
  | float (x : F64)
  | str (s : Str)
  | bytes
  | unit
  | option
  | newtypeStruct
  | seq
  | map
  | unitVariant
  | other (s : Str)
deriving DecidableEq

/-- What `Error::Message` (`/repo/src/encode/decoder.rs` 372-381) was made from. `noType` has no counterpart: it is given
for a type name which is not declared, and never otherwise. -/
inductive DErr where
  | type (u : Unexp) (want : Str)
  | value (u : Unexp) (want : Str)
  | length (n : Nat) (want : Str)
  | missing (field : Str)
  | duplicate (field : Str)
  | unknownVariant (v : Str) (among : List Str)
  | outside
  | tryFrom
  | noIdentity
  | noType
deriving DecidableEq

/-- `Display` of an integer. -/
def intText (i : Int) : Str := (if i < 0 then str "-" else []) ++ natDigits i.natAbs

/-- serde's `WithDecimalPoint`: a finite float is shown with a fraction. -/
def floatText (x : F64) : Str :=
  if x.isFinite && !(x.disp.contains '.') then x.disp ++ str ".0" else x.disp

/-- `Display for Unexpected` (serde); strings are shown with `Debug`, see `Dbg.escape` for `plain`. -/
def Unexp.text (plain : Char → Bool) : Unexp → Str
  | .bool b => KS.str "boolean `" ++ (if b then KS.str "true" else KS.str "false") ++ KS.str "`"
  | .unsigned n => KS.str "integer `" ++ natDigits n ++ KS.str "`"
  | .signed i => KS.str "integer `" ++ intText i ++ KS.str "`"
  | .float x => KS.str "floating point `" ++ floatText x ++ KS.str "`"
  | .str s => KS.str "string " ++ Dbg.quote plain s
  | .bytes => KS.str "byte array"
  | .unit => KS.str "unit value"
  | .option => KS.str "Option value"
  | .newtypeStruct => KS.str "newtype struct"
  | .seq => KS.str "sequence"
  | .map => KS.str "map"
  | .unitVariant => KS.str "unit variant"
  | .other s => s

/-- serde's `OneOf`. -/
def oneOf : List Str → Str
  | [] => []
  | [a] => str "`" ++ a ++ str "`"
  | [a, b] => str "`" ++ a ++ str "` or `" ++ b ++ str "`"
  | a :: r => str "one of `" ++ a ++ str "`" ++ (r.map (fun x => str ", `" ++ x ++ str "`")).flatten

/-- The message: constructors of `serde::de::Error`, and `IntoIntError` (`/repo/src/ds/num.rs` 109-113),
`TryFromIntError` (std). -/
def DErr.message (plain : Char → Bool) : DErr → Str
  | .type u w => str "invalid type: " ++ u.text plain ++ str ", expected " ++ w
  | .value u w => str "invalid value: " ++ u.text plain ++ str ", expected " ++ w
  | .length n w => str "invalid length " ++ natDigits n ++ str ", expected " ++ w
  | .missing f => str "missing field `" ++ f ++ str "`"
  | .duplicate f => str "duplicate field `" ++ f ++ str "`"
  | .unknownVariant v l => str "unknown variant `" ++ v ++ str "`, " ++
      (if l.isEmpty then str "there are no variants" else str "expected " ++ oneOf l)
  | .outside => str "original number is outside integers range"
  | .tryFrom => str "out of range integral type conversion attempted"
  | .noIdentity => str "enum but no identity is present"
  | .noType => []

/-- `Display for Error`, `/repo/src/encode/decoder.rs` 385-391. -/
def DErr.text (plain : Char → Bool) (e : DErr) : Str := str "custom error: " ++ e.message plain

/-- `unexp_err`, `/repo/src/encode/decoder.rs` 351-368: integers beyond 64 bits become 0 (`unwrap_or_default`). -/
def unexpErr : Value → Unexp
  | .unit => .unit
  | .bool b => .bool b
  | .num (.uint n) => .unsigned (if n < 2 ^ 64 then n else 0)
  | .num (.int i) => .signed (if - 2 ^ 63 ≤ i ∧ i < 2 ^ 63 then i else 0)
  | .num (.float x) => .float x
  | .str s => .str s
  | .barr _ => .bytes
  | .tuple _ => .other (str "tuple")
  | .cntr _ => .other (str "container")
  | .seq _ => .seq
  | .map _ => .map

/-- What a visitor reports when it does not take a visit: the default methods of `serde::de::Visitor`. -/
def Visit.refused : Visit → Unexp
  | .unit => .unit
  | .bool b => .bool b
  | .u64 n => .unsigned n
  | .u128 n => .other (KS.str "integer `" ++ natDigits n ++ KS.str "` as u128")
  | .i64 i => .signed i
  | .i128 i => .other (KS.str "integer `" ++ intText i ++ KS.str "` as i128")
  | .f64 x => .float x
  | .str s => .str s
  | .bytes _ => .bytes
  | .none => .option
  | .some _ => .option
  | .newtype _ => .newtypeStruct
  | .seq _ => .seq
  | .fields _ => .map
  | .map _ => .map

namespace DecE

/-- `$n element(s)` in texts of `serde_derive`. -/
def elements (n : Nat) : Str := natDigits n ++ (if n = 1 then str " element" else str " elements")

/-- `Visitor::expecting` of a derived type. -/
def expectingDef : TyDef → Str
  | .unitStruct n => str "unit struct " ++ n
  | .newtype n _ => str "tuple struct " ++ n
  | .tupleStruct n _ => str "tuple struct " ++ n
  | .struct n _ => str "struct " ++ n
  | .enum _ => str "enum"

/-- `Visitor::expecting` of the types (serde and derived). -/
def expecting (env : TyEnv) : Ty → Str
  | .unit => str "unit"
  | .bool => str "a boolean"
  | .int t => t.identity
  | .f32 => str "f32"
  | .f64 => str "f64"
  | .char => str "a character"
  | .string => str "a string"
  | .bytes => str "a byte array"
  | .option _ => str "option"
  | .seq _ => str "a sequence"
  | .tuple l => str "a tuple of size " ++ natDigits l.length
  | .map _ _ => str "a map"
  | .named n => match env n with
    | Option.some d => expectingDef d
    | Option.none => []

/-- `de_integer!`, `/repo/src/encode/decoder.rs` 107-126. -/
def int (t : IntTy) (v : Value) : Except DErr Ser :=
  match v with
  | .num n =>
    if t.signed then
      match n.asI128 with
      | Option.some x => if t.lo ≤ x ∧ x ≤ t.hi then .ok (.int t x) else .error .tryFrom
      | Option.none => .error .outside
    else
      match n.asU128 with
      | Option.some x => if (x : Int) ≤ t.hi then .ok (.int t x) else .error .tryFrom
      | Option.none => .error .outside
  | x => .error (.type (unexpErr x) t.identity)

/-- As `Dec.tupleOf`; a missing element is reported with its index. -/
def tupleOf (dec : Ty → Kserd → Except DErr Ser) (want : Str) (at_ : Nat) : List Ty → List Kserd → Except DErr (List Ser)
  | [], _ => .ok []
  | _ :: _, [] => .error (.length at_ want)
  | t :: ts, k :: ks => match dec t k with
    | .error e => .error e
    | .ok v => match tupleOf dec want (at_ + 1) ts ks with
      | .error e => .error e
      | .ok vs => .ok (v :: vs)

/-- As `Dec.seqOf`. -/
def seqOf (dec : Kserd → Except DErr Ser) : List Kserd → Except DErr (List Ser)
  | [] => .ok []
  | k :: ks => match dec k with
    | .error e => .error e
    | .ok v => match seqOf dec ks with
      | .error e => .error e
      | .ok vs => .ok (v :: vs)

/-- As `Dec.entriesOf`. -/
def entriesOf {κ : Type} (deck : κ → Except DErr Ser) (decv : Kserd → Except DErr Ser) :
    List (κ × Kserd) → Except DErr (List MapOp)
  | [] => .ok []
  | (k, v) :: r => match deck k with
    | .error e => .error e
    | .ok k' => match decv v with
      | .error e => .error e
      | .ok v' => match entriesOf deck decv r with
        | .error e => .error e
        | .ok r' => .ok (.entry k' v' :: r')

/-- Derived `visit_map` of a struct, first half, with the fields seen so far: a repeated field is reported before its
value is decoded. `name` reads the key; a key may be for no field. -/
def collect {κ : Type} (name : κ → Except DErr (Option Str)) (dec : Ty → Kserd → Except DErr Ser) (fs : List (Str × Ty)) (seen : List Str) :
    List (κ × Kserd) → Except DErr (List (Str × Ser))
  | [] => .ok []
  | (key, k) :: r => match name key with
    | .error e => .error e
    | .ok Option.none => collect name dec fs seen r
    | .ok (Option.some n) => match Dec.fieldTy fs n with
      | Option.none => collect name dec fs seen r
      | Option.some t =>
        if n ∈ seen then .error (.duplicate n)
        else match dec t k with
          | .error e => .error e
          | .ok v => match collect name dec fs (n :: seen) r with
            | .error e => .error e
            | .ok vs => .ok ((n, v) :: vs)

/-- As `Dec.assemble`. -/
def assemble (vs : List (Str × Ser)) : List (Str × Ty) → Except DErr (List (Str × Ser))
  | [] => .ok []
  | (n, t) :: r =>
    match (match Dec.fieldVal vs n, t with
      | Option.some v, _ => Option.some v
      | Option.none, .option _ => Option.some Ser.none
      | Option.none, _ => Option.none) with
    | Option.none => .error (.missing n)
    | Option.some v => match assemble vs r with
      | .error e => .error e
      | .ok r' => .ok ((n, v) :: r')

/-- Derived `visit_map` of a struct. -/
def structOf {κ : Type} (name : κ → Except DErr (Option Str)) (dec : Ty → Kserd → Except DErr Ser) (fs : List (Str × Ty)) (l : List (κ × Kserd)) :
    Except DErr (List (Str × Ser)) :=
  match collect name dec fs [] l with
  | .error e => .error e
  | .ok vs => assemble vs fs

/-- As `Dec.fieldKey`. -/
def fieldKey (names : List Str) (k : Kserd) : Except DErr (Option Str) :=
  match deserializeAny k with
  | .str s => .ok (Option.some s)
  | .u64 n => .ok names[n]?
  | .bytes b => .ok (names.find? (fun n => strBytes n = b))
  | v => .error (.type v.refused (KS.str "field identifier"))

/-- A name in a container as a field identifier. -/
def nameKey (s : Str) : Except DErr (Option Str) := .ok (Option.some s)

/-- As `Dec.strKey`: serde's `CowStrDeserializer` passes the string to every visitor, and to enums as a unit variant. -/
def strKey (env : TyEnv) (t : Ty) (s : Str) : Except DErr Ser :=
  match t with
  | .string => .ok (.str s)
  | .bytes => .ok (.bytes (strBytes s))
  | .char => match s with
    | [c] => .ok (.char c)
    | _ => .error (.value (.str s) (expecting env .char))
  | .named n => match env n with
    | Option.some (.enum vs) => match Dec.variant vs s with
      | Option.some .unit => .ok (.unitVariant s)
      | Option.some (.newtype _) => .error (.type .unitVariant (KS.str "newtype variant"))
      | Option.some (.tuple _) => .error (.type .unitVariant (KS.str "tuple variant"))
      | Option.some (.struct _) => .error (.type .unitVariant (KS.str "struct variant"))
      | Option.none => .error (.unknownVariant s (vs.map Prod.fst))
    | Option.some d => .error (.type (.str s) (expectingDef d))
    | Option.none => .error .noType
  | t => .error (.type (.str s) (expecting env t))

/-- `VariantAccess`, `/repo/src/encode/decoder.rs` 279-346: `unit_variant` 282-288, `newtype_variant_seed` 290-307,
`tuple_variant` 309-328, `struct_variant` 330-346. -/
def variantOf (dec : Ty → Kserd → Except DErr Ser) (i : Str) (d : VarDef) (v : Value) : Except DErr Ser :=
  match d with
  | .unit => match v with
    | .unit => .ok (.unitVariant i)
    | .tuple [] => .ok (.unitVariant i)
    | x => .error (.type (unexpErr x) (KS.str "unit enum variant"))
  | .newtype t => match v with
    | .tuple [x] => (dec t x).map (.newtypeVariant i)
    | .tuple l => .error (.length l.length (KS.str "a tuple with a single element was expected"))
    | x => .error (.type (unexpErr x) (KS.str "newtype enum variant"))
  | .tuple ts => match v with
    | .tuple l =>
      if l.length = ts.length then (tupleOf dec [] 0 ts l).map (.tupleVariant i)
      else .error (.length l.length (KS.str "a tuple with " ++ natDigits ts.length ++ KS.str " element(s) was expected"))
    | x => .error (.type (unexpErr x) (KS.str "tuple enum variant"))
  | .struct fs => match v with
    | .cntr l => (structOf nameKey dec fs l).map (.structVariant i)
    | x => .error (.type (unexpErr x) (KS.str "struct enum variant"))

/-- As `Dec.defOf`. -/
def defOf (dec : Ty → Kserd → Except DErr Ser) (d : TyDef) (k : Kserd) : Except DErr Ser :=
  match d with
  | .unitStruct n => match k.val with                            -- 233-242
    | .tuple [] => .ok (.unitStruct n)
    | x => .error (.type (unexpErr x) (KS.str "unit struct"))
  | .newtype n t => match deserializeAny k with
    | .newtype x => (dec t x).map (.newtypeStruct n)
    | .seq (x :: _) => (dec t x).map (.newtypeStruct n)
    | .seq [] => .error (.length 0 (KS.str "tuple struct " ++ n ++ KS.str " with " ++ elements 1))
    | v => .error (.type v.refused (expectingDef d))
  | .tupleStruct n ts => match deserializeAny k with
    | .seq l => (tupleOf dec (KS.str "tuple struct " ++ n ++ KS.str " with " ++ elements ts.length) 0 ts l).map (.tupleStruct n)
    | v => .error (.type v.refused (expectingDef d))
  | .struct n fs => match deserializeAny k with
    | .fields l => (structOf nameKey dec fs l).map (.struct n)
    | .map m => (structOf (fieldKey (fs.map Prod.fst)) dec fs m).map (.struct n)
    | .seq l => (tupleOf dec (KS.str "struct " ++ n ++ KS.str " with " ++ elements fs.length) 0 (fs.map Prod.snd) l).map
        (fun vs => .struct n ((fs.map Prod.fst).zip vs))
    | v => .error (.type v.refused (expectingDef d))
  | .enum vs => match k.id with                                  -- 261-277
    | Option.none => .error .noIdentity
    | Option.some i => match Dec.variant vs i with
      | Option.none => .error (.unknownVariant i (vs.map Prod.fst))
      | Option.some d => variantOf dec i d k.val

/-- As `Dec.step`. In `deserialize_f32` and `deserialize_f64` (204-215) the expected type is `stringify!($t)` outside a
macro, which is the text `$t`. -/
def step (env : TyEnv) (dec : Ty → Kserd → Except DErr Ser) (ty : Ty) (k : Kserd) : Except DErr Ser :=
  match ty with
  | .unit => match deserializeAny k with
    | .unit => .ok .unit
    | v => .error (.type v.refused (expecting env ty))
  | .bool => match deserializeAny k with
    | .bool b => .ok (.bool b)
    | v => .error (.type v.refused (expecting env ty))
  | .int t => int t k.val
  | .f32 => match k.val with                                   -- 204-209
    | .num n => .ok (.f32 (F32.ofF64 n.asF64))
    | x => .error (.type (unexpErr x) (KS.str "$t"))
  | .f64 => match k.val with                                   -- 210-215
    | .num n => .ok (.f64 n.asF64)
    | x => .error (.type (unexpErr x) (KS.str "$t"))
  | .char => match k.val with                                  -- 217-231
    | .str [c] => .ok (.char c)
    | x => .error (.type (unexpErr x) (KS.str "char"))
  | .string => match deserializeAny k with
    | .str s => .ok (.str s)
    | .bytes b => match bytesStr b with
      | Option.some s => .ok (.str s)
      | Option.none => .error (.value .bytes (expecting env ty))
    | v => .error (.type v.refused (expecting env ty))
  | .bytes => match deserializeAny k with
    | .bytes s => .ok (.bytes s)
    | .str s => .ok (.bytes (strBytes s))
    | v => .error (.type v.refused (expecting env ty))
  | .option t => match deserializeAny k with
    | .unit => .ok .none
    | .none => .ok .none
    | .some x => (dec t x).map .some
    | v => .error (.type v.refused (expecting env ty))
  | .seq t => match deserializeAny k with
    | .seq l => (seqOf (dec t) l).map .seq
    | v => .error (.type v.refused (expecting env ty))
  | .tuple ts => match deserializeAny k with
    | .seq l => (tupleOf dec (expecting env ty) 0 ts l).map .tuple
    | v => .error (.type v.refused (expecting env ty))
  | .map kt vt => match deserializeAny k with
    | .map m => (entriesOf (dec kt) (dec vt) m).map .map
    | .fields m => (entriesOf (strKey env kt) (dec vt) m).map .map
    | v => .error (.type v.refused (expecting env ty))
  | .named n => match env n with
    | Option.none => .error .noType
    | Option.some d => defOf dec d k

/-- As `Dec.decode`. -/
def decode (env : TyEnv) : Nat → Ty → Kserd → Except DErr Ser
  | 0, _, _ => .error .noType
  | f + 1, ty, k => step env (decode env f) ty k

end DecE

/-- `Kserd::decode::<T>()`, `/repo/src/encode/mod.rs` 108-110, with the error. -/
def decodeE (env : TyEnv) (ty : Ty) (k : Kserd) : Except DErr Ser := DecE.decode env k.depth ty k

end KS
