import Verif.Conformance.Util
import Verif.Model.DecodeErr
/-!
# Tests, not proofs: `/repo/tests/decoding.rs` on the model

Left out: fuzz loops and `&str` (decoded with ownership in `Verif/Model/DecodeOwn.lean`).
-/

namespace KS.Conf

deriving instance BEq for Ser, MapOp

/-- The user types of the test file. -/
def env : TyEnv := fun n =>
  if n = str "UnitStruct" then some (.unitStruct (str "UnitStruct"))
  else if n = str "EmptyStruct" then some (.tupleStruct (str "EmptyStruct") [])
  else if n = str "EmptyStruct2" then some (.struct (str "EmptyStruct2") [])
  else if n = str "TupleStruct" then some (.tupleStruct (str "TupleStruct") [.int .u8, .string, .f32])
  else if n = str "Enum" then some (.enum [(str "One", .unit), (str "Two", .unit), (str "NType", .newtype (.int .u8)),
    (str "Tuple", .tuple [.int .u8, .int .i16, .f64]), (str "Struct", .struct [(str "a", .int .u8), (str "b", .string), (str "c", .f64)])])
  else if n = str "Result" then some (.enum [(str "Ok", .newtype (.named (str "SomeStruct"))), (str "Err", .newtype (.named (str "UnitStruct")))])
  else if n = str "SomeStruct" then some (.struct (str "SomeStruct") [(str "n", .int .i32), (str "f", .f64), (str "s", .string),
    (str "ns", .option (.named (str "SomeStruct"))), (str "u", .unit), (str "un", .named (str "UnitStruct")), (str "rs", .named (str "Result")),
    (str "en", .named (str "Enum")), (str "its", its), (str "itsv", .seq its), (str "ens", .seq (.named (str "Enum"))),
    (str "map", .map .string (.named (str "UnitStruct")))])
  else none
where
  its : Ty := .tuple [.option .string, .int .i32, .f64, .string]

/-- `Kserd::enc(&v).unwrap().decode::<T>() == Ok(v)`. -/
def back (t : Ty) (v : Ser) : Bool := (decode env t (enc v)).any (· == v)
/-- The same with formatting and parsing in between. -/
def through (c : FormattingConfig) (t : Ty) (v : Ser) : Bool :=
  match (enc v).asStrWithConfig c with
  | some s => (match parse s with
    | .ok k => Kserd.eq k (enc v) && (decode env t k).any (· == v)
    | _ => false)
  | none => false
def ty (s : String) : Ty := .named (str s)
def pi : F64 := fl "3.141592653589793"
def pi32 (neg : Bool) : F32 := .fin neg (0xC90FDB * 2 ^ 127)
def chars (l : List Nat) : Str := l.map Char.ofNat

#guard back .char (.char 'a') && back .string (.str (str "Hello, world!"))
#guard back (.option (.int .u8)) .none && back (.option (.int .u8)) (.some (.int .u8 8))
#guard back (ty "UnitStruct") (.unitStruct (str "UnitStruct"))
#guard back (ty "EmptyStruct") (.tupleStruct (str "EmptyStruct") []) && back (ty "EmptyStruct2") (.struct (str "EmptyStruct2") [])
#guard back (.tuple [.int .u8]) (.tuple [.int .u8 1])
#guard back (.tuple [.int .u8, .string, .f32]) (.tuple [.int .u8 1, .str (str "hello"), .f32 (pi32 true)])
#guard back (ty "TupleStruct") (.tupleStruct (str "TupleStruct") [.int .u8 1, .str (str "hello"), .f32 (pi32 true)])

def one : Ser := .unitVariant (str "One")
def two : Ser := .unitVariant (str "Two")
def unitS : Ser := .unitStruct (str "UnitStruct")
def some' (n : Int) (f : F64) (s : Str) (ns en its : Ser) (itsv ens : List Ser) (m : List MapOp) : Ser :=
  .struct (str "SomeStruct") [(str "n", .int .i32 n), (str "f", .f64 f), (str "s", .str s), (str "ns", ns), (str "u", .unit), (str "un", unitS),
    (str "rs", .newtypeVariant (str "Err") unitS), (str "en", en), (str "its", its), (str "itsv", .seq itsv), (str "ens", .seq ens), (str "map", .map m)]
def its0 : Ser := .tuple [.none, .int .i32 0, .f64 (fl "0.0"), .str []]
def struct1 : Ser := some' (-100) pi (str "Hello, world!") .none one its0 [] [one, two] []
def struct2 : Ser := some' 10101 pi [] (.some struct1) one its0 [] [one, two] []
#guard back (ty "SomeStruct") struct1 && back (ty "SomeStruct") struct2
#guard back (ty "Enum") one && back (ty "Enum") two
#guard back (ty "Enum") (.newtypeVariant (str "NType") (.int .u8 120))
#guard back (ty "Enum") (.tupleVariant (str "Tuple") [.int .u8 120, .int .i16 (-100), .f64 pi])
#guard back (ty "Enum") (.structVariant (str "Struct") [(str "a", .int .u8 120), (str "b", .str (str "Hello, world!")), (str "c", .f64 (fl "-3.141592653589793"))])
#guard back (.seq (.int .i32)) (.seq [.int .i32 (-1), .int .i32 0, .int .i32 1, .int .i32 5])
#guard back (.map .string (.int .u32)) (.map [.entry (.str (str "a")) (.int .u32 0), .entry (.str (str "b")) (.int .u32 1), .entry (.str (str "c")) (.int .u32 2)])

#guard through {} (.int .u8) (.int .u8 123)
#guard through {} (.int .u64) (.int .u64 16803534192531604596)
#guard through {} .string (.str (chars [0x26b45, 0xf51e9, 0x1621c, 0x147ea, 0xc2706, 0x197af, 0xf644c, 0x84d9d, 0x228f8, 0x9fffb, 0x6cf65, 0xd2541, 0xe7be8, 0x72071, 0xf8030, 0x925b3, 0x67e40, 0x7fa89]))
#guard through { widthLimit := some 0 } (ty "EmptyStruct2") (.struct (str "EmptyStruct2") [])
def fuzz1 : Ser := some' (-1534911249) (fl "0.3503985440975186") (chars [0x878b0, 0xeeddb, 0x5dd09, 0xf7a12, 0xc51d, 0xccacc, 0xa6a4f, 0xbc0f7, 0x7cf22, 0x70e10, 0x108360, 0xd70bf, 0x75aff, 0x42be3, 0xb2851, 0x1026ea, 0xa1d0c, 0x470f4, 0x50ebe, 0x69fad, 0x87c60, 0x62eed, 0x1487c, 0x77e4d, 0x39624, 0xf09b0])
  .none (.tupleVariant (str "Tuple") [.int .u8 213, .int .i16 (-15278), .f64 (fl "0.5143220283660902")])
  (.tuple [.none, .int .i32 (-1039545731), .f64 (fl "0.9572395051775555"), .str []]) [] [two] []
#guard through { idOnPrimitives := true, idOnMaps := true, widthLimit := some 0 } (ty "SomeStruct") fuzz1
def fuzz2 : Ser := some' 1785306414 (fl "0.9600825275211862") (chars [0xd2a3c, 0xc36d9, 0x56c77, 0x7d10, 0xe15c, 0xf8a54, 0x572ce, 0x10727c, 0xd606c, 0x105a35, 0x3296f])
  .none (.newtypeVariant (str "NType") (.int .u8 30)) (.tuple [.none, .int .i32 2101028762, .f64 (fl "0.8603156654015199"), .str []]) []
  [.structVariant (str "Struct") [(str "a", .int .u8 187), (str "b", .str (chars [0xb57a6, 0xf7003, 0x78529, 0xd2a11, 0x3fff9, 0xe486f, 0x3c103, 0x98d3c, 0x42bbe, 0x10cc5f])),
    (str "c", .f64 (fl "0.5815612461032534"))]]
  [.entry (.str (chars [0x2f520, 0xb1cc9, 0x50f64, 0xf3c5c, 0xf7fb8, 0xc4f59, 0xd55cf, 0x72e88, 0x3ea1a, 0xdbeaa, 0xd6f0b, 0xd2107, 0x10bd17, 0x30de7, 0x5c5a5])) unitS]
#guard through { idOnPrimitives := true, idOnMaps := true, idOnSeqs := true, widthLimit := some 77 } (ty "SomeStruct") fuzz2
-- The fuzz tests draw formatting configurations at random; here some of them.
#guard [none, some 0, some 20, some 60, some 119].all fun w => [true, false].all fun a => [true, false].all fun b => [true, false].all fun c =>
  [struct1, struct2, fuzz1, fuzz2].all fun v => through { idOnPrimitives := a, idOnSeqs := b, idOnMaps := c, widthLimit := w } (ty "SomeStruct") v

/-! ## `/repo/src/encode/decoder.rs` 430-490 -/

#guard back .unit .unit && back .bool (.bool true) && back .bool (.bool false) && back .char (.char 'a') && back .char (.char 'b') && back .char (.char 'c')
#guard [(IntTy.u8, 8), (.u16, 16), (.u32, 32), (.u64, 64), (.u128, 128)].all fun p => back (.int p.1) (.int p.1 0) && back (.int p.1) (.int p.1 (2 ^ p.2 - 1))
#guard [(IntTy.i8, 7), (.i16, 15), (.i32, 31), (.i64, 63), (.i128, 127)].all fun p =>
  back (.int p.1) (.int p.1 (- 2 ^ p.2)) && back (.int p.1) (.int p.1 0) && back (.int p.1) (.int p.1 (2 ^ p.2 - 1))
#guard [true, false].all fun s => back .f32 (.f32 (pi32 s)) && back .f32 (.f32 (.fin s (0xADF854 * 2 ^ 127))) && back .f32 (.f32 (.fin false 0))
#guard ["0.0", "2.718281828459045", "3.141592653589793", "-2.718281828459045", "-3.141592653589793"].all fun t => back .f64 (.f64 (fl t))
#guard back .string (.str (str "\nThis is me!"))
#guard (decode env .bytes (ba [0, 1, 2])).any (· == .bytes [0, 1, 2])
#guard (decode env .char (st "x")).any (· == .char 'x') && (decode env .char (st "")).isNone

/-! Texts of errors, `/repo/src/encode/decoder.rs` 575-716. -/

/-- The error of reading a value as a tuple variant with one element (or another variant). -/
def says {α : Type} (e : Except DErr α) (s : String) : Bool :=
  match e with
  | .error e => e.text (fun _ => true) == str s
  | .ok _ => false
def vari (d : VarDef) (v : Value) : Except DErr Ser := DecE.variantOf (fun _ _ => .error .noType) (str "Test") d v
def tup1 (v : Value) (s : String) : Bool := says (vari (.tuple [.unit]) v) ("custom error: invalid type: " ++ s ++ ", expected tuple enum variant")

#guard says (decodeE env .char (st "")) "custom error: invalid type: string \"\", expected char"
#guard says (decodeE env .char (.mk none (.num (.float (fl "1.01"))))) "custom error: invalid type: floating point `1.01`, expected char"
#guard (match vari .unit .unit with | .ok v => v == .unitVariant (str "Test") | _ => false)
#guard says (vari .unit (.num (.uint 3))) "custom error: invalid type: integer `3`, expected unit enum variant"
#guard says (vari (.newtype .unit) (.tuple [.mk none .unit, .mk none .unit])) "custom error: invalid length 2, expected a tuple with a single element was expected"
#guard says (vari (.newtype .unit) (.num (.uint 3))) "custom error: invalid type: integer `3`, expected newtype enum variant"
#guard says (vari (.tuple [.unit]) (.tuple [.mk none .unit, .mk none .unit])) "custom error: invalid length 2, expected a tuple with 1 element(s) was expected"
#guard says (vari (.tuple [.unit]) (.num (.uint 3))) "custom error: invalid type: integer `3`, expected tuple enum variant"
#guard says (vari (.struct []) (.num (.uint 3))) "custom error: invalid type: integer `3`, expected struct enum variant"
#guard tup1 .unit "unit value" && tup1 (.bool true) "boolean `true`" && tup1 (.num (.uint 123)) "integer `123`" &&
  tup1 (.num (.int (-123))) "integer `-123`" && tup1 (.num (.float (fl "1.01"))) "floating point `1.01`" && tup1 (.str (str "Hello")) "string \"Hello\"" &&
  tup1 (.barr [0, 1, 2]) "byte array" && tup1 (.cntr [(str "a", .mk none .unit)]) "container" && tup1 (.seq []) "sequence" && tup1 (.map []) "map"
-- from here on our own
#guard says (vari .unit (.bool false)) "custom error: invalid type: boolean `false`, expected unit enum variant"
#guard says (vari .unit (.num (.float (fl "1")))) "custom error: invalid type: floating point `1.0`, expected unit enum variant"
#guard says (vari .unit (.tuple [.mk none .unit])) "custom error: invalid type: tuple, expected unit enum variant"
#guard says (decodeE env .char (st "a\"\\\n\t\rb\x00")) "custom error: invalid type: string \"a\\\"\\\\\\n\\t\\rb\\0\", expected char"
#guard says (decodeE env .bool (.mk none (.num (.uint (2 ^ 64))))) "custom error: invalid type: integer `18446744073709551616` as u128, expected a boolean"
#guard says (decodeE env .bool (.mk none (.num (.int (- 2 ^ 64))))) "custom error: invalid type: integer `-18446744073709551616` as i128, expected a boolean"
#guard says (decodeE env .unit (.mk (some (str "Some")) (.tuple [.mk none .unit]))) "custom error: invalid type: Option value, expected unit"
#guard says (decodeE env .string (.mk (some (str "a")) (.tuple [.mk none .unit]))) "custom error: invalid type: newtype struct, expected a string"
#guard (decode env .string (ba [0xe2, 0x82, 0xac, 97])).any (· == .str (str "€a"))
#guard (decode env .bytes (st "€a")).any (· == .bytes [0xe2, 0x82, 0xac, 97])
#guard says (decodeE env .string (ba [0xc0, 0x80])) "custom error: invalid value: byte array, expected a string"
#guard says (decodeE env .string (ba [0xed, 0xa0, 0x80])) "custom error: invalid value: byte array, expected a string"
#guard says (decodeE env .string (ba [255])) "custom error: invalid value: byte array, expected a string"
#guard says (decodeE env (ty "Enum") (.mk (some (str "Three")) .unit)) "custom error: unknown variant `Three`, expected one of `One`, `Two`, `NType`, `Tuple`, `Struct`"
#guard says (decodeE env (ty "Result") (.mk (some (str "Three")) .unit)) "custom error: unknown variant `Three`, expected `Ok` or `Err`"
#guard says (decodeE (fun _ => some (.enum [(str "One", .unit)])) (ty "E") (.mk (some (str "Three")) .unit)) "custom error: unknown variant `Three`, expected `One`"
#guard says (decodeE env (ty "TupleStruct") (.mk none (.seq [.mk none (.num (.uint 3))]))) "custom error: invalid length 1, expected tuple struct TupleStruct with 3 elements"

end KS.Conf
