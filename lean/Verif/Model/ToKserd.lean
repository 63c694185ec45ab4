import Verif.Model.Kserd
/-!
# `ToKserd` — `/repo/src/to_kserd.rs`

The Rust values covered by the implementations in the file, as one data type. Every constructor is one
`impl`; `Vec`, arrays and tuples hold their elements as a list. A value whose own conversion fails
(a user implementation returning `Err`) is `custom (.error e)`; a user implementation that succeeds, and
`Kserd` itself (111-115), is `custom (.ok k)`.
-/

namespace KS

/-- `enum ToKserdErr`, `/repo/src/to_kserd.rs` 91-98. -/
inductive ToKserdErr where
  | invalidId (s : Str)
  | invalidFieldName (e : FieldNameErr)
deriving DecidableEq, Repr

/-- Which primitive number type: the `NumberType` implementations, `/repo/src/ds/num.rs` 464-466. -/
inductive NumTy where
  | usize | u8 | u16 | u32 | u64 | u128
  | isize | i8 | i16 | i32 | i64 | i128
  | f32 | f64
deriving DecidableEq, Repr

/-- `NumberType::identity` (`stringify!`), `/repo/src/ds/num.rs` 452-466. -/
def NumTy.identity : NumTy → Str
  | .usize => KS.str "usize" | .u8 => KS.str "u8" | .u16 => KS.str "u16" | .u32 => KS.str "u32"
  | .u64 => KS.str "u64" | .u128 => KS.str "u128"
  | .isize => KS.str "isize" | .i8 => KS.str "i8" | .i16 => KS.str "i16" | .i32 => KS.str "i32"
  | .i64 => KS.str "i64" | .i128 => KS.str "i128"
  | .f32 => KS.str "f32" | .f64 => KS.str "f64"

/-- A Rust value with a `ToKserd` implementation. `num t n`: `n` is the `Into<Number>` of the value. -/
inductive RVal where
  | custom (r : Except ToKserdErr Kserd)
  | num (t : NumTy) (n : Number)
  | unit
  | bool (b : Bool)
  | ch (c : Char)
  | string (s : Str)
  | str (s : Str)
  | tuple (l : List RVal)
  | array (l : List RVal)
  | vec (l : List RVal)
  | box (v : RVal)
  | some (v : RVal)
  | none
  | ok (v : RVal)
  | err (v : RVal)

namespace RVal

mutual
/-- `into_kserd`, one arm per `impl` of `/repo/src/to_kserd.rs` (lines beside each arm). -/
def intoKserd : RVal → Except ToKserdErr Kserd
  | .custom r => r                                          -- 111-115
  | .num t n => .ok (.withIdUnchk t.identity (.num n))       -- 170-186, `Kserd::new_num`, kserd.rs 105-107
  | .unit => .ok (.new .unit)                               -- 188-192
  | .bool b => .ok (.withIdUnchk (KS.str "bool") (.bool b)) -- 194-198
  | .ch c => .ok (.withIdUnchk (KS.str "char") (.str [c]))  -- 200-207
  | .string s => .ok (.withIdUnchk (KS.str "String") (.str s)) -- 221-225
  | .str s => .ok (.withIdUnchk (KS.str "str") (.str s))    -- 227-231
  | .tuple l => match intoKserds l with                     -- 242-258
    | .ok v => .ok (.new (.tuple v))
    | .error e => .error e
  | .array l => match intoKserds l with                     -- 273-289
    | .ok v => .ok (.withIdUnchk (KS.str "array") (.seq v))
    | .error e => .error e
  | .vec l => match intoKserds l with                       -- 347-355
    | .ok v => .ok (.withIdUnchk (KS.str "Vec") (.seq v))
    | .error e => .error e
  | .box v => intoKserd v                                   -- 359-366
  | .some v => intoKserd v                                  -- 380-390
  | .none => .ok (.withIdUnchk (KS.str "None") (.tuple []))
  | .ok v => match intoKserd v with                         -- 392-403
    | .ok k => .ok (.withIdUnchk (KS.str "Ok") (.tuple [k]))
    | .error e => .error e
  | .err v => match intoKserd v with
    | .ok k => .ok (.withIdUnchk (KS.str "Err") (.tuple [k]))
    | .error e => .error e
termination_by structural a => a
/-- `/repo/src/to_kserd.rs`: `for i in … { v.push(i.into_kserd()?) }`, 281-283 and 350-352, and the `vec![… ?, …]` of 251-253. -/
def intoKserds : List RVal → Except ToKserdErr (List Kserd)
  | [] => .ok []
  | v :: r => match intoKserd v with
    | .error e => .error e
    | .ok k => match intoKserds r with
      | .error e => .error e
      | .ok ks => .ok (k :: ks)
termination_by structural a => a
end

end RVal
end KS
