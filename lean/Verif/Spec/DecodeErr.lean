import Verif.Model.DecodeErr
import Verif.Spec.Num
import Verif.Spec.Order
/-!
# What the errors of the decoder mean

Written without reference to the decoding functions: what is read inside a value, and what has to hold for a message
to be true.
-/

namespace KS.Spec.De

/-- The spellings of an option. -/
def IsNone (k : Kserd) : Prop := k.val = .tuple [] ∧ k.id = some (str "None")
def IsSome (k x : Kserd) : Prop := k.val = .tuple [x] ∧ k.id = some (str "Some")
/-- A named tuple of one element. -/
def IsNew (k x : Kserd) : Prop := k.val = .tuple [x] ∧ ∃ i, k.id = some i ∧ i ≠ str "Some"
/-- Sequences, and tuples that are none of the above. -/
def Elems (k : Kserd) (l : List Kserd) : Prop :=
  k.val = .seq l ∨ (k.val = .tuple l ∧ ¬ IsNone k ∧ (∀ x, ¬ IsSome k x) ∧ ∀ x, ¬ IsNew k x)

/-- What an error is about: a value to be read as a type, a name in a container to be read as a key of a map, or a key
of a map to be read as a name of a field. -/
inductive Subject where
  | value (t : Ty) (k : Kserd)
  | key (t : Ty) (s : Str)
  | field (k : Kserd)

/-- The name a key of a map stands for, in a struct with these fields: a string is the name, an unsigned integer of 64 bits the index, a
byte array the name in UTF-8. -/
def nameOf (names : List Str) (k : Kserd) : Option Str :=
  match k.val with
  | .str s => some s
  | .num (.uint n) => if n < 2 ^ 64 then names[n]? else none
  | .barr b => names.find? (fun s => utf8 s = b)
  | _ => none

/-- The fields of a value: the names and values of a container, or the entries of a map. -/
def FieldAt (fs : List (Str × Ty)) (v : Value) (n : Str) (x : Kserd) : Prop :=
  (∃ l, v = .cntr l ∧ (n, x) ∈ l) ∨ ∃ m key, v = .map m ∧ (key, x) ∈ m ∧ nameOf (fs.map Prod.fst) key = some n

/-- The names in a container or a map, in order. -/
def namesIn (fs : List (Str × Ty)) : Value → List Str
  | .cntr l => l.map Prod.fst
  | .map m => m.filterMap (fun p => nameOf (fs.map Prod.fst) p.1)
  | _ => []

/-- The fields looked for when `k` is read as the user type `n`. -/
def FieldsOf (env : TyEnv) (n : Str) (k : Kserd) (fs : List (Str × Ty)) : Prop :=
  (∃ m, env n = some (.struct m fs)) ∨
    ∃ vs i l, env n = some (.enum vs) ∧ k.id = some i ∧ vs.lookup i = some (.struct fs) ∧ k.val = .cntr l

/-- Reading `k` as `t` means, among other things, reading `x` as `u`. -/
inductive Child (env : TyEnv) : Ty → Kserd → Ty → Kserd → Prop
  | some {t k x} : IsSome k x → Child env (.option t) k t x
  | elem {t k l x} : Elems k l → x ∈ l → Child env (.seq t) k t x
  | tuple {ts k l t x} {i : Nat} : Elems k l → ts[i]? = some t → l[i]? = some x → Child env (.tuple ts) k t x
  | mapKey {kt vt k m x v} : k.val = .map m → (x, v) ∈ m → Child env (.map kt vt) k kt x
  | mapValue {kt vt k m x v} : k.val = .map m → (x, v) ∈ m → Child env (.map kt vt) k vt v
  | cntrValue {kt vt k l n v} : k.val = .cntr l → (n, v) ∈ l → Child env (.map kt vt) k vt v
  | newtype {n m t k x} : env n = some (.newtype m t) → (IsNew k x ∨ ∃ r, Elems k (x :: r)) → Child env (.named n) k t x
  | tupleStruct {n m ts k l t x} {i : Nat} : env n = some (.tupleStruct m ts) → Elems k l → ts[i]? = some t → l[i]? = some x →
      Child env (.named n) k t x
  | structSeq {n m fs k l f t x} {i : Nat} : env n = some (.struct m fs) → Elems k l → fs[i]? = some (f, t) → l[i]? = some x →
      Child env (.named n) k t x
  | field {n k fs f t x} : FieldsOf env n k fs → fs.lookup f = some t → FieldAt fs k.val f x → Child env (.named n) k t x
  | newtypeVariant {n vs i t k x} : env n = some (.enum vs) → k.id = some i → vs.lookup i = some (.newtype t) → k.val = .tuple [x] →
      Child env (.named n) k t x
  | tupleVariant {n vs v ts k l t x} {i : Nat} : env n = some (.enum vs) → k.id = some v → vs.lookup v = some (.tuple ts) →
      k.val = .tuple l → l.length = ts.length → ts[i]? = some t → l[i]? = some x → Child env (.named n) k t x

/-- Everything looked at when `k` is read as `t`. -/
inductive Reads (env : TyEnv) : Ty → Kserd → Subject → Prop
  | here {t k} : Reads env t k (.value t k)
  | inside {t k u x s} : Child env t k u x → Reads env u x s → Reads env t k s
  | key {kt vt k l n v} : k.val = .cntr l → (n, v) ∈ l → Reads env (.map kt vt) k (.key kt n)
  | field {n m fs k l x v} : env n = some (.struct m fs) → k.val = .map l → (x, v) ∈ l → Reads env (.named n) k (.field x)

/-- `k` is what the description says. -/
inductive Describes : Unexp → Kserd → Prop
  | unit {k} : k.val = .unit → Describes .unit k
  | bool {k b} : k.val = .bool b → Describes (.bool b) k
  | unsigned {k n} : k.val = .num (.uint n) → Describes (.unsigned n) k
  | signed {k i} : k.val = .num (.int i) → Describes (.signed i) k
  | wide {k n} : k.val = .num (.uint n) → Describes (.other (str "integer `" ++ natDigits n ++ str "` as u128")) k
  | wideSigned {k i} : k.val = .num (.int i) →
      Describes (.other (str "integer `" ++ (if i < 0 then str "-" else []) ++ natDigits i.natAbs ++ str "` as i128")) k
  | float {k x} : k.val = .num (.float x) → Describes (.float x) k
  | str {k s} : k.val = .str s → Describes (.str s) k
  | bytes {k b} : k.val = .barr b → Describes .bytes k
  | none {k} : IsNone k → Describes .option k
  | some {k x} : IsSome k x → Describes .option k
  | newtype {k x} : IsNew k x → Describes .newtypeStruct k
  | seq {k l} : Elems k l → Describes .seq k
  | map {k m} : k.val = .map m → Describes .map k
  | fields {k l} : k.val = .cntr l → Describes .map k
  | tuple {k l} : k.val = .tuple l → Describes (.other (KS.str "tuple")) k
  | container {k l} : k.val = .cntr l → Describes (.other (KS.str "container")) k

/-- Where the description is wrong: integers beyond 64 bits are called 0. -/
inductive Mistaken : Unexp → Kserd → Prop
  | unsigned {k n} : k.val = .num (.uint n) → 2 ^ 64 ≤ n → Mistaken (.unsigned 0) k
  | signed {k i} : k.val = .num (.int i) → (i < - 2 ^ 63 ∨ 2 ^ 63 ≤ i) → Mistaken (.signed 0) k

/-- The name of an integer type. -/
def intName (t : IntTy) : Str := (if t.signed then 'i' else 'u') :: natDigits t.bits

/-- `k` is not of the kind which is needed to read it as `t`, and is called `w`. -/
inductive Misfit (env : TyEnv) : Ty → Kserd → Str → Prop
  | unit {k} : k.val ≠ .unit → Misfit env .unit k (str "unit")
  | bool {k} : (∀ b, k.val ≠ .bool b) → Misfit env .bool k (str "a boolean")
  | int {t k} : (∀ n, k.val ≠ .num n) → Misfit env (.int t) k (intName t)
  | f32 {k} : (∀ n, k.val ≠ .num n) → Misfit env .f32 k (str "$t")
  | f64 {k} : (∀ n, k.val ≠ .num n) → Misfit env .f64 k (str "$t")
  | char {k} : (∀ c, k.val ≠ .str [c]) → Misfit env .char k (str "char")
  | string {k} : (∀ s, k.val ≠ .str s) → (∀ b, k.val ≠ .barr b) → Misfit env .string k (str "a string")
  | bytes {k} : (∀ b, k.val ≠ .barr b) → (∀ s, k.val ≠ .str s) → Misfit env .bytes k (str "a byte array")
  | option {t k} : k.val ≠ .unit → ¬ IsNone k → (∀ x, ¬ IsSome k x) → Misfit env (.option t) k (str "option")
  | seq {t k} : (∀ l, ¬ Elems k l) → Misfit env (.seq t) k (str "a sequence")
  | tuple {ts k} : (∀ l, ¬ Elems k l) → Misfit env (.tuple ts) k (str "a tuple of size " ++ natDigits ts.length)
  | map {kt vt k} : (∀ m, k.val ≠ .map m) → (∀ l, k.val ≠ .cntr l) → Misfit env (.map kt vt) k (str "a map")
  | unitStruct {n m k} : env n = some (.unitStruct m) → k.val ≠ .tuple [] → Misfit env (.named n) k (str "unit struct")
  | newtype {n m t k} : env n = some (.newtype m t) → (∀ l, ¬ Elems k l) → (∀ x, ¬ IsNew k x) →
      Misfit env (.named n) k (str "tuple struct " ++ m)
  | tupleStruct {n m ts k} : env n = some (.tupleStruct m ts) → (∀ l, ¬ Elems k l) → Misfit env (.named n) k (str "tuple struct " ++ m)
  | struct {n m fs k} : env n = some (.struct m fs) → (∀ l, ¬ Elems k l) → (∀ l, k.val ≠ .map l) → (∀ l, k.val ≠ .cntr l) →
      Misfit env (.named n) k (str "struct " ++ m)
  | unitVariant {n vs i k} : env n = some (.enum vs) → k.id = some i → (i, .unit) ∈ vs → k.val ≠ .unit → k.val ≠ .tuple [] →
      Misfit env (.named n) k (str "unit enum variant")
  | newtypeVariant {n vs i t k} : env n = some (.enum vs) → k.id = some i → (i, .newtype t) ∈ vs → (∀ l, k.val ≠ .tuple l) →
      Misfit env (.named n) k (str "newtype enum variant")
  | tupleVariant {n vs i ts k} : env n = some (.enum vs) → k.id = some i → (i, .tuple ts) ∈ vs → (∀ l, k.val ≠ .tuple l) →
      Misfit env (.named n) k (str "tuple enum variant")
  | structVariant {n vs i fs k} : env n = some (.enum vs) → k.id = some i → (i, .struct fs) ∈ vs → (∀ l, k.val ≠ .cntr l) →
      Misfit env (.named n) k (str "struct enum variant")

/-- `n` elements. -/
def countText (n : Nat) : Str := natDigits n ++ (if n = 1 then str " element" else str " elements")

/-- `k` has `n` elements, which is the wrong number for `t`; `w` tells the right one. -/
inductive WrongLength (env : TyEnv) : Ty → Kserd → Nat → Str → Prop
  | tuple {ts k l} : Elems k l → l.length < ts.length →
      WrongLength env (.tuple ts) k l.length (str "a tuple of size " ++ natDigits ts.length)
  | newtype {n m t k} : env n = some (.newtype m t) → Elems k [] →
      WrongLength env (.named n) k 0 (str "tuple struct " ++ m ++ str " with " ++ countText 1)
  | tupleStruct {n m ts k l} : env n = some (.tupleStruct m ts) → Elems k l → l.length < ts.length →
      WrongLength env (.named n) k l.length (str "tuple struct " ++ m ++ str " with " ++ countText ts.length)
  | struct {n m fs k l} : env n = some (.struct m fs) → Elems k l → l.length < fs.length →
      WrongLength env (.named n) k l.length (str "struct " ++ m ++ str " with " ++ countText fs.length)
  | newtypeVariant {n vs i t k l} : env n = some (.enum vs) → k.id = some i → (i, .newtype t) ∈ vs → k.val = .tuple l →
      l.length ≠ 1 → WrongLength env (.named n) k l.length (str "a tuple with a single element was expected")
  | tupleVariant {n vs i ts k l} : env n = some (.enum vs) → k.id = some i → (i, .tuple ts) ∈ vs → k.val = .tuple l →
      l.length ≠ ts.length →
      WrongLength env (.named n) k l.length (str "a tuple with " ++ natDigits ts.length ++ str " element(s) was expected")

/-- Range of the 128 bit type of the same signedness. -/
def InWide (signed : Bool) (j : Int) : Prop := if signed then - 2 ^ 127 ≤ j ∧ j < 2 ^ 127 else 0 ≤ j ∧ j < 2 ^ 128

/-- `j` is less than one away from the number, or the end of the range beyond which the number lies. -/
def About (signed : Bool) (a : Number) (j : Int) : Prop :=
  ∃ x r : Int, place a = .fin x ∧ (x - r * one).natAbs < one ∧
    (j = r ∨ (r < j ∧ j = if signed then - 2 ^ 127 else 0) ∨ (j < r ∧ j = if signed then 2 ^ 127 - 1 else 2 ^ 128 - 1))

/-- The types whose values cannot be read from a name, with the text. -/
inductive NoKey (env : TyEnv) : Ty → Str → Prop
  | unit : NoKey env .unit (str "unit")
  | bool : NoKey env .bool (str "a boolean")
  | int {t} : NoKey env (.int t) (intName t)
  | f32 : NoKey env .f32 (str "f32")
  | f64 : NoKey env .f64 (str "f64")
  | option {t} : NoKey env (.option t) (str "option")
  | seq {t} : NoKey env (.seq t) (str "a sequence")
  | tuple {ts} : NoKey env (.tuple ts) (str "a tuple of size " ++ natDigits ts.length)
  | map {kt vt} : NoKey env (.map kt vt) (str "a map")
  | unitStruct {n m} : env n = some (.unitStruct m) → NoKey env (.named n) (str "unit struct " ++ m)
  | newtype {n m t} : env n = some (.newtype m t) → NoKey env (.named n) (str "tuple struct " ++ m)
  | tupleStruct {n m ts} : env n = some (.tupleStruct m ts) → NoKey env (.named n) (str "tuple struct " ++ m)
  | struct {n m fs} : env n = some (.struct m fs) → NoKey env (.named n) (str "struct " ++ m)

/-- The error is true of the subject. -/
inductive Says (env : TyEnv) : DErr → Subject → Prop
  | type {u w t k} : Describes u k → Misfit env t k w → Says env (.type u w) (.value t k)
  | bytes {k b} : k.val = .barr b → (∀ s, utf8 s ≠ b) → Says env (.value .bytes (str "a string")) (.value .string k)
  | length {n w t k} : WrongLength env t k n w → Says env (.length n w) (.value t k)
  | outside {t k a} : k.val = .num a → (∀ j : Int, InWide t.signed j → place a ≠ .fin (j * one)) →
      Says env .outside (.value (.int t) k)
  | tryFrom {t k a j} : k.val = .num a → About t.signed a j → ¬ (t.lo ≤ j ∧ j ≤ t.hi) → Says env .tryFrom (.value (.int t) k)
  | missing {n k fs f t before after} : FieldsOf env n k fs → fs = before ++ (f, t) :: after → (∀ u, t ≠ .option u) →
      f ∉ namesIn fs k.val → (∀ p ∈ before, (∃ u, p.2 = .option u) ∨ p.1 ∈ namesIn fs k.val) →
      Says env (.missing f) (.value (.named n) k)
  | duplicate {n k fs f t} : FieldsOf env n k fs → (f, t) ∈ fs → 2 ≤ (namesIn fs k.val).count f →
      Says env (.duplicate f) (.value (.named n) k)
  | unknownVariant {n vs i k} : env n = some (.enum vs) → k.id = some i → i ∉ vs.map Prod.fst →
      Says env (.unknownVariant i (vs.map Prod.fst)) (.value (.named n) k)
  | noIdentity {n vs k} : env n = some (.enum vs) → k.id = none → Says env .noIdentity (.value (.named n) k)
  | noType {n k} : env n = none → Says env .noType (.value (.named n) k)
  | key {t w s} : NoKey env t w → Says env (.type (.str s) w) (.key t s)
  | keyChar {s} : s.length ≠ 1 → Says env (.value (.str s) (str "a character")) (.key .char s)
  | keyUnknown {n vs s} : env n = some (.enum vs) → s ∉ vs.map Prod.fst →
      Says env (.unknownVariant s (vs.map Prod.fst)) (.key (.named n) s)
  | keyNewtype {n vs s t} : env n = some (.enum vs) → (s, .newtype t) ∈ vs →
      Says env (.type .unitVariant (str "newtype variant")) (.key (.named n) s)
  | keyTuple {n vs s ts} : env n = some (.enum vs) → (s, .tuple ts) ∈ vs →
      Says env (.type .unitVariant (str "tuple variant")) (.key (.named n) s)
  | keyStruct {n vs s fs} : env n = some (.enum vs) → (s, .struct fs) ∈ vs →
      Says env (.type .unitVariant (str "struct variant")) (.key (.named n) s)
  | keyNoType {n s} : env n = none → Says env .noType (.key (.named n) s)
  | field {u k} : Describes u k → (∀ s, k.val ≠ .str s) → (∀ b, k.val ≠ .barr b) → (∀ n, n < 2 ^ 64 → k.val ≠ .num (.uint n)) → Says env (.type u (str "field identifier")) (.field k)

end KS.Spec.De
