import Verif.Model.DecodeErr
/-!
# `Debug` of Kserds

Here the plain form `{:?}`; the pretty form `{:#?}` is in `DebugPretty`. The builders `debug_struct`, `debug_tuple`, `debug_list` and `debug_map`,
and `Debug` of strings, integers, floats and slices are those of std.
-/

namespace KS.Dbg

/-- Decimal text with exponent of `n / 10 ^ w`: one digit before the point, no zeros at the end (std, `{:e}`). -/
def expText (n w : Nat) : Str :=
  let ds := natDigits n
  let sig := (ds.reverse.dropWhile (· = '0')).reverse
  let e : Int := (ds.length : Int) - 1 - w
  (match sig with
    | [] => str "0"
    | [c] => [c]
    | c :: r => c :: '.' :: r) ++ 'e' :: intText e

/-- The magnitude of `1e-4`. -/
def small : Nat := match F64.ofRat false 1 10000 with
  | .fin _ m => m
  | _ => 0

/-- `Debug for f64` (std): as `Display`, but with at least one digit after the point, and with exponent from `1e16` and below `1e-4`. -/
def float : F64 → Str
  | .nan _ _ => str "NaN"
  | .inf false => str "inf"
  | .inf true => str "-inf"
  | .fin s m => (if s then ['-'] else []) ++
    if m ≠ 0 ∧ (m < small ∨ 10 ^ 16 * F64.scale ≤ m) then expText (F64.shortest m) 1074
    else
      let t := F64.decText (F64.shortest m) 1074
      if t.contains '.' then t else t ++ str ".0"

/-- `Debug for Number`, derived, `/repo/src/ds/num.rs` 97-103. -/
def number : Number → Str
  | .uint n => str "Uint(" ++ natDigits n ++ str ")"
  | .int i => str "Int(" ++ intText i ++ str ")"
  | .float x => str "Float(" ++ float x ++ str ")"

/-- `Debug` of slices and lists (std): `[a, b]`. -/
def listed (l : List Str) : Str := str "[" ++ (str ", ").intercalate l ++ str "]"

/-- `Debug for Barr`, `/repo/src/ds/barr.rs` 102-106. -/
def bytes (b : Bytes) : Str := listed (b.map fun x => natDigits x.toNat)

/-- `Debug` of the identity, `/repo/src/ds/kserd.rs` 364-374. -/
def ident (plain : Char → Bool) : Option Str → Str
  | none => str "None"
  | some i => str "Some(" ++ quote plain i ++ str ")"

mutual
/-- `Debug for Kserd`, `/repo/src/ds/kserd.rs` 362-380. -/
def kserd (plain : Char → Bool) : Kserd → Str
  | .mk id v => str "Kserd { id: " ++ ident plain id ++ str ", val: " ++ value plain v ++ str " }"
termination_by structural k => k
/-- `Debug for Value`, `/repo/src/ds/val.rs` 766-795. -/
def value (plain : Char → Bool) : Value → Str
  | .unit => KS.str "Unit"
  | .bool b => KS.str "Bool(" ++ (if b then KS.str "true" else KS.str "false") ++ KS.str ")"
  | .num n => KS.str "Num(" ++ number n ++ KS.str ")"
  | .str s => KS.str "Str(" ++ quote plain s ++ KS.str ")"
  | .barr b => KS.str "Barr(" ++ bytes b ++ KS.str ")"
  | .tuple [] => KS.str "Tuple"
  | .tuple (k :: l) => KS.str "Tuple(" ++ kserd plain k ++ kserds plain l ++ KS.str ")"
  | .cntr [] => KS.str "Cntr"
  | .cntr ((n, k) :: f) => KS.str "Cntr { " ++ n ++ KS.str ": " ++ kserd plain k ++ fields plain f ++ KS.str " }"
  | .seq [] => KS.str "[]"
  | .seq (k :: l) => KS.str "[" ++ kserd plain k ++ kserds plain l ++ KS.str "]"
  | .map [] => KS.str "{}"
  | .map ((k, v) :: m) => KS.str "{" ++ kserd plain k ++ KS.str ": " ++ kserd plain v ++ entries plain m ++ KS.str "}"
termination_by structural v => v
/-- Further elements. -/
def kserds (plain : Char → Bool) : List Kserd → Str
  | [] => []
  | k :: l => str ", " ++ kserd plain k ++ kserds plain l
termination_by structural l => l
/-- Further fields. -/
def fields (plain : Char → Bool) : List (Str × Kserd) → Str
  | [] => []
  | (n, k) :: f => str ", " ++ n ++ str ": " ++ kserd plain k ++ fields plain f
termination_by structural l => l
/-- Further entries. -/
def entries (plain : Char → Bool) : List (Kserd × Kserd) → Str
  | [] => []
  | (k, v) :: m => str ", " ++ kserd plain k ++ str ": " ++ kserd plain v ++ entries plain m
termination_by structural l => l
end

end KS.Dbg
