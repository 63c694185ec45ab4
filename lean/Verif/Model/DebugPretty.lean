import Verif.Model.Debug
import Verif.Model.NavIter
/-!
# `Debug` text in the pretty form, `{:#?}`

The `Debug` implementations are those of `Verif.Model.Debug` and `Verif.Model.NavIter`; here the builders of std (`debug_struct`, `debug_tuple`,
`debug_list`, `debug_map`) put every part on a line of its own, closed by a comma and indented through `PadAdapter`. What is written with
`write!(f, "…{:?}…", …)` inside them (identities of Kserds, numbers, strings, byte arrays) stays in the plain form.
-/

namespace KS.Dbg.Pretty

/-- `PadAdapter::write_str` of std: four blanks in front of every line; `b` tells whether a line begins. -/
def padFrom : Bool → Str → Str
  | _, [] => []
  | b, c :: r => (if b then str "    " else []) ++ c :: padFrom (c == '\n') r

/-- A part of a builder: written through a fresh `PadAdapter`, then a comma and a line break. -/
def part (t : Str) : Str := padFrom true (t ++ str ",\n")

/-- A part with a name or key. -/
def named (n t : Str) : Str := part (n ++ str ": " ++ t)

mutual
/-- `Debug for Kserd`, `/repo/src/ds/kserd.rs` 362-380, in the pretty form. -/
def kserd (plain : Char → Bool) : Kserd → Str
  | .mk id v => str "Kserd {\n" ++ named (str "id") (ident plain id) ++ named (str "val") (value plain v) ++ str "}"
termination_by structural k => k
/-- `Debug for Value`, `/repo/src/ds/val.rs` 766-795, in the pretty form. -/
def value (plain : Char → Bool) : Value → Str
  | .unit => Dbg.value plain .unit
  | .bool b => Dbg.value plain (.bool b)
  | .num n => Dbg.value plain (.num n)
  | .str s => Dbg.value plain (.str s)
  | .barr b => Dbg.value plain (.barr b)
  | .tuple [] => KS.str "Tuple"
  | .tuple (k :: l) => KS.str "Tuple(\n" ++ part (kserd plain k) ++ kserds plain l ++ KS.str ")"
  | .cntr [] => KS.str "Cntr"
  | .cntr ((n, k) :: f) => KS.str "Cntr {\n" ++ named n (kserd plain k) ++ fields plain f ++ KS.str "}"
  | .seq [] => KS.str "[]"
  | .seq (k :: l) => KS.str "[\n" ++ part (kserd plain k) ++ kserds plain l ++ KS.str "]"
  | .map [] => KS.str "{}"
  | .map ((k, v) :: m) => KS.str "{\n" ++ named (kserd plain k) (kserd plain v) ++ entries plain m ++ KS.str "}"
termination_by structural v => v
/-- Further elements. -/
def kserds (plain : Char → Bool) : List Kserd → Str
  | [] => []
  | k :: l => part (kserd plain k) ++ kserds plain l
termination_by structural l => l
/-- Further fields. -/
def fields (plain : Char → Bool) : List (Str × Kserd) → Str
  | [] => []
  | (n, k) :: f => named n (kserd plain k) ++ fields plain f
termination_by structural l => l
/-- Further entries. -/
def entries (plain : Char → Bool) : List (Kserd × Kserd) → Str
  | [] => []
  | (k, v) :: m => named (kserd plain k) (kserd plain v) ++ entries plain m
termination_by structural l => l
end

/-- `Debug for Option` (derived in std), in the pretty form, given the text of what is inside. -/
def opt : Option Str → Str
  | none => str "None"
  | some t => str "Some(\n" ++ part t ++ str ")"

/-- The value of a primitive, `/repo/src/nav/node.rs` 303-304. -/
def nodeValue (plain : Char → Bool) (v : Value) : Str :=
  match v.kind with
  | .prim => named (KS.str "value") (value plain v)
  | _ => []

/-- `Debug for Node`, `/repo/src/nav/node.rs` 295-318, in the pretty form. -/
def node (plain : Char → Bool) (nav : Navigator) (n : NavNode) : Str :=
  str "Node {\n" ++ named (str "id") (opt (n.kserd.id.map (quote plain))) ++ named (str "value-type") (quote plain (Nav.kindName n.kserd.val.kind)) ++
    nodeValue plain n.kserd.val ++ named (str "index") (natDigits n.idx) ++ named (str "parent") (opt ((Nav.parent nav n).map fun p => natDigits p.idx)) ++
    named (str "is_key") (if Nav.isKey n then str "true" else str "false") ++ named (str "idx_in_parent") (natDigits (Nav.idxInParent n)) ++ str "}"

end KS.Dbg.Pretty
