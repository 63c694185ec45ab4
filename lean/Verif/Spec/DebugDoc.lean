import Verif.Model.DebugStr
import Verif.Model.Nav
/-!
# `Debug` texts as documents

A document is a text, a sequence of documents, or a block of items between brackets. It is written on one line, with the items separated by
commas, or with every item on a line of its own, indented by four blanks for each block around it.
-/

namespace KS.Spec.Lay

inductive Doc where
  | leaf (t : Str)
  | cat (a b : Doc)
  | block (opening : Str) (gap : Bool) (items : List Doc) (closing : Str)

namespace Doc

mutual
/-- On one line; some brackets have blanks inside. -/
def flat : Doc → Str
  | .leaf t => t
  | .cat a b => flat a ++ flat b
  | .block o g items c => o ++ (if g then [' '] else []) ++ flats items ++ (if g then [' '] else []) ++ c
termination_by structural d => d
/-- Separated by commas. -/
def flats : List Doc → Str
  | [] => []
  | [d] => flat d
  | d :: e :: l => flat d ++ str ", " ++ flats (e :: l)
termination_by structural l => l
end

/-- Indentation inside `d` blocks. -/
def blanks (d : Nat) : Str := List.replicate (4 * d) ' '

/-- A text inside `d` blocks: a line break is followed by the indentation. -/
def lines (d : Nat) (t : Str) : Str := t.flatMap (fun c => if c = '\n' then '\n' :: blanks d else [c])

mutual
/-- On many lines, inside `d` blocks. -/
def tall : Nat → Doc → Str
  | d, .leaf t => lines d t
  | d, .cat a b => tall d a ++ tall d b
  | d, .block o _ items c => lines d o ++ talls (d + 1) items ++ '\n' :: blanks d ++ lines d c
termination_by structural _ d => d
/-- Each on a line of its own, with a comma. -/
def talls : Nat → List Doc → Str
  | _, [] => []
  | d, x :: l => '\n' :: blanks d ++ tall d x ++ ',' :: talls d l
termination_by structural _ l => l
end

/-- A named item. -/
def named (n : Str) (d : Doc) : Doc := .cat (.leaf (n ++ str ": ")) d

end Doc

/-- Texts of natural numbers, floats and strings are given. -/
structure Leaves where
  nat : Nat → Str
  float : F64 → Str
  quote : Str → Str

/-- A number. -/
def Leaves.num (lv : Leaves) : Number → Str
  | .uint n => str "Uint(" ++ lv.nat n ++ str ")"
  | .int i => str "Int(" ++ (if i < 0 then ['-'] else []) ++ lv.nat i.natAbs ++ str ")"
  | .float x => str "Float(" ++ lv.float x ++ str ")"

/-- A byte array, always on one line. -/
def Leaves.bytes (lv : Leaves) (b : Bytes) : Str := (Doc.block (str "[") false (b.map fun x => .leaf (lv.nat x.toNat)) (str "]")).flat

mutual
def docK (lv : Leaves) : Kserd → Doc
  | .mk id v => .block (str "Kserd {") true [.named (str "id") (.leaf (match id with
    | none => str "None"
    | some i => str "Some(" ++ lv.quote i ++ str ")")), .named (str "val") (docV lv v)] (str "}")
termination_by structural k => k
def docV (lv : Leaves) : Value → Doc
  | .unit => .leaf (KS.str "Unit")
  | .bool true => .leaf (KS.str "Bool(true)")
  | .bool false => .leaf (KS.str "Bool(false)")
  | .num n => .leaf (KS.str "Num(" ++ lv.num n ++ KS.str ")")
  | .str s => .leaf (KS.str "Str(" ++ lv.quote s ++ KS.str ")")
  | .barr b => .leaf (KS.str "Barr(" ++ lv.bytes b ++ KS.str ")")
  | .tuple [] => .leaf (KS.str "Tuple")
  | .tuple (k :: l) => .block (KS.str "Tuple(") false (docK lv k :: docL lv l) (KS.str ")")
  | .cntr [] => .leaf (KS.str "Cntr")
  | .cntr ((n, k) :: l) => .block (KS.str "Cntr {") true (.named n (docK lv k) :: docF lv l) (KS.str "}")
  | .seq [] => .leaf (KS.str "[]")
  | .seq (k :: l) => .block (KS.str "[") false (docK lv k :: docL lv l) (KS.str "]")
  | .map [] => .leaf (KS.str "{}")
  | .map ((k, v) :: l) => .block (KS.str "{") false (.cat (docK lv k) (.cat (.leaf (KS.str ": ")) (docK lv v)) :: docM lv l) (KS.str "}")
termination_by structural v => v
def docL (lv : Leaves) : List Kserd → List Doc
  | [] => []
  | k :: l => docK lv k :: docL lv l
termination_by structural l => l
def docF (lv : Leaves) : List (Str × Kserd) → List Doc
  | [] => []
  | (n, k) :: l => .named n (docK lv k) :: docF lv l
termination_by structural l => l
def docM (lv : Leaves) : List (Kserd × Kserd) → List Doc
  | [] => []
  | (k, v) :: l => .cat (docK lv k) (.cat (.leaf (str ": ")) (docK lv v)) :: docM lv l
termination_by structural l => l
end

/-- An option. -/
def docO : Option Str → Doc
  | none => .leaf (str "None")
  | some t => .block (str "Some(") false [.leaf t] (str ")")

/-- A node: its Kserd, its number, the number of its parent, whether it is a key, and its place in the parent. -/
def docN (lv : Leaves) (k : Kserd) (idx : Nat) (parent : Option Nat) (key : Bool) (place : Nat) : Doc :=
  .block (str "Node {") true (.named (str "id") (docO (k.id.map lv.quote)) ::
    .named (str "value-type") (.leaf (lv.quote (match k.val with
      | .tuple _ => str "Tuple"
      | .cntr _ => str "Cntr"
      | .seq _ => str "Seq"
      | .map _ => str "Map"
      | _ => str "Primitive"))) ::
    ((match k.val with
      | .tuple _ | .cntr _ | .seq _ | .map _ => []
      | v => [.named (str "value") (docV lv v)]) ++
    [.named (str "index") (.leaf (lv.nat idx)), .named (str "parent") (docO (parent.map lv.nat)),
      .named (str "is_key") (.leaf (if key then str "true" else str "false")), .named (str "idx_in_parent") (.leaf (lv.nat place))])) (str "}")

end KS.Spec.Lay
