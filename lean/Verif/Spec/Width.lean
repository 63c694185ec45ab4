import Verif.Spec.Fmt
/-!
# How long a text on one line is
-/

namespace KS.Spec

/-- Whether the configuration shows identities on this kind of value. The identity of a unit is always shown. -/
def idShown (c : FormattingConfig) : Value → Bool
  | .unit => true
  | .bool _ | .num _ | .str _ | .barr _ => c.idOnPrimitives
  | .tuple _ => c.idOnTuples
  | .cntr _ => c.idOnContainers
  | .seq _ => c.idOnSeqs
  | .map _ => c.idOnMaps

/-- The characters an identity takes with so many around it, if it is shown. -/
def idChars (on : Bool) (id : Option Str) (around : Nat) : Nat :=
  match id with
  | some i => if on then i.length + around else 0
  | none => 0

/-- The characters around a shown identity are `<` and `> ` with primitives, a blank with containers, sequences and maps, none with tuples and units. -/
def idWidth (c : FormattingConfig) (x : Kserd) (around : Nat) : Nat := idChars (idShown c x.val) x.id around

/-- `, ` between so many elements. -/
def commas (n : Nat) : Nat := 2 * (n - 1)

/-- The characters a Kserd has in a text on one line, not counting those of its elements, keys and values. -/
def ownWidth (c : FormattingConfig) (x : Kserd) : Nat :=
  match x.val with
  | .unit => idWidth c x 0 + 2
  | .bool b => idWidth c x 3 + (if b then 4 else 5)
  | .num n => idWidth c x 3 + n.disp.length
  | .str s => idWidth c x 3 + s.length + (if '"' ∈ s then 5 else 2)
  | .barr b => idWidth c x 3 + (Base91.encode b).length + 5
  | .tuple l => idWidth c x 0 + commas l.length + 2
  | .seq l => idWidth c x 1 + commas l.length + 2
  | .cntr f => idWidth c x 1 + commas f.length + 2 + (f.map fun p => p.1.length + 3).sum
  | .map m => idWidth c x 1 + commas m.length + 2 * m.length + (if m = [] then 2 else 4)

/-- The characters of a Kserd on one line. -/
def oneLineWidth (c : FormattingConfig) (k : Kserd) : Nat := ((preorder k).map (ownWidth c)).sum

/-- No tuple with an identity has it hidden. -/
def TupleIds (c : FormattingConfig) (k : Kserd) : Prop := ∀ x ∈ preorder k, ∀ l, x.val = .tuple l → x.id = none ∨ c.idOnTuples = true

/-- The character is printable ASCII other than quotes and the backslash. -/
def Simple (d : Char) : Prop := 32 ≤ d.toNat ∧ d.toNat ≤ 126 ∧ d ≠ '"' ∧ d ≠ '\'' ∧ d ≠ '\\'
instance (d : Char) : Decidable (Simple d) := by unfold Simple; infer_instance

/-- A Kserd whose own characters are counted right by the estimate: no unit or tuple with an identity, no byte array, no map with entries, strings of
simple characters only, no identity that is empty, and identities with primitives if they are to be shown. -/
def PlainPart (c : FormattingConfig) (x : Kserd) : Prop :=
  x.id ≠ some [] ∧
  match x.val with
  | .unit => x.id = none
  | .bool _ | .num _ => c.idOnPrimitives = true → x.id ≠ none
  | .str s => (c.idOnPrimitives = true → x.id ≠ none) ∧ ∀ d ∈ s, Simple d
  | .barr _ => False
  | .tuple _ => x.id = none
  | .seq _ => True
  | .cntr _ => True
  | .map m => m = []

/-! What the formatter's estimate gets wrong, Kserd by Kserd. -/

/-- The number of hexadecimal digits of a character's code. -/
def hexWidth (n : Nat) : Nat :=
  if n < 0x10 then 1 else if n < 0x100 then 2 else if n < 0x1000 then 3 else if n < 0x10000 then 4 else if n < 0x100000 then 5 else 6

/-- The characters a character of a string is counted too wide: strings are written as they are, but are reckoned as if quotes, backslashes and line ends
were escaped by a backslash and other characters than printable ASCII were written as `\u{..}`. -/
def escSurplus (d : Char) : Nat :=
  if Simple d then 0 else if d ∈ ['\t', '\r', '\n', '\'', '"', '\\'] then 1 else 3 + hexWidth d.toNat

/-- Three characters are reckoned for an identity of a primitive that has none, if identities of primitives are shown. -/
def noIdSurplus (c : FormattingConfig) (x : Kserd) : Nat := if c.idOnPrimitives = true ∧ x.id = none then 3 else 0

/-- The blank after an empty identity is not reckoned. -/
def blankMissed (c : FormattingConfig) (x : Kserd) : Nat := if idShown c x.val = true ∧ x.id = some [] then 1 else 0

/-- The characters of a Kserd's own that the estimate leaves out: `()` after the identity of a unit, `str` before a string with `"` in it, and the
blanks in the braces of a map. Byte arrays are reckoned quite differently, see `surplus1`. -/
def missed1 (c : FormattingConfig) (x : Kserd) : Nat :=
  match x.val with
  | .unit => if x.id = none ∨ x.id = some [] then 0 else 2
  | .bool _ | .num _ | .tuple _ => 0
  | .str s => if '"' ∈ s then 3 else 0
  | .barr b => (Base91.encode b).length + 2
  | .seq _ | .cntr _ => blankMissed c x
  | .map m => blankMissed c x + (if m = [] then 0 else 2)

/-- The characters the estimate has but the text has not: escapes in strings, `<> ` for primitives without identity, and a blank after the identity of a
tuple. Byte arrays are reckoned as two characters for each byte, with `, ` in between. -/
def surplus1 (c : FormattingConfig) (x : Kserd) : Nat :=
  match x.val with
  | .unit | .seq _ | .cntr _ | .map _ => 0
  | .bool _ | .num _ => noIdSurplus c x
  | .str s => noIdSurplus c x + (s.map escSurplus).sum
  | .barr b => noIdSurplus c x + 2 * b.length + commas b.length
  | .tuple _ => if c.idOnTuples = true ∧ x.id ≠ none ∧ x.id ≠ some [] then 1 else 0

/-- The characters of a Kserd left out of the estimate, with everything in it. -/
def missed (c : FormattingConfig) (k : Kserd) : Nat := ((preorder k).map (missed1 c)).sum

/-- The characters the estimate has too many, with everything in the Kserd. -/
def surplus (c : FormattingConfig) (k : Kserd) : Nat := ((preorder k).map (surplus1 c)).sum

/-- The width the formatter reckons for a Kserd's own characters on one line. -/
def estWidth (c : FormattingConfig) (x : Kserd) : Nat := ownWidth c x + surplus1 c x - missed1 c x

/-- The width the formatter reckons for the first line of a Kserd on several lines: the identity with a blank, and the opening delimiter; the blank is
there even without an identity. Primitives are reckoned as on one line. -/
def headWidth (c : FormattingConfig) (x : Kserd) : Nat :=
  match x.val with
  | .tuple _ | .cntr _ | .seq _ | .map _ => 1 + (if idShown c x.val then (x.id.getD []).length + 1 else 0)
  | _ => estWidth c x

end KS.Spec
