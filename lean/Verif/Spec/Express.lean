import Verif.Spec.Grammar
/-!
# What can be written

Which Kserds are the value of some text.
-/

namespace KS.Spec.Ex

/-- Numbers that can be written. A positive integer is read as an unsigned one, and a NaN has the one payload that reading gives. -/
def Num (n : Number) : Prop := n.WF ∧
  match n with
  | .int i => i ≤ 0
  | .float (.nan _ p) => p = 2 ^ 51
  | _ => True

/-- A character that can delimit any string it does not occur in. -/
def Delim (d : Char) : Prop := ¬ NameChar d ∧ d ∉ str " \t\r\n([{="

/-- Characters that are not in front of the `=` of a field. -/
def Stop (c : Char) : Prop := c ∈ str "<>(){}'\"\r\n"

/-- A string that can be written where the fields of a container might begin, at the beginning of a text and of a tuple. Either no `=` comes
before the first stop; or one of the stops `<>)}'"` is free, which can be the delimiter; or a line break is free, and the string does not begin,
perhaps after white space, with an opening bracket. -/
def Leading (s : Str) : Prop :=
  (¬ ∃ a b, s = a ++ '=' :: b ∧ ∀ c ∈ a, ¬ Stop c) ∨ (∃ d ∈ str "<>)}'\"", d ∉ s) ∨
  (('\r' ∉ s ∨ '\n' ∉ s) ∧ ¬ ∃ w c z, s = w ++ c :: z ∧ White w ∧ (c = '(' ∨ c = '[' ∨ c = '{'))

/-- A string without identity has to be `Leading`. -/
def Lead (k : Kserd) : Prop := k.id = none → ∀ s, k.val = .str s → Leading s

/-- What a Kserd must satisfy by itself so that it can be written, wherever it stands. Identities are names; those of tuples, sequences, containers and
maps do not begin with `true` or `false`. The number can be written, and a positive NaN has an identity. Some character can delimit the
string. The first element of a tuple does not look like a field. Containers are not empty, their names consist of name characters, and they are
in ascending order. Maps are in ascending order, and the numbers in their keys are lawful (C10). -/
def Node (k : Kserd) : Prop :=
  (∀ i, k.id = some i → ValidName i) ∧
  match k.val with
  | .unit | .bool _ | .barr _ => True
  | .num n => Num n ∧ (k.id = none → ∀ p, n ≠ .float (.nan false p))
  | .str s => ∃ d, Delim d ∧ d ∉ s
  | .tuple l => (∀ i, k.id = some i → NotBool i) ∧ ∀ x r, l = x :: r → Lead x
  | .seq _ => (∀ i, k.id = some i → NotBool i)
  | .cntr f => (∀ i, k.id = some i → NotBool i) ∧ f ≠ [] ∧ (∀ p ∈ f, ∀ c ∈ p.1, NameChar c) ∧ Ascending cmpStr f
  | .map m => (∀ i, k.id = some i → NotBool i) ∧ Ascending Kserd.cmp m ∧ ∀ p ∈ m, AllNums lawful p.1

/-- What every Kserd that is read satisfies by itself, wherever it stands. The number can be written, some character is free in the string, the first
element of a tuple does not look like a field, and there are no empty containers in tuples and in keys. -/
def Read (k : Kserd) : Prop :=
  match k.val with
  | .num n => Num n
  | .str s => ∃ d, d ∉ s
  | .tuple l => (∀ x r, l = x :: r → Lead x) ∧ ∀ x ∈ l, NoEmptyCntr x
  | .map m => ∀ p ∈ m, NoEmptyCntr p.1
  | _ => True

/-- What is taken for granted of a Kserd by itself when exactly the Kserds with a text are told: a positive NaN has an identity (its name is taken for an
identity if a bracket comes next), strings are shorter than 2²⁰ characters, and maps are in ascending order with lawful numbers in their keys (C10). -/
def Granted (k : Kserd) : Prop :=
  match k.val with
  | .num n => k.id = none → ∀ p, n ≠ .float (.nan false p)
  | .str s => s.length < 2 ^ 20
  | .map m => Ascending Kserd.cmp m ∧ ∀ p ∈ m, AllNums lawful p.1
  | _ => True

/-- What a Kserd between delimiters must satisfy by itself: identities are names; those of tuples, sequences, containers and maps do not begin with
`true` or `false`. The number can be written. The first element of a tuple does not look like a field. Containers are not empty, their names consist of
name characters, and they are in ascending order. -/
def Spellable (k : Kserd) : Prop :=
  (∀ i, k.id = some i → ValidName i) ∧
  match k.val with
  | .num n => Num n
  | .tuple l => (∀ i, k.id = some i → NotBool i) ∧ ∀ x r, l = x :: r → Lead x
  | .seq _ | .map _ => ∀ i, k.id = some i → NotBool i
  | .cntr f => (∀ i, k.id = some i → NotBool i) ∧ f ≠ [] ∧ (∀ p ∈ f, ∀ c ∈ p.1, NameChar c) ∧ Ascending cmpStr f
  | _ => True

/-- Units, booleans, numbers, strings and bytes. -/
def PrimV : Value → Prop
  | .unit | .bool _ | .num _ | .str _ | .barr _ => True
  | _ => False

/-- The keys of maps are units, booleans, numbers, strings or bytes. In lines, keys have to be written on one line; which tuples can be is not told. -/
def PrimKeys (k : Kserd) : Prop :=
  ∀ m, k.val = .map m → ∀ p ∈ m, PrimV p.1.val

mutual
/-- A container that can be written in lines, if another line follows. The identity is a name; the field names consist of name characters and are in
ascending order. -/
inductive InLines : Kserd → Prop
  | mk {id : Option Str} {f : Fields} : (∀ i, id = some i → ValidName i) → (∀ p ∈ f, ∀ c ∈ p.1, NameChar c) →
      Ascending cmpStr f → (∀ p ∈ f, AsField p.2) → InLines (.mk id (.cntr f))
/-- The value of a field of such a container. Between delimiters, where the identity can be given in the heading `[name:id]`; in lines below a
heading; element by element below headings `[[name:id]]`, each of which is spellable and does not look like a field, or else a container in lines; or
entry by entry, with the value between delimiters or else in lines. -/
inductive AsField : Kserd → Prop
  | value {id : Option Str} {v : Value} : (∀ i, id = some i → ValidName i) → All Spellable (.mk none v) → AsField (.mk id v)
  | lines {k : Kserd} : InLines k → AsField k
  | elems {id : Option Str} {l : List Kserd} : (∀ i, id = some i → ValidName i) → l ≠ [] → (∀ x ∈ l, ¬ (All Spellable x ∧ Lead x) → InLines x) →
      AsField (.mk id (.seq l))
  | entries {id : Option Str} {m : KMap} : (∀ i, id = some i → ValidName i) → m ≠ [] →
      (∀ p ∈ m, All Spellable p.1) → (∀ p ∈ m, ¬ All Spellable p.2 → InLines p.2) → AsField (.mk id (.map m))
end

/-- Containers that have no text of their own but only when another line follows: those without identity that have nothing but such containers in
their fields. The empty container is one of them. -/
inductive Hollow : Kserd → Prop
  | mk {f : Fields} : (∀ p ∈ f, Hollow p.2) → Hollow (.mk none (.cntr f))

end KS.Spec.Ex
