import Verif.Spec.VerboseText
import Verif.Model.Base91
/-!
# Specification of the text format: a grammar

Syntax trees with all their white space, the text of a tree, and the Kserd it stands for. Written after the README and the documentation of
`/repo/src/parse/mod.rs`; of the model only the reading of numbers (`Number.fromStr`, see C07 and C08) and of base 91 (C30) is used.
-/

namespace KS.Spec

/-! ## White space -/

/-- Blanks and tabs. -/
def Blanks (w : Str) : Prop := ∀ c ∈ w, c = ' ' ∨ c = '\t'

/-- White space, line breaks included. -/
def White (w : Str) : Prop := ∀ c ∈ w, c = ' ' ∨ c = '\t' ∨ c = '\r' ∨ c = '\n'

/-- The end of a line. -/
def LineEnd (e : Str) : Prop := e = ['\n'] ∨ e = ['\r', '\n']

/-! ## Literals -/

/-- The primitive values as they are written. -/
inductive Literal where
  /-- `()`, perhaps with blanks inside. -/
  | unit (w : Str)
  | bool (b : Bool)
  /-- The digits `t` of the number `n`. -/
  | num (t : Str) (n : Number)
  /-- `"s"` -/
  | quoted (s : Str)
  /-- `str`, a character, the text and the same character again. -/
  | delimited (d : Char) (s : Str)
  /-- `b91'..'` -/
  | bytes (t : Str)

def Literal.text : Literal → Str
  | .unit w => '(' :: (w ++ [')'])
  | .bool true => str "true"
  | .bool false => str "false"
  | .num t _ => t
  | .quoted s => '"' :: (s ++ ['"'])
  | .delimited d s => str "str" ++ d :: (s ++ [d])
  | .bytes t => str "b91'" ++ (t ++ ['\''])

/-- Characters of numbers. -/
def NumChar (c : Char) : Prop := DigitC c ∨ c ∈ str "-.einfNa"

/-- Literals as they may be written: delimiters do not occur inside; the digits are those of the number (C07, C08). -/
def Literal.Ok : Literal → Prop
  | .unit w => Blanks w
  | .bool _ => True
  | .num t n => (∀ c ∈ t, NumChar c) ∧ Number.fromStr t = some n
  | .quoted s => '"' ∉ s
  | .delimited d s => d ∉ s
  | .bytes t => '\'' ∉ t

/-- A word is not continued by what follows. -/
def NotContinued (P : Char → Prop) (rest : Str) : Prop := ∀ c r, rest = c :: r → ¬ P c

def Literal.isBool : Literal → Bool
  | .bool _ => true
  | _ => false

/-- A number is not continued by what follows. -/
def Literal.Complete (rest : Str) : Literal → Prop
  | .num _ _ => NotContinued NumChar rest
  | _ => True

/-- The value; byte arrays are base 91 (C30). -/
def Literal.value : Literal → Value
  | .unit _ => .unit
  | .bool b => .bool b
  | .num _ n => .num n
  | .quoted s => .str s
  | .delimited _ s => .str s
  | .bytes t => .barr (Base91.decode t)

/-! ## Delimited values -/

mutual
/-- A value with its delimiters. `w` is the white space before the literal or the opening delimiter. A list on several lines is `concise`: no
commas. `lead` is the white space behind the opening delimiter. -/
inductive Tree where
  | prim (id : Option Str) (w : Str) (l : Literal)
  | tuple (id : Option Str) (w : Str) (concise : Bool) (lead : Str) (b : Elems)
  | seq (id : Option Str) (w : Str) (concise : Bool) (lead : Str) (b : Elems)
  | cntr (id : Option Str) (w : Str) (concise : Bool) (lead : Str) (b : Assigns)
  | map (id : Option Str) (w : Str) (concise : Bool) (lead : Str) (b : Pairs)
/-- Elements, each with the white space before and behind it. -/
inductive Elems where
  | nil
  | cons (pre : Str) (t : Tree) (post : Str) (r : Elems)
/-- Fields `name = value`, with the white space before, inside and behind. -/
inductive Assigns where
  | nil
  | cons (pre name mid gap : Str) (t : Tree) (post : Str) (r : Assigns)
/-- Entries `key: value`, with the white space before, inside and behind. -/
inductive Pairs where
  | nil
  | cons (pre : Str) (key : Tree) (mid gap : Str) (v : Tree) (post : Str) (r : Pairs)
end

/-- An identity in front of a primitive. -/
def angled : Option Str → Str
  | none => []
  | some i => '<' :: (i ++ ['>'])

/-- An identity in front of a tuple, sequence, container or map. -/
def plainId : Option Str → Str
  | none => []
  | some i => i

/-- What stands between elements. -/
def comma (concise last : Bool) : Str := if concise || last then [] else [',']

def Elems.isNil : Elems → Bool
  | .nil => true
  | _ => false
def Assigns.isNil : Assigns → Bool
  | .nil => true
  | _ => false
def Pairs.isNil : Pairs → Bool
  | .nil => true
  | _ => false

mutual
def Tree.text : Tree → Str
  | .prim id w l => angled id ++ (w ++ l.text)
  | .tuple id w c lead b => plainId id ++ (w ++ '(' :: (lead ++ (b.text c ++ [')'])))
  | .seq id w c lead b => plainId id ++ (w ++ '[' :: (lead ++ (b.text c ++ [']'])))
  | .cntr id w c lead b => plainId id ++ (w ++ '(' :: (lead ++ (b.text c ++ [')'])))
  | .map id w c lead b => plainId id ++ (w ++ '{' :: (lead ++ (b.text c ++ ['}'])))
termination_by structural t => t
def Elems.text (c : Bool) : Elems → Str
  | .nil => []
  | .cons pre t post r => pre ++ (t.text ++ (post ++ (comma c r.isNil ++ r.text c)))
termination_by structural t => t
def Assigns.text (c : Bool) : Assigns → Str
  | .nil => []
  | .cons pre name mid gap t post r => pre ++ (name ++ (mid ++ '=' :: (gap ++ (t.text ++ (post ++ (comma c r.isNil ++ r.text c))))))
termination_by structural t => t
def Pairs.text (c : Bool) : Pairs → Str
  | .nil => []
  | .cons pre key mid gap v post r => pre ++ (key.text ++ (mid ++ ':' :: (gap ++ (v.text ++ (post ++ (comma c r.isNil ++ r.text c))))))
termination_by structural t => t
end

/-- White space behind an opening delimiter: a concise list begins with a line break, perhaps after other white space; otherwise there
are no line breaks. -/
def LeadOk (concise : Bool) (w : Str) : Prop := if concise then White w ∧ '\n' ∈ w else Blanks w

/-- White space behind an element: a concise list needs some, also behind its last element; otherwise there are no line breaks. -/
def PostOk (concise : Bool) (w : Str) : Prop := if concise then White w ∧ w ≠ [] else Blanks w

/-- White space before an element: none in a concise list, where it belongs to what comes before. -/
def PreOk (concise : Bool) (w : Str) : Prop := if concise then w = [] else Blanks w

def NameOk (i : Option Str) : Prop := ∀ s, i = some s → ValidName s

/-- The text begins with a name and an opening bracket, perhaps with white space between: it is read as a tuple, container, sequence or map. -/
def BracketAhead (x : Str) : Prop := ∃ n w c z, x = n ++ (w ++ c :: z) ∧ ValidName n ∧ White w ∧ (c = '(' ∨ c = '[' ∨ c = '{')

/-- The text begins, perhaps after white space, with something before `=` that might be a name: it is read as the fields of a container. -/
def AssignAhead (x : Str) : Prop := ∃ w n z, x = w ++ (n ++ '=' :: z) ∧ White w ∧ ∀ c ∈ n, c ∉ str "<>(){}='\"\r\n"

mutual
/-- The tree can be written where `rest` follows: proper white space, names and literals, and nothing that is read in another way. With `inl`, the
list itself is not concise. Elements of lists that are not concise are not concise either; keys may always be. A tuple in parentheses without
identity is not empty, unless it is concise (`()` is the unit); a container is not empty. Blanks before a value without identity belong to
what surrounds it. -/
def Tree.Reads (inl : Bool) (rest : Str) : Tree → Prop
  | .prim id w l =>
    NameOk id ∧ Blanks w ∧ (id = none → w = []) ∧ l.Ok ∧ l.Complete rest ∧ (id = none → l.isBool = false → ¬ BracketAhead (l.text ++ rest))
  | .tuple id w c lead b =>
    NameOk id ∧ Blanks w ∧ (id = none → w = []) ∧ (∀ i, id = some i → NotBool i) ∧ LeadOk c lead ∧ (c = true → inl = false) ∧
    (id = none → b.isNil = true → c = true) ∧ ¬ AssignAhead (lead ++ (b.text c ++ [')'])) ∧ b.Reads c (')' :: rest)
  | .seq id w c lead b =>
    NameOk id ∧ Blanks w ∧ (id = none → w = []) ∧ (∀ i, id = some i → NotBool i) ∧ LeadOk c lead ∧ (c = true → inl = false) ∧ b.Reads c (']' :: rest)
  | .cntr id w c lead b =>
    NameOk id ∧ Blanks w ∧ (id = none → w = []) ∧ (∀ i, id = some i → NotBool i) ∧ LeadOk c lead ∧ (c = true → inl = false) ∧
    b.isNil = false ∧ b.Reads c (')' :: rest)
  | .map id w c lead b =>
    NameOk id ∧ Blanks w ∧ (id = none → w = []) ∧ (∀ i, id = some i → NotBool i) ∧ LeadOk c lead ∧ (c = true → inl = false) ∧ b.Reads c ('}' :: rest)
termination_by structural t => t
/-- Elements, where `close` follows. -/
def Elems.Reads (c : Bool) (close : Str) : Elems → Prop
  | .nil => True
  | .cons pre t post r => PreOk c pre ∧ t.Reads (!c) (post ++ (comma c r.isNil ++ (r.text c ++ close))) ∧ PostOk c post ∧ r.Reads c close
termination_by structural t => t
def Assigns.Reads (c : Bool) (close : Str) : Assigns → Prop
  | .nil => True
  | .cons pre name mid gap t post r =>
    PreOk c pre ∧ (∀ ch ∈ name, NameChar ch) ∧ (name = [] → mid = []) ∧ Blanks mid ∧ Blanks gap ∧
    t.Reads (!c) (post ++ (comma c r.isNil ++ (r.text c ++ close))) ∧ PostOk c post ∧ r.Reads c close
termination_by structural t => t
def Pairs.Reads (c : Bool) (close : Str) : Pairs → Prop
  | .nil => True
  | .cons pre key mid gap v post r =>
    PreOk c pre ∧ key.Reads false (mid ++ ':' :: (gap ++ (v.text ++ (post ++ (comma c r.isNil ++ (r.text c ++ close)))))) ∧ Blanks mid ∧ Blanks gap ∧
    v.Reads (!c) (post ++ (comma c r.isNil ++ (r.text c ++ close))) ∧ PostOk c post ∧ r.Reads c close
termination_by structural t => t
end

/-- The container made of the pairs `l`: ascending; for every name the value given last. -/
def FieldsOf (l : List (Str × Kserd)) (f : Fields) : Prop := Ascending cmpStr f ∧ ∀ p, p ∈ f ↔ LastFor (· = ·) l p

/-- Keys of maps whose order makes sense: their numbers follow the number line, and there is no empty container among them (C10). -/
def GoodKeys (l : List (Kserd × Kserd)) : Prop := ∀ p ∈ l, AllNums lawful p.1 ∧ NoEmptyCntr p.1

/-- The map made of the pairs `l`: there is nothing else in it; it is ascending and has for every key the pair given last, if the order of
the keys makes sense. -/
def EntriesOf (l : List (Kserd × Kserd)) (m : KMap) : Prop :=
  (∀ p ∈ m, p ∈ l) ∧ (GoodKeys l → Ascending Kserd.cmp m ∧ ∀ p, p ∈ m ↔ LastFor (fun a b => Kserd.cmp a b = .eq) l p)

mutual
/-- The Kserd a tree stands for. -/
def Tree.Means : Tree → Kserd → Prop
  | .prim id _ l, k => k = .mk id l.value
  | .tuple id _ _ _ b, k => ∃ l, b.Means l ∧ k = .mk id (.tuple l)
  | .seq id _ _ _ b, k => ∃ l, b.Means l ∧ k = .mk id (.seq l)
  | .cntr id _ _ _ b, k => ∃ l f, b.Means l ∧ FieldsOf l f ∧ k = .mk id (.cntr f)
  | .map id _ _ _ b, k => ∃ l m, b.Means l ∧ EntriesOf l m ∧ k = .mk id (.map m)
termination_by structural t => t
def Elems.Means : Elems → List Kserd → Prop
  | .nil, l => l = []
  | .cons _ t _ r, l => ∃ k l', t.Means k ∧ r.Means l' ∧ l = k :: l'
termination_by structural t => t
def Assigns.Means : Assigns → List (Str × Kserd) → Prop
  | .nil, l => l = []
  | .cons _ name _ _ t _ r, l => ∃ k l', t.Means k ∧ r.Means l' ∧ l = (name, k) :: l'
termination_by structural t => t
def Pairs.Means : Pairs → List (Kserd × Kserd) → Prop
  | .nil, l => l = []
  | .cons _ key _ _ v _ r, l => ∃ k x l', key.Means k ∧ v.Means x ∧ r.Means l' ∧ l = (k, x) :: l'
termination_by structural t => t
end

/-! ## Verbose containers -/

/-- The inside of a heading, with all its blanks: `name` or `name:id`. -/
structure Heading where
  pre : Str
  name : Str
  /-- The blanks before and behind the colon, and the identity. -/
  id : Option (Str × Str × Str)
  post : Str
  /-- Blanks behind the closing bracket. -/
  tail : Str
  eol : Str

def Heading.identity (h : Heading) : Option Str := h.id.map (·.2.2)

/-- The text of a heading between `o` and `c`, with its line end. -/
def Heading.text (o c : Str) (h : Heading) : Str :=
  o ++ (h.pre ++ (h.name ++ ((match h.id with
    | none => []
    | some (a, b, i) => a ++ ':' :: (b ++ i)) ++ (h.post ++ (c ++ (h.tail ++ h.eol))))))

/-- Blanks behind a missing name belong before it. -/
def Heading.Ok (h : Heading) : Prop :=
  Blanks h.pre ∧ (∀ ch ∈ h.name, NameChar ch) ∧ (∀ a b i, h.id = some (a, b, i) → Blanks a ∧ Blanks b ∧ ValidName i ∧ (h.name = [] → a = [])) ∧
  (h.name = [] → h.id = none → h.post = []) ∧ Blanks h.post ∧ Blanks h.tail ∧ LineEnd h.eol

mutual
/-- A nested value: delimited, or the lines of a container. -/
inductive Doc where
  | value (w : Str) (t : Tree)
  | lines (l : Lines)
/-- The lines of a container: blank lines before a line, its indentation, further blanks, what it says. -/
inductive Lines where
  | nil
  | cons (skip ind pre : Str) (x : Line) (r : Lines)
/-- What a line says, with what belongs to it on the lines below. -/
inductive Line where
  /-- `:i` -/
  | id (w i : Str)
  /-- `name = value` -/
  | field (name mid gap : Str) (t : Tree)
  /-- `[name]` or `[name:id]`, then a value: a field. -/
  | sub (h : Heading) (d : Doc)
  /-- `[[name]]` or `[[name:id]]`, then a value: an element of a sequence. -/
  | elem (h : Heading) (d : Doc)
  /-- `[[name]]` or `[[name:id]]`, then `key: value`: an entry of a map. -/
  | entry (h : Heading) (w : Str) (key : Tree) (mid gap : Str) (t : Tree)
  /-- `[[name]]` or `[[name:id]]`, then `key:`, then a value on the lines below: an entry of a map. -/
  | entryBelow (h : Heading) (w : Str) (key : Tree) (mid gap eol : Str) (d : Doc)
end

mutual
def Doc.text : Doc → Str
  | .value w t => w ++ t.text
  | .lines l => l.text
termination_by structural t => t
def Lines.text : Lines → Str
  | .nil => []
  | .cons skip ind pre x r => skip ++ (ind ++ (pre ++ (x.text ++ r.text)))
termination_by structural t => t
def Line.text : Line → Str
  | .id w i => ':' :: (w ++ i)
  | .field name mid gap t => name ++ (mid ++ '=' :: (gap ++ t.text))
  | .sub h d => h.text (str "[") (str "]") ++ d.text
  | .elem h d => h.text (str "[[") (str "]]") ++ d.text
  | .entry h w key mid gap t => h.text (str "[[") (str "]]") ++ (w ++ (key.text ++ (mid ++ ':' :: (gap ++ t.text))))
  | .entryBelow h w key mid gap eol d => h.text (str "[[") (str "]]") ++ (w ++ (key.text ++ (mid ++ ':' :: (gap ++ (eol ++ d.text)))))
termination_by structural t => t
end

/-- Lines with nothing but blanks. -/
inductive BlankLines : Str → Prop
  | nil : BlankLines []
  | cons {w e r : Str} : Blanks w → LineEnd e → BlankLines r → BlankLines (w ++ (e ++ r))

/-- Indentation: four blanks or a tab for every level. -/
inductive Indent : Nat → Str → Prop
  | zero : Indent 0 []
  | blanks {n : Nat} {r : Str} : Indent n r → Indent (n + 1) (str "    " ++ r)
  | tab {n : Nat} {r : Str} : Indent n r → Indent (n + 1) ('\t' :: r)

/-- The value is made of lines. -/
def Doc.isLines : Doc → Bool
  | .lines _ => true
  | .value _ _ => false

/-- The line ends with the lines of a container in it. -/
def Line.open : Line → Bool
  | .sub _ d => d.isLines
  | .elem _ d => d.isLines
  | .entryBelow _ _ _ _ _ _ d => d.isLines
  | _ => false

/-- The next line is not indented by `d` levels. -/
def Lines.NotAt (d : Nat) : Lines → Prop
  | .nil => True
  | .cons _ ind pre _ _ => ¬ ∃ i p, Indent d i ∧ ind ++ pre = i ++ p

/-- The text begins, perhaps after white space, like a line of a container: `:`, `[[`, `[name]` or a field. -/
def LinesAhead (x : Str) : Prop :=
  AssignAhead x ∨ ∃ w y, x = w ++ y ∧ White w ∧
    ((∃ z, y = ':' :: z) ∨ (∃ z, y = '[' :: '[' :: z) ∨ ∃ a n b z, y = '[' :: (a ++ (n ++ (b ++ ']' :: z))) ∧ Blanks a ∧ ValidName n ∧ Blanks b)

/-- The text begins like an entry of a map: with a value and `:`. -/
def KeyAhead (x : Str) : Prop :=
  ∃ w K mid z, x = w ++ (Tree.text K ++ (mid ++ ':' :: z)) ∧ Blanks w ∧ Blanks mid ∧ K.Reads true (mid ++ ':' :: z)

mutual
/-- The document can be written where `rest` follows: proper white space, names and indentation, and nothing that is read in another way. The
lines of a container in a container are one level deeper, and all following lines at least that deep belong to it. -/
def Doc.Reads (d : Nat) (rest : Str) : Doc → Prop
  | .value w t => Blanks w ∧ t.Reads false rest ∧ ¬ LinesAhead (w ++ (t.text ++ rest))
  | .lines l => LinesAhead (l.text ++ rest) ∧ l.Reads d rest
termination_by structural t => t
def Lines.Reads (d : Nat) (rest : Str) : Lines → Prop
  | .nil => True
  | .cons skip ind pre x r =>
    BlankLines skip ∧ Indent d ind ∧ Blanks pre ∧ x.Reads d (r.text ++ rest) ∧ (x.open = true → r.NotAt (d + 1)) ∧ r.Reads d rest
termination_by structural t => t
def Line.Reads (d : Nat) (rest : Str) : Line → Prop
  | .id w i => Blanks w ∧ ValidName i ∧ NotContinued NameChar rest
  | .field name mid gap t => (∀ ch ∈ name, NameChar ch) ∧ (name = [] → mid = []) ∧ Blanks mid ∧ Blanks gap ∧ t.Reads false rest
  | .sub h x => h.Ok ∧ x.Reads (d + 1) rest
  | .elem h x => h.Ok ∧ ¬ KeyAhead (x.text ++ rest) ∧ x.Reads (d + 1) rest
  | .entry h w key mid gap t =>
    h.Ok ∧ Blanks w ∧ key.Reads true (mid ++ ':' :: (gap ++ (t.text ++ rest))) ∧ Blanks mid ∧ Blanks gap ∧ t.Reads false rest
  | .entryBelow h w key mid gap eol x =>
    h.Ok ∧ Blanks w ∧ key.Reads true (mid ++ ':' :: (gap ++ (eol ++ (x.text ++ rest)))) ∧ Blanks mid ∧ Blanks gap ∧ LineEnd eol ∧ x.Reads (d + 1) rest
termination_by structural t => t
end

/-- What may follow a document: white space; behind lines, blank lines and blanks (no stray carriage return). -/
def EndsWith (D : Doc) (w : Str) : Prop := White w ∧ (D.isLines = true → ∃ s b, w = s ++ b ∧ BlankLines s ∧ Blanks b)

/-- The name is used on some line. -/
def Named (n : Str) (l : List Item) : Prop := givenFor n l ≠ [] ∨ elemsOf n l ≠ [] ∨ entriesFor n l ≠ []

/-- `k` is the value of the field `n`, as `ValueOf` (C57); the pairs of a map are only told if the order of the keys makes sense. -/
def ValueFor (l : List Item) (n : Str) (k : Kserd) : Prop :=
  if entriesFor n l ≠ [] then
    ∃ m, k = .mk (lastId ((entriesFor n l).map (·.1))) (.map m) ∧
      (∀ p ∈ m, (∃ e ∈ entriesFor n l, e.2.1 = p.1) ∧ ∃ e ∈ entriesFor n l, e.2.2 = p.2) ∧
      ((∀ e ∈ entriesFor n l, AllNums lawful e.2.1) → MapOf ((entriesFor n l).map (·.2)) m)
  else if elemsOf n l ≠ [] then k = .mk (lastId ((elemsOf n l).map (·.1))) (.seq ((elemsOf n l).map (·.2)))
  else (givenFor n l).getLast? = some k

/-- The container made of the lines: the last identity line counts; a field for every name used, in ascending order. -/
def LinesOf (its : List Item) (k : Kserd) : Prop :=
  ∃ f, k = .mk (ids its).getLast? (.cntr f) ∧ Ascending cmpStr f ∧ (∀ n, (∃ x, (n, x) ∈ f) ↔ Named n its) ∧ ∀ n x, (n, x) ∈ f → ValueFor its n x

mutual
/-- The Kserd a document stands for. -/
def Doc.Means : Doc → Kserd → Prop
  | .value _ t, k => t.Means k
  | .lines l, k => ∃ its, l.Means its ∧ LinesOf its k
termination_by structural t => t
def Lines.Means : Lines → List Item → Prop
  | .nil, its => its = []
  | .cons _ _ _ x r, its => ∃ i its', x.Means i ∧ r.Means its' ∧ its = i :: its'
termination_by structural t => t
/-- The identity in a heading `[name:id]` counts unless the value has its own. -/
def Line.Means : Line → Item → Prop
  | .id _ i, it => it = .id i
  | .field name _ _ t, it => ∃ k, t.Means k ∧ it = .value name k
  | .sub h d, it => ∃ k, d.Means k ∧ it = .value h.name (.mk (k.id.or h.identity) k.val)
  | .elem h d, it => ∃ k, d.Means k ∧ it = .elem h.name h.identity k
  | .entry h _ key _ _ t, it => ∃ a k, key.Means a ∧ t.Means k ∧ it = .entry h.name h.identity a k
  | .entryBelow h _ key _ _ _ d, it => ∃ a k, key.Means a ∧ d.Means k ∧ it = .entry h.name h.identity a k
termination_by structural t => t
end

end KS.Spec
