import Verif.Spec.RoundTrip
import Verif.Spec.Fmt
/-!
# Specification of verbose text as one would write it by hand

Lines of a container in any order, with any repetition, nested to any depth; their text; and the container they stand for.
-/

namespace KS.Spec

/-- A line of a container, with what belongs to it on the lines below. -/
inductive VLine where
  /-- `:i` -/
  | id (i : Str)
  /-- `n = k` -/
  | field (n : Str) (k : Kserd)
  /-- `[n:i]`, followed by the lines of a container, one level deeper. -/
  | sub (n : Str) (i : Option Str) (ls : List VLine)
  /-- `[[n:i]]`, followed by a value on the next line: an element of a sequence. -/
  | elem (n : Str) (i : Option Str) (k : Kserd)
  /-- `[[n:i]]`, followed by the lines of a container, one level deeper: an element of a sequence. -/
  | elemLines (n : Str) (i : Option Str) (ls : List VLine)
  /-- `[[n:i]]`, followed by `key: k` on the next line: an entry of a map. -/
  | entry (n : Str) (i : Option Str) (key k : Kserd)
  /-- `[[n:i]]`, followed by `key:` on the next line and by the lines of a container, one level deeper: an entry of a map. -/
  | entryLines (n : Str) (i : Option Str) (key : Kserd) (ls : List VLine)

/-- A value on one line, as the crate writes it without a width limit. -/
def oneLine (c : FormattingConfig) (k : Kserd) : Str := (k.asStrWithConfig c).getD []

/-- `d` levels of indentation, after a line break. -/
def newLine (d : Nat) : Str := '\n' :: List.replicate (4 * d) ' '

/-- `n` or `n:i`, as in a heading. -/
def headName (n : Str) : Option Str → Str
  | none => n
  | some i => n ++ ':' :: i

mutual
/-- The text of the lines of a container at depth `d`; every line begins with a line break. -/
def linesText (c : FormattingConfig) (d : Nat) : List VLine → Str
  | [] => []
  | l :: r => lineText c d l ++ linesText c d r
termination_by structural ls => ls
def lineText (c : FormattingConfig) (d : Nat) : VLine → Str
  | .id i => newLine d ++ (str ":" ++ i)
  | .field n k => newLine d ++ (n ++ (str " = " ++ oneLine c k))
  | .sub n i ls => newLine d ++ (str "[" ++ (headName n i ++ (str "]" ++ linesText c (d + 1) ls)))
  | .elem n i k => newLine d ++ (str "[[" ++ (headName n i ++ (str "]]" ++ (newLine (d + 1) ++ oneLine c k))))
  | .elemLines n i ls => newLine d ++ (str "[[" ++ (headName n i ++ (str "]]" ++ linesText c (d + 1) ls)))
  | .entry n i key k =>
    newLine d ++ (str "[[" ++ (headName n i ++ (str "]]" ++ (newLine (d + 1) ++ (oneLine c key ++ (str ": " ++ oneLine c k))))))
  | .entryLines n i key ls =>
    newLine d ++ (str "[[" ++ (headName n i ++ (str "]]" ++ (newLine (d + 1) ++ (oneLine c key ++ (str ":" ++ linesText c (d + 1) ls))))))
termination_by structural l => l
end

/-! ## Which lines may be written -/

/-- A value that can stand on a line: readable as in C34, and not one of the bare words `inf` and `NaN` (which take an opening
bracket on the next line as belonging to them). -/
def OnLine (c : FormattingConfig) (k : Kserd) : Prop :=
  All TextOk (hideIds c k) ∧ (c.idOnTuples = false → ∀ x ∈ preorder k, ∀ l, x.val = .tuple l → x.id = none) ∧ ¬ Bare (hideIds c k)

/-- A key of a map entry: its numbers follow the number line once read back. -/
def OnKey (c : FormattingConfig) (k : Kserd) : Prop := OnLine c k ∧ AllNums lawful (rereadK (hideIds c k))

/-- Names in headings and before `=`. -/
def GoodName (n : Str) : Prop := n ≠ [] ∧ ∀ ch ∈ n, NameChar ch

def GoodId (i : Option Str) : Prop := ∀ s, i = some s → ValidName s

/-- What a container may begin with: anything, except a heading `[n:i]` with an identity or an unusual name, which is not
recognised there. -/
def Begins : List VLine → Prop
  | [] => False
  | .sub n i _ :: _ => i = none ∧ ValidName n
  | _ :: _ => True

/-- The name on a line. -/
def VLine.name? : VLine → Option Str
  | .id _ => none
  | .field n _ => some n
  | .sub n _ _ => some n
  | .elem n _ _ => some n
  | .elemLines n _ _ => some n
  | .entry n _ _ _ => some n
  | .entryLines n _ _ _ => some n

/-- What a container may begin with that is an element of a sequence: a name that begins with `str` is read as a string there, and
perhaps as the key of a map entry. -/
def BeginsElem (ls : List VLine) : Prop := Begins ls ∧ ∀ l n, ls.head? = some l → l.name? = some n → ¬ str "str" <+: n

mutual
def LinesOk (c : FormattingConfig) : List VLine → Prop
  | [] => True
  | l :: r => LineOk c l ∧ LinesOk c r
termination_by structural ls => ls
def LineOk (c : FormattingConfig) : VLine → Prop
  | .id i => ValidName i
  | .field n k => GoodName n ∧ OnLine c k
  | .sub n i ls => GoodName n ∧ GoodId i ∧ Begins ls ∧ LinesOk c ls
  | .elem n i k => GoodName n ∧ GoodId i ∧ OnLine c k ∧ NoHeading (hideIds c k)
  | .elemLines n i ls => GoodName n ∧ GoodId i ∧ BeginsElem ls ∧ LinesOk c ls
  | .entry n i key k => GoodName n ∧ GoodId i ∧ OnKey c key ∧ OnLine c k
  | .entryLines n i key ls => GoodName n ∧ GoodId i ∧ OnKey c key ∧ Begins ls ∧ LinesOk c ls
termination_by structural l => l
end

/-! ## What the lines stand for -/

/-- A line with its value. -/
inductive Item where
  | id (i : Str)
  | value (n : Str) (k : Kserd)
  | elem (n : Str) (i : Option Str) (k : Kserd)
  | entry (n : Str) (i : Option Str) (key k : Kserd)

/-- The identities given, in order. -/
def ids (l : List Item) : List Str := l.filterMap fun | .id i => some i | _ => none
/-- The values given for `n` by lines `n = ..` and `[n]`, in order. -/
def givenFor (n : Str) (l : List Item) : List Kserd := l.filterMap fun | .value m k => if m = n then some k else none | _ => none
/-- The sequence elements given for `n`, in order. -/
def elemsOf (n : Str) (l : List Item) : List (Option Str × Kserd) := l.filterMap fun | .elem m i k => if m = n then some (i, k) else none | _ => none
/-- The map entries given for `n`, in order. -/
def entriesFor (n : Str) (l : List Item) : List (Option Str × Kserd × Kserd) :=
  l.filterMap fun | .entry m i key k => if m = n then some (i, key, k) else none | _ => none

/-- The last identity given in the headings. -/
def lastId (l : List (Option Str)) : Option Str := (l.filterMap (·)).getLast?

/-- `m` is the map made of the pairs `l`: ascending; every pair of `m` has a key that was given, in the form it was given first,
and the value given last for it; and every key given is in `m`. -/
def MapOf (l : List (Kserd × Kserd)) (m : KMap) : Prop :=
  Ascending Kserd.cmp m ∧
  (∀ p ∈ m, (∃ before v after, l = before ++ (p.1, v) :: after ∧ ∀ q ∈ before, Kserd.cmp q.1 p.1 ≠ .eq) ∧
    ∃ key, Kserd.cmp key p.1 = .eq ∧ LastFor (Kserd.cmp · · = .eq) l (key, p.2)) ∧
  ∀ p ∈ l, ∃ q ∈ m, Kserd.cmp p.1 q.1 = .eq

/-- `k` is the value of the field `n`: the map of its entries if there are any; otherwise the sequence of its elements if there
are any; otherwise the last value given. -/
def ValueOf (l : List Item) (n : Str) (k : Kserd) : Prop :=
  if entriesFor n l ≠ [] then ∃ m, k = .mk (lastId ((entriesFor n l).map (·.1))) (.map m) ∧ MapOf ((entriesFor n l).map (·.2)) m
  else if elemsOf n l ≠ [] then k = .mk (lastId ((elemsOf n l).map (·.1))) (.seq ((elemsOf n l).map (·.2)))
  else (givenFor n l).getLast? = some k

mutual
/-- The container a list of lines stands for: its identity is the last one given by a line `:i`; its fields are in ascending
order, each with the value its lines give it. -/
inductive Means (c : FormattingConfig) : List VLine → Kserd → Prop
  | mk {ls : List VLine} {its : List Item} {f : Fields} (hi : Items c ls its) (ha : Ascending cmpStr f)
      (hf : ∀ n k, (n, k) ∈ f ↔ ValueOf its n k) : Means c ls (.mk (ids its).getLast? (.cntr f))
/-- The lines with their values: those on one line as they read back (C34); nested containers as they stand for themselves. The
identity in a heading `[n:i]` counts unless the lines below give one. -/
inductive Items (c : FormattingConfig) : List VLine → List Item → Prop
  | nil : Items c [] []
  | id {i r its} : Items c r its → Items c (.id i :: r) (.id i :: its)
  | field {n k r its} : Items c r its → Items c (.field n k :: r) (.value n (rereadK (hideIds c k)) :: its)
  | sub {n i ls j v r its} : Means c ls (.mk j v) → Items c r its → Items c (.sub n i ls :: r) (.value n (.mk (j.or i) v) :: its)
  | elem {n i k r its} : Items c r its → Items c (.elem n i k :: r) (.elem n i (rereadK (hideIds c k)) :: its)
  | elemLines {n i ls k r its} : Means c ls k → Items c r its → Items c (.elemLines n i ls :: r) (.elem n i k :: its)
  | entry {n i key k r its} : Items c r its →
      Items c (.entry n i key k :: r) (.entry n i (rereadK (hideIds c key)) (rereadK (hideIds c k)) :: its)
  | entryLines {n i key ls k r its} : Means c ls k → Items c r its →
      Items c (.entryLines n i key ls :: r) (.entry n i (rereadK (hideIds c key)) k :: its)
end

end KS.Spec
