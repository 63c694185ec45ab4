import Verif.Spec.Grammar
/-!
# When single-line text is read, and as what
-/

namespace KS.Spec

/-- What is assumed of a Kserd by itself: its identity is a name, field names consist of name characters and are ascending, its string can be
written, and without identity it can be delimited by a quote or contains nothing that looks like a field assignment (`Quotable`). -/
def Ordinary (k : Kserd) : Prop :=
  (∀ i, k.id = some i → ValidName i) ∧
  match k.val with
  | .str s => Delimitable s ∧ (k.id = none → Quotable s)
  | .cntr f => (∀ p ∈ f, ∀ c ∈ p.1, NameChar c) ∧ Ascending cmpStr f
  | _ => True

/-- What a Kserd must satisfy by itself so that its text is read: if its text is an identity and a bracket, the identity does not begin with a
boolean; the text of a number is in range. -/
def Legible (k : Kserd) : Prop :=
  match k.val with
  | .unit | .tuple _ | .seq _ | .cntr _ | .map _ => ∀ i, k.id = some i → NotBool i
  | .num n => Number.fromStr n.disp ≠ none
  | _ => True

/-- The identity of a sequence, container or map is written with a blank behind it. -/
def Spaced : Value → Bool
  | .seq _ | .cntr _ | .map _ => true
  | _ => false

/-- A sequence, container or map whose identity is a boolean. Laid out one per line, such an element is read as two: the boolean and the rest. -/
def Splits (k : Kserd) : Prop := Spaced k.val = true ∧ (k.id = some (str "true") ∨ k.id = some (str "false"))

/-- The Kserd read from empty parentheses: the unit, or with an identity an empty tuple. -/
def emptyParens : Option Str → Kserd
  | none => .mk none .unit
  | some i => .mk (some i) (.tuple [])

/-! `ReadAs k k'`: the text of `k` stands for `k'`. Units, empty tuples and empty containers are all written as empty parentheses. Numbers are read
as `reread` says, and maps are made anew of the entries. -/
mutual
def ReadAs : Kserd → Kserd → Prop
  | .mk id v, k' => ReadAsV id v k'
termination_by structural a => a
def ReadAsV (id : Option Str) : Value → Kserd → Prop
  | .unit, k' => k' = emptyParens id
  | .bool b, k' => k' = .mk id (.bool b)
  | .num n, k' => k' = .mk id (.num (reread n))
  | .str s, k' => k' = .mk id (.str s)
  | .barr b, k' => k' = .mk id (.barr b)
  | .tuple l, k' => ∃ l', ReadAsL l l' ∧ k' = if l = [] then emptyParens id else .mk id (.tuple l')
  | .cntr f, k' => ∃ f', ReadAsF f f' ∧ k' = if f = [] then emptyParens id else .mk id (.cntr f')
  | .seq l, k' => ∃ l', ReadAsL l l' ∧ k' = .mk id (.seq l')
  | .map m, k' => ∃ l m', ReadAsM m l ∧ EntriesOf l m' ∧ k' = .mk id (.map m')
termination_by structural a => a
def ReadAsL : List Kserd → List Kserd → Prop
  | [], l' => l' = []
  | k :: r, l' => ∃ k' r', ReadAs k k' ∧ ReadAsL r r' ∧ l' = k' :: r'
termination_by structural a => a
def ReadAsF : List (Str × Kserd) → List (Str × Kserd) → Prop
  | [], l' => l' = []
  | (n, k) :: r, l' => ∃ k' r', ReadAs k k' ∧ ReadAsF r r' ∧ l' = (n, k') :: r'
termination_by structural a => a
def ReadAsM : List (Kserd × Kserd) → List (Kserd × Kserd) → Prop
  | [], l' => l' = []
  | (k, v) :: r, l' => ∃ k' v' r', ReadAs k k' ∧ ReadAs v v' ∧ ReadAsM r r' ∧ l' = (k', v') :: r'
termination_by structural a => a
end

end KS.Spec
