import Verif.Spec.Fmt
/-!
# Line lengths
-/

namespace KS.Spec

/-- No line of the text is longer than `w`: every stretch without line break has at most `w` characters. -/
def LinesFit (w : Nat) (s : Str) : Prop := ∀ a l b, s = a ++ l ++ b → '\n' ∉ l → l.length ≤ w

/-- One for an empty tuple, container, sequence or map: on several lines the formatter reckons with the opening delimiter only. -/
def emptyColl (x : Kserd) : Nat :=
  match x.val with
  | .tuple l => if l = [] then 1 else 0
  | .cntr l => if l = [] then 1 else 0
  | .seq l => if l = [] then 1 else 0
  | .map l => if l = [] then 1 else 0
  | _ => 0

/-- How much a line may exceed the formatter's estimate. -/
def lineSlack (l : List Kserd) : Nat := slack l + (l.map emptyColl).sum

/-- Every key of a map is a primitive or empty. -/
def PlainKeys (k : Kserd) : Prop := ∀ m, k.val = .map m → ∀ p ∈ m, maxRepr p.1.val = .inline

end KS.Spec
