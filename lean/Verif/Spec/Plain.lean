import Verif.Spec.Verbose
/-!
# Kserds whose text reads back in every layout

Conditions on the Kserd alone. They are sufficient, whatever the width limit and whatever requests were made of the formatter.
-/

namespace KS.Spec

/-- There is no container in the Kserd. -/
def NoCntr (k : Kserd) : Prop := All (fun x => ∀ f, x.val ≠ .cntr f) k

/-- Units, booleans, numbers, strings and byte arrays. -/
def isPrim : Value → Bool
  | .tuple _ => false
  | .cntr _ => false
  | .seq _ => false
  | .map _ => false
  | _ => true

/-- What every Kserd in the tree must satisfy. Numbers are finite. Field names are names that do not begin with `str`, and fields that are
sequences or maps show no identity. A sequence does not look like a heading, and sequences and maps in it hold no containers. Map keys are
primitive, and sequences and maps among the values hold no containers. -/
def PlainNode (k : Kserd) : Prop :=
  match k.val with
  | .num n => n.disp ≠ str "inf" ∧ n.disp ≠ str "NaN"
  | .cntr f => ∀ p ∈ f, (ValidName p.1 ∧ ¬ str "str" <+: p.1) ∧ (isSeqMap p.2.val = true → p.2.id = none)
  | .seq l => NoHeading k ∧ ∀ x ∈ l, isSeqMap x.val = true → NoCntr x
  | .map m => ∀ p ∈ m, isPrim p.1.val = true ∧ (isSeqMap p.2.val = true → NoCntr p.2)
  | _ => True

/-- The first field is not a container that shows an identity. -/
def FirstPlain (k : Kserd) : Prop :=
  match k.val with
  | .cntr (p :: _) => (∃ g, p.2.val = .cntr g) → p.2.id = none
  | _ => True

/-- No field is a map. -/
def NoMapField (k : Kserd) : Prop := ∀ f, k.val = .cntr f → ∀ p ∈ f, ∀ m, p.2.val ≠ .map m

/-- A Kserd that reads back in every layout. Containers inside it do not begin with a container that shows an identity and have no maps among
their fields; the former also holds of the Kserd itself if it shows no identity. -/
structure PlainTree (k : Kserd) : Prop where
  text : All TextOk k
  node : All PlainNode k
  inner : AllV (fun x => FirstPlain x ∧ NoMapField x) k.val
  first : k.id = none → FirstPlain k

end KS.Spec
