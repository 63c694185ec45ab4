import Verif.Spec.RoundTrip
/-!
# Which verbose layouts survive writing and reading back

In a verbose container each field is a line `name = ..`, or, if it is itself verbose, one or more headings: `[name:identity]` for a container,
`[[name]]` for every element of a sequence and every entry of a map. The conditions exclude the layouts that are misread; each of them is shown
to be necessary by a counterexample in `Verif/Props/Verbose.lean`. The one exception is the empty field name, which is excluded everywhere
although only the heading `[]` is misread.
-/

namespace KS.Spec

/-- The values that can be given a heading. -/
def isComposite : Value → Bool
  | .cntr _ => true
  | .seq _ => true
  | .map _ => true
  | _ => false

/-- The field with node number `i` is written under a heading. -/
def headed (f : Formatter) (i : Nat) (k : Kserd) : Bool := decide (line f i = some .verbose) && isComposite k.val

/-- Whether a heading is next: that of the first of the fields, else `q`. -/
def headingNext (f : Formatter) (q : Bool) (i : Nat) : List (Str × Kserd) → Bool
  | [] => q
  | (_, k) :: _ => headed f i k

/-- If the first field is a container under a heading, then that heading is a plain name without identity: `[name:identity]` is not recognised as
the start of a verbose container. -/
def FirstOk (f : Formatter) (i : Nat) : List (Str × Kserd) → Prop
  | [] => True
  | (n, k) :: _ => headed f i k = true → (∃ fs, k.val = .cntr fs) → (shown (flags f) i k).id = none ∧ ValidName n

/-- The name of the first field does not begin with `str`, if it is on a line of its own: it would be read as a string, and perhaps as the key of
a map entry. -/
def NoStr (f : Formatter) (i : Nat) : List (Str × Kserd) → Prop
  | [] => True
  | (n, k) :: _ => headed f i k = false → ¬ str "str" <+: n

/-- No container at or below the node is verbose. -/
def Flat (f : Formatter) (i : Nat) (k : Kserd) : Prop :=
  ∀ j < k.size, ∀ x, (preorder k)[j]? = some x → (∃ fs, x.val = .cntr fs) → line f (i + j) ≠ some .verbose

/-! `FieldsOk f fs top q i`: the fields `fs` of a verbose container, the first of which has node number `i`, can be read back. `top` tells whether
the container is the whole text and `q` whether it may be followed by a heading. -/
mutual
def FieldsOk (f : Formatter) : List (Str × Kserd) → (top q : Bool) → (i : Nat) → Prop
  | [], _, _, _ => True
  | (n, k) :: r, top, q, i => n ≠ [] ∧ FieldOk f k top (headingNext f q (i + k.size) r) i ∧ FieldsOk f r top q (i + k.size)
termination_by structural a => a
/-- A field without heading is not `inf` or `NaN` before a heading, since the two would be read as one. -/
def FieldOk (f : Formatter) : Kserd → (top q : Bool) → (i : Nat) → Prop
  | .mk id v, top, q, i =>
    (headed f i (.mk id v) = true → HeadedOk f v (shownId (flags f i) v id) top q i) ∧
    (headed f i (.mk id v) = false → Bare (shown (flags f) i (.mk id v)) → q = false)
termination_by structural a => a
/-- Sequences and maps under headings lose their identity. Maps under headings are not indented, so they must belong to the whole text. -/
def HeadedOk (f : Formatter) : Value → (id : Option Str) → (top q : Bool) → (i : Nat) → Prop
  | .cntr fs, _, _, q, i => FirstOk f (i + 1) fs ∧ FieldsOk f fs false q (i + 1)
  | .seq l, id, _, q, i => id = none ∧ ElemsOk f l q (i + 1)
  | .map m, id, top, q, i => id = none ∧ top = true ∧ EntriesOk f m q (i + 1)
  | .unit, _, _, _, _ => True
  | .bool _, _, _, _, _ => True
  | .num _, _, _, _, _ => True
  | .str _, _, _, _, _ => True
  | .barr _, _, _, _, _ => True
  | .tuple _, _, _, _, _ => True
termination_by structural a => a
/-- The elements of a sequence under headings. A single line is not taken for a heading, and a verbose container is not taken for a map
entry. -/
def ElemsOk (f : Formatter) : List Kserd → (q : Bool) → (i : Nat) → Prop
  | [], _, _ => True
  | k :: r, q, i =>
    (line f i = some .inline → NoHeading (shown (flags f) i k)) ∧
    (line f i = some .verbose → (shown (flags f) i k).id = none → ∀ fs, k.val = .cntr fs → NoStr f (i + 1) fs) ∧
    ValueOk f k false (q || !r.isEmpty) i ∧ ElemsOk f r q (i + k.size)
termination_by structural a => a
/-- The whole text, an element, or the value of a map entry. Verbose sequences and maps are written over several lines like concise ones. -/
def ValueOk (f : Formatter) : Kserd → (top q : Bool) → (i : Nat) → Prop
  | .mk id v, top, q, i =>
    (line f i = some .verbose → VerboseOk f v (shownId (flags f i) v id) top q i ∧ (isSeqMap v = true → Flat f i (.mk id v))) ∧
    (line f i ≠ some .verbose → Bare (shown (flags f) i (.mk id v)) → q = false)
termination_by structural a => a
/-- The fields of a verbose container. -/
def VerboseOk (f : Formatter) : Value → (id : Option Str) → (top q : Bool) → (i : Nat) → Prop
  | .cntr fs, id, top, q, i => (id = none → FirstOk f (i + 1) fs) ∧ FieldsOk f fs top q (i + 1)
  | .seq _, _, _, _, _ => True
  | .map _, _, _, _, _ => True
  | .unit, _, _, _, _ => True
  | .bool _, _, _, _, _ => True
  | .num _, _, _, _, _ => True
  | .str _, _, _, _, _ => True
  | .barr _, _, _, _, _ => True
  | .tuple _, _, _, _, _ => True
termination_by structural a => a
/-- The entries of a map under headings; the keys are inline. -/
def EntriesOk (f : Formatter) : List (Kserd × Kserd) → (q : Bool) → (i : Nat) → Prop
  | [], _, _ => True
  | (k, v) :: r, q, i =>
    line f i = some .inline ∧ ValueOk f v false (q || !r.isEmpty) (i + k.size) ∧ EntriesOk f r q (i + k.size + v.size)
termination_by structural a => a
end

/-- The verbose parts of the layout can be read back. -/
def LayoutOk (f : Formatter) : Prop := ValueOk f f.root true false 0

end KS.Spec
