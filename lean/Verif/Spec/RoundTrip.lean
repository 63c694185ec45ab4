import Verif.Spec.Parse
import Verif.Spec.Fmt
/-!
# Which Kserds survive writing and reading back, and what comes back
-/

namespace KS.Spec

/-- What a number's text reads back as: an integer for an integral float, and the number itself otherwise (C07, C08). -/
def reread (n : Number) : Number := (Number.fromStr n.disp).getD n

/-! The Kserd with every number as it reads back, and empty containers as empty tuples (which are equal, C09). -/
mutual
def rereadK : Kserd → Kserd
  | .mk id v => .mk id (rereadV v)
termination_by structural a => a
def rereadV : Value → Value
  | .unit => .unit
  | .bool b => .bool b
  | .num n => .num (reread n)
  | .str s => .str s
  | .barr b => .barr b
  | .tuple l => .tuple (rereadL l)
  | .cntr f => if f.isEmpty then .tuple [] else .cntr (rereadF f)
  | .seq l => .seq (rereadL l)
  | .map m => .map (rereadM m)
termination_by structural a => a
def rereadL : List Kserd → List Kserd
  | [] => []
  | k :: r => rereadK k :: rereadL r
termination_by structural a => a
def rereadF : List (Str × Kserd) → List (Str × Kserd)
  | [] => []
  | (n, k) :: r => (n, rereadK k) :: rereadF r
termination_by structural a => a
def rereadM : List (Kserd × Kserd) → List (Kserd × Kserd)
  | [] => []
  | (k, v) :: r => (rereadK k, rereadK v) :: rereadM r
termination_by structural a => a
end

/-- The identity does not begin with a boolean: such identities of tuples, containers, sequences and maps are misread. -/
def NotBool (i : Str) : Prop := ¬ str "true" <+: i ∧ ¬ str "false" <+: i

/-- No `=` that could be taken for a field assignment: one of `< > ( ) { } ' "` or a line break comes before the first `=`, if there is one. -/
def Unassigned (s : Str) : Prop := '=' ∈ s → ∃ c ∈ s.takeWhile (· ≠ '='), c ∈ str "<>(){}'\"\r\n"

/-- The string can be delimited by a quote, or else by one of ``# ` | * ^ ! % ~ &`` with nothing in it that looks like a field assignment.
Delimiters are tried in the order ``" ' # ` = | * ^ ! % ~ & _ …``, where `=` would look like a field assignment by itself. -/
def Quotable (s : Str) : Prop :=
  '"' ∉ s ∨ '\'' ∉ s ∨ Unassigned s ∧ ('#' ∉ s ∨ '`' ∉ s ∨ '=' ∈ s ∧ ∃ d ∈ str "|*^!%~&", d ∉ s)

/-- What one Kserd must satisfy by itself so that its text reads back. Identities are names. A unit has no identity (`id()` reads as an empty
tuple). The number's text is in range. A string has a delimiter, and without identity it is `Quotable`. A tuple or container that is empty has
an identity (`()` reads as the unit). Field names consist of name characters, and fields and map entries are in ascending order. -/
def TextOk (k : Kserd) : Prop :=
  (∀ i, k.id = some i → ValidName i) ∧
  match k.val with
  | .unit => k.id = none
  | .bool _ => True
  | .num n => Number.fromStr n.disp ≠ none
  | .str s => Delimitable s ∧ (k.id = none → Quotable s)
  | .barr _ => True
  | .tuple l => (∀ i, k.id = some i → NotBool i) ∧ (k.id = none → l ≠ [])
  | .seq _ => (∀ i, k.id = some i → NotBool i)
  | .cntr f => (∀ i, k.id = some i → NotBool i) ∧ (k.id = none → f ≠ []) ∧ (∀ p ∈ f, ∀ c ∈ p.1, NameChar c) ∧ Ascending cmpStr f
  | .map m => (∀ i, k.id = some i → NotBool i) ∧
      (rereadM m).Pairwise (fun a b => Kserd.cmp a.1 b.1 = .lt ∧ Kserd.eq a.1 b.1 = false)

/-- Numbers whose text reads like a name. -/
def Bare (k : Kserd) : Prop := k.id = none ∧ ∃ n, k.val = .num n ∧ (n.disp = str "inf" ∨ n.disp = str "NaN")

/-- The text of the Kserd begins with an opening delimiter. -/
def Opens (k : Kserd) : Prop :=
  k.id = none ∧ match k.val with
    | .unit => True
    | .tuple _ => True
    | .seq _ => True
    | .cntr _ => True
    | .map _ => True
    | _ => False

/-- Laid out one per line, no element `inf` or `NaN` is followed by one that begins with an opening delimiter: the two lines would be read as
one element with an identity. -/
def Separable (v : Value) : Prop :=
  match v with
  | .tuple l => ∀ p a b q, l = p ++ a :: b :: q → Bare a → ¬ Opens b
  | .seq l => ∀ p a b q, l = p ++ a :: b :: q → Bare a → ¬ Opens b
  | .map m => ∀ p a b q, m = p ++ a :: b :: q → Bare a.2 → ¬ Opens b.1
  | _ => True

/-- The text of the Kserd reads like a name. -/
def Wordy (k : Kserd) : Prop := k.id = none ∧ ((∃ b, k.val = .bool b) ∨ Bare k)

/-- The single-line text is not taken for a heading `[name]` or `[[name]]`: a sequence without identity does not begin with such a sequence,
and does not consist of one boolean, `inf` or `NaN`. -/
def NoHeading (k : Kserd) : Prop :=
  k.id = none → ∀ l, k.val = .seq l → (∀ x r, l = x :: r → ¬ (x.id = none ∧ ∃ m, x.val = .seq m)) ∧ (∀ x, l = [x] → ¬ Wordy x)

end KS.Spec

namespace KS.Spec

/-- Well-formed numbers that read back equal in both directions: integers, and floats that are not integral or below `2^53` (C07, C08). -/
def Exact (n : Number) : Prop := n.WF ∧ ∀ f, n = .float f → match f with | .fin _ m => (¬ ∃ k : Nat, (m : Int) = k * one) ∨ (m : Int) < 2 ^ 53 * one | _ => True

/-- The Kserd as displayed: without the identities that are switched off. -/
def displayed (f : Formatter) : Kserd := shown (flags f) 0 f.root

/-- The formatter states without verbose containers whose text reads back. Every displayed Kserd is readable by itself, no tuple has a hidden
identity (C28), elements on lines of their own cannot be confused (`Separable`), and a single line is not taken for a heading. -/
structure Readable (f : Formatter) : Prop where
  text : All TextOk (displayed f)
  hidden : ∀ i k l, (preorder f.root)[i]? = some k → flags f i = false → k.val = .tuple l → k.id = none
  lines : ∀ i k, (preorder f.root)[i]? = some k → line f i ≠ some .inline → Separable (shown (flags f) i k).val
  heading : line f 0 = some .inline → NoHeading (displayed f)

/-- No container is verbose. -/
def NoVerboseCntr (f : Formatter) : Prop := ∀ i k fs, (preorder f.root)[i]? = some k → k.val = .cntr fs → line f i ≠ some .verbose

end KS.Spec

namespace KS.Spec

/-- Whether the configuration shows identities of this kind of value. -/
def showsId (c : FormattingConfig) : Value → Bool
  | .tuple _ => c.idOnTuples
  | .cntr _ => c.idOnContainers
  | .seq _ => c.idOnSeqs
  | .map _ => c.idOnMaps
  | _ => c.idOnPrimitives

/-! The Kserd without the identities that the configuration switches off (a unit keeps its own). -/
mutual
def hideIds (c : FormattingConfig) : Kserd → Kserd
  | .mk id v => .mk (shownId (showsId c v) v id) (hideIdsV c v)
termination_by structural a => a
def hideIdsV (c : FormattingConfig) : Value → Value
  | .tuple l => .tuple (hideIdsL c l)
  | .seq l => .seq (hideIdsL c l)
  | .cntr f => .cntr (hideIdsF c f)
  | .map m => .map (hideIdsM c m)
  | .unit => .unit
  | .bool b => .bool b
  | .num n => .num n
  | .str s => .str s
  | .barr b => .barr b
termination_by structural a => a
def hideIdsL (c : FormattingConfig) : List Kserd → List Kserd
  | [] => []
  | k :: r => hideIds c k :: hideIdsL c r
termination_by structural a => a
def hideIdsF (c : FormattingConfig) : List (Str × Kserd) → List (Str × Kserd)
  | [] => []
  | (n, k) :: r => (n, hideIds c k) :: hideIdsF c r
termination_by structural a => a
def hideIdsM (c : FormattingConfig) : List (Kserd × Kserd) → List (Kserd × Kserd)
  | [] => []
  | (k, v) :: r => (hideIds c k, hideIds c v) :: hideIdsM c r
termination_by structural a => a
end

end KS.Spec
