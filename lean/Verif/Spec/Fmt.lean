import Verif.Model.Formatter
import Verif.Spec.Nav
/-!
# The documented formatter rules — `/repo/src/fmt/mod.rs` (module documentation), `/repo/src/fmt/formatter.rs` 7-88
-/

namespace KS.Spec

/-- The largest representation a value may have by itself: primitives and anything empty are inline, a tuple is at
most concise, everything else may be verbose. -/
def maxRepr : Value → Repr'
  | .tuple l => if l = [] then .inline else .concise
  | .cntr f => if f = [] then .inline else .verbose
  | .seq l => if l = [] then .inline else .verbose
  | .map m => if m = [] then .inline else .verbose
  | _ => .inline

/-- The value is a sequence or a map. -/
def isSeqMap : Value → Bool
  | .seq _ => true
  | .map _ => true
  | _ => false

/-- The line representation of node `i`. -/
def line (f : Formatter) (i : Nat) : Option Repr' := (f.fmts[i]?).map (·.line)

/-- The identity flag of node `i`. -/
def idOn (f : Formatter) (i : Nat) : Option Bool := (f.fmts[i]?).map (·.id)

/-- The rules a formatter must honour. -/
structure Rules (f : Formatter) : Prop where
  /-- the navigator is that of the root, with one format per node -/
  nav : f.nav = Nav.new f.root
  len : f.fmts.length = f.nav.length
  /-- no node exceeds its own maximum -/
  max : ∀ (i : Nat) (n : NavNode) (r : Repr'), f.nav[i]? = some n → line f i = some r → r ≤ maxRepr n.kserd.val
  /-- no node exceeds its parent -/
  parent : ∀ (i p : Nat) (n : NavNode) (r q : Repr'), f.nav[i]? = some n → n.parent = some p →
    line f i = some r → line f p = some q → r ≤ q
  /-- a root sequence or map is not verbose -/
  root : isSeqMap f.root.val = true → line f 0 ≠ some .verbose

/-- Formatters obtainable through the public API from `Formatter::new(root)`. -/
inductive Reachable (root : Kserd) : Formatter → Prop
  | new {f : Formatter} : Formatter.new root = some f → Reachable root f
  | repr {f f' : Formatter} (i : Nat) (r : Repr') : Reachable root f → f.request i r = .ok f' → Reachable root f'
  | id {f f' : Formatter} (i : Nat) (b : Bool) : Reachable root f → f.setId i b = .ok f' → Reachable root f'
  | config {f f' : Formatter} (c : FormattingConfig) : Reachable root f → Solver.applyConfig f c = some f' → Reachable root f'

end KS.Spec

namespace KS.Spec

/-- The characters the text format can delimit a string with. -/
def delimiters : List Char :=
  ['"', '\'', '#', '`', '=', '|', '*', '^', '!', '%', '~', '&', '_', '\\', '/', ':', '<', '>', '(', ')']

/-- Some delimiter does not occur in the string. -/
def Delimitable (s : Str) : Prop := ∃ d ∈ delimiters, d ∉ s

/-- Every string in the Kserds can be delimited. -/
def Writable (ks : List Kserd) : Prop := ∀ x ∈ ks, ∀ s, x.val = .str s → Delimitable s

end KS.Spec

namespace KS.Spec

/-- Every character of the identity, the string value and the field names of the Kserd satisfies `Q`. -/
def TextAll (Q : Char → Prop) (x : Kserd) : Prop :=
  (∀ i, x.id = some i → ∀ c ∈ i, Q c) ∧ (∀ s, x.val = .str s → ∀ c ∈ s, Q c) ∧
  (∀ f, x.val = .cntr f → ∀ p ∈ f, ∀ c ∈ p.1, Q c)

/-- Printable ASCII. -/
def Printable (c : Char) : Prop := 32 ≤ c.toNat ∧ c.toNat ≤ 126

end KS.Spec

namespace KS.Spec

/-- 1 for an identity that is present but empty. -/
def emptyId : Option Str → Nat
  | some [] => 1
  | _ => 0

/-- How much one Kserd's own part of the inline text may exceed the formatter's estimate: the blanks inside the braces of
a non-empty map, `()` after a unit's identity, `str` before a string that contains `"`, short byte arrays, and the blank
after an empty identity. -/
def slack1 (x : Kserd) : Nat :=
  match x.val with
  | .unit => if x.id = none ∨ x.id = some [] then 0 else 2
  | .str s => if '"' ∈ s then 2 else 0
  | .barr b => if b.length ≤ 1 then 2 else 0
  | .cntr _ => emptyId x.id
  | .seq _ => emptyId x.id
  | .map m => (if m = [] then 0 else 2) + (emptyId x.id)
  | _ => 0

/-- The total over a list of Kserds. -/
def slack (l : List Kserd) : Nat := (l.map slack1).sum

end KS.Spec

namespace KS.Spec

/-- The identity that remains when it is not to be shown: the format always shows that of a unit. -/
def shownId (on : Bool) (v : Value) (id : Option Str) : Option Str :=
  match v with
  | .unit => id
  | _ => if on then id else none

/-! The Kserd without the identities that are not shown; `on i` tells whether the node with preorder number `i` shows
its identity. -/
mutual
def shown (on : Nat → Bool) : Nat → Kserd → Kserd
  | i, .mk id v => .mk (shownId (on i) v id) (shownV on (i + 1) v)
termination_by structural _ a => a
def shownV (on : Nat → Bool) : Nat → Value → Value
  | i, .tuple l => .tuple (shownL on i l)
  | i, .seq l => .seq (shownL on i l)
  | i, .cntr f => .cntr (shownF on i f)
  | i, .map m => .map (shownM on i m)
  | _, .unit => .unit
  | _, .bool b => .bool b
  | _, .num n => .num n
  | _, .str s => .str s
  | _, .barr b => .barr b
termination_by structural _ a => a
def shownL (on : Nat → Bool) : Nat → List Kserd → List Kserd
  | _, [] => []
  | i, k :: r => shown on i k :: shownL on (i + k.size) r
termination_by structural _ a => a
def shownF (on : Nat → Bool) : Nat → List (Str × Kserd) → List (Str × Kserd)
  | _, [] => []
  | i, (n, k) :: r => (n, shown on i k) :: shownF on (i + k.size) r
termination_by structural _ a => a
def shownM (on : Nat → Bool) : Nat → List (Kserd × Kserd) → List (Kserd × Kserd)
  | _, [] => []
  | i, (k, v) :: r => (shown on i k, shown on (i + k.size) v) :: shownM on (i + k.size + v.size) r
termination_by structural _ a => a
end

/-- The identity flags of a formatter. -/
def flags (f : Formatter) (i : Nat) : Bool := idOn f i = some true

/-- The formatter of the Kserd without the hidden identities, with the same line representations. -/
def withoutHidden (f : Formatter) : Formatter :=
  { root := shown (flags f) 0 f.root, nav := Nav.new (shown (flags f) 0 f.root),
    fmts := f.fmts.map fun x => { x with id := true } }

end KS.Spec
