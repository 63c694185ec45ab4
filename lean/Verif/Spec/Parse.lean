import Verif.Spec.Kserd
import Verif.Model.ParseErr
/-!
# Specifications about parsed Kserds
-/

namespace KS.Spec

/-- ASCII letter. -/
def Letter (c : Char) : Prop := ('a' ≤ c ∧ c ≤ 'z') ∨ ('A' ≤ c ∧ c ≤ 'Z')
/-- ASCII digit. -/
def DigitC (c : Char) : Prop := '0' ≤ c ∧ c ≤ '9'
/-- Characters of names. -/
def NameChar (c : Char) : Prop := Letter c ∨ DigitC c ∨ c = '-' ∨ c = '_'

/-- A letter or underscore followed by letters, digits, `-` and `_`. -/
def ValidName (s : Str) : Prop := ∃ c r, s = c :: r ∧ (Letter c ∨ c = '_') ∧ ∀ x ∈ r, NameChar x

/-- What a parsed Kserd satisfies by itself: the identity is a valid name, numbers are in range, field names consist of
name characters and are strictly ascending. -/
def ParsedNode (k : Kserd) : Prop :=
  (∀ i, k.id = some i → ValidName i) ∧ (∀ n, k.val = .num n → n.WF) ∧
  (∀ f, k.val = .cntr f → (∀ p ∈ f, ∀ c ∈ p.1, NameChar c) ∧ Ascending cmpStr f)

/-- At every depth. -/
def Parsed : Kserd → Prop := All ParsedNode

/-- Number of bytes of text in UTF-8. -/
def bytes (s : Str) : Nat := (s.map Char.utf8Size).sum

/-- The trace `t` points at the position of `src` where `suf` remains: the source splits into what comes `before` the quoted line, the
line's text, its terminator (missing at the end of the input) and what comes `after`. The line number counts the line feeds before it, and
the position is the column's number of bytes into the line. A position behind a terminator belongs to the next line, unless there is none. -/
def TraceAt (src suf : Str) (t : Trace) : Prop :=
  ∃ before term after p : Str, src = before ++ t.linestr ++ term ++ after ∧
    (before = [] ∨ ∃ b, before = b ++ ['\n']) ∧ '\n' ∉ t.linestr ∧
    ((term = [] ∧ after = []) ∨ (term = ['\n'] ∧ ¬ ∃ x, t.linestr = x ++ ['\r']) ∨ term = ['\r', '\n']) ∧
    t.line = 1 + before.count '\n' ∧
    src = before ++ p ++ suf ∧ p <+: t.linestr ++ term ∧ (p = t.linestr ++ term → after = []) ∧
    t.col = 1 + bytes p

end KS.Spec
