import Verif.Model.Nom
/-!
# What the entries of a parse error say

An entry of an error is a place in the source, given by the text from there on, and a kind. `Says src suf kind` is what a reader
takes from it: the expected character is not there; the construct named by the context stands there. Kinds and contexts which
the code can build but which never reach the user say `False`.
-/

namespace KS.Spec

/-- `suf` stands in `src` right behind `o`. -/
def Behind (o : Str) (src suf : Str) : Prop := (o ++ suf) <:+ src

/-- `suf` stands in `src` somewhere behind `o`. -/
def Inside (o : Char) (src suf : Str) : Prop := ∃ mid, (o :: mid ++ suf) <:+ src

/-- The rest of the line is blank. -/
def LineOver (suf : Str) : Prop := ∃ w r, suf = w ++ '\n' :: r ∧ ∀ c ∈ w, c = ' ' ∨ c = '\t' ∨ c = '\r'

/-- `suf` begins a line, the line before it ends with `o`. -/
def LineBehind (o : Str) (src suf : Str) : Prop :=
  ∃ w n, (∀ c ∈ w, c = ' ' ∨ c = '\t') ∧ (n = ['\n'] ∨ n = ['\r', '\n']) ∧ (o ++ w ++ n ++ suf) <:+ src

/-- The construct named by a context of the error. -/
def SaysContext (src suf : Str) (s : String) : Prop :=
  if s = "identity" then (∃ r, suf = '<' :: r) ∨ ∃ w, (∀ c ∈ w, c = ' ' ∨ c = '\t') ∧ Behind (':' :: w) src suf
  else if s = "unit value" then ∃ r, suf = '(' :: r ∧ (r.dropWhile fun c => c = ' ' ∨ c = '\t').head? ≠ some ')'
  else if s = "string" then ∃ d r, suf = d :: r ∧ d ∉ r ∧ (d = '"' ∨ Behind ['s', 't', 'r'] src suf)
  else if s = "base 91 byte array" then ∀ r, suf = 'b' :: '9' :: '1' :: '\'' :: r → '\'' ∉ r
  else if s = "primitive value" ∨ s = "primitive" then
    ¬ ['t', 'r', 'u', 'e'] <+: suf ∧ ¬ ['f', 'a', 'l', 's', 'e'] <+: suf
  else if s = "comma separated kserds" then Behind ['('] src suf ∨ Behind ['['] src suf
  else if s = "inline tuple" then Behind ['('] src suf
  else if s = "multi-line (concise) tuple" then Behind ['('] src suf ∧ LineOver suf
  else if s = "inline sequence" then Behind ['['] src suf
  else if s = "multi-line (concise) sequence" then Behind ['['] src suf ∧ LineOver suf
  else if s = "comma separated kserd-kserd pair" ∨ s = "inline map" then Behind ['{'] src suf
  else if s = "newline separated (concise) kserd-kserd pair" ∨ s = "concise map" then Behind ['{'] src suf ∧ LineOver suf
  else if s = "kserd-kserd key-value pair" then Inside '{' src suf
  else if s = "comma separated kserdstr-kserd pair" ∨ s = "inline container" then Behind ['('] src suf
  else if s = "newline separated (concise) kserdstr-kserd pair" ∨ s = "concise container" then Behind ['('] src suf ∧ LineOver suf
  else if s = "name-kserd key value pair" then Inside '(' src suf ∨ ∀ r, suf ≠ '[' :: r ∧ suf ≠ ':' :: r
  else if s = "verbose container field name" then Behind ['[', '['] src suf
  else if s = "field name. expecting 'field_name[:identity]'" then ∃ r, suf = '[' :: '[' :: r
  else if s = "verbose map entry" then Behind [':'] src suf
  else if s = "verbose sequence entry" then LineBehind [']', ']'] src suf
  else if s = "nested container" then LineBehind [']'] src suf
  else if s = "empty input" then src = []
  else False

/-- What an entry of an error says. -/
def Says (src suf : Str) : EKind → Prop
  | .char c => suf.head? ≠ some c
  | .ctx s => SaysContext src suf s
  | .alt => True
  | .tag => True
  | .alpha => False
  | .eof => suf ≠ [] ∨ src = []
  | .takeWhile1 => False
  | .crlf => False
  | .fail => False
  | .many0 => False
  | .separatedList => ∀ c, suf.head? = some c → c ≠ ' ' ∧ c ≠ '\t' ∧ c ≠ '\r' ∧ c ≠ '\n'

/-- How the message of an entry at the place where `suf` remains is worded. Before a lone carriage return nothing is said here about a missing character. -/
def Worded (suf : Str) (msg : Str) : EKind → Prop
  | .char c => match suf with
    | [] => msg = KS.str "expected '" ++ [c] ++ KS.str "', reached end of line or end of file first"
    | d :: _ =>
      if d = '\n' then msg = KS.str "expected '" ++ [c] ++ KS.str "', reached end of line or end of file first"
      else d ≠ '\r' → msg = KS.str "expected '" ++ [c] ++ KS.str "', found '" ++ [d] ++ KS.str "'"
  | .ctx s => msg = KS.str "in " ++ KS.str s
  | .alt => msg = KS.str "in Alt"
  | .tag => msg = KS.str "in Tag"
  | .eof => msg = KS.str "in Eof"
  | .separatedList => msg = KS.str "in SeparatedList"
  | _ => False

/-- How the message of an entry is worded if the text is empty. The kinds of nom other than these do not matter here. -/
def WordedEmpty (msg : Str) : EKind → Prop
  | .char c => msg = KS.str "expected '" ++ [c] ++ KS.str "', got empty input"
  | .ctx s => msg = KS.str "in " ++ KS.str s ++ KS.str ", got empty input"
  | .eof => msg = KS.str "in Eof, got empty input"
  | .alt => msg = KS.str "in Alt, got empty input"
  | .tag => msg = KS.str "in Tag, got empty input"
  | _ => True

end KS.Spec
