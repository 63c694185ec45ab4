import Verif.Model.Parse
import Verif.Model.BTree
/-!
# Parse errors — `/repo/src/parse/err.rs`

`parse` hands the `VerboseError` to `Error::new` (`/repo/src/parse/mod.rs` 210-219). Offsets are bytes. A position is the remaining
input (see `Nom.lean`), so its offset is the byte length of the source less that of the remainder.
-/

namespace KS

/-- UTF-8 length in bytes (`str::len`). -/
def utf8Len : Str → Nat
  | [] => 0
  | c :: r => c.utf8Size + utf8Len r

/-- `offset`, `/repo/src/parse/err.rs` 131-133, for a suffix of the source. -/
def errOffset (src sub : Str) : Nat := utf8Len src - utf8Len sub

/-- `str::split_inclusive('\n')` (std). -/
def splitIncl : Str → List Str
  | [] => []
  | c :: r =>
    if c = '\n' then [c] :: splitIncl r
    else match splitIncl r with
      | [] => [[c]]
      | l :: ls => (c :: l) :: ls

/-- Strip a line terminator: what `str::lines` does to each piece (std). -/
def chomp (l : Str) : Str :=
  match l.reverse with
  | '\n' :: '\r' :: r => r.reverse
  | '\n' :: r => r.reverse
  | _ => l

/-- `lines().enumerate().map(..)` of `lines_to_map`, `/repo/src/parse/err.rs` 148-153: start offset, line number, text. -/
def lineEntries : Nat → Nat → List Str → List (Nat × (Nat × Str))
  | _, _, [] => []
  | off, n, l :: ls => (off, (n, chomp l)) :: lineEntries (off + utf8Len l) (n + 1) ls

/-- `lines_to_map`, `/repo/src/parse/err.rs` 148-153. -/
def linesToMap (src : Str) : List (Nat × (Nat × Str)) :=
  BTree.fromIter compare (fun a b => a == b) (lineEntries 0 1 (splitIncl src))

/-- `get_line`, `/repo/src/parse/err.rs` 136-144: the last entry in the range `..=offset`. -/
def getLine (lines : List (Nat × (Nat × Str))) (offset : Nat) : Option (Nat × (Nat × Str)) :=
  (lines.filter (fun p => p.1 ≤ offset)).getLast?

/-- `struct Error`, `/repo/src/parse/mod.rs`. -/
structure ParseError where
  errs : List (Nat × EKind)
  lines : List (Nat × (Nat × Str))
  emptyInput : Bool

/-- `Error::new`, `/repo/src/parse/err.rs` 7-17. -/
def ParseError.new (src : Str) (e : PErr) : ParseError :=
  ⟨e.map fun x => (errOffset src x.1, x.2), linesToMap src, src.isEmpty⟩

/-- `struct Trace`, `/repo/src/parse/mod.rs`. -/
structure Trace where
  line : Nat
  col : Nat
  linestr : Str
  msg : Str
deriving DecidableEq

/-- `Debug` of `nom::error::ErrorKind` (derived). -/
def EKind.debug : EKind → Str
  | .ctx s => str s
  | .char _ => str "Char"
  | .alt => str "Alt"
  | .tag => str "Tag"
  | .eof => str "Eof"
  | .alpha => str "Alpha"
  | .takeWhile1 => str "TakeWhile1"
  | .crlf => str "CrLf"
  | .fail => str "Fail"
  | .many0 => str "Many0"
  | .separatedList => str "SeparatedList"

/-- `make_empty_trace`, `/repo/src/parse/err.rs` 155-169. -/
def emptyTrace (k : EKind) : Trace :=
  ⟨0, 0, [], (match k with
    | .char c => str "expected '" ++ [c] ++ str "'"
    | k => str "in " ++ k.debug) ++ str ", got empty input"⟩

/-- `&s[col..]`: `none` (a panic) unless `col` is a character boundary within `s`. -/
def sliceFrom : Nat → Str → Option Str
  | 0, s => some s
  | _ + 1, [] => none
  | n + 1, c :: r => if c.utf8Size ≤ n + 1 then sliceFrom (n + 1 - c.utf8Size) r else none

/-- `make_trace_msg`, `/repo/src/parse/err.rs` 171-192; `none` is a panic of the slice or the `expect`. -/
def traceMsg (linestr : Str) (col : Nat) : EKind → Option Str
  | .char c =>
    if utf8Len linestr ≤ col then some (str "expected '" ++ [c] ++ str "', reached end of line or end of file first")
    else match sliceFrom col linestr with
      | some (d :: _) => some (str "expected '" ++ [c] ++ str "', found '" ++ [d] ++ str "'")
      | _ => none
  | k => some (str "in " ++ k.debug)

/-- `Error::get`, `/repo/src/parse/err.rs` 22-43. The outer `none` is a panic, `some none` an index out of range. -/
def ParseError.get (e : ParseError) (idx : Nat) : Option (Option Trace) :=
  match e.errs[idx]? with
  | none => some none
  | some (off, k) =>
    if e.emptyInput then some (some (emptyTrace k))
    else match getLine e.lines off with
      | none => none
      | some (lo, (n, l)) =>
        match traceMsg l (off - lo) k with
        | none => none
        | some m => some (some ⟨n, off - lo + 1, l, m⟩)

/-- `Display for Trace`, `/repo/src/parse/err.rs` 115-129. -/
def Trace.display (t : Trace) : Str :=
  str "at " ++ natDigits t.line ++ str ":" ++ natDigits t.col ++ str " :: " ++ t.msg ++ str "\n" ++ t.linestr ++ str "\n" ++
    (if 0 < t.col then List.replicate (t.col - 1) ' ' ++ str "^" else [])

/-- `Error::iter` collected, `/repo/src/parse/err.rs` 46-48, from index `i` for `n` indices. -/
def ParseError.iterFrom (e : ParseError) : Nat → Nat → Option (List Trace)
  | _, 0 => some []
  | i, n + 1 =>
    match e.get i, iterFrom e (i + 1) n with
    | some (some t), some l => some (t :: l)
    | some none, some l => some l
    | _, _ => none

/-- The loop of `Error::backtrace`, `/repo/src/parse/err.rs` 95-104, `last` the last index. -/
def backtraceFrom (last : Nat) : Nat → List Trace → Str
  | _, [] => []
  | i, t :: r =>
    str "#" ++ natDigits i ++ str ": " ++ t.display ++ (if i = last then [] else str "\n\n") ++ backtraceFrom last (i + 1) r

/-- `Error::backtrace`, `/repo/src/parse/err.rs` 88-107 (writing to memory and UTF-8 validity cannot fail). -/
def ParseError.backtrace (e : ParseError) : Option Str :=
  (e.iterFrom 0 e.errs.length).map (backtraceFrom (e.errs.length - 1) 0)

/-- The public `parse`, `/repo/src/parse/mod.rs` 210-219, with the error converted. `none` is a panic or lack of fuel. -/
def parseText (s : Str) : Option (Except ParseError Kserd) :=
  match parse s with
  | .ok k => some (.ok k)
  | .err e => some (.error (ParseError.new s e))
  | .panic => none
  | .oof => none

end KS
