import Verif.Model.Basic
/-!
# The nom 7 combinators used by `/repo/src/parse/`

Re-modelled from nom 7 (complete, i.e. non-streaming, parsers on `&str`); trusted base.
A parser consumes a prefix of its input. An error position is the remaining input at that point,
which stands for the pointer into the source text.
`panic` marks a Rust panic and `oof` the exhaustion of the model's recursion fuel; neither is
a Rust result and theorems show that neither occurs.
-/

namespace KS

/-- `nom::error::VerboseErrorKind` with the `ErrorKind`s that can occur. -/
inductive EKind where
  | ctx (s : String)
  | char (c : Char)
  | alt | tag | eof | alpha | takeWhile1 | crlf | fail | many0 | separatedList
deriving DecidableEq, Repr

/-- `nom::error::VerboseError<&str>`. -/
abbrev PErr := List (Str × EKind)

/-- `nom::IResult` (`Err::Error`, `Err::Failure`). -/
inductive PRes (α : Type) where
  | ok (rest : Str) (a : α)
  | err (e : PErr)
  | fail (e : PErr)
  | panic
  | oof
deriving Repr, DecidableEq

abbrev Parser (α : Type) := Str → PRes α

namespace PRes

/-- The `?` operator / sequencing. -/
def bind {α β : Type} (r : PRes α) (f : Str → α → PRes β) : PRes β :=
  match r with
  | .ok i a => f i a
  | .err e => .err e
  | .fail e => .fail e
  | .panic => .panic
  | .oof => .oof

/-- `Result::is_ok`. -/
def isOk {α : Type} : PRes α → Bool
  | .ok _ _ => true
  | _ => false

end PRes

namespace Nom

variable {α β γ : Type}

/-- `combinator::map` -/
def map (p : Parser α) (f : α → β) : Parser β := fun i => (p i).bind fun r a => .ok r (f a)

/-- `character::complete::char` -/
def char (c : Char) : Parser Char
  | [] => .err [([], .char c)]
  | x :: r => if x = c then .ok r x else .err [(x :: r, .char c)]

/-- Strip a literal prefix (`str::strip_prefix`). -/
def stripPrefix : Str → Str → Option Str
  | [], i => some i
  | _ :: _, [] => none
  | a :: t, b :: i => if a = b then stripPrefix t i else none

/-- `bytes::complete::tag` -/
def tag (t : Str) : Parser Str := fun i =>
  match stripPrefix t i with
  | some r => .ok r t
  | none => .err [(i, .tag)]

/-- `bytes::complete::take_while` -/
def takeWhile (p : Char → Bool) : Parser Str := fun i => .ok (i.dropWhile p) (i.takeWhile p)

/-- `bytes::complete::take_till` -/
def takeTill (p : Char → Bool) : Parser Str := takeWhile (fun c => !p c)

/-- `bytes::complete::take_while1` -/
def takeWhile1 (p : Char → Bool) : Parser Str := fun i =>
  match i.takeWhile p with
  | [] => .err [(i, .takeWhile1)]
  | a => .ok (i.dropWhile p) a

/-- `character::complete::alpha1` -/
def alpha1 : Parser Str := fun i =>
  match i.takeWhile isAlpha with
  | [] => .err [(i, .alpha)]
  | a => .ok (i.dropWhile isAlpha) a

/-- `character::complete::line_ending` -/
def lineEnding : Parser Str
  | '\n' :: r => .ok r ['\n']
  | '\r' :: '\n' :: r => .ok r ['\r', '\n']
  | i => .err [(i, .crlf)]

/-- `combinator::opt` -/
def opt (p : Parser α) : Parser (Option α) := fun i =>
  match p i with
  | .ok r a => .ok r (some a)
  | .err _ => .ok i none
  | .fail e => .fail e
  | .panic => .panic
  | .oof => .oof

/-- `combinator::cut` -/
def cut (p : Parser α) : Parser α := fun i =>
  match p i with
  | .err e => .fail e
  | r => r

/-- `error::context` -/
def context (s : String) (p : Parser α) : Parser α := fun i =>
  match p i with
  | .err e => .err (e ++ [(i, .ctx s)])
  | .fail e => .fail (e ++ [(i, .ctx s)])
  | r => r

/-- `branch::alt` on a non-empty tuple of parsers. On errors the last error is kept. -/
def alt : List (Parser α) → Parser α
  | [], i => .err [(i, .alt)]
  | [p], i =>
    match p i with
    | .err e => .err (e ++ [(i, .alt)])
    | r => r
  | p :: ps, i =>
    match p i with
    | .err _ => alt ps i
    | r => r

/-- `sequence::preceded` -/
def preceded (p : Parser α) (q : Parser β) : Parser β := fun i => (p i).bind fun r _ => q r

/-- `sequence::terminated` -/
def terminated (p : Parser α) (q : Parser β) : Parser α := fun i =>
  (p i).bind fun r a => (q r).bind fun r' _ => .ok r' a

/-- `sequence::separated_pair` -/
def separatedPair (p : Parser α) (s : Parser β) (q : Parser γ) : Parser (α × γ) := fun i =>
  (p i).bind fun r a => (s r).bind fun r' _ => (q r').bind fun r'' c => .ok r'' (a, c)

/-- `combinator::all_consuming` -/
def allConsuming (p : Parser α) : Parser α := fun i =>
  (p i).bind fun r a => if r.isEmpty then .ok r a else .err [(r, .eof)]

/-- The loop of `multi::separated_list0`; `acc` in reverse. -/
def sepLoop (sep : Parser β) (f : Parser α) : Nat → Str → List α → PRes (List α)
  | 0, _, _ => .oof
  | n + 1, i, acc =>
    match sep i with
    | .err _ => .ok i acc.reverse
    | .fail e => .fail e
    | .panic => .panic
    | .oof => .oof
    | .ok i1 _ =>
      if i1.length = i.length then .err [(i1, .separatedList)]
      else
        match f i1 with
        | .err _ => .ok i acc.reverse
        | .fail e => .fail e
        | .panic => .panic
        | .oof => .oof
        | .ok i2 a => sepLoop sep f n i2 (a :: acc)

/-- `multi::separated_list0` -/
def separatedList0 (sep : Parser β) (f : Parser α) : Parser (List α) := fun i =>
  match f i with
  | .err _ => .ok i []
  | .fail e => .fail e
  | .panic => .panic
  | .oof => .oof
  | .ok i1 a => sepLoop sep f (i1.length + 1) i1 [a]

/-- The loop of `multi::many0`; `acc` in reverse. -/
def many0Loop (f : Parser α) : Nat → Str → List α → PRes (List α)
  | 0, _, _ => .oof
  | n + 1, i, acc =>
    match f i with
    | .err _ => .ok i acc.reverse
    | .fail e => .fail e
    | .panic => .panic
    | .oof => .oof
    | .ok i1 a => if i1.length = i.length then .err [(i, .many0)] else many0Loop f n i1 (a :: acc)

/-- `multi::many0` -/
def many0 (f : Parser α) : Parser (List α) := fun i => many0Loop f (i.length + 1) i []

end Nom
end KS
