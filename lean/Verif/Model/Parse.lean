import Verif.Model.Nom
import Verif.Model.Kserd
import Verif.Model.Base91
/-!
# Parser — `/repo/src/parse/` (`mod.rs`, `prims.rs`, `names.rs`, `wsp.rs`, `heuristics.rs`,
`list.rs`, `map.rs`, `cntr.rs`)

Recursion between parsers carries fuel; `parse` supplies the input length, and
`Verif/Props/Parse.lean` proves that it is always enough.
-/

namespace KS.P

open Nom

/-! ## `wsp.rs` -/

def isInlineWs (c : Char) : Bool := (str " \t").contains c
def isMultiWs (c : Char) : Bool := (str " \t\r\n").contains c

/-- `inline_whitespace`, `/repo/src/parse/wsp.rs` 4-7. -/
def inlineWs : Parser Str := takeWhile isInlineWs

/-- `multiline_whitespace`, `/repo/src/parse/wsp.rs` 11-14. -/
def multiWs : Parser Str := takeWhile isMultiWs

/-- `ignore_inline_whitespace`, `/repo/src/parse/wsp.rs` 17-27. -/
def ignoreWs {α : Type} (p : Parser α) : Parser α := fun i =>
  (opt inlineWs i).bind fun i _ => p i

/-! ## `names.rs` -/

def isNameChar (c : Char) : Bool := isAlnum c || c == '-' || c == '_'

/-- `valid_name`, `/repo/src/parse/names.rs` 3-15. -/
def validName : Parser Str := fun i =>
  (alt [alpha1, tag ['_']] i).bind fun _ _ =>
    context "valid name" (cut (takeWhile1 isNameChar)) i

/-- `ident`, `/repo/src/parse/names.rs` 20-33. -/
def ident (reqAngles : Bool) : Parser Str := fun i =>
  if reqAngles then
    context "identity" (preceded (char '<') (cut (terminated validName (char '>')))) i
  else context "identity" validName i

/-- `field_name`, `/repo/src/parse/names.rs` 35-40. -/
def fieldName : Parser Str := takeWhile isNameChar

/-! ## `prims.rs` -/

/-- `unit_value`, `/repo/src/parse/prims.rs` 10-18. -/
def unitValue : Parser Unit :=
  context "unit value" (map (preceded (char '(') (cut (terminated inlineWs (char ')')))) fun _ => ())

/-- `boolean`, `/repo/src/parse/prims.rs` 20-25. -/
def boolean : Parser Bool :=
  context "boolean" (alt [map (tag (str "true")) fun _ => true, map (tag (str "false")) fun _ => false])

/-- The character class of `num`, `/repo/src/parse/prims.rs` 28-32. -/
def isNumChar (c : Char) : Bool := isDigit c || (str "-.einfNa").contains c

/-- `num`, `/repo/src/parse/prims.rs` 27-36 with `from_str` 3-7. -/
def num : Parser Number :=
  context "number" fun i =>
    (takeWhile isNumChar i).bind fun r o =>
      match Number.fromStr o with
      | some n => .ok r n
      | none => .err [(i, .fail)]

/-- `parse_str`, `/repo/src/parse/prims.rs` 38-48. -/
def parseStr (d : Char) : Parser Str :=
  preceded (char d) (cut (terminated (takeTill (· == d)) (char d)))

/-- `string`, `/repo/src/parse/prims.rs` 50-57. -/
def string : Parser Str := fun i =>
  match stripPrefix (str "str") i with
  | some suff => context "string" (parseStr (suff.head?.getD '"')) suff
  | none => context "string" (parseStr '"') i

/-- `barr`, `/repo/src/parse/prims.rs` 59-72. -/
def barr : Parser Bytes :=
  context "base 91 byte array"
    (preceded (tag (str "b91'"))
      (cut (terminated (map (takeTill (· == '\'')) Base91.decode) (char '\''))))

/-- `prim_value`, `/repo/src/parse/prims.rs` 74-85. -/
def primValue : Parser Value :=
  context "primitive value"
    (alt [map unitValue fun _ => .unit, map boolean .bool, map num .num, map string .str, map barr .barr])

/-- `kserd_ctor`, `/repo/src/parse/mod.rs` 60-66 (also inlined in `prim`); the `unwrap` of a failing
`with_id` is a panic. -/
def kserdCtor (id : Option Str) (v : Value) (rest : Str) : PRes Kserd :=
  match id with
  | some i => match Kserd.withId i v with
    | .ok k => .ok rest k
    | .error _ => .panic
  | none => .ok rest (Kserd.new v)

/-- `prim`, `/repo/src/parse/prims.rs` 89-102. -/
def prim : Parser Kserd := fun i =>
  (context "primitive" (separatedPair (opt (ident true)) inlineWs primValue) i).bind fun r p =>
    kserdCtor p.1 p.2 r

/-! ## `heuristics.rs` -/

/-- `enum Nonprim`, `/repo/src/parse/heuristics.rs` 3-10. -/
inductive Nonprim where
  | tuple | cntr | seq | map | none
deriving DecidableEq, Repr

/-- `enum Ident` of `pattern_match_delimited`. -/
inductive IdentKind where
  | prim | nonprim | none
deriving DecidableEq, Repr

/-- `not` of `recognise_field_assign`, `/repo/src/parse/heuristics.rs` 111. -/
def assignStop : Str := str "<>(){}='\"\r\n"

def isMaybeName (c : Char) : Bool := isAlnum c || !assignStop.contains c

/-- `recognise_field_assign`, `/repo/src/parse/heuristics.rs` 109-115. -/
def recogniseFieldAssign (i : Str) : Bool := (terminated (takeWhile isMaybeName) (char '=') i).isOk

/-- `recognise_concise`, `/repo/src/parse/heuristics.rs` 99-106. -/
def recogniseConcise (i : Str) : Bool :=
  match i.find? (fun c => !(str " \t\r").contains c) with
  | some c => c == '\n'
  | none => false

/-- `str::starts_with` -/
def startsWith (t i : Str) : Bool := (stripPrefix t i).isSome

/-- The decision on the next delimiter, `/repo/src/parse/heuristics.rs` 44-65. -/
def nextDelim (id : IdentKind) (i : Str) : Nonprim :=
  let r :=
    match i.head?.getD ' ' with
    | '[' => Nonprim.seq
    | '{' => .map
    | '(' =>
      if (id = .none ∨ id = .prim) ∧ (unitValue i).isOk then .none
      else if recogniseFieldAssign (i.tail.dropWhile isMultiWs) then .cntr
      else .tuple
    | _ => .none
  if r ≠ .none ∧ id = .prim then .none else r

/-- `pattern_match_delimited`, `/repo/src/parse/heuristics.rs` 15-66. Returns the original input. -/
def patternDelimited : Parser Nonprim := fun orig =>
  if startsWith (str "true") orig || startsWith (str "false") orig then .ok orig .none
  else
    (opt (ident true) orig).bind fun i id =>
      match id with
      | some _ => .ok orig (nextDelim .prim (i.dropWhile isMultiWs))
      | none =>
        (opt (ident false) orig).bind fun i id =>
          match id with
          | some _ => .ok orig (nextDelim .nonprim (i.dropWhile isMultiWs))
          | none => .ok orig (nextDelim .none (orig.dropWhile isMultiWs))

/-- `encased("[", "]")` of `/repo/src/parse/heuristics.rs` 78-87. -/
def encasedName (i : Str) : Bool :=
  (preceded (tag ['[']) (terminated (ignoreWs validName) (ignoreWs (tag [']']))) i).isOk

/-- `pattern_match_verbose`, `/repo/src/parse/heuristics.rs` 70-95 (never fails; returns the original input). -/
def patternVerbose (orig : Str) : Bool :=
  let i := orig.dropWhile isMultiWs
  startsWith [':'] i || startsWith (str "[[") i || recogniseFieldAssign i || encasedName i

/-! ## `list.rs`, `map.rs`, `cntr.rs` (delimited forms), over a parser `k force` for nested Kserds -/

section Delimited

variable (k : Bool → Parser Kserd)

/-- `inline_list_kserds`, `/repo/src/parse/list.rs` 3-11. -/
def inlineList : Parser (List Kserd) :=
  context "comma separated kserds" (separatedList0 (ignoreWs (char ',')) (ignoreWs (k true)))

/-- `concise_list_kserds`, `/repo/src/parse/list.rs` 18-26. -/
def conciseList : Parser (List Kserd) :=
  preceded multiWs (cut (terminated (separatedList0 multiWs (k false)) multiWs))

/-- The common shape of `tuple`, `seq_delimited`, `map::delimited` and `cntr::delimited`: optional
identity, opening delimiter, body by layout. -/
def opened {α : Type} (force : Bool) (open_ : Char) (body : Bool → Option Str → Parser α) : Parser α := fun i =>
  (opt (ident false) i).bind fun i id =>
    (ignoreWs (char open_) i).bind fun i _ =>
      body (recogniseConcise i && !force) id i

/-- `tuple`, `/repo/src/parse/list.rs` 31-63. -/
def tuple (force : Bool) : Parser Kserd :=
  opened force '(' fun concise id i =>
    (context (if concise then "multi-line (concise) tuple" else "inline tuple")
      (cut (terminated (if concise then conciseList k else inlineList k) (ignoreWs (char ')')))) i).bind
      fun r l => kserdCtor id (.tuple l) r

/-- `seq_delimited`, `/repo/src/parse/list.rs` 68-100. -/
def seqDelimited (force : Bool) : Parser Kserd :=
  opened force '[' fun concise id i =>
    (context (if concise then "multi-line (concise) sequence" else "inline sequence")
      (cut (terminated (if concise then conciseList k else inlineList k) (ignoreWs (char ']')))) i).bind
      fun r l => kserdCtor id (.seq l) r

/-- `kvp_kserd_to_kserd`, `/repo/src/parse/map.rs` 4-23. -/
def kvpKserd (force : Bool) : Parser (Kserd × Kserd) :=
  context "kserd-kserd key-value pair"
    (separatedPair (alt [k false, k true]) (ignoreWs (char ':')) (ignoreWs (k force)))

/-- `inline_map_kserds`, `/repo/src/parse/map.rs` 26-36. -/
def inlineMap : Parser (List (Kserd × Kserd)) :=
  context "comma separated kserd-kserd pair"
    (separatedList0 (ignoreWs (char ',')) (ignoreWs (kvpKserd k true)))

/-- `concise_map_kserds`, `/repo/src/parse/map.rs` 39-52. -/
def conciseMap : Parser (List (Kserd × Kserd)) :=
  context "newline separated (concise) kserd-kserd pair"
    (preceded multiWs (terminated (separatedList0 multiWs (kvpKserd k false)) multiWs))

/-- `map::delimited`, `/repo/src/parse/map.rs` 57-82. -/
def mapDelimited (force : Bool) : Parser Kserd :=
  opened force '{' fun concise id i =>
    (context (if concise then "concise map" else "inline map")
      (terminated (if concise then conciseMap k else inlineMap k) (ignoreWs (char '}'))) i).bind
      fun r l => kserdCtor id (.map (BTree.fromIter Kserd.cmp Kserd.eq l)) r

/-- `kvp_kserdstr_to_kserd`, `/repo/src/parse/cntr.rs` 4-19. -/
def kvpField (force : Bool) : Parser (Str × Kserd) :=
  context "name-kserd key value pair"
    (separatedPair fieldName (ignoreWs (char '=')) (ignoreWs (cut (k force))))

/-- `inline_cntr_kserds`, `/repo/src/parse/cntr.rs` 22-32. -/
def inlineCntr : Parser (List (Str × Kserd)) :=
  context "comma separated kserdstr-kserd pair"
    (separatedList0 (ignoreWs (char ',')) (ignoreWs (kvpField k true)))

/-- `concise_cntr_kserds`, `/repo/src/parse/cntr.rs` 35-48. -/
def conciseCntr : Parser (List (Str × Kserd)) :=
  context "newline separated (concise) kserdstr-kserd pair"
    (preceded multiWs (cut (terminated (separatedList0 multiWs (kvpField k false)) multiWs)))

/-- `cntr::delimited`, `/repo/src/parse/cntr.rs` 50-79. -/
def cntrDelimited (force : Bool) : Parser Kserd :=
  opened force '(' fun concise id i =>
    (context (if concise then "concise container" else "inline container")
      (terminated (if concise then conciseCntr k else inlineCntr k) (ignoreWs (char ')'))) i).bind
      fun r l => kserdCtor id (.cntr (BTree.fromIter cmpStr (fun a b => a == b) l)) r

end Delimited

/-- `kserd_delimited`, `/repo/src/parse/mod.rs` 68-82, with recursion fuel. -/
def kserdDelimited : Nat → Bool → Parser Kserd
  | 0, _, _ => .oof
  | f + 1, force, i =>
    (patternDelimited i).bind fun i pat =>
      match pat with
      | .tuple => tuple (kserdDelimited f) force i
      | .cntr => cntrDelimited (kserdDelimited f) force i
      | .seq => seqDelimited (kserdDelimited f) force i
      | .map => mapDelimited (kserdDelimited f) force i
      | .none => prim i

/-- `kserd_inline`, `/repo/src/parse/mod.rs` 84-86. -/
def kserdInline : Parser Kserd := fun i => kserdDelimited (i.length + 1) true i

/-- `kserd_concise`, `/repo/src/parse/mod.rs` 88-90. -/
def kserdConcise : Parser Kserd := fun i => kserdDelimited (i.length + 1) false i

/-- `uncut`, `/repo/src/parse/mod.rs` 117-127. -/
def uncut {α : Type} (p : Parser α) : Parser α := fun i =>
  match p i with
  | .fail e => .err e
  | r => r

/-! ## `cntr.rs`, verbose form -/

/-- `enum ContainerField`, `/repo/src/parse/cntr.rs` 162-178. -/
inductive CField where
  | id (i : Str)
  | direct (name : Str) (v : Kserd)
  | nested (name : Str) (v : Kserd)
  | seqEntry (id : Option Str) (name : Str) (v : Kserd)
  | mapEntry (id : Option Str) (name : Str) (key v : Kserd)
deriving DecidableEq

/-- `expect_indents`, `/repo/src/parse/cntr.rs` 290-301. -/
def expectIndents : Nat → Parser Unit
  | 0, i => .ok i ()
  | n + 1, i => (alt [tag (str "    "), tag ['\t']] i).bind fun r _ => expectIndents n r

/-- The blank-line skipping loop, `/repo/src/parse/cntr.rs` 187-198. -/
def skipBlank : Nat → Parser Unit
  | 0, _ => .oof
  | n + 1, i =>
    (opt (ignoreWs lineEnding) i).bind fun r yes =>
      if yes.isSome then skipBlank n r else .ok i ()

/-- `verbose_field_name_and_identity`, `/repo/src/parse/cntr.rs` 305-318. -/
def nameAndIdentity : Parser (Str × Option Str) :=
  context "verbose container field name" fun i =>
    (ignoreWs fieldName i).bind fun i fname =>
      match ignoreWs (char ':') i with
      | .ok i _ => (ignoreWs (ident false) i).bind fun i id => .ok i (fname, some id)
      | .err _ => .ok i (fname, none)
      | .fail _ => .ok i (fname, none)
      | .panic => .panic
      | .oof => .oof

/-- The map entry branch, `/repo/src/parse/cntr.rs` 239-248; `nested` is `kserd_nested(indents + 1)`. -/
def mapEntryValue (nested : Parser Kserd) : Parser Kserd :=
  context "verbose map entry" (alt [ignoreWs kserdConcise, preceded (ignoreWs lineEnding) nested])

/-- The `[[name]]` branch, `/repo/src/parse/cntr.rs` 215-266. -/
def entryField (nested : Parser Kserd) : Parser CField := fun i =>
  (context "field name. expecting 'field_name[:identity]'"
    (cut (preceded (tag (str "[[")) (terminated nameAndIdentity (ignoreWs (tag (str "]]")))))) i).bind
  fun i ni => (ignoreWs lineEnding i).bind fun i _ =>
    (opt (terminated (ignoreWs (uncut kserdInline)) (ignoreWs (char ':'))) i).bind fun i key =>
      match key with
      | some key => (mapEntryValue nested i).bind fun i v => .ok i (.mapEntry ni.2 ni.1 key v)
      | none => (context "verbose sequence entry" nested i).bind fun i v => .ok i (.seqEntry ni.2 ni.1 v)

/-- The `[name]` branch, `/repo/src/parse/cntr.rs` 267-280. -/
def nestedField (nested : Parser Kserd) : Parser CField := fun i =>
  (preceded (tag ['[']) (terminated nameAndIdentity (ignoreWs (tag [']']))) i).bind
  fun i ni => (ignoreWs lineEnding i).bind fun i _ =>
    (context "nested container" nested i).bind fun i v =>
      .ok i (.nested ni.1 (.mk (v.id.or ni.2) v.val))

/-- What follows the indentation, `/repo/src/parse/cntr.rs` 206-288. -/
def fieldBody (nested : Parser Kserd) : Parser CField := fun i =>
  if i.isEmpty || (ignoreWs lineEnding i).isOk then .err [(i, .eof)]
  else match i with
    | ':' :: rem => (ignoreWs (ident false) rem).bind fun i id => .ok i (.id id)
    | '[' :: '[' :: _ => entryField nested i
    | '[' :: _ => nestedField nested i
    | _ =>
      (cut (kvpField (fun force => if force then kserdInline else kserdConcise) false) i).bind
        fun i p => .ok i (.direct p.1 p.2)

/-- `verbose_cntr_field`, `/repo/src/parse/cntr.rs` 180-288. -/
def verboseField (nested : Parser Kserd) (indents : Nat) : Parser CField := fun i =>
  (skipBlank' i).bind fun i _ =>
    (expectIndents indents i).bind fun i _ =>
      (inlineWs i).bind fun i _ => fieldBody nested i
where
  /-- Skip blank lines; the fuel is the input length. -/
  skipBlank' (i : Str) : PRes Unit := skipBlank (i.length + 1) i

/-- Accumulator of `/repo/src/parse/cntr.rs` 103-106: `seqs`, `maps`, `rfields`, `identity`. -/
structure CAcc where
  seqs : List (Str × (Option Str × List Kserd)) := []
  maps : List (Str × (Option Str × KMap)) := []
  rfields : Fields := []
  identity : Option Str := none

/-- The `for field in fields` body, `/repo/src/parse/cntr.rs` 108-138.
`entry(..).or_insert_with(..)` followed by an update is a lookup and insert. -/
def CAcc.step (a : CAcc) : CField → CAcc
  | .id i => { a with identity := some i }
  | .direct n v => { a with rfields := BTree.insert cmpStr n v a.rfields }
  | .nested n v => { a with rfields := BTree.insert cmpStr n v a.rfields }
  | .seqEntry id n v =>
    let (x, s) := (BTree.get cmpStr n a.seqs).getD (none, [])
    { a with seqs := BTree.insert cmpStr n (id.or x, s ++ [v]) a.seqs }
  | .mapEntry id n key v =>
    let (x, m) := (BTree.get cmpStr n a.maps).getD (none, [])
    { a with maps := BTree.insert cmpStr n (id.or x, BTree.insert Kserd.cmp key v m) a.maps }

/-- The final assembly, `/repo/src/parse/cntr.rs` 140-157. -/
def CAcc.finish (a : CAcc) : Kserd :=
  let r := a.seqs.foldl (fun r p => BTree.insert cmpStr p.1 (Kserd.mk p.2.1 (.seq p.2.2)) r) a.rfields
  let r := a.maps.foldl (fun r p => BTree.insert cmpStr p.1 (Kserd.mk p.2.1 (.map p.2.2)) r) r
  .mk a.identity (.cntr r)

/-- `cntr::verbose`, `/repo/src/parse/cntr.rs` 97-158; `nested` is `kserd_nested(indents + 1)`. -/
def verbose (nested : Parser Kserd) (indents : Nat) : Parser Kserd := fun i =>
  (many0 (verboseField nested indents) i).bind fun r fields =>
    .ok r (fields.foldl CAcc.step {}).finish

/-- `kserd_nested`, `/repo/src/parse/mod.rs` 92-104, with recursion fuel. -/
def kserdNested : Nat → Nat → Parser Kserd
  | 0, _, _ => .oof
  | f + 1, indents, i =>
    if patternVerbose i then verbose (kserdNested f (indents + 1)) indents i
    else ignoreWs kserdConcise i

/-- `kserd_root`, `/repo/src/parse/mod.rs` 106-114. -/
def kserdRoot : Parser Kserd := fun i =>
  if i.isEmpty then .err [(i, .eof), (i, .ctx "empty input")]
  else allConsuming (terminated (kserdNested (i.length + 1) 0) multiWs) i

end P

/-- Result of `parse`: a `Kserd`, the `VerboseError`, or (never, as proved) a panic or lack of fuel. -/
inductive ParseRes where
  | ok (k : Kserd)
  | err (e : PErr)
  | panic
  | oof
deriving DecidableEq

/-- `parse`, `/repo/src/parse/mod.rs` 210-219. -/
def parse (s : Str) : ParseRes :=
  match P.kserdRoot s with
  | .ok _ k => .ok k
  | .err e => .err e
  | .fail e => .err e
  | .panic => .panic
  | .oof => .oof

end KS
