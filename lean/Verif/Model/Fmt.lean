import Verif.Model.Nav
import Verif.Model.Base91
/-!
# Writers — `/repo/src/fmt/mod.rs`, `prims.rs`, `tuples.rs`, `seqs.rs`, `maps.rs`, `cntr.rs`

The `String` buffer is threaded through, `none` is a panic. Nodes are visited through the
navigator in the code; here the recursion is on the tree and carries each node's navigator
index (`idx`): the first child of node `idx` has index `idx + 1` and each next sibling follows
the previous sibling's whole subtree. `Verif/Props/Nav.lean` proves that these are the
navigator's child links.
-/

namespace KS

/-- `enum Repr`, `/repo/src/fmt/mod.rs` 366-375. -/
inductive Repr' where
  | inline
  | concise
  | verbose
deriving DecidableEq, Repr

namespace Repr'

/-- Derived `Ord` of `Repr`. -/
def rank : Repr' → Nat
  | .inline => 0
  | .concise => 1
  | .verbose => 2

instance : LE Repr' := ⟨fun a b => a.rank ≤ b.rank⟩
instance : LT Repr' := ⟨fun a b => a.rank < b.rank⟩
instance (a b : Repr') : Decidable (a ≤ b) := inferInstanceAs (Decidable (a.rank ≤ b.rank))
instance (a b : Repr') : Decidable (a < b) := inferInstanceAs (Decidable (a.rank < b.rank))

/-- `std::cmp::min`. -/
def min (a b : Repr') : Repr' := if b < a then b else a

end Repr'

/-- `struct Fmt`, `/repo/src/fmt/mod.rs` 378-384. -/
structure Fmt where
  id : Bool
  line : Repr'
deriving DecidableEq, Repr

namespace W

/-- `FIELDS_ASSIGNER`, `FIELDS_SEPARATOR`, `KEYS_ASSIGNER`, `INDENT`: `/repo/src/fmt/mod.rs` 157-161. -/
def assigner : Str := str " ="
def separator : Str := str ", "
def keysAssigner : Str := str ":"
def indentW : Nat := 4

/-- `write_indent`, `/repo/src/fmt/mod.rs` 450-452. -/
def indent (buf : Str) (n : Nat) : Str := buf ++ List.replicate n ' '

/-- `String::pop`. -/
def pop (buf : Str) : Str := buf.dropLast

/-- Pop the trailing separator, e.g. `/repo/src/fmt/tuples.rs` 30-34. -/
def popSep (buf : Str) : Str := pop (pop buf)

/-- `maybe_write_prim_ident`, `/repo/src/fmt/mod.rs` 456-464. -/
def primIdent (buf : Str) (print : Bool) (id : Option Str) : Str :=
  if print then
    match id with
    | some i => buf ++ '<' :: i ++ str "> "
    | none => buf
  else buf

/-- `maybe_write_nonprim_ident`, `/repo/src/fmt/mod.rs` 468-475. -/
def nonprimIdent (buf : Str) (print : Bool) (id : Option Str) : Str :=
  if print then
    match id with
    | some i => buf ++ i ++ [' ']
    | none => buf
  else buf

/-- The twenty delimiters in order of preference, `/repo/src/fmt/prims.rs` 34-76. -/
def delims : List Char :=
  ['"', '\'', '#', '`', '=', '|', '*', '^', '!', '%', '~', '&', '_', '\\', '/', ':', '<', '>', '(', ')']

/-- `fmt_str` without the identity, `/repo/src/fmt/prims.rs` 34-76 with `Used` 93-155; `none` is the
`panic!("exhausted delimiter options ..")`. `Used` records which delimiters occur in the text. -/
def strLit (s : Str) : Option Str :=
  match delims.find? (fun d => !s.contains d) with
  | none => none
  | some d => some ((if d = '"' then [] else str "str") ++ d :: s ++ [d])

/-- `fmt_unit`, `/repo/src/fmt/prims.rs` 20-30. -/
def unit (buf : Str) (id : Option Str) : Str :=
  match id with
  | some i => if i.isEmpty then buf ++ str "()" else buf ++ i ++ str "()"
  | none => buf ++ str "()"

/-- `fmt_byte_array` without the identity, `/repo/src/fmt/prims.rs` 83-89. -/
def barrLit (b : Bytes) : Str := str "b91'" ++ Base91.encode b ++ ['\'']

/-- `Display for bool` -/
def boolLit (b : Bool) : Str := if b then str "true" else str "false"

/-- `prims::write`, `/repo/src/fmt/prims.rs` 4-18; `none` is a panic. -/
def prim (buf : Str) (id : Option Str) (v : Value) (printId : Bool) : Option Str :=
  match v with
  | .unit => some (unit buf id)
  | .bool b => some (primIdent buf printId id ++ boolLit b)
  | .num n => some (primIdent buf printId id ++ n.disp)
  | .str s => (strLit s).map (fun l => primIdent buf printId id ++ l)
  | .barr b => some (primIdent buf printId id ++ barrLit b)
  | _ => none

/-- The `prefix` closure of `/repo/src/fmt/tuples.rs` 8-15. -/
def tuplePrefix (buf : Str) (print : Bool) (id : Option Str) : Str :=
  let buf := nonprimIdent buf print id
  let buf := if id.isSome then pop buf else buf
  buf ++ ['(']

/-- Characters written since the buffer had length `lo` (`buf[buf_lo..buf_hi].chars().count()`). -/
def written (lo : Str) (hi : Str) : Nat := hi.length - lo.length

/-- The values a verbose container writes with a heading, `/repo/src/fmt/cntr.rs` 85-119. -/
def nests : Value → Bool
  | .cntr _ => true
  | .seq _ => true
  | .map _ => true
  | _ => false

mutual
/-- `write_node`, `/repo/src/fmt/mod.rs` 486-494. -/
def node (fmts : List Fmt) : Kserd → (idx col : Nat) → Str → Option Str
  | .mk id v, idx, col, buf =>
    match fmts[idx]? with
    | none => none
    | some fmt =>
      match v with
      | .tuple l =>
        -- `tuples::write`, `/repo/src/fmt/tuples.rs` 3-55
        match fmt.line with
        | .inline =>
          (listInline fmts l (idx + 1) col (tuplePrefix buf fmt.id id)).map fun b =>
            (if l.isEmpty then b else popSep b) ++ [')']
        | .concise =>
          (listConcise fmts l (idx + 1) (col + indentW) (tuplePrefix buf fmt.id id ++ ['\n'])).map fun b =>
            indent b col ++ [')']
        | .verbose => none
      | .seq l =>
        -- `seqs::write` with `field_name = None`, `/repo/src/fmt/seqs.rs` 3-85
        match fmt.line with
        | .inline =>
          (listInline fmts l (idx + 1) col (nonprimIdent buf fmt.id id ++ ['['])).map fun b =>
            (if l.isEmpty then b else popSep b) ++ [']']
        | _ =>
          (listConcise fmts l (idx + 1) (col + indentW) (nonprimIdent buf fmt.id id ++ ['[', '\n'])).map fun b =>
            indent b col ++ [']']
      | .cntr f =>
        -- `cntr::write` with `inline_field_id = true`, `/repo/src/fmt/cntr.rs` 3-130
        match fmt.line with
        | .inline =>
          (cntrInline fmts f (idx + 1) col (nonprimIdent buf fmt.id id ++ ['('])).map fun b =>
            (if f.isEmpty then b else popSep b) ++ [')']
        | .concise =>
          (cntrConcise fmts f (idx + 1) (col + indentW) (nonprimIdent buf fmt.id id ++ ['(', '\n'])).map fun b =>
            indent b col ++ [')']
        | .verbose =>
          let buf := if fmt.id then
              match id with
              | some i => indent buf col ++ ':' :: i ++ ['\n']
              | none => buf
            else buf
          cntrVerbose fmts f (idx + 1) col buf
      | .map m =>
        -- `maps::write` with `field_name = None`, `/repo/src/fmt/maps.rs` 3-121
        match fmt.line with
        | .inline =>
          (mapInline fmts m (idx + 1) col
            (nonprimIdent buf fmt.id id ++ '{' :: (if m.isEmpty then [] else [' ']))).map fun b =>
            (if m.isEmpty then b else popSep b ++ [' ']) ++ ['}']
        | _ =>
          (mapConcise fmts m (idx + 1) (col + indentW) (nonprimIdent buf fmt.id id ++ ['{', '\n'])).map fun b =>
            indent b col ++ ['}']
      | .unit => prim buf id .unit fmt.id
      | .bool b => prim buf id (.bool b) fmt.id
      | .num n => prim buf id (.num n) fmt.id
      | .str s => prim buf id (.str s) fmt.id
      | .barr b => prim buf id (.barr b) fmt.id
termination_by structural a => a
/-- Inline elements, each followed by the separator: `/repo/src/fmt/tuples.rs` 25-28, `seqs.rs` 29-32. -/
def listInline (fmts : List Fmt) : List Kserd → (idx col : Nat) → Str → Option Str
  | [], _, _, buf => some buf
  | k :: r, idx, col, buf =>
    match node fmts k idx col buf with
    | none => none
    | some buf => listInline fmts r (idx + k.size) col (buf ++ separator)
termination_by structural a => a
/-- Concise elements: `/repo/src/fmt/tuples.rs` 42-46, `seqs.rs` 48-52. -/
def listConcise (fmts : List Fmt) : List Kserd → (idx c : Nat) → Str → Option Str
  | [], _, _, buf => some buf
  | k :: r, idx, c, buf =>
    match node fmts k idx c (indent buf c) with
    | none => none
    | some buf => listConcise fmts r (idx + k.size) c (buf ++ ['\n'])
termination_by structural a => a
/-- Verbose elements under a field name: `/repo/src/fmt/seqs.rs` 59-80. -/
def seqVerbose (fmts : List Fmt) (name : Str) : List Kserd → (idx col : Nat) → Str → Option Str
  | [], _, _, buf => some buf
  | k :: r, idx, col, buf =>
    match fmts[idx]? with
    | none => none
    | some fmt =>
      let buf := indent buf col ++ str "[[" ++ name ++ str "]]\n"
      match (if fmt.line = .verbose then node fmts k idx (col + indentW) buf
             else (node fmts k idx col (indent buf col)).map (· ++ ['\n'])) with
      | none => none
      | some buf => seqVerbose fmts name r (idx + k.size) col (buf ++ ['\n'])
termination_by structural a => a
/-- Inline fields: `/repo/src/fmt/cntr.rs` 45-49. -/
def cntrInline (fmts : List Fmt) : List (Str × Kserd) → (idx col : Nat) → Str → Option Str
  | [], _, _, buf => some buf
  | (n, k) :: r, idx, col, buf =>
    match node fmts k idx col (buf ++ n ++ assigner ++ [' ']) with
    | none => none
    | some buf => cntrInline fmts r (idx + k.size) col (buf ++ separator)
termination_by structural a => a
/-- Concise fields (`write_node_with_field_mapping`): `/repo/src/fmt/cntr.rs` 24-38 and 64-67. -/
def cntrConcise (fmts : List Fmt) : List (Str × Kserd) → (idx c : Nat) → Str → Option Str
  | [], _, _, buf => some buf
  | (n, k) :: r, idx, c, buf =>
    let head := n ++ assigner ++ [' ']
    match node fmts k idx (c + head.length) (indent buf c ++ head) with
    | none => none
    | some buf => cntrConcise fmts r (idx + k.size) c (buf ++ ['\n'])
termination_by structural a => a
/-- Verbose fields: `/repo/src/fmt/cntr.rs` 82-128. -/
def cntrVerbose (fmts : List Fmt) : List (Str × Kserd) → (idx col : Nat) → Str → Option Str
  | [], _, _, buf => some buf
  | (n, k) :: r, idx, col, buf =>
    match fmts[idx]? with
    | none => none
    | some vfmt =>
      let head := n ++ assigner ++ [' ']
      match (if vfmt.line = .verbose ∧ nests k.val = true then nested fmts vfmt.id n k idx col buf
             else (node fmts k idx (col + head.length) (indent buf col ++ head)).map (· ++ ['\n'])) with
      | none => none
      | some buf => cntrVerbose fmts r (idx + k.size) col buf
termination_by structural a => a
/-- A verbose container, sequence or map as a field: `/repo/src/fmt/cntr.rs` 85-119. The nested
`cntr::write`, `seqs::write` and `maps::write` calls are on a node whose representation is verbose, so
they take their verbose branch. -/
def nested (fmts : List Fmt) (printId : Bool) (n : Str) : Kserd → (idx col : Nat) → Str → Option Str
  | .mk vid v, idx, col, buf =>
    match v with
    | .cntr f =>
      let buf := indent (buf ++ ['\n']) col ++ '[' :: n
      let buf := if printId then
          match vid with
          | some i => buf ++ ':' :: i
          | none => buf
        else buf
      cntrVerbose fmts f (idx + 1) (col + indentW) (buf ++ str "]\n")
    | .seq l => (seqVerbose fmts n l (idx + 1) col (buf ++ ['\n'])).map pop
    | .map m => mapVerbose fmts n m (idx + 1) col (buf ++ ['\n'])
    | _ => none
termination_by structural a => a
/-- Inline entries: `/repo/src/fmt/maps.rs` 56-62. -/
def mapInline (fmts : List Fmt) : List (Kserd × Kserd) → (idx col : Nat) → Str → Option Str
  | [], _, _, buf => some buf
  | (k, v) :: r, idx, col, buf =>
    match node fmts k idx col buf with
    | none => none
    | some buf =>
      match node fmts v (idx + k.size) col (buf ++ keysAssigner ++ [' ']) with
      | none => none
      | some buf => mapInline fmts r (idx + k.size + v.size) col (buf ++ separator)
termination_by structural a => a
/-- Concise entries (`write_key_and_value_concise`): `/repo/src/fmt/maps.rs` 25-45 and 82-86. -/
def mapConcise (fmts : List Fmt) : List (Kserd × Kserd) → (idx c : Nat) → Str → Option Str
  | [], _, _, buf => some buf
  | (k, v) :: r, idx, c, buf =>
    match fmts[idx]? with
    | none => none
    | some kfmt =>
      let lo := indent buf c
      match node fmts k idx c lo with
      | none => none
      | some buf =>
        let buf := buf ++ keysAssigner ++ [' ']
        let off := if kfmt.line = .inline then written lo buf else 2 + keysAssigner.length
        match node fmts v (idx + k.size) (c + off) buf with
        | none => none
        | some buf => mapConcise fmts r (idx + k.size + v.size) c (buf ++ ['\n'])
termination_by structural a => a
/-- Verbose entries under a field name: `/repo/src/fmt/maps.rs` 90-119. Note that no indent is
written before `[[`. -/
def mapVerbose (fmts : List Fmt) (name : Str) : List (Kserd × Kserd) → (idx col : Nat) → Str → Option Str
  | [], _, _, buf => some buf
  | (k, v) :: r, idx, col, buf =>
    match fmts[idx]?, fmts[idx + k.size]? with
    | some kfmt, some vfmt =>
      let buf := buf ++ str "[[" ++ name ++ str "]]\n"
      match node fmts k idx col buf with
      | none => none
      | some kbuf =>
        let res :=
          if vfmt.line = .verbose then
            (node fmts v (idx + k.size) (col + indentW) (kbuf ++ keysAssigner ++ ['\n'])).map (· ++ ['\n'])
          else
            let kbuf := kbuf ++ keysAssigner ++ [' ']
            let off := if kfmt.line = .inline then written buf kbuf else 2 + keysAssigner.length
            (node fmts v (idx + k.size) (col + off) kbuf).map (· ++ ['\n'])
        match res with
        | none => none
        | some buf => mapVerbose fmts name r (idx + k.size + v.size) col buf
    | _, _ => none
termination_by structural a => a
end

end W
end KS
