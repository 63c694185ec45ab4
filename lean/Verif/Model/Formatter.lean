import Verif.Model.Fmt
/-!
# Formatter and width solver — `/repo/src/fmt/formatter.rs`, `/repo/src/fmt/solver.rs`
-/

namespace KS

/-- The variants of `NodeValue`, `/repo/src/nav/mod.rs` and `/repo/src/nav/value.rs` 4-29. -/
inductive Kind where
  | prim | tuple | cntr | seq | map
deriving DecidableEq, Repr

/-- `NodeInner::value`, `/repo/src/nav/value.rs` 4-29. -/
def Value.kind : Value → Kind
  | .tuple _ => .tuple
  | .cntr _ => .cntr
  | .seq _ => .seq
  | .map _ => .map
  | _ => .prim

/-- `enum FmtError`, `/repo/src/fmt/formatter.rs` 404-425. `panic` is not a Rust error: it marks
an `unwrap`/`expect`/`unreachable!` panic. -/
inductive FmtError where
  | idxOutOfBounds
  | parentIsInline
  | parentIsConcise
  | requestTooHigh (max requested : Repr')
  | seqMapAtRoot
  | panic
deriving DecidableEq, Repr

/-- `struct Formatter`, `/repo/src/fmt/formatter.rs` 89-92. `root` is the borrowed `Kserd`. -/
structure Formatter where
  root : Kserd
  nav : Navigator
  fmts : List Fmt

namespace Formatter

/-- `max_line_repr`, `/repo/src/fmt/formatter.rs` 365-377. The emptiness tests look at the number of
value children of the node. -/
def maxLineRepr (n : NavNode) : Repr' :=
  match n.kserd.val.kind with
  | .prim => .inline
  | .tuple => if n.valueChildren.isEmpty then .inline else .concise
  | _ => if n.valueChildren.isEmpty then .inline else .verbose

/-- `validate_requst_repr`, `/repo/src/fmt/formatter.rs` 381-401. -/
def validateRequest (maxAllowed : Repr') (parent : Option Repr') (requested : Repr') : Except FmtError Repr' :=
  let parent := parent.getD .verbose
  if maxAllowed < requested then .error (.requestTooHigh maxAllowed requested)
  else if parent < requested then
    match parent with
    | .inline => .error .parentIsInline
    | .concise => .error .parentIsConcise
    | .verbose => .error .panic
  else .ok requested

/-- Lower every listed node to at most `repr`, `/repo/src/fmt/formatter.rs` 339-345. -/
def lowerAll (repr : Repr') (fmts : List Fmt) (ds : List Nat) : List Fmt :=
  ds.foldl (fun fmts d => fmts.modify d fun f => if repr < f.line then { f with line := repr } else f) fmts

/-- `request_repr_alteration`, `/repo/src/fmt/formatter.rs` 312-348. -/
def request (f : Formatter) (idx : Nat) (requested : Repr') : Except FmtError Formatter :=
  match f.nav[idx]? with
  | none => .error .idxOutOfBounds
  | some node =>
    match f.fmts[idx]? with
    | none => .error .panic
    | some fmt =>
      if requested = fmt.line then .ok f
      else if idx = 0 ∧ requested = .verbose ∧ (node.kserd.val.kind = .seq ∨ node.kserd.val.kind = .map) then
        .error .seqMapAtRoot
      else
        -- `line_repr_constraints`, 302-310
        let parentLine := (Nav.parent f.nav node).bind fun p => f.fmts[p.idx]?.map (·.line)
        match validateRequest (maxLineRepr node) parentLine requested with
        | .error e => .error e
        | .ok repr =>
          match Nav.descendantsDepth f.nav node with
          | none => .error .panic
          | some ds =>
            -- the `unwrap` of 340
            if ds.all (fun d => decide (d < f.fmts.length)) then
              .ok { f with fmts := lowerAll repr (f.fmts.modify idx fun x => { x with line := repr }) ds }
            else .error .panic

/-- `request(..).ok()`: ignore a refusal; `none` is a panic. -/
def requestOk (f : Formatter) (idx : Nat) (requested : Repr') : Option Formatter :=
  match f.request idx requested with
  | .ok f' => some f'
  | .error .panic => none
  | .error _ => some f

/-- The per-node initial format, `/repo/src/fmt/formatter.rs` 105-116. -/
def initFmt (n : NavNode) : Fmt :=
  let line := maxLineRepr n
  { id := true, line := if Nav.isKey n then Repr'.min line .concise else line }

/-- One step of the lowering pass, `/repo/src/fmt/formatter.rs` 130-139. -/
def lowerStep (f : Formatter) (i : Nat) : Option Formatter :=
  match (f.nav[i]?).bind (fun n => Nav.parent f.nav n) with
  | none => some f
  | some p =>
    match f.fmts[i]?, f.fmts[p.idx]? with
    | some n, some pf => if pf.line < n.line then f.requestOk i pf.line else some f
    | _, _ => none

/-- The formats before any request, `/repo/src/fmt/formatter.rs` 99-118. -/
def init (root : Kserd) : Formatter :=
  { root := root, nav := Nav.new root, fmts := (Nav.new root).map initFmt }

/-- The request for a root sequence or map, `/repo/src/fmt/formatter.rs` 120-128. -/
def rootStep (root : Kserd) : Option Formatter :=
  match root.val.kind with
  | .seq => (init root).requestOk 0 .concise
  | .map => (init root).requestOk 0 .concise
  | _ => some (init root)

/-- `Formatter::new`, `/repo/src/fmt/formatter.rs` 98-143; `none` is a panic. -/
def new (root : Kserd) : Option Formatter :=
  match rootStep root with
  | none => none
  | some f => ((Nav.new root).map (·.idx)).foldlM lowerStep f

/-- `Formatter::id`, `/repo/src/fmt/formatter.rs` 180-185. -/
def setId (f : Formatter) (idx : Nat) (write : Bool) : Except FmtError Formatter :=
  if idx < f.fmts.length then .ok { f with fmts := f.fmts.modify idx fun x => { x with id := write } }
  else .error .idxOutOfBounds

/-- `Formatter::write_string`, `/repo/src/fmt/formatter.rs` 295-297; `none` is a panic. -/
def writeString (f : Formatter) (buf : Str) : Option Str := W.node f.fmts f.root 0 0 buf

end Formatter

/-- `struct FormattingConfig`, `/repo/src/fmt/mod.rs` 226-349, defaults 352-364. -/
structure FormattingConfig where
  idOnPrimitives : Bool := false
  idOnTuples : Bool := true
  idOnContainers : Bool := true
  idOnSeqs : Bool := false
  idOnMaps : Bool := false
  widthLimit : Option Nat := some 60
deriving DecidableEq, Repr

namespace Solver

/-- Number of characters of `char::escape_default` (std). -/
def escLen (c : Char) : Nat :=
  if c = '\t' ∨ c = '\r' ∨ c = '\n' ∨ c = '\'' ∨ c = '"' ∨ c = '\\' then 2
  else if 0x20 ≤ c.toNat ∧ c.toNat ≤ 0x7e then 1
  else 4 + (Nat.toDigits 16 c.toNat).length

def idLen (id : Option Str) : Nat := (id.map List.length).getD 0

/-- `inline_width`, `/repo/src/fmt/solver.rs` 54-124. -/
def inlineWidth (config : FormattingConfig) (id : Option Str) (v : Value) : Nat :=
  let ident := idLen id
  let primIdent := if config.idOnPrimitives then ident + 3 else 0
  let named := fun (on : Bool) => if 0 < ident ∧ on then ident + 1 else 0
  match v with
  | .unit => if 0 < ident then ident else 2
  | .bool b => primIdent + (if b then 4 else 5)
  | .num n => primIdent + n.disp.length
  | .str s => 2 + primIdent + (s.map escLen).sum
  | .barr b => 3 + primIdent + b.length * 2 + (b.length - 1) * W.separator.length
  | .tuple l => 2 + (l.length - 1) * W.separator.length + named config.idOnTuples
  | .cntr f => 2 + (f.length - 1) * W.separator.length + (f.map (fun p => p.1.length)).sum
      + f.length * (W.assigner.length + 1) + named config.idOnContainers
  | .seq l => 2 + (l.length - 1) * W.separator.length + named config.idOnSeqs
  | .map m => 2 + (m.length - 1) * W.separator.length + m.length * (W.keysAssigner.length + 1)
      + named config.idOnMaps

/-- `concise_width`, `/repo/src/fmt/solver.rs` 232-268. -/
def conciseWidth (config : FormattingConfig) (id : Option Str) (v : Value) : Nat :=
  let ident := idLen id
  match v with
  | .tuple _ => 1 + (if config.idOnTuples then ident + 1 else 0)
  | .cntr _ => 1 + (if config.idOnContainers then ident + 1 else 0)
  | .seq _ => 1 + (if config.idOnSeqs then ident + 1 else 0)
  | .map _ => 1 + (if config.idOnMaps then ident + 1 else 0)
  | v => inlineWidth config id v

/-! `inline_widths`, `/repo/src/fmt/solver.rs` 3-52: the sum over the subtree. The memo table over
navigator indices is replaced by recursion on the tree. -/
mutual
def inlineTotal (config : FormattingConfig) : Kserd → Nat
  | .mk id v => inlineWidth config id v + inlineTotalV config v
termination_by structural a => a
def inlineTotalV (config : FormattingConfig) : Value → Nat
  | .tuple l => inlineTotalL config l
  | .cntr f => inlineTotalF config f
  | .seq l => inlineTotalL config l
  | .map m => inlineTotalM config m
  | _ => 0
termination_by structural a => a
def inlineTotalL (config : FormattingConfig) : List Kserd → Nat
  | [] => 0
  | k :: r => inlineTotal config k + inlineTotalL config r
termination_by structural a => a
def inlineTotalF (config : FormattingConfig) : List (Str × Kserd) → Nat
  | [] => 0
  | (_, k) :: r => inlineTotal config k + inlineTotalF config r
termination_by structural a => a
def inlineTotalM (config : FormattingConfig) : List (Kserd × Kserd) → Nat
  | [] => 0
  | (k, v) :: r => inlineTotal config k + inlineTotal config v + inlineTotalM config r
termination_by structural a => a
end

/-! `concise_widths`, `/repo/src/fmt/solver.rs` 126-230: the maximum over the lines of the subtree. -/
mutual
def conciseTotal (config : FormattingConfig) : Kserd → Nat
  | .mk id v => max (conciseWidth config id v) (conciseTotalV config v)
termination_by structural a => a
def conciseTotalV (config : FormattingConfig) : Value → Nat
  | .tuple l => conciseTotalL config l
  | .cntr f => conciseTotalF config f
  | .seq l => conciseTotalL config l
  | .map m => conciseTotalM config m
  | _ => 0
termination_by structural a => a
def conciseTotalL (config : FormattingConfig) : List Kserd → Nat
  | [] => 0
  | k :: r => max (W.indentW + conciseTotal config k) (conciseTotalL config r)
termination_by structural a => a
def conciseTotalF (config : FormattingConfig) : List (Str × Kserd) → Nat
  | [] => 0
  | (n, k) :: r => max (W.indentW + n.length + W.assigner.length + 1 + conciseTotal config k) (conciseTotalF config r)
termination_by structural a => a
def conciseTotalM (config : FormattingConfig) : List (Kserd × Kserd) → Nat
  | [] => 0
  | (k, v) :: r =>
    max (W.indentW + inlineTotal config k + W.keysAssigner.length + 1 + conciseTotal config v) (conciseTotalM config r)
termination_by structural a => a
end

/-- `cntr_field_offset`, `/repo/src/fmt/solver.rs` 398-401; `none` is the `unwrap` panic. -/
def cntrFieldOffset (f : Fields) (i : Nat) : Option Nat :=
  (f[i]?).map fun p => p.1.length + W.assigner.length + 1

/-- `map_entry_offset`, `/repo/src/fmt/solver.rs` 403-425; `none` is a panic. -/
def mapEntryOffset (config : FormattingConfig) (nav : Navigator) (fmts : List Fmt) (parent child : NavNode) : Option Nat :=
  if Nav.isKey child then some 0
  else
    match parent.keyChildren[Nav.idxInParent child]? with
    | none => none
    | some ki =>
      match nav[ki]?, fmts[ki]? with
      | some k, some kfmt =>
        match kfmt.line with
        | .inline => some (inlineTotal config k.kserd + W.keysAssigner.length + 1)
        | .concise => some (1 + W.keysAssigner.length + 1)
        | .verbose => none
      | _, _ => none

/-- `concise_parent_child_column`, `/repo/src/fmt/solver.rs` 363-377; `none` is a panic. -/
def concisePCC (config : FormattingConfig) (nav : Navigator) (fmts : List Fmt) (parent child : NavNode) : Option Nat :=
  match parent.kserd.val with
  | .tuple _ => some W.indentW
  | .seq _ => some W.indentW
  | .cntr f => (cntrFieldOffset f (Nav.idxInParent child)).map (W.indentW + ·)
  | .map _ => (mapEntryOffset config nav fmts parent child).map (W.indentW + ·)
  | _ => none

/-- `verbose_parent_child_column`, `/repo/src/fmt/solver.rs` 379-396; `none` is a panic. -/
def verbosePCC (parent child : NavNode) : Option Nat :=
  match parent.kserd.val.kind, child.kserd.val.kind with
  | .prim, _ => none
  | .tuple, _ => none
  | .seq, _ => some 0
  | .cntr, .cntr => some W.indentW
  | .cntr, _ => some 0
  | .map, _ => some (if Nav.isKey child then 0 else W.indentW)

/-- The `while let Some(parent) = child.parent()` loop of `calculate_offset`,
`/repo/src/fmt/solver.rs` 339-355 with the final adjustment 357-361. Fuel: the number of nodes. -/
def offsetLoop (config : FormattingConfig) (nav : Navigator) (fmts : List Fmt) : Nat → NavNode → Nat → Option Nat
  | 0, _, _ => none
  | fuel + 1, child, offset =>
    match Nav.parent nav child with
    | none =>
      match fmts[child.idx]? with
      | none => none
      | some f => some (if f.line = .verbose then offset - W.indentW else offset)
    | some parent =>
      match fmts[parent.idx]? with
      | none => none
      | some pf =>
        let add := match pf.line with
          | .inline => some 0
          | .concise => concisePCC config nav fmts parent child
          | .verbose => verbosePCC parent child
        match add with
        | none => none
        | some add => offsetLoop config nav fmts fuel parent (offset + add)

/-- `calculate_offset`, `/repo/src/fmt/solver.rs` 328-361; `none` is a panic. -/
def calculateOffset (config : FormattingConfig) (nav : Navigator) (fmts : List Fmt) (node : NavNode) : Option Nat :=
  match Nav.parent nav node with
  | none => some 0
  | some parent =>
    match fmts[parent.idx]? with
    | none => none
    | some pf =>
      let first := match pf.line with
        | .inline => some 0
        | _ => concisePCC config nav fmts parent node
      match first with
      | none => none
      | some off => offsetLoop config nav fmts (nav.length + 1) parent off

/-- `min_line_repr`, `/repo/src/fmt/solver.rs` 427-444. -/
def minLineRepr (lim : Option Nat) (inlineW conciseW : Nat) : Repr' :=
  match lim with
  | some lim => if lim < conciseW then .verbose else if lim < inlineW then .concise else .inline
  | none => .inline

/-- The identity flag chosen for a node, `/repo/src/fmt/solver.rs` 276-284. -/
def idFlag (config : FormattingConfig) : Kind → Bool
  | .prim => config.idOnPrimitives
  | .tuple => config.idOnTuples
  | .cntr => config.idOnContainers
  | .seq => config.idOnSeqs
  | .map => config.idOnMaps

/-- Body of the first loop of `apply_config`, `/repo/src/fmt/solver.rs` 276-285. -/
def idStep (config : FormattingConfig) (f : Formatter) (i : Nat) : Formatter :=
  match f.nav[i]? with
  | none => f
  | some n => match f.setId i (idFlag config n.kserd.val.kind) with
    | .ok f' => f'
    | .error _ => f

/-- First loop of `apply_config`, `/repo/src/fmt/solver.rs` 275-286. -/
def applyIds (f : Formatter) (config : FormattingConfig) : Formatter :=
  (List.range f.nav.length).foldl (idStep config) f

/-- Body of the descendants loop of `apply_config`, `/repo/src/fmt/solver.rs` 310-325. -/
def applyNode (config : FormattingConfig) (f : Formatter) (c : Nat) : Option Formatter :=
  match f.nav[c]? with
  | none => none
  | some child =>
    match calculateOffset config f.nav f.fmts child with
    | none => none
    | some offset =>
      let lim := config.widthLimit.map (· - offset)
      let repr := minLineRepr lim (inlineTotal config child.kserd) (conciseTotal config child.kserd)
      match Nav.parent f.nav child with
      | none => none
      | some p =>
        let repr := if repr = .concise ∧ child.kserd.val.kind = .cntr ∧ p.kserd.val.kind = .seq then .verbose else repr
        f.requestOk c repr

/-- `apply_config`, `/repo/src/fmt/solver.rs` 271-326; `none` is a panic. -/
def applyConfig (f : Formatter) (config : FormattingConfig) : Option Formatter :=
  let f := applyIds f config
  match f.nav[0]? with
  | none => none
  | some root =>
    let repr := minLineRepr config.widthLimit (inlineTotal config root.kserd) (conciseTotal config root.kserd)
    match Nav.descendantsBreadth f.nav root with
    | none => none
    | some ds =>
      match f.requestOk 0 repr with
      | none => none
      | some f => ds.foldlM (applyNode config) f

end Solver

/-- `Kserd::as_str_with_config`, `/repo/src/fmt/mod.rs` 443-447; `none` is a panic. -/
def Kserd.asStrWithConfig (k : Kserd) (config : FormattingConfig) : Option Str :=
  (Formatter.new k).bind fun f => (Solver.applyConfig f config).bind fun f => f.writeString []

/-- `Kserd::as_str`, `/repo/src/fmt/mod.rs` 412-415. -/
def Kserd.asStr (k : Kserd) : Option Str := k.asStrWithConfig {}

end KS
