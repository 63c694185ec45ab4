import Verif.Model.Formatter
/-!
# The width vectors of the solver — `/repo/src/fmt/solver.rs` 3-51, 126-221, 271-444

`Verif.Model.Formatter` computes the widths by recursion over the Kserd. Here they are computed as in the code: vectors with one entry per node of the
navigator, filled by recursive calls that follow the navigator's links and remember what they have computed.
-/

namespace KS.SV
open Nav

/-- The vector `widths: Vec<Option<usize>>`. -/
abbrev Memo := List (Option Nat)

/-- `if let Some(w) = widths.get(child.index()).unwrap() { .. } else { .. }`: look up the width of a node, or compute it by `rec` and store it,
`/repo/src/fmt/solver.rs` 7-10, 28-36, 39-47, 134-137, 159-166, 173-180, 190-197, 204-211; `none` is a panic. -/
def lookup (rec : NavNode → Memo → Option (Nat × Memo)) (child : NavNode) (ws : Memo) : Option (Nat × Memo) :=
  match ws[child.idx]? with
  | none => none
  | some (some w) => some (w, ws)
  | some none =>
    match rec child ws with
    | none => none
    | some (w, ws) => if child.idx < ws.length then some (w, ws.set child.idx (some w)) else none

/-- A loop over children that adds their widths, `/repo/src/fmt/solver.rs` 27-37, 39-48. -/
def sumKids (rec : NavNode → Memo → Option (Nat × Memo)) : List NavNode → Nat → Memo → Option (Nat × Memo)
  | [], width, ws => some (width, ws)
  | child :: r, width, ws =>
    match lookup rec child ws with
    | none => none
    | some (w, ws) => sumKids rec r (width + w) ws

/-- `inline_widths_recurse`, `/repo/src/fmt/solver.rs` 20-51. Fuel bounds the recursion depth. -/
def inlineRec (nav : Navigator) (config : FormattingConfig) : Nat → NavNode → Memo → Option (Nat × Memo)
  | 0, _, _ => none
  | fuel + 1, n, ws =>
    match sumKids (inlineRec nav config fuel) (seqItems nav n.valueChildren) (Solver.inlineWidth config n.kserd.id n.kserd.val) ws with
    | none => none
    | some (w, ws) => sumKids (inlineRec nav config fuel) (seqItems nav n.keyChildren) w ws

/-- The loop over all nodes, `/repo/src/fmt/solver.rs` 6-11 and 133-138. -/
def fillAll (rec : NavNode → Memo → Option (Nat × Memo)) : List NavNode → Memo → Option Memo
  | [], ws => some ws
  | n :: r, ws =>
    match lookup rec n ws with
    | none => none
    | some (_, ws) => fillAll rec r ws

/-- `widths.into_iter().map(|x| x.expect("all should be some")).collect()`, `/repo/src/fmt/solver.rs` 13-16 and 140-143. -/
def collect : Memo → Option (List Nat)
  | [] => some []
  | none :: _ => none
  | some w :: r => (collect r).map (w :: ·)

/-- `inline_widths`, `/repo/src/fmt/solver.rs` 3-17; `none` is a panic. -/
def inlineWidths (nav : Navigator) (config : FormattingConfig) : Option (List Nat) :=
  (fillAll (inlineRec nav config nav.length) nav (List.replicate nav.length none)).bind collect

/-- The children that `concise_widths_recurse` visits, with what is added to each child's width,
`/repo/src/fmt/solver.rs` 157-218. The addend is `none` where the code panics. -/
def conciseItems (nav : Navigator) (iw : List Nat) (n : NavNode) : List (Option Nat × NavNode) :=
  match Nav.value nav n with
  | .primitive => []
  | .tuple l => l.map fun ch => (some W.indentW, ch)
  | .cntr l => l.map fun p => (some (W.indentW + p.1.length + W.assigner.length + 1), p.2)
  | .seq l => l.map fun ch => (some W.indentW, ch)
  | .map l => l.map fun p => ((iw[p.1.idx]?).map fun x => W.indentW + x + W.keysAssigner.length + 1, p.2)

/-- A loop over children that takes the largest width, `/repo/src/fmt/solver.rs` 158-169, 172-186, 189-200, 203-217. -/
def maxKids (rec : NavNode → Memo → Option (Nat × Memo)) : List (Option Nat × NavNode) → Nat → Memo → Option (Nat × Memo)
  | [], width, ws => some (width, ws)
  | (add, child) :: r, width, ws =>
    match lookup rec child ws with
    | none => none
    | some (w, ws) =>
      match add with
      | none => none
      | some a => maxKids rec r (max width (a + w)) ws

/-- `concise_widths_recurse`, `/repo/src/fmt/solver.rs` 146-221. Fuel bounds the recursion depth. -/
def conciseRec (nav : Navigator) (config : FormattingConfig) (iw : List Nat) : Nat → NavNode → Memo → Option (Nat × Memo)
  | 0, _, _ => none
  | fuel + 1, n, ws =>
    maxKids (conciseRec nav config iw fuel) (conciseItems nav iw n) (Solver.conciseWidth config n.kserd.id n.kserd.val) ws

/-- `concise_widths`, `/repo/src/fmt/solver.rs` 126-144; `none` is a panic. -/
def conciseWidths (nav : Navigator) (config : FormattingConfig) (iw : List Nat) : Option (List Nat) :=
  (fillAll (conciseRec nav config iw nav.length) nav (List.replicate nav.length none)).bind collect

/-- `cntr_field_offset`, `/repo/src/fmt/solver.rs` 398-401; `none` is the `unwrap` panic. -/
def cntrFieldOffset (l : List (Str × NavNode)) (i : Nat) : Option Nat :=
  (l[i]?).map fun p => p.1.length + W.assigner.length + 1

/-- `map_entry_offset`, `/repo/src/fmt/solver.rs` 403-425; `none` is a panic. -/
def mapEntryOffset (iw : List Nat) (fmts : List Fmt) (l : List (NavNode × NavNode)) (child : NavNode) : Option Nat :=
  if Nav.isKey child then some 0
  else
    match l[Nav.idxInParent child]? with
    | none => none
    | some (k, _) =>
      match fmts[k.idx]? with
      | none => none
      | some kfmt =>
        match kfmt.line with
        | .inline => (iw[k.idx]?).map fun x => x + W.keysAssigner.length + 1
        | .concise => some (1 + W.keysAssigner.length + 1)
        | .verbose => none

/-- `concise_parent_child_column`, `/repo/src/fmt/solver.rs` 363-377; `none` is a panic. -/
def concisePCC (iw : List Nat) (fmts : List Fmt) (pvalue : NodeValue) (child : NavNode) : Option Nat :=
  match pvalue with
  | .primitive => none
  | .tuple _ => some W.indentW
  | .seq _ => some W.indentW
  | .cntr l => (cntrFieldOffset l (Nav.idxInParent child)).map (W.indentW + ·)
  | .map l => (mapEntryOffset iw fmts l child).map (W.indentW + ·)

/-- `verbose_parent_child_column`, `/repo/src/fmt/solver.rs` 379-396; `none` is a panic. -/
def verbosePCC (pvalue cvalue : NodeValue) (child : NavNode) : Option Nat :=
  match pvalue, cvalue with
  | .primitive, _ => none
  | .tuple _, _ => none
  | .seq _, _ => some 0
  | .cntr _, .cntr _ => some W.indentW
  | .cntr _, _ => some 0
  | .map _, _ => some (if Nav.isKey child then 0 else W.indentW)

/-- The loop of `calculate_offset`, `/repo/src/fmt/solver.rs` 339-361. Fuel: the number of nodes. -/
def offsetLoop (iw : List Nat) (nav : Navigator) (fmts : List Fmt) : Nat → NavNode → Nat → Option Nat
  | 0, _, _ => none
  | fuel + 1, child, offset =>
    match Nav.parent nav child with
    | none =>
      match fmts[child.idx]? with
      | none => none
      | some f => some (if f.line = .verbose then offset - W.indentW else offset)
    | some parent =>
      match fmts[parent.idx]? with
      | none => none
      | some pf =>
        let add := match pf.line with
          | .inline => some 0
          | .concise => concisePCC iw fmts (Nav.value nav parent) child
          | .verbose => verbosePCC (Nav.value nav parent) (Nav.value nav child) child
        match add with
        | none => none
        | some add => offsetLoop iw nav fmts fuel parent (offset + add)

/-- `calculate_offset`, `/repo/src/fmt/solver.rs` 328-361; `none` is a panic. -/
def calculateOffset (iw : List Nat) (nav : Navigator) (fmts : List Fmt) (node : NavNode) : Option Nat :=
  match Nav.parent nav node with
  | none => some 0
  | some parent =>
    match fmts[parent.idx]? with
    | none => none
    | some pf =>
      let first := match pf.line with
        | .inline => some 0
        | _ => concisePCC iw fmts (Nav.value nav parent) node
      match first with
      | none => none
      | some off => offsetLoop iw nav fmts (nav.length + 1) parent off

/-- `min_line_repr`, `/repo/src/fmt/solver.rs` 427-444; `none` is an indexing panic. -/
def minLineRepr (idx : Nat) (lim : Option Nat) (iw cw : List Nat) : Option Repr' :=
  match lim with
  | none => some .inline
  | some lim =>
    match cw[idx]? with
    | none => none
    | some w =>
      if lim < w then some .verbose
      else match iw[idx]? with
        | none => none
        | some w => some (if lim < w then .concise else .inline)

/-- Body of the descendants loop of `apply_config`, `/repo/src/fmt/solver.rs` 308-325. -/
def applyNode (config : FormattingConfig) (iw cw : List Nat) (f : Formatter) (c : Nat) : Option Formatter :=
  match f.nav[c]? with
  | none => none
  | some child =>
    match calculateOffset iw f.nav f.fmts child with
    | none => none
    | some offset =>
      match minLineRepr c (config.widthLimit.map (· - offset)) iw cw with
      | none => none
      | some repr =>
        match Nav.parent f.nav child with
        | none => none
        | some p =>
          let repr := match repr, Nav.value f.nav child, Nav.value f.nav p with
            | .concise, .cntr _, .seq _ => .verbose
            | x, _, _ => x
          f.requestOk c repr

/-- Body of the first loop of `apply_config`, `/repo/src/fmt/solver.rs` 275-286. -/
def idStep (config : FormattingConfig) (f : Formatter) (i : Nat) : Option Formatter :=
  match f.nav[i]? with
  | none => none
  | some n =>
    let id := match Nav.value f.nav n with
      | .primitive => config.idOnPrimitives
      | .tuple _ => config.idOnTuples
      | .cntr _ => config.idOnContainers
      | .seq _ => config.idOnSeqs
      | .map _ => config.idOnMaps
    match f.setId i id with
    | .ok f' => some f'
    | .error _ => some f

/-- `apply_config`, `/repo/src/fmt/solver.rs` 271-326; `none` is a panic. -/
def applyConfig (f : Formatter) (config : FormattingConfig) : Option Formatter :=
  match (List.range f.nav.length).foldlM (idStep config) f with
  | none => none
  | some f =>
    match f.nav[0]? with
    | none => none
    | some root =>
      match inlineWidths f.nav config with
      | none => none
      | some iw =>
        match conciseWidths f.nav config iw with
        | none => none
        | some cw =>
          match minLineRepr 0 config.widthLimit iw cw with
          | none => none
          | some repr =>
            match Nav.descendantsBreadth f.nav root with
            | none => none
            | some ds =>
              match f.requestOk 0 repr with
              | none => none
              | some f => ds.foldlM (applyNode config iw cw) f

end KS.SV
