import Verif.Model.Formatter
/-!
# Writers over the navigator — `/repo/src/fmt/mod.rs` 477-494, `tuples.rs`, `seqs.rs`, `maps.rs`, `cntr.rs`

`Verif.Model.Fmt` writes by recursion over the Kserd and computes navigator indices as it goes. Here the writers are as in the code: they take nodes of
the navigator, list children with `Node::value` and look formats up by the nodes' own indices. `none` is a panic. The recursion of `write_node`
and `cntr::write` carries fuel, the other writers take `write_node` as argument.
-/

namespace KS.NW
open Nav W

/-- A call of `write_node(buf, node, fmts, col)`. -/
abbrev Rec := NavNode → Nat → Str → Option Str

/-- `delim_writer`, `/repo/src/fmt/mod.rs` 477-484. -/
def delimWriter (pre suf : Str → Str) (body : Str → Option Str) (buf : Str) : Option Str := (body (pre buf)).map suf

/-- `if rm_trailing { FIELDS_SEPARATOR.chars().for_each(|_| { buf.pop(); }) }`, e.g. `/repo/src/fmt/tuples.rs` 30-34. -/
def rmTrailing (rm : Bool) (buf : Str) : Str := if rm then separator.foldl (fun b _ => pop b) buf else buf

/-- `tuples::write`, `/repo/src/fmt/tuples.rs` 3-55. -/
def tuples (rec : Rec) (fmts : List Fmt) (n : NavNode) (col : Nat) (seq : List NavNode) (buf : Str) : Option Str :=
  match fmts[n.idx]? with
  | none => none
  | some fmt =>
    let pre := fun buf => tuplePrefix buf fmt.id n.kserd.id
    let suf := fun (buf : Str) => buf ++ [')']
    match fmt.line with
    | .inline => delimWriter pre suf (fun buf =>
        (seq.foldlM (fun buf x => (rec x col buf).map (· ++ separator)) buf).map (rmTrailing !n.valueChildren.isEmpty)) buf
    | .concise => delimWriter pre suf (fun buf =>
        let c := col + indentW
        (seq.foldlM (fun buf x => (rec x c (indent buf c)).map (· ++ ['\n'])) (buf ++ ['\n'])).map (indent · col)) buf
    | .verbose => none

/-- `seqs::write`, `/repo/src/fmt/seqs.rs` 3-85. -/
def seqs (rec : Rec) (fmts : List Fmt) (n : NavNode) (col : Nat) (seq : List NavNode) (fieldName : Option Str) (buf : Str) : Option Str :=
  match fmts[n.idx]? with
  | none => none
  | some fmt =>
    let pre := fun buf => nonprimIdent buf fmt.id n.kserd.id ++ ['[']
    let suf := fun (buf : Str) => buf ++ [']']
    let concise := delimWriter pre suf (fun buf =>
        let c := col + indentW
        (seq.foldlM (fun buf x => (rec x c (indent buf c)).map (· ++ ['\n'])) (buf ++ ['\n'])).map (indent · col)) buf
    match fmt.line, fieldName with
    | .inline, _ => delimWriter pre suf (fun buf =>
        (seq.foldlM (fun buf x => (rec x col buf).map (· ++ separator)) buf).map (rmTrailing !n.valueChildren.isEmpty)) buf
    | .concise, _ => concise
    | .verbose, none => concise
    | .verbose, some fieldName =>
      seq.foldlM (fun buf x =>
        let buf := indent buf col ++ str "[[" ++ fieldName ++ str "]]\n"
        match fmts[x.idx]? with
        | none => none
        | some xf =>
          let body := match xf.line with
            | .verbose => rec x (col + indentW) buf
            | _ => (rec x col (indent buf col)).map (· ++ ['\n'])
          body.map (· ++ ['\n'])) buf

/-- `write_key_and_value_concise`, `/repo/src/fmt/maps.rs` 25-45. -/
def keyAndValue (rec : Rec) (fmts : List Fmt) (buf : Str) (key value : NavNode) (col : Nat) : Option Str :=
  match fmts[key.idx]? with
  | none => none
  | some kf =>
    match rec key col buf with
    | none => none
    | some b =>
      let b := b ++ keysAssigner ++ [' ']
      let nameIndent := if kf.line = .inline then written buf b else 2 + keysAssigner.length
      (rec value (col + nameIndent) b).map (· ++ ['\n'])

/-- `maps::write`, `/repo/src/fmt/maps.rs` 3-121. -/
def maps (rec : Rec) (fmts : List Fmt) (n : NavNode) (col : Nat) (map : List (NavNode × NavNode)) (fieldName : Option Str) (buf : Str) : Option Str :=
  match fmts[n.idx]? with
  | none => none
  | some fmt =>
    let pre := fun buf => nonprimIdent buf fmt.id n.kserd.id ++ ['{']
    let suf := fun (buf : Str) => buf ++ ['}']
    let concise := delimWriter pre suf (fun buf =>
        let c := col + indentW
        (map.foldlM (fun buf (p : NavNode × NavNode) => keyAndValue rec fmts (indent buf c) p.1 p.2 c) (buf ++ ['\n'])).map (indent · col)) buf
    match fmt.line, fieldName with
    | .inline, _ => delimWriter pre suf (fun buf =>
        let rm := !n.valueChildren.isEmpty
        (map.foldlM (fun buf (p : NavNode × NavNode) =>
          (rec p.1 col buf).bind fun buf => (rec p.2 col (buf ++ keysAssigner ++ [' '])).map (· ++ separator))
          (if rm then buf ++ [' '] else buf)).map fun buf =>
            let buf := rmTrailing rm buf
            if rm then buf ++ [' '] else buf) buf
    | .concise, _ => concise
    | .verbose, none => concise
    | .verbose, some fieldName =>
      map.foldlM (fun buf (p : NavNode × NavNode) =>
        let buf := buf ++ str "[[" ++ fieldName ++ str "]]\n"
        match fmts[p.2.idx]? with
        | none => none
        | some vf =>
          match vf.line with
          | .verbose => (rec p.1 col buf).bind fun buf => (rec p.2 (col + indentW) (buf ++ keysAssigner ++ ['\n'])).map (· ++ ['\n'])
          | _ => keyAndValue rec fmts buf p.1 p.2 col) buf

/-- `write_node_with_field_mapping`, `/repo/src/fmt/cntr.rs` 25-39. -/
def fieldMapping (rec : Rec) (buf : Str) (name : Str) (value : NavNode) (col : Nat) : Option Str :=
  let b := buf ++ name ++ assigner ++ [' ']
  (rec value (col + written buf b) b).map (· ++ ['\n'])

mutual
/-- `write_node`, `/repo/src/fmt/mod.rs` 486-494. -/
def writeNode (nav : Navigator) (fmts : List Fmt) : Nat → Rec
  | 0, _, _, _ => none
  | fuel + 1, n, col, buf =>
    match Nav.value nav n with
    | .primitive =>
      match fmts[n.idx]? with
      | none => none
      | some fmt => prim buf n.kserd.id n.kserd.val fmt.id
    | .tuple seq => tuples (writeNode nav fmts fuel) fmts n col seq buf
    | .cntr map => cntr nav fmts fuel n col true map buf
    | .seq seq => seqs (writeNode nav fmts fuel) fmts n col seq none buf
    | .map map => maps (writeNode nav fmts fuel) fmts n col map none buf
termination_by structural fuel => fuel
/-- `cntr::write`, `/repo/src/fmt/cntr.rs` 3-130. -/
def cntr (nav : Navigator) (fmts : List Fmt) : Nat → NavNode → Nat → Bool → List (Str × NavNode) → Str → Option Str
  | 0, _, _, _, _, _ => none
  | fuel + 1, n, col, inlineFieldId, map, buf =>
    match fmts[n.idx]? with
    | none => none
    | some fmt =>
      let pre := fun buf => nonprimIdent buf fmt.id n.kserd.id ++ ['(']
      let suf := fun (buf : Str) => buf ++ [')']
      match fmt.line with
      | .inline => delimWriter pre suf (fun buf =>
          (map.foldlM (fun buf (p : Str × NavNode) => (writeNode nav fmts fuel p.2 col (buf ++ p.1 ++ assigner ++ [' '])).map (· ++ separator))
            buf).map (rmTrailing !n.valueChildren.isEmpty)) buf
      | .concise => delimWriter pre suf (fun buf =>
          let c := col + indentW
          (map.foldlM (fun buf (p : Str × NavNode) => fieldMapping (writeNode nav fmts fuel) (indent buf c) p.1 p.2 c) (buf ++ ['\n'])).map
            (indent · col)) buf
      | .verbose =>
        let buf := if fmt.id && inlineFieldId then
            match n.kserd.id with
            | some id => indent buf col ++ ':' :: id ++ ['\n']
            | none => buf
          else buf
        map.foldlM (fun buf (p : Str × NavNode) =>
          match fmts[p.2.idx]? with
          | none => none
          | some vf =>
            match vf.line, Nav.value nav p.2 with
            | .verbose, .cntr m =>
              let buf := indent (buf ++ ['\n']) col ++ '[' :: p.1
              let buf := if vf.id then
                  match p.2.kserd.id with
                  | some id => buf ++ ':' :: id
                  | none => buf
                else buf
              cntr nav fmts fuel p.2 (col + indentW) false m (buf ++ str "]\n")
            | .verbose, .seq s => (seqs (writeNode nav fmts fuel) fmts p.2 col s (some p.1) (buf ++ ['\n'])).map pop
            | .verbose, .map m => maps (writeNode nav fmts fuel) fmts p.2 col m (some p.1) (buf ++ ['\n'])
            | _, _ => fieldMapping (writeNode nav fmts fuel) (indent buf col) p.1 p.2 col) buf
termination_by structural fuel => fuel
end

/-- `Formatter::write_string`, `/repo/src/fmt/formatter.rs` 298-300, with `Navigator::root`; `none` is a panic. -/
def writeString (f : Formatter) (buf : Str) : Option Str :=
  match f.nav[0]? with
  | none => none
  | some root => writeNode f.nav f.fmts (2 * f.nav.length) root 0 buf

end KS.NW
