import Verif.Spec.Fmt
import Verif.Spec.Widths
/-!
# Which layout a width limit leads to

The documentation of `width_limit`, `/repo/src/fmt/mod.rs` 329-345, says that inline is preferred, then concise, then verbose. What is
actually decided is written here as a function of the tree alone, from the top down: no navigator, no formatter, no queue of nodes.
-/

namespace KS.Spec

/-- The smallest of three layouts. -/
def least (a b d : Repr') : Repr' := Repr'.min (Repr'.min a b) d

/-- The layout wished for in a room of so many characters, by the estimates of the widths (C50). -/
def wish (c : FormattingConfig) (room : Option Nat) (k : Kserd) : Repr' :=
  match room with
  | none => .inline
  | some w => if w < blockWidth c k then .verbose else if w < subtreeWidth c k then .concise else .inline

/-- The wish of a node whose text starts at column `col`. A container in a sequence does not ask to be concise. -/
def wishOf (c : FormattingConfig) (inSeq : Bool) (col : Nat) (k : Kserd) : Repr' :=
  let r := wish c (c.widthLimit.map (· - col)) k
  if r = .concise ∧ inSeq ∧ k.val.kind = .cntr then .verbose else r

/-- How far what is inside a child is moved to the right, by the layout of the parent. -/
def shiftBy (l : Repr') (concise verbose : Nat) : Nat :=
  match l with
  | .inline => 0
  | .concise => concise
  | .verbose => verbose

/-! The layouts of the nodes of a tree in preorder. `t` is 4 if the root is verbose, else 0; `p` is the layout of the parent; `e` is the column
at which the children of the node are indented, without the correction `t`; `col` is the column at which the node's own text starts. Each node gets
the least of its wish, what its kind allows, and its parent's layout. -/
mutual
def plan (c : FormattingConfig) (t : Nat) (p : Repr') (inSeq : Bool) (e col : Nat) : Kserd → List Repr'
  | .mk id v =>
    let l := least (wishOf c inSeq col (.mk id v)) (maxRepr v) p
    l :: planV c t l e v
termination_by structural a => a
def planV (c : FormattingConfig) (t : Nat) (p : Repr') (e : Nat) : Value → List Repr'
  | .tuple l => planL c t p false (e + shiftBy p 4 0) (e + 4 - t) l
  | .seq l => planL c t p true (e + shiftBy p 4 0) (e + 4 - t) l
  | .cntr f => planF c t p e f
  | .map m => planM c t p e m
  | _ => []
termination_by structural a => a
def planL (c : FormattingConfig) (t : Nat) (p : Repr') (inSeq : Bool) (e col : Nat) : List Kserd → List Repr'
  | [] => []
  | k :: r => plan c t p inSeq e col k ++ planL c t p inSeq e col r
termination_by structural a => a
/-- A field starts behind its name and ` = `; nested containers are indented in verbose ones. -/
def planF (c : FormattingConfig) (t : Nat) (p : Repr') (e : Nat) : List (Str × Kserd) → List Repr'
  | [] => []
  | (n, k) :: r =>
    plan c t p false (e + shiftBy p (4 + (n.length + 3)) (if k.val.kind = .cntr then 4 else 0)) (e + (4 + (n.length + 3)) - t) k ++ planF c t p e r
termination_by structural a => a
/-- The value of a map entry starts behind the key, or behind its closing bracket if the key takes several lines. -/
def planM (c : FormattingConfig) (t : Nat) (p : Repr') (e : Nat) : List (Kserd × Kserd) → List Repr'
  | [] => []
  | (k, v) :: r =>
    let ks := plan c t p false (e + shiftBy p 4 0) (e + 4 - t) k
    let d := 4 + ((if ks.head? = some .inline then subtreeWidth c k else 1) + 2)
    ks ++ (plan c t p false (e + shiftBy p d 4) (e + d - t) v ++ planM c t p e r)
termination_by structural a => a
end

/-- The layouts of a whole tree in preorder. A root sequence or map is not verbose. -/
def layouts (c : FormattingConfig) (k : Kserd) : List Repr' :=
  let l := least (wish c c.widthLimit k) (maxRepr k.val) (if isSeqMap k.val then .concise else .verbose)
  l :: planV c (if l = .verbose then 4 else 0) l 0 k.val

/-- The plan makes a map key verbose. -/
def VerboseKey (c : FormattingConfig) (root : Kserd) : Prop :=
  ∃ (i : Nat) (n : NavNode), (Nav.new root)[i]? = some n ∧ Nav.isKey n = true ∧ (layouts c root)[i]? = some .verbose

end KS.Spec
