import Verif.Model.Kserd
/-!
# Navigator — `/repo/src/nav/`

The navigator flattens a `Kserd` with an explicit stack and then links children to parents.
The loops are modelled with fuel equal to the number of nodes; `Verif/Props/Nav.lean` proves that
they end with an empty stack/queue within that fuel.
-/

namespace KS

/-! Number of `Kserd`s in a tree (keys included); used as loop fuel. -/
mutual
def Kserd.size : Kserd → Nat
  | .mk _ v => 1 + Kserd.sizeV v
termination_by structural a => a
def Kserd.sizeV : Value → Nat
  | .tuple l => Kserd.sizeL l
  | .cntr f => Kserd.sizeF f
  | .seq l => Kserd.sizeL l
  | .map m => Kserd.sizeM m
  | _ => 0
termination_by structural a => a
def Kserd.sizeL : List Kserd → Nat
  | [] => 0
  | k :: r => k.size + Kserd.sizeL r
termination_by structural a => a
def Kserd.sizeF : List (Str × Kserd) → Nat
  | [] => 0
  | (_, k) :: r => k.size + Kserd.sizeF r
termination_by structural a => a
def Kserd.sizeM : List (Kserd × Kserd) → Nat
  | [] => 0
  | (k, v) :: r => k.size + v.size + Kserd.sizeM r
termination_by structural a => a
end

/-- `struct NodeInner`, `/repo/src/nav/mod.rs` 51-59. -/
structure NavNode where
  kserd : Kserd
  idx : Nat
  parent : Option Nat
  valueIdx : Option Nat
  keyIdx : Option Nat
  valueChildren : List Nat
  keyChildren : List Nat
deriving DecidableEq

/-- `struct Info` of `/repo/src/nav/navigator.rs` 12-17. -/
structure NavInfo where
  parent : Option Nat := none
  valueIdx : Option Nat := none
  keyIdx : Option Nat := none
deriving DecidableEq, Repr

/-- `struct Navigator`, `/repo/src/nav/mod.rs` 31-33. -/
abbrev Navigator := List NavNode

namespace Nav

/-- Children of a list-like node with their position, `/repo/src/nav/navigator.rs` 48-79. -/
def listKids (parent : Nat) : Nat → List Kserd → List (NavInfo × Kserd)
  | _, [] => []
  | i, k :: r => ({ parent := some parent, valueIdx := some i }, k) :: listKids parent (i + 1) r

/-- Children of a map node: key before value, `/repo/src/nav/navigator.rs` 80-101. -/
def mapKids (parent : Nat) : Nat → KMap → List (NavInfo × Kserd)
  | _, [] => []
  | i, (k, v) :: r =>
    ({ parent := some parent, keyIdx := some i }, k) ::
    ({ parent := some parent, valueIdx := some i }, v) :: mapKids parent (i + 1) r

/-- What the loop body pushes, in pop order (the code pushes in reverse),
`/repo/src/nav/navigator.rs` 46-104. -/
def kids (parent : Nat) : Value → List (NavInfo × Kserd)
  | .tuple l => listKids parent 0 l
  | .cntr f => listKids parent 0 (f.map (·.2))
  | .seq l => listKids parent 0 l
  | .map m => mapKids parent 0 m
  | _ => []

/-- The `while let Some(..) = stack.pop()` loop, `/repo/src/nav/navigator.rs` 25-105.
The head of `stack` is the top. -/
def flatten : Nat → List (NavInfo × Kserd) → Navigator → Navigator
  | 0, _, inner => inner
  | _ + 1, [], inner => inner
  | f + 1, (info, node) :: stack, inner =>
    let len := inner.length
    flatten f (kids len node.val ++ stack)
      (inner ++ [{ kserd := node, idx := len, parent := info.parent, valueIdx := info.valueIdx,
                   keyIdx := info.keyIdx, valueChildren := [], keyChildren := [] }])

/-- `sort_by_key(|x| x.0)` (stable). -/
def sortPairs (l : List (Nat × Nat)) : List (Nat × Nat) :=
  BTree.stableSort compare l

/-- The linking pass for one parent, `/repo/src/nav/navigator.rs` 107-160. The `HashMap` of
children per parent is replaced by filtering the nodes in order; iteration order over parents is
irrelevant because different parents write different nodes. -/
def link (inner : Navigator) : Navigator :=
  inner.map fun p =>
    let cs := inner.filter (fun c => decide (c.parent = some p.idx))
    { p with
      valueChildren := (sortPairs (cs.filterMap fun c => c.valueIdx.map fun y => (y, c.idx))).map (·.2)
      keyChildren := (sortPairs (cs.filterMap fun c => c.keyIdx.map fun y => (y, c.idx))).map (·.2) }

/-- `Navigator::new`, `/repo/src/nav/navigator.rs` 11-168. -/
def new (root : Kserd) : Navigator := link (flatten root.size [({}, root)] [])

/-- `Node::parent`, `/repo/src/nav/node.rs` 51-53. -/
def parent (nav : Navigator) (n : NavNode) : Option NavNode := n.parent.bind fun p => nav[p]?

/-- `Node::is_key`, `/repo/src/nav/node.rs` 74-76. -/
def isKey (n : NavNode) : Bool := n.keyIdx.isSome

/-- `Node::idx_in_parent`, `/repo/src/nav/node.rs` 118-123. -/
def idxInParent (n : NavNode) : Nat := (n.keyIdx.or n.valueIdx).getD 0

/-- `push_children` in pop order, `/repo/src/nav/node.rs` 217-233: key `i` then value `i`. -/
def zipKids : List Nat → List Nat → List Nat
  | [], vs => vs
  | ks, [] => ks
  | k :: ks, v :: vs => k :: v :: zipKids ks vs

/-- The loop of `descendants_depth`, `/repo/src/nav/node.rs` 242-246; `none` is the `unwrap` panic
or running out of fuel. -/
def depthLoop (nav : Navigator) : Nat → List Nat → List Nat → Option (List Nat)
  | _, [], acc => some acc
  | 0, _ :: _, _ => none
  | f + 1, i :: todo, acc =>
    match nav[i]? with
    | none => none
    | some n => depthLoop nav f (zipKids n.keyChildren n.valueChildren ++ todo) (acc ++ [i])

/-- `Node::descendants_depth` (as indices), `/repo/src/nav/node.rs` 214-248. -/
def descendantsDepth (nav : Navigator) (n : NavNode) : Option (List Nat) :=
  depthLoop nav nav.length (zipKids n.keyChildren n.valueChildren) []

/-- The loop of `descendants_breadth`, `/repo/src/nav/node.rs` 285-289; `none` is the `unwrap` panic
or running out of fuel. -/
def breadthLoop (nav : Navigator) : Nat → List Nat → List Nat → Option (List Nat)
  | _, [], acc => some acc
  | 0, _ :: _, _ => none
  | f + 1, i :: todo, acc =>
    match nav[i]? with
    | none => none
    | some n => breadthLoop nav f (todo ++ (n.keyChildren ++ n.valueChildren)) (acc ++ [i])

/-- `Node::descendants_breadth` (as indices), `/repo/src/nav/node.rs` 273-292. -/
def descendantsBreadth (nav : Navigator) (n : NavNode) : Option (List Nat) :=
  breadthLoop nav nav.length (n.keyChildren ++ n.valueChildren) []

/-- Indices looked up one after the other until one is missing: `SeqIter::next`,
`/repo/src/nav/value.rs` 47-55, run to exhaustion by a `for` loop. -/
def seqItems (nav : Navigator) : List Nat → List NavNode
  | [] => []
  | i :: r => match nav[i]? with
    | some n => n :: seqItems nav r
    | none => []

/-- `NamedIter::next` run to exhaustion, `/repo/src/nav/value.rs` 73-86. -/
def namedItems (nav : Navigator) : List Str → List Nat → List (Str × NavNode)
  | name :: names, i :: r => match nav[i]? with
    | some n => (name, n) :: namedItems nav names r
    | none => []
  | _, _ => []

/-- `KeyedIter::next` run to exhaustion, `/repo/src/nav/value.rs` 104-125. -/
def keyedItems (nav : Navigator) : List Nat → List Nat → List (NavNode × NavNode)
  | k :: ks, i :: r => match nav[k]? with
    | some kn => match nav[i]? with
      | some n => (kn, n) :: keyedItems nav ks r
      | none => []
    | none => []
  | _, _ => []

/-- `enum NodeValue`, `/repo/src/nav/mod.rs` 67-79, with every iterator replaced by the list of items it yields. -/
inductive NodeValue where
  | primitive
  | tuple (l : List NavNode)
  | cntr (l : List (Str × NavNode))
  | seq (l : List NavNode)
  | map (l : List (NavNode × NavNode))

/-- `NodeInner::value` / `Node::value`, `/repo/src/nav/value.rs` 4-29. -/
def value (nav : Navigator) (n : NavNode) : NodeValue :=
  match n.kserd.val with
  | .tuple _ => .tuple (seqItems nav n.valueChildren)
  | .cntr f => .cntr (namedItems nav (f.map (·.1)) n.valueChildren)
  | .seq _ => .seq (seqItems nav n.valueChildren)
  | .map _ => .map (keyedItems nav n.keyChildren n.valueChildren)
  | _ => .primitive

/-- `assert_eq!(l.get(i)?, k)`: `false` is a panic or `None`. -/
def eqAt (l : List Kserd) (i : Nat) (k : Kserd) : Bool :=
  match l[i]? with
  | some x => Kserd.eq x k
  | none => false

/-- The body of the second loop of `validate`, `/repo/src/nav/navigator.rs` 299-329. -/
def checkParent (v : Navigator) (node : NavNode) : Bool :=
  match node.parent with
  | none => true
  | some p =>
    match v[p]? with
    | none => false
    | some parent =>
      (match node.valueIdx with
        | none => true
        | some idx => match parent.kserd.val with
          | .tuple l => eqAt l idx node.kserd
          | .seq l => eqAt l idx node.kserd
          | .cntr f => eqAt (f.map (·.2)) idx node.kserd
          | .map m => eqAt (m.map (·.2)) idx node.kserd
          | _ => true) &&
      (match node.keyIdx with
        | none => true
        | some idx => match parent.kserd.val with
          | .map m => eqAt (m.map (·.1)) idx node.kserd
          | _ => true) &&
      (match parent.kserd.val with
        | .tuple _ => true
        | .seq _ => true
        | .cntr _ => true
        | .map _ => true
        | _ => node.valueIdx.isNone) &&
      (match parent.kserd.val with
        | .map _ => true
        | _ => node.keyIdx.isNone)

/-- The inner loops `for i in 0..l.len() { assert_eq!(v.get(*idxs.get(i)?)?.kserd, l.get(i)?) }`,
`/repo/src/nav/navigator.rs` 337-339, 344-346, 351-356, 361-367. -/
def checkKids (v : Navigator) (idxs : List Nat) (l : List Kserd) : Bool :=
  (List.range l.length).all fun i =>
    match idxs[i]? with
    | none => false
    | some j => match v[j]? with
      | none => false
      | some n => match l[i]? with
        | none => false
        | some x => Kserd.eq n.kserd x

/-- The body of the third loop of `validate`, `/repo/src/nav/navigator.rs` 332-374. -/
def checkChildren (v : Navigator) (node : NavNode) : Bool :=
  match node.kserd.val with
  | .tuple l => l.length == node.valueChildren.length && node.keyChildren.length == 0 && checkKids v node.valueChildren l
  | .seq l => l.length == node.valueChildren.length && node.keyChildren.length == 0 && checkKids v node.valueChildren l
  | .cntr f => f.length == node.valueChildren.length && node.keyChildren.length == 0 &&
      checkKids v node.valueChildren (f.map (·.2))
  | .map m => m.length == node.valueChildren.length && m.length == node.keyChildren.length &&
      checkKids v node.keyChildren (m.map (·.1)) && checkKids v node.valueChildren (m.map (·.2))
  | _ => node.valueChildren.length == 0 && node.keyChildren.length == 0

/-- `validate` (debug builds), `/repo/src/nav/navigator.rs` 280-377: `false` is a panic inside it or the
`debug_assert!` of 161-164 failing. -/
def validate (v : Navigator) : Bool :=
  (match v[0]? with
    | none => false
    | some r => r.parent.isNone) &&
  (v.filter (·.parent.isNone)).length == 1 &&
  ((List.range v.length).all fun i => match v[i]? with
    | none => false
    | some n => n.idx == i) &&
  v.all (checkParent v) && v.all (checkChildren v)

end Nav
end KS
