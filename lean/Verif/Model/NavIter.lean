import Verif.Model.Nav
import Verif.Model.Formatter
import Verif.Model.Debug
/-!
# Iterators over nodes and `Debug` of nodes — `/repo/src/nav/value.rs`, `/repo/src/nav/navigator.rs`, `/repo/src/nav/node.rs`

The iterators are states; one call of `next` gives an item or `None` and the next state. A slice iterator of std is the list of what is left.
-/

namespace KS.Nav

/-- `struct SeqIter`, `/repo/src/nav/mod.rs` 88-91. -/
structure SeqIter where
  seq : List Nat

/-- `SeqIter::len`, `/repo/src/nav/value.rs` 34-36. -/
def SeqIter.len (it : SeqIter) : Nat := it.seq.length

/-- `SeqIter::is_empty`, `/repo/src/nav/value.rs` 39-41. -/
def SeqIter.isEmpty (it : SeqIter) : Bool := it.seq.isEmpty

/-- `SeqIter::next`, `/repo/src/nav/value.rs` 47-55. -/
def SeqIter.next (nav : Navigator) (it : SeqIter) : Option NavNode × SeqIter :=
  match it.seq with
  | [] => (none, it)
  | i :: r => (nav[i]?, ⟨r⟩)

/-- `struct NamedIter`, `/repo/src/nav/mod.rs` 94-98. -/
structure NamedIter where
  names : List Str
  values : List Nat

/-- `NamedIter::len`, `/repo/src/nav/value.rs` 60-62. -/
def NamedIter.len (it : NamedIter) : Nat := it.values.length

/-- `NamedIter::is_empty`, `/repo/src/nav/value.rs` 65-67. -/
def NamedIter.isEmpty (it : NamedIter) : Bool := it.values.isEmpty

/-- `NamedIter::next`, `/repo/src/nav/value.rs` 73-86. -/
def NamedIter.next (nav : Navigator) (it : NamedIter) : Option (Str × NavNode) × NamedIter :=
  match it.names with
  | [] => (none, it)
  | name :: names => match it.values with
    | [] => (none, ⟨names, []⟩)
    | i :: r => (nav[i]?.map fun n => (name, n), ⟨names, r⟩)

/-- `struct KeyedIter`, `/repo/src/nav/mod.rs` 101-105. -/
structure KeyedIter where
  keys : List Nat
  values : List Nat

/-- `KeyedIter::len`, `/repo/src/nav/value.rs` 91-93. -/
def KeyedIter.len (it : KeyedIter) : Nat := it.values.length

/-- `KeyedIter::is_empty`, `/repo/src/nav/value.rs` 96-98. -/
def KeyedIter.isEmpty (it : KeyedIter) : Bool := it.values.isEmpty

/-- `KeyedIter::next`, `/repo/src/nav/value.rs` 104-125. -/
def KeyedIter.next (nav : Navigator) (it : KeyedIter) : Option (NavNode × NavNode) × KeyedIter :=
  match it.keys with
  | [] => (none, it)
  | k :: ks => match nav[k]? with
    | none => (none, ⟨ks, it.values⟩)
    | some key => match it.values with
      | [] => (none, ⟨ks, []⟩)
      | i :: r => (nav[i]?.map fun v => (key, v), ⟨ks, r⟩)

/-- `struct NodeIter`, `/repo/src/nav/mod.rs` 81-84: the nodes left. -/
structure NodeIter where
  iter : List NavNode

/-- `NodeIter::next`, `/repo/src/nav/navigator.rs` 265-270. -/
def NodeIter.next (it : NodeIter) : Option NavNode × NodeIter :=
  match it.iter with
  | [] => (none, it)
  | n :: r => (some n, ⟨r⟩)

/-- `Navigator::nodes`, `/repo/src/nav/navigator.rs` 254-259. -/
def nodes (nav : Navigator) : NodeIter := ⟨nav⟩

/-- `Navigator::get`, `/repo/src/nav/navigator.rs` 215-217. -/
def get (nav : Navigator) (i : Nat) : Option NavNode := nav[i]?

/-- `Navigator::len`, `/repo/src/nav/navigator.rs` 220-222. -/
def len (nav : Navigator) : Nat := nav.length

/-- `Navigator::is_empty`, `/repo/src/nav/navigator.rs` 225-227. -/
def isEmpty (nav : Navigator) : Bool := nav.isEmpty

/-- `Node::value_children`, `/repo/src/nav/node.rs` 157-162. -/
def valueIter (n : NavNode) : SeqIter := ⟨n.valueChildren⟩

/-- `Node::key_children`, `/repo/src/nav/node.rs` 184-189. -/
def keyIter (n : NavNode) : SeqIter := ⟨n.keyChildren⟩

/-- `enum NodeValue`, `/repo/src/nav/mod.rs` 67-78. -/
inductive NodeIters where
  | primitive
  | tuple (it : SeqIter)
  | cntr (it : NamedIter)
  | seq (it : SeqIter)
  | map (it : KeyedIter)

/-- `NodeInner::value`, `/repo/src/nav/value.rs` 4-29. -/
def iters (n : NavNode) : NodeIters :=
  match n.kserd.val with
  | .tuple _ => .tuple ⟨n.valueChildren⟩
  | .cntr f => .cntr ⟨f.map (·.1), n.valueChildren⟩
  | .seq _ => .seq ⟨n.valueChildren⟩
  | .map _ => .map ⟨n.keyChildren, n.valueChildren⟩
  | _ => .primitive

/-- `Debug for Option<usize>` (std). -/
def optText : Option Nat → Str
  | none => KS.str "None"
  | some n => KS.str "Some(" ++ natDigits n ++ KS.str ")"

/-- The name of the kind of a node, `/repo/src/nav/node.rs` 301-309. -/
def kindName : Kind → Str
  | .prim => KS.str "Primitive"
  | .tuple => KS.str "Tuple"
  | .cntr => KS.str "Cntr"
  | .seq => KS.str "Seq"
  | .map => KS.str "Map"

/-- The value of a primitive, `/repo/src/nav/node.rs` 303-304. -/
def valueText (plain : Char → Bool) (v : Value) : Str :=
  match v.kind with
  | .prim => KS.str ", value: " ++ Dbg.value plain v
  | _ => []

/-- `Debug for Node`, `/repo/src/nav/node.rs` 295-318, with `debug_struct` of std, in the plain form. -/
def debug (plain : Char → Bool) (nav : Navigator) (n : NavNode) : Str :=
  KS.str "Node { id: " ++ Dbg.ident plain n.kserd.id ++ KS.str ", value-type: " ++ Dbg.quote plain (kindName n.kserd.val.kind) ++
    valueText plain n.kserd.val ++ KS.str ", index: " ++ natDigits n.idx ++ KS.str ", parent: " ++ optText ((parent nav n).map (·.idx)) ++
    KS.str ", is_key: " ++ (if isKey n then KS.str "true" else KS.str "false") ++ KS.str ", idx_in_parent: " ++ natDigits (idxInParent n) ++ KS.str " }"

end KS.Nav
