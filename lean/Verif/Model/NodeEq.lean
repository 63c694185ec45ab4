import Verif.Model.Nav
/-!
# Equality of nodes — `/repo/src/nav/node.rs` 320-327

`Node` holds two references, one to an entry of a navigator and one to the navigator, and `==` compares them as pointers. A reference to a navigator is
modelled by a number, its address, together with what it holds; a reference to an entry by the address of the navigator and the place of the entry in its
vector. That is a simplification: entries have a size and vectors of different navigators do not share memory, so that two such references are the same
pointer exactly if both numbers agree.
-/

namespace KS.Nav

/-- `struct Node`, `/repo/src/nav/mod.rs` 44-48. -/
structure NodeRef where
  addr : Nat
  nav : Navigator
  slot : Nat
  node : NavNode

/-- `Navigator::get`, `/repo/src/nav/navigator.rs` 215-217, for the navigator at `addr`. -/
def getRef (addr : Nat) (nav : Navigator) (i : Nat) : Option NodeRef := (nav[i]?).map fun n => ⟨addr, nav, i, n⟩

/-- `Navigator::root`, `/repo/src/nav/navigator.rs` 185-189; `none` is the panic of `unwrap`. -/
def rootRef (addr : Nat) (nav : Navigator) : Option NodeRef := nav.head?.map fun n => ⟨addr, nav, 0, n⟩

/-- `Node::index`, `/repo/src/nav/node.rs` 19-21: the number stored in the entry. -/
def NodeRef.index (a : NodeRef) : Nat := a.node.idx

/-- `Node::parent`, `/repo/src/nav/node.rs` 51-53. -/
def NodeRef.parent (a : NodeRef) : Option NodeRef := a.node.parent.bind fun p => getRef a.addr a.nav p

/-- `std::ptr::eq(self.node, rhs.node)`. -/
def NodeRef.sameEntry (a b : NodeRef) : Bool := a.addr == b.addr && a.slot == b.slot

/-- `impl PartialEq for Node`, `/repo/src/nav/node.rs` 320-325. -/
def NodeRef.eq (a b : NodeRef) : Bool := NodeRef.sameEntry a b && a.addr == b.addr

end KS.Nav
