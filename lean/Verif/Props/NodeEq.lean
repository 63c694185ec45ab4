import Verif.Model.NodeEq
import Verif.Props.Nav
/-!
# C80: equality of nodes
-/

namespace KS.Props
open KS.Nav

/-- **C80.** Two nodes, of navigators of any two Kserds, are `==` exactly if they are of the same navigator and tell the same index. What they hold does not
count. -/
theorem C80_same (p q : Nat) (r s : Kserd) (i j : Nat) (a b : NodeRef) (ha : getRef p (Nav.new r) i = some a) (hb : getRef q (Nav.new s) j = some b) :
    NodeRef.eq a b = true ↔ p = q ∧ a.index = b.index := by
  obtain ⟨n, hn, rfl⟩ := Option.map_eq_some_iff.mp ha
  obtain ⟨m, hm, rfl⟩ := Option.map_eq_some_iff.mp hb
  have h1 := (C18_preorder r).2.1 i n hn
  have h2 := (C18_preorder s).2.1 j m hm
  simp only [NodeRef.eq, NodeRef.sameEntry, NodeRef.index, h1, h2, Bool.and_eq_true, beq_iff_eq]
  tauto

/-- Two units in a sequence hold equal Kserds and are different nodes. -/
example : ∃ a b, getRef 7 (Nav.new (.mk none (.seq [.mk none .unit, .mk none .unit]))) 1 = some a ∧
    getRef 7 (Nav.new (.mk none (.seq [.mk none .unit, .mk none .unit]))) 2 = some b ∧ a.node.kserd = b.node.kserd ∧ NodeRef.eq a b = false :=
  ⟨_, _, rfl, rfl, by decide, by decide⟩

/-- **C80** (root): there is always a root, it is the node at 0, and a node is `==` the root of its navigator exactly if it has no parent. -/
theorem C80_root (p : Nat) (r : Kserd) : ∃ o, rootRef p (Nav.new r) = some o ∧ o.node.kserd = r ∧
    ∀ i a, getRef p (Nav.new r) i = some a → (NodeRef.eq a o = true ↔ a.parent.isNone = true) := by
  obtain ⟨n, hn, hk⟩ := (C18_preorder r).2.2
  refine ⟨⟨p, Nav.new r, 0, n⟩, by rw [rootRef, List.head?_eq_getElem?, hn]; rfl, hk, ?_⟩
  intro i a ha
  have ho : getRef p (Nav.new r) 0 = some ⟨p, Nav.new r, 0, n⟩ := by rw [getRef, hn]; rfl
  rw [C80_same p p r r i 0 a _ ha ho]
  obtain ⟨m, hm, rfl⟩ := Option.map_eq_some_iff.mp ha
  have h1 := (C18_preorder r).2.1 i m hm
  have h0 := (C18_preorder r).2.1 0 n hn
  have hp := (C19_links r i m hm).1
  have : (NodeRef.parent ⟨p, Nav.new r, i, m⟩).isNone = true ↔ Nav.parent (Nav.new r) m = none := by
    simp only [NodeRef.parent, Nav.parent, getRef]
    cases m.parent with
    | none => simp
    | some x => simp
  rw [this, hp]
  simp only [NodeRef.index, h1, h0, true_and]

/-- Applied to the second node of a tuple, which is not the root and has a parent. -/
example : let k : Kserd := .mk none (.tuple [.mk none .unit, .mk none .unit])
    ∃ o a, rootRef 3 (Nav.new k) = some o ∧ getRef 3 (Nav.new k) 2 = some a ∧ NodeRef.eq a o = false ∧ a.parent.isNone = false := by
  intro k
  obtain ⟨o, h1, _, h3⟩ := C80_root 3 k
  obtain ⟨a, ha, hp⟩ : ∃ a, getRef 3 (Nav.new k) 2 = some a ∧ a.parent.isNone = false := ⟨_, rfl, by decide⟩
  refine ⟨o, a, h1, ha, ?_, hp⟩
  rw [Bool.eq_false_iff]
  intro he
  rw [(h3 2 a ha).mp he] at hp
  cases hp

/-- **C80** (routes): from a child, by key or by value, back to its parent leads to a node `==` the one started from. -/
theorem C80_back (p : Nat) (r : Kserd) (i j : Nat) (a c : NodeRef) (ha : getRef p (Nav.new r) i = some a) (hc : getRef p (Nav.new r) j = some c)
    (h : j ∈ a.node.valueChildren ∨ j ∈ a.node.keyChildren) : ∃ b, c.parent = some b ∧ NodeRef.eq b a = true := by
  obtain ⟨n, hn, rfl⟩ := Option.map_eq_some_iff.mp ha
  obtain ⟨m, hm, rfl⟩ := Option.map_eq_some_iff.mp hc
  have hl := (C19_links r i n hn).2.2.1 j m hm
  have hp : m.parent = some i := h.elim (fun h => (hl.1.mp h).1) (fun h => (hl.2.mp h).1)
  refine ⟨⟨p, Nav.new r, i, n⟩, ?_, ?_⟩
  · show m.parent.bind _ = _
    rw [hp]; exact ha
  · exact (C80_same p p r r i i _ _ ha ha).mpr ⟨rfl, rfl⟩

/-- Applied to the key of a map. -/
example : let k : Kserd := .mk none (.map [(.mk none .unit, .mk none (.bool true))])
    ∃ a c b, getRef 0 (Nav.new k) 0 = some a ∧ getRef 0 (Nav.new k) 1 = some c ∧ c.parent = some b ∧ NodeRef.eq b a = true := by
  intro k
  obtain ⟨b, h1, h2⟩ := C80_back 0 k 0 1 _ _ rfl rfl (.inr (by decide))
  exact ⟨_, _, b, rfl, rfl, h1, h2⟩

end KS.Props
