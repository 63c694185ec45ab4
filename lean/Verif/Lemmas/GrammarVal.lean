import Verif.Spec.Grammar
import Verif.Lemmas.Assemble
/-!
# The Kserd the parser makes of a tree of the grammar

As `Means`, with the maps and containers the code makes, also where the order of the keys makes no sense.
-/

namespace KS.Spec
open KS.P KS.AS

mutual
def Tree.Val : Tree → Kserd → Prop
  | .prim id _ l, k => k = .mk id l.value
  | .tuple id _ _ _ b, k => ∃ l, b.Val l ∧ k = .mk id (.tuple l)
  | .seq id _ _ _ b, k => ∃ l, b.Val l ∧ k = .mk id (.seq l)
  | .cntr id _ _ _ b, k => ∃ l f, b.Val l ∧ f = BTree.fromIter cmpStr (fun a b => a == b) l ∧ k = .mk id (.cntr f)
  | .map id _ _ _ b, k => ∃ l m, b.Val l ∧ m = BTree.fromIter Kserd.cmp Kserd.eq l ∧ k = .mk id (.map m)
termination_by structural t => t
def Elems.Val : Elems → List Kserd → Prop
  | .nil, l => l = []
  | .cons _ t _ r, l => ∃ k l', t.Val k ∧ r.Val l' ∧ l = k :: l'
termination_by structural t => t
def Assigns.Val : Assigns → List (Str × Kserd) → Prop
  | .nil, l => l = []
  | .cons _ name _ _ t _ r, l => ∃ k l', t.Val k ∧ r.Val l' ∧ l = (name, k) :: l'
termination_by structural t => t
def Pairs.Val : Pairs → List (Kserd × Kserd) → Prop
  | .nil, l => l = []
  | .cons _ key _ _ v _ r, l => ∃ k x l', key.Val k ∧ v.Val x ∧ r.Val l' ∧ l = (k, x) :: l'
termination_by structural t => t
end

mutual
def Doc.Val : Doc → Kserd → Prop
  | .value _ t, k => t.Val k
  | .lines l, k => ∃ cs, l.Val cs ∧ k = (cs.foldl CAcc.step {}).finish
termination_by structural t => t
def Lines.Val : Lines → List CField → Prop
  | .nil, cs => cs = []
  | .cons _ _ _ x r, cs => ∃ c cs', x.Val c ∧ r.Val cs' ∧ cs = c :: cs'
termination_by structural t => t
def Line.Val : Line → CField → Prop
  | .id _ i, c => c = .id i
  | .field name _ _ t, c => ∃ k, t.Val k ∧ c = .direct name k
  | .sub h d, c => ∃ k, d.Val k ∧ c = .nested h.name (.mk (k.id.or h.identity) k.val)
  | .elem h d, c => ∃ k, d.Val k ∧ c = .seqEntry h.identity h.name k
  | .entry h _ key _ _ t, c => ∃ a k, key.Val a ∧ t.Val k ∧ c = .mapEntry h.identity h.name a k
  | .entryBelow h _ key _ _ _ d, c => ∃ a k, key.Val a ∧ d.Val k ∧ c = .mapEntry h.identity h.name a k
termination_by structural t => t
end

mutual
theorem Tree.val_unique : ∀ (T : Tree) {k k' : Kserd}, T.Val k → T.Val k' → k = k'
  | .prim _ _ _, _, _, h, h' => by rw [Tree.Val] at h h'; rw [h, h']
  | .tuple _ _ _ _ b, _, _, ⟨l, h, e⟩, ⟨l', h', e'⟩ => by rw [e, e', b.val_unique h h']
  | .seq _ _ _ _ b, _, _, ⟨l, h, e⟩, ⟨l', h', e'⟩ => by rw [e, e', b.val_unique h h']
  | .cntr _ _ _ _ b, _, _, ⟨l, f, h, ef, e⟩, ⟨l', f', h', ef', e'⟩ => by rw [e, e', ef, ef', b.val_unique h h']
  | .map _ _ _ _ b, _, _, ⟨l, f, h, ef, e⟩, ⟨l', f', h', ef', e'⟩ => by rw [e, e', ef, ef', b.val_unique h h']
termination_by structural t => t
theorem Elems.val_unique : ∀ (b : Elems) {l l' : List Kserd}, b.Val l → b.Val l' → l = l'
  | .nil, _, _, h, h' => by rw [Elems.Val] at h h'; rw [h, h']
  | .cons _ t _ r, _, _, ⟨k, l, h1, h2, e⟩, ⟨k', l', h1', h2', e'⟩ => by rw [e, e', t.val_unique h1 h1', r.val_unique h2 h2']
termination_by structural t => t
theorem Assigns.val_unique : ∀ (b : Assigns) {l l' : List (Str × Kserd)}, b.Val l → b.Val l' → l = l'
  | .nil, _, _, h, h' => by rw [Assigns.Val] at h h'; rw [h, h']
  | .cons _ _ _ _ t _ r, _, _, ⟨k, l, h1, h2, e⟩, ⟨k', l', h1', h2', e'⟩ => by rw [e, e', t.val_unique h1 h1', r.val_unique h2 h2']
termination_by structural t => t
theorem Pairs.val_unique : ∀ (b : Pairs) {l l' : List (Kserd × Kserd)}, b.Val l → b.Val l' → l = l'
  | .nil, _, _, h, h' => by rw [Pairs.Val] at h h'; rw [h, h']
  | .cons _ y _ _ t _ r, _, _, ⟨k, x, l, h0, h1, h2, e⟩, ⟨k', x', l', h0', h1', h2', e'⟩ => by
    rw [e, e', y.val_unique h0 h0', t.val_unique h1 h1', r.val_unique h2 h2']
termination_by structural t => t
end

mutual
theorem Doc.val_unique : ∀ (D : Doc) {k k' : Kserd}, D.Val k → D.Val k' → k = k'
  | .value _ t, _, _, h, h' => t.val_unique h h'
  | .lines l, _, _, ⟨cs, h, e⟩, ⟨cs', h', e'⟩ => by rw [e, e', l.val_unique h h']
termination_by structural t => t
theorem Lines.val_unique : ∀ (L : Lines) {k k' : List CField}, L.Val k → L.Val k' → k = k'
  | .nil, _, _, h, h' => by rw [Lines.Val] at h h'; rw [h, h']
  | .cons _ _ _ x r, _, _, ⟨c, cs, h1, h2, e⟩, ⟨c', cs', h1', h2', e'⟩ => by rw [e, e', x.val_unique h1 h1', r.val_unique h2 h2']
termination_by structural t => t
theorem Line.val_unique : ∀ (L : Line) {k k' : CField}, L.Val k → L.Val k' → k = k'
  | .id _ _, _, _, h, h' => by rw [Line.Val] at h h'; rw [h, h']
  | .field _ _ _ t, _, _, ⟨k, h, e⟩, ⟨k', h', e'⟩ => by rw [e, e', t.val_unique h h']
  | .sub _ d, _, _, ⟨k, h, e⟩, ⟨k', h', e'⟩ => by rw [e, e', d.val_unique h h']
  | .elem _ d, _, _, ⟨k, h, e⟩, ⟨k', h', e'⟩ => by rw [e, e', d.val_unique h h']
  | .entry _ _ y _ _ t, _, _, ⟨a, k, h0, h, e⟩, ⟨a', k', h0', h', e'⟩ => by rw [e, e', y.val_unique h0 h0', t.val_unique h h']
  | .entryBelow _ _ y _ _ _ d, _, _, ⟨a, k, h0, h, e⟩, ⟨a', k', h0', h', e'⟩ => by rw [e, e', y.val_unique h0 h0', d.val_unique h h']
termination_by structural t => t
end

end KS.Spec
