import Verif.Spec.Grammar
/-!
# Documents whose keys have a sensible order

For these the grammar determines the value of a document (C60). `lawful` numbers are all integers and most floats (C10).
-/

namespace KS.Spec

/-- The number written, if it is one, satisfies `P`. -/
def Literal.Num (P : Number → Prop) : Literal → Prop
  | .num _ n => P n
  | _ => True

mutual
/-- All numbers written in the tree satisfy `P`. -/
def Tree.Nums (P : Number → Prop) : Tree → Prop
  | .prim _ _ l => l.Num P
  | .tuple _ _ _ _ b => b.Nums P
  | .seq _ _ _ _ b => b.Nums P
  | .cntr _ _ _ _ b => b.Nums P
  | .map _ _ _ _ b => b.Nums P
termination_by structural t => t
def Elems.Nums (P : Number → Prop) : Elems → Prop
  | .nil => True
  | .cons _ t _ r => t.Nums P ∧ r.Nums P
termination_by structural t => t
def Assigns.Nums (P : Number → Prop) : Assigns → Prop
  | .nil => True
  | .cons _ _ _ _ t _ r => t.Nums P ∧ r.Nums P
termination_by structural t => t
def Pairs.Nums (P : Number → Prop) : Pairs → Prop
  | .nil => True
  | .cons _ key _ _ v _ r => key.Nums P ∧ v.Nums P ∧ r.Nums P
termination_by structural t => t
end

mutual
/-- All numbers in keys of maps, at every depth, are lawful. -/
def Tree.KeysOk : Tree → Prop
  | .prim _ _ _ => True
  | .tuple _ _ _ _ b => b.KeysOk
  | .seq _ _ _ _ b => b.KeysOk
  | .cntr _ _ _ _ b => b.KeysOk
  | .map _ _ _ _ b => b.KeysOk
termination_by structural t => t
def Elems.KeysOk : Elems → Prop
  | .nil => True
  | .cons _ t _ r => t.KeysOk ∧ r.KeysOk
termination_by structural t => t
def Assigns.KeysOk : Assigns → Prop
  | .nil => True
  | .cons _ _ _ _ t _ r => t.KeysOk ∧ r.KeysOk
termination_by structural t => t
def Pairs.KeysOk : Pairs → Prop
  | .nil => True
  | .cons _ key _ _ v _ r => key.Nums lawful ∧ key.KeysOk ∧ v.KeysOk ∧ r.KeysOk
termination_by structural t => t
end

mutual
/-- All numbers in keys of maps, at every depth, are lawful. -/
def Doc.KeysOk : Doc → Prop
  | .value _ t => t.KeysOk
  | .lines l => l.KeysOk
termination_by structural t => t
def Lines.KeysOk : Lines → Prop
  | .nil => True
  | .cons _ _ _ x r => x.KeysOk ∧ r.KeysOk
termination_by structural t => t
def Line.KeysOk : Line → Prop
  | .id _ _ => True
  | .field _ _ _ t => t.KeysOk
  | .sub _ d => d.KeysOk
  | .elem _ d => d.KeysOk
  | .entry _ _ key _ _ t => key.Nums lawful ∧ key.KeysOk ∧ t.KeysOk
  | .entryBelow _ _ key _ _ _ d => key.Nums lawful ∧ key.KeysOk ∧ d.KeysOk
termination_by structural t => t
end

end KS.Spec
