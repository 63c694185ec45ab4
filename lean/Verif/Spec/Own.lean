import Verif.Model.Own
/-!
# Ownership specification
-/
namespace KS.Spec

mutual
/-- Every string, byte array, field name and identity inside satisfies "owned = b", map keys included. -/
def Owned (b : Bool) : OKserd → Prop
  | .mk i v => (∀ s, i = some s → s.owned = b) ∧ OwnedV b v
termination_by structural a => a
def OwnedV (b : Bool) : OValue → Prop
  | .unit => True
  | .bool _ => True
  | .num _ => True
  | .str s => s.owned = b
  | .barr s => s.owned = b
  | .tuple l => OwnedL b l
  | .cntr f => OwnedF b f
  | .seq l => OwnedL b l
  | .map m => OwnedM b m
termination_by structural a => a
def OwnedL (b : Bool) : List OKserd → Prop
  | [] => True
  | k :: r => Owned b k ∧ OwnedL b r
termination_by structural a => a
def OwnedF (b : Bool) : List (Cow Str × OKserd) → Prop
  | [] => True
  | (n, k) :: r => n.owned = b ∧ Owned b k ∧ OwnedF b r
termination_by structural a => a
def OwnedM (b : Bool) : List (OKserd × OKserd) → Prop
  | [] => True
  | (n, k) :: r => Owned b n ∧ Owned b k ∧ OwnedM b r
termination_by structural a => a
end

end KS.Spec
