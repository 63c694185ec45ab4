/-!
# Iterators

An iterator is a state with a step which gives an item or none and the next state.
-/

namespace KS.Spec

/-- The state after `j` steps. -/
def stateAfter {σ α : Type} (next : σ → Option α × σ) : Nat → σ → σ
  | 0, s => s
  | j + 1, s => stateAfter next j (next s).2

/-- The iterator gives the items of the list in order and from then on none, however often it is asked. -/
def Gives {σ α : Type} (next : σ → Option α × σ) (s : σ) (l : List α) : Prop := ∀ j, (next (stateAfter next j s)).1 = l[j]?

/-- After any number of steps `len` is the number of items to come and `isEmpty` says whether there are none. -/
def Counts {σ α : Type} (next : σ → Option α × σ) (len : σ → Nat) (isEmpty : σ → Bool) (s : σ) (l : List α) : Prop :=
  ∀ j, len (stateAfter next j s) = l.length - j ∧ (isEmpty (stateAfter next j s) = true ↔ l.length ≤ j)

end KS.Spec
