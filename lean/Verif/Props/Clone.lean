import Verif.Model.Clone
/-!
# C81: clones
-/

namespace KS.Props
open KS.OKserd

theorem cow_clone {α : Type} (c : Cow α) : c.clone = c := by
  obtain ⟨o, d⟩ := c
  cases o <;> rfl

mutual
/-- **C81.** A clone is the same Kserd: the same value, the same identities at every depth, and every string and byte array is borrowed or owned as it was. -/
theorem C81_clone : ∀ k : OKserd, clone k = k
  | .mk i v => by
    rw [clone, C81_value v]
    cases i with
    | none => rfl
    | some c => rw [Option.map_some, cow_clone]
termination_by structural a => a
/-- **C81** (values). -/
theorem C81_value : ∀ v : OValue, cloneV v = v
  | .unit => rfl
  | .bool _ => rfl
  | .num _ => rfl
  | .str s => by rw [cloneV, cow_clone]
  | .barr b => by rw [cloneV, cow_clone]
  | .tuple l => by rw [cloneV, cloneL_eq l]
  | .cntr f => by rw [cloneV, cloneF_eq f]
  | .seq l => by rw [cloneV, cloneL_eq l]
  | .map m => by rw [cloneV, cloneM_eq m]
termination_by structural a => a
theorem cloneL_eq : ∀ l, cloneL l = l
  | [] => rfl
  | k :: r => by rw [cloneL, C81_clone k, cloneL_eq r]
termination_by structural a => a
theorem cloneF_eq : ∀ l, cloneF l = l
  | [] => rfl
  | (n, k) :: r => by rw [cloneF, cow_clone, C81_clone k, cloneF_eq r]
termination_by structural a => a
theorem cloneM_eq : ∀ l, cloneM l = l
  | [] => rfl
  | (k, v) :: r => by rw [cloneM, C81_clone k, C81_clone v, cloneM_eq r]
termination_by structural a => a
end

/-- Applied to a map with a borrowed key, an owned value and identities; so a clone may still borrow. -/
example : clone (.mk (some ⟨true, str "M"⟩) (.map [(.mk none (.str ⟨false, str "a"⟩), .mk (some ⟨false, str "B"⟩) (.barr ⟨true, []⟩))])) =
    .mk (some ⟨true, str "M"⟩) (.map [(.mk none (.str ⟨false, str "a"⟩), .mk (some ⟨false, str "B"⟩) (.barr ⟨true, []⟩))]) := C81_clone _

end KS.Props
