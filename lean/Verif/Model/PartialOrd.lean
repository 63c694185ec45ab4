import Verif.Model.NumPrim
import Verif.Model.Kserd
/-!
# `PartialOrd` and the comparison operators — `/repo/src/ds/kserd.rs` 340-344, `/repo/src/ds/val.rs` 39

The nested `cmp` is total here (`C04_never_panics`).
-/

namespace KS

/-- One after the other: what comes later counts only after `Some(Equal)` (derived `partial_cmp`, `partial_cmp` of tuples in std). -/
def partialThen (a b : Option Ordering) : Option Ordering :=
  match a with
  | some .eq => b
  | a => a

/-- `partial_cmp` of `Vec` and of iterators (std): the first elements that are not `Some(Equal)` decide, otherwise the shorter one is less. -/
def partialList {α : Type} (f : α → α → Option Ordering) : List α → List α → Option Ordering
  | [], [] => some .eq
  | [], _ :: _ => some .lt
  | _ :: _, [] => some .gt
  | a :: r, b :: s => partialThen (f a b) (partialList f r s)

/-- `impl PartialOrd for Kserd`, `/repo/src/ds/kserd.rs` 340-344. -/
def Kserd.partialCmp (a b : Kserd) : Option Ordering := some (Kserd.cmp a b)

/-- `#[derive(PartialOrd)]` on `Value`, `/repo/src/ds/val.rs` 39: the variants in order of declaration, then the content. `Kstr` and `Barr` derive it
from `Cow`, which compares the content (`/repo/src/ds/kstr.rs` 11, `/repo/src/ds/barr.rs` 11). `Fields` and `Map` are compared entry by entry. A panic
of the number comparison is `none` here, like no answer. -/
def Value.partialCmp : Value → Value → Option Ordering
  | .unit, .unit => some .eq
  | .bool a, .bool b => some (compare a.toNat b.toNat)
  | .num a, .num b => (Number.partialCmp a b).join
  | .str a, .str b => some (cmpStr a b)
  | .barr a, .barr b => some (cmpBytes a b)
  | .tuple a, .tuple b => partialList Kserd.partialCmp a b
  | .cntr a, .cntr b => partialList (fun p q => partialThen (some (cmpStr p.1 q.1)) (Kserd.partialCmp p.2 q.2)) a b
  | .seq a, .seq b => partialList Kserd.partialCmp a b
  | .map a, .map b => partialList (fun p q => partialThen (Kserd.partialCmp p.1 q.1) (Kserd.partialCmp p.2 q.2)) a b
  | a, b => some (compare (Kserd.rankV a) (Kserd.rankV b))

/-! The operators, given by std from `partial_cmp`. -/

/-- `a < b` -/
def opLt (c : Option Ordering) : Bool := c == some .lt
/-- `a <= b` -/
def opLe (c : Option Ordering) : Bool := c == some .lt || c == some .eq
/-- `a > b` -/
def opGt (c : Option Ordering) : Bool := c == some .gt
/-- `a >= b` -/
def opGe (c : Option Ordering) : Bool := c == some .gt || c == some .eq

end KS
