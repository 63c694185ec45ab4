import Verif.Spec.Renum
import Verif.Spec.Kserd
/-!
# What `Debug` text keeps
-/

namespace KS.Spec

/-- Numbers as `Debug` shows them: all NaNs look the same. -/
def oneNan : Number → Number
  | .float (.nan _ _) => .float (.nan false 0)
  | n => n

/-- Numbers are in range, and field names have no blanks (C12). -/
def Plainly (k : Kserd) : Prop :=
  match k.val with
  | .num n => n.WF
  | .cntr f => ∀ p ∈ f, ' ' ∉ p.1
  | _ => True

end KS.Spec
