import Verif.Spec.Serde
import Verif.Spec.Plain
/-!
# Which serde values survive being written as text
-/

namespace KS.Spec

/-- The condition of `TextPlain` at one value. -/
def textHere : Ser → Prop
  | .f64 x => x ≠ .fin true 0 ∧ ∀ s p, x = .nan s p → x = .nan false (2 ^ 51)
  | .f32 x => x ≠ .fin true 0
  | .struct n fs => ¬ (n = KS.str "None" ∧ fs = [])
  | .structVariant _ fs => fs ≠ []
  | _ => True

/-- What the way through text needs beyond `Plain`, which is about Kserds in memory: no negative zero (the text `-0` is
an integer), no `f64` NaN except the usual one (the text `NaN` has no bits), no struct without fields called `None` and
no struct variant without fields (an empty container is written and read as an empty tuple). -/
def TextPlain : Ser → Prop := SerAll textHere

end KS.Spec
