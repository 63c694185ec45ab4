import Verif.Spec.Serde
/-!
# Maps whose keys compare consistently
-/

namespace KS.Spec

/-- The condition of `Orderly` at one value. -/
def orderlyHere : Ser → Prop
  | .map ops => ∀ a ∈ opKeys ops, ∀ b ∈ opKeys ops, ∀ c ∈ opKeys ops, ∀ ka kb kc, a.encode = .ok ka → b.encode = .ok kb →
      c.encode = .ok kc → Kserd.cmp ka kb ≠ .gt → Kserd.cmp kb kc ≠ .gt → Kserd.cmp ka kc ≠ .gt
  | _ => True

/-- In every map, the order of the encoded keys is transitive. Comparing integers with floats can break this, see
`C03_not_transitive`. -/
def Orderly : Ser → Prop := SerAll orderlyHere

end KS.Spec
