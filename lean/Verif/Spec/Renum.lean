import Verif.Spec.RoundTrip
/-!
# Exchanging the numbers of a Kserd
-/

namespace KS.Spec

/-! The Kserd with every number (at every depth, map keys included) replaced by another one. -/
mutual
def mapNum (g : Number → Number) : Kserd → Kserd
  | .mk id v => .mk id (mapNumV g v)
termination_by structural a => a
def mapNumV (g : Number → Number) : Value → Value
  | .num n => .num (g n)
  | .tuple l => .tuple (mapNumL g l)
  | .seq l => .seq (mapNumL g l)
  | .cntr f => .cntr (mapNumF g f)
  | .map m => .map (mapNumM g m)
  | .unit => .unit
  | .bool b => .bool b
  | .str s => .str s
  | .barr b => .barr b
termination_by structural a => a
def mapNumL (g : Number → Number) : List Kserd → List Kserd
  | [] => []
  | k :: r => mapNum g k :: mapNumL g r
termination_by structural a => a
def mapNumF (g : Number → Number) : List (Str × Kserd) → List (Str × Kserd)
  | [] => []
  | (n, k) :: r => (n, mapNum g k) :: mapNumF g r
termination_by structural a => a
def mapNumM (g : Number → Number) : List (Kserd × Kserd) → List (Kserd × Kserd)
  | [] => []
  | (k, v) :: r => (mapNum g k, mapNum g v) :: mapNumM g r
termination_by structural a => a
end

end KS.Spec
