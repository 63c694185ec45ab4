import Verif.Spec.Nav
import Verif.Spec.Width
/-!
# Width estimates
-/

namespace KS.Spec

/-- The inline width of a Kserd: the sum over all Kserds in it, each counted by itself. -/
def subtreeWidth (c : FormattingConfig) (k : Kserd) : Nat := ((preorder k).map (estWidth c)).sum

/-- `Column c k o y`: if `k` begins at column 0 and is laid out concisely, then `y` begins at column `o`. Elements are indented by 4, fields follow
`name = `, and map values follow their key on one line and `: `. Keys are not looked into. -/
inductive Column (c : FormattingConfig) : Kserd → Nat → Kserd → Prop
  | self (k : Kserd) : Column c k 0 k
  | tuple {id : Option Str} {l : List Kserd} {x y : Kserd} {o : Nat} : x ∈ l → Column c x o y → Column c (.mk id (.tuple l)) (4 + o) y
  | seq {id : Option Str} {l : List Kserd} {x y : Kserd} {o : Nat} : x ∈ l → Column c x o y → Column c (.mk id (.seq l)) (4 + o) y
  | cntr {id : Option Str} {f : Fields} {n : Str} {x y : Kserd} {o : Nat} : (n, x) ∈ f → Column c x o y →
      Column c (.mk id (.cntr f)) (4 + (n.length + 3) + o) y
  | map {id : Option Str} {m : KMap} {k x y : Kserd} {o : Nat} : (k, x) ∈ m → Column c x o y →
      Column c (.mk id (.map m)) (4 + (subtreeWidth c k + 2) + o) y

/-! The columns at which things end if a Kserd begins at column 0 and everything in it that can be is on several lines, by the formatter's reckoning. -/
mutual
def lineEnds (c : FormattingConfig) : Kserd → List Nat
  | .mk id v => headWidth c (.mk id v) :: lineEndsV c v
termination_by structural a => a
def lineEndsV (c : FormattingConfig) : Value → List Nat
  | .tuple l | .seq l => lineEndsL c l
  | .cntr f => lineEndsF c f
  | .map m => lineEndsM c m
  | _ => []
termination_by structural a => a
def lineEndsL (c : FormattingConfig) : List Kserd → List Nat
  | [] => []
  | k :: r => (lineEnds c k).map (4 + ·) ++ lineEndsL c r
termination_by structural a => a
def lineEndsF (c : FormattingConfig) : List (Str × Kserd) → List Nat
  | [] => []
  | (n, k) :: r => (lineEnds c k).map (4 + (n.length + 3) + ·) ++ lineEndsF c r
termination_by structural a => a
def lineEndsM (c : FormattingConfig) : List (Kserd × Kserd) → List Nat
  | [] => []
  | (k, v) :: r => (lineEnds c v).map (4 + (subtreeWidth c k + 2) + ·) ++ lineEndsM c r
termination_by structural a => a
end

/-- The width reckoned for a Kserd on several lines. -/
def blockWidth (c : FormattingConfig) (k : Kserd) : Nat := (lineEnds c k).foldr max 0

end KS.Spec
