import Verif.Model.Nav
/-!
# What a navigator should look like
-/

namespace KS.Spec

mutual
/-- All Kserds of a tree: a Kserd, then its children's from left to right; a map's key comes just before its value. -/
def preorder : Kserd → List Kserd
  | .mk i v => .mk i v :: preorderV v
termination_by structural a => a
def preorderV : Value → List Kserd
  | .unit => []
  | .bool _ => []
  | .num _ => []
  | .str _ => []
  | .barr _ => []
  | .tuple l => preorderL l
  | .cntr f => preorderF f
  | .seq l => preorderL l
  | .map m => preorderM m
termination_by structural a => a
def preorderL : List Kserd → List Kserd
  | [] => []
  | k :: r => preorder k ++ preorderL r
termination_by structural a => a
def preorderF : List (Str × Kserd) → List Kserd
  | [] => []
  | (_, k) :: r => preorder k ++ preorderF r
termination_by structural a => a
def preorderM : List (Kserd × Kserd) → List Kserd
  | [] => []
  | (k, v) :: r => preorder k ++ (preorder v ++ preorderM r)
termination_by structural a => a
end

/-- Direct children that are not map keys. -/
def valuesOf : Value → List Kserd
  | .tuple l => l
  | .cntr f => f.map (·.2)
  | .seq l => l
  | .map m => m.map (·.2)
  | _ => []

/-- Direct children that are map keys. -/
def keysOf : Value → List Kserd
  | .map m => m.map (·.1)
  | _ => []

/-- `j` is a proper descendant of `i`: following parent links from `j` reaches `i`. -/
inductive Below (nav : Navigator) (i : Nat) : Nat → Prop
  | child {j : Nat} {m : NavNode} : nav[j]? = some m → m.parent = some i → Below nav i j
  | step {j p : Nat} {m : NavNode} : nav[j]? = some m → m.parent = some p → Below nav i p → Below nav i j

/-- The number of parent links from a node to a node without parent. -/
inductive AtDepth (nav : Navigator) : Nat → Nat → Prop
  | root {j : Nat} {m : NavNode} : nav[j]? = some m → m.parent = none → AtDepth nav j 0
  | step {j p d : Nat} {m : NavNode} : nav[j]? = some m → m.parent = some p → AtDepth nav p d → AtDepth nav j (d + 1)

end KS.Spec
