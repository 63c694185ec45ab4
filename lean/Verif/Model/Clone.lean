import Verif.Model.Own
/-!
# `Clone` — `/repo/src/ds/kserd.rs` 352-360, `/repo/src/ds/val.rs` 750-764
-/

namespace KS

/-- `Clone for Kstr` and `Clone for Barr`, derived (`/repo/src/ds/kstr.rs` 11, `/repo/src/ds/barr.rs` 11) over `Cow` (std): borrowed data stays borrowed,
owned data is copied. -/
def Cow.clone {α : Type} (c : Cow α) : Cow α := if c.owned then mkOwned c.data else brwed c.data

namespace OKserd

mutual
/-- `impl Clone for Kserd`, `/repo/src/ds/kserd.rs` 352-360. -/
def clone : OKserd → OKserd
  | .mk i v => .mk (i.map Cow.clone) (cloneV v)
termination_by structural a => a
/-- `impl Clone for Value`, `/repo/src/ds/val.rs` 750-764. -/
def cloneV : OValue → OValue
  | .unit => .unit
  | .bool b => .bool b
  | .num n => .num n
  | .str s => .str s.clone
  | .barr b => .barr b.clone
  | .tuple l => .tuple (cloneL l)
  | .cntr f => .cntr (cloneF f)
  | .seq l => .seq (cloneL l)
  | .map m => .map (cloneM m)
termination_by structural a => a
/-- `Clone for Vec` (std). -/
def cloneL : List OKserd → List OKserd
  | [] => []
  | k :: r => clone k :: cloneL r
termination_by structural a => a
/-- `Clone for Fields`, a `BTreeMap` (std): the entries in order. -/
def cloneF : List (Cow Str × OKserd) → List (Cow Str × OKserd)
  | [] => []
  | (n, k) :: r => (n.clone, clone k) :: cloneF r
termination_by structural a => a
/-- `Clone for Map`, a `BTreeMap` (std): the entries in order. -/
def cloneM : List (OKserd × OKserd) → List (OKserd × OKserd)
  | [] => []
  | (k, v) :: r => (clone k, clone v) :: cloneM r
termination_by structural a => a
end

end OKserd
end KS
