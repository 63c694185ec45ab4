import Verif.Model.Basic
/-!
# `std::collections::BTreeMap` as an association list kept in ascending key order

Trusted base: std's `BTreeMap` behaves as below for lawful key orders.
`insert` on an equal key keeps the old key and replaces the value.
`FromIterator` sorts the pairs stably by key and keeps the last of each run of keys that
compare `==` (std `DedupSortedIter`), key included.
-/

namespace KS

/-- Lexicographic `Ord` of slices, `str` and `Vec` (std). -/
def lexCmp {α : Type} (f : α → α → Ordering) : List α → List α → Ordering
  | [], [] => .eq
  | [], _ :: _ => .lt
  | _ :: _, [] => .gt
  | a :: as, b :: bs => (f a b).then (lexCmp f as bs)

/-- `Ord for str`: byte-wise, which for UTF-8 is code-point-wise. -/
def cmpStr : Str → Str → Ordering := lexCmp (fun a b => compare a.toNat b.toNat)

/-- `Ord for [u8]`. -/
def cmpBytes : Bytes → Bytes → Ordering := lexCmp (fun a b => compare a.toNat b.toNat)

namespace BTree

variable {κ β : Type}

/-- `BTreeMap::insert`. -/
def insert (cmp : κ → κ → Ordering) (k : κ) (v : β) : List (κ × β) → List (κ × β)
  | [] => [(k, v)]
  | (k', v') :: r =>
    match cmp k k' with
    | .lt => (k, v) :: (k', v') :: r
    | .eq => (k', v) :: r
    | .gt => (k', v') :: insert cmp k v r

/-- Insert before the first strictly greater key: one step of a stable sort. -/
def sortInsert (cmp : κ → κ → Ordering) (k : κ) (v : β) : List (κ × β) → List (κ × β)
  | [] => [(k, v)]
  | (k', v') :: r =>
    match cmp k k' with
    | .lt => (k, v) :: (k', v') :: r
    | _ => (k', v') :: sortInsert cmp k v r

/-- `slice::sort_by` on keys (stable). -/
def stableSort (cmp : κ → κ → Ordering) (l : List (κ × β)) : List (κ × β) :=
  l.foldl (fun acc kv => sortInsert cmp kv.1 kv.2 acc) []

/-- Keep the last pair of every run of `==` keys. -/
def dedupLast (eq : κ → κ → Bool) : List (κ × β) → List (κ × β)
  | [] => []
  | [p] => [p]
  | p :: q :: r => if eq p.1 q.1 then dedupLast eq (q :: r) else p :: dedupLast eq (q :: r)

/-- `BTreeMap::from_iter` / `collect`. -/
def fromIter (cmp : κ → κ → Ordering) (eq : κ → κ → Bool) (l : List (κ × β)) : List (κ × β) :=
  dedupLast eq (stableSort cmp l)

/-- `BTreeMap::get`. -/
def get (cmp : κ → κ → Ordering) (k : κ) : List (κ × β) → Option β
  | [] => none
  | (k', v') :: r =>
    match cmp k k' with
    | .lt => none
    | .eq => some v'
    | .gt => get cmp k r

/-- Write through `BTreeMap::get_mut`: replace the value stored under `k`. -/
def set (cmp : κ → κ → Ordering) (k : κ) (v : β) : List (κ × β) → List (κ × β)
  | [] => []
  | (k', v') :: r =>
    match cmp k k' with
    | .lt => (k', v') :: r
    | .eq => (k', v) :: r
    | .gt => (k', v') :: set cmp k v r

end BTree
end KS
