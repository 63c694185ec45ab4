import Verif.Model.Nav
import Mathlib.Data.List.Perm.Basic
import Mathlib.Data.List.Range
/-!
# Lemmas about navigators
-/

namespace KS.Nav

/-- Direct children in depth-first order, map keys immediately before their values. -/
def kidsOf : Value → List Kserd
  | .tuple l => l
  | .cntr f => f.map (·.2)
  | .seq l => l
  | .map m => m.flatMap (fun p => [p.1, p.2])
  | _ => []

def total : List Kserd → Nat
  | [] => 0
  | k :: r => k.size + total r

theorem sizeL_eq : ∀ l, Kserd.sizeL l = total l
  | [] => rfl
  | k :: r => by simp [Kserd.sizeL, total, sizeL_eq r]

theorem sizeF_eq : ∀ l, Kserd.sizeF l = total (l.map (·.2))
  | [] => rfl
  | (n, k) :: r => by simp [Kserd.sizeF, total, sizeF_eq r]

theorem sizeM_eq : ∀ l, Kserd.sizeM l = total (l.flatMap (fun p => [p.1, p.2]))
  | [] => rfl
  | (n, k) :: r => by simp [Kserd.sizeM, total, sizeM_eq r, Nat.add_assoc]

theorem size_eq (k : Kserd) : k.size = 1 + total (kidsOf k.val) := by
  obtain ⟨i, v⟩ := k
  cases v <;> simp [Kserd.size, Kserd.sizeV, kidsOf, total, sizeL_eq, sizeF_eq, sizeM_eq]

theorem total_append : ∀ a b, total (a ++ b) = total a + total b
  | [], b => by simp [total]
  | k :: r, b => by simp [total, total_append r b, Nat.add_assoc]

theorem size_pos (k : Kserd) : 0 < k.size := by rw [size_eq]; omega

theorem listKids_snd (p : Nat) : ∀ i l, (listKids p i l).map (·.2) = l
  | _, [] => rfl
  | i, k :: r => by simp [listKids, listKids_snd p (i + 1) r]

theorem mapKids_snd (p : Nat) : ∀ i l, (mapKids p i l).map (·.2) = l.flatMap (fun p => [p.1, p.2])
  | _, [] => rfl
  | i, (k, v) :: r => by simp [mapKids, mapKids_snd p (i + 1) r]

theorem kids_snd (p : Nat) (v : Value) : (kids p v).map (·.2) = kidsOf v := by
  cases v <;> simp [kids, kidsOf, listKids_snd, mapKids_snd]

theorem listKids_parent (p : Nat) : ∀ i l, ∀ x ∈ listKids p i l, x.1.parent = some p
  | _, [], x, h => by simp [listKids] at h
  | i, k :: r, x, h => by
    simp only [listKids, List.mem_cons] at h
    rcases h with rfl | h
    · rfl
    · exact listKids_parent p (i + 1) r x h

theorem mapKids_parent (p : Nat) : ∀ i l, ∀ x ∈ mapKids p i l, x.1.parent = some p
  | _, [], x, h => by simp [mapKids] at h
  | i, (k, v) :: r, x, h => by
    simp only [mapKids, List.mem_cons] at h
    rcases h with rfl | rfl | h
    · rfl
    · rfl
    · exact mapKids_parent p (i + 1) r x h

theorem kids_parent (p : Nat) (v : Value) : ∀ x ∈ kids p v, x.1.parent = some p := by
  cases v <;> first | exact listKids_parent p _ _ | exact mapKids_parent p _ _ | simp [kids]

/-- Total size of a stack. -/
abbrev stackSize (st : List (NavInfo × Kserd)) : Nat := total (st.map (·.2))

theorem stackSize_kids (p : Nat) (k : Kserd) : 1 + stackSize (kids p k.val) = k.size := by
  rw [stackSize, kids_snd, size_eq]

def mkN (b : Nat) (x : NavInfo × Kserd) : NavNode :=
  { kserd := x.2, idx := b, parent := x.1.parent, valueIdx := x.1.valueIdx,
    keyIdx := x.1.keyIdx, valueChildren := [], keyChildren := [] }

/-- The nodes produced by the flattening loop from a stack when the next free index is `b`. -/
def forest (b : Nat) (st : List (NavInfo × Kserd)) : List NavNode :=
  match st with
  | [] => []
  | x :: st => mkN b x :: forest (b + 1) (kids b x.2.val ++ st)
termination_by stackSize st
decreasing_by
  have := stackSize_kids b x.2
  simp only [stackSize, List.map_append, List.map_cons, total_append, total] at this ⊢
  omega

theorem forest_nil (b : Nat) : forest b [] = [] := by rw [forest]
theorem forest_cons (b : Nat) (x) (st) :
    forest b (x :: st) = mkN b x :: forest (b + 1) (kids b x.2.val ++ st) := by rw [forest]

theorem flatten_eq : ∀ (f : Nat) (st : List (NavInfo × Kserd)) (acc : Navigator), stackSize st ≤ f →
    flatten f st acc = acc ++ forest acc.length st
  | f, [], acc, _ => by cases f <;> simp [flatten, forest_nil]
  | 0, x :: st, acc, h => by
    have := size_pos x.2
    simp only [stackSize, List.map_cons, total] at h; omega
  | f + 1, (info, node) :: st, acc, h => by
    have hk := stackSize_kids acc.length node
    have := flatten_eq f (kids acc.length node.val ++ st)
      (acc ++ [mkN acc.length (info, node)]) (by
        simp only [stackSize, List.map_append, List.map_cons, total_append, total] at h hk ⊢
        omega)
    simp only [flatten]
    rw [forest_cons]
    simpa [mkN] using this

/-- Induction on stacks by total size. -/
theorem stack_induct {P : List (NavInfo × Kserd) → Prop} (h : ∀ st, (∀ st', stackSize st' < stackSize st → P st') → P st)
    (st) : P st := by
  have : ∀ n st, stackSize st < n → P st := by
    intro n
    induction n with
    | zero => intro st h; omega
    | succ n ih => intro st hs; exact h st (fun st' h' => ih st' (by omega))
  exact this _ st (Nat.lt_succ_self _)

theorem forest_length (st) : ∀ b, (forest b st).length = stackSize st := by
  induction st using stack_induct with
  | h st ih =>
    intro b
    cases st with
    | nil => simp [forest_nil, stackSize, total]
    | cons x st =>
      have hk := stackSize_kids b x.2
      rw [forest_cons, List.length_cons, ih]
      · simp only [stackSize, List.map_append, List.map_cons, total_append, total] at hk ⊢; omega
      · simp only [stackSize, List.map_append, List.map_cons, total_append, total] at hk ⊢; omega

theorem forest_append (s) : ∀ b t, forest b (s ++ t) = forest b s ++ forest (b + stackSize s) t := by
  induction s using stack_induct with
  | h s ih =>
    intro b t
    cases s with
    | nil => simp [forest_nil, stackSize, total]
    | cons x s =>
      have hk := stackSize_kids b x.2
      rw [List.cons_append, forest_cons, forest_cons, ← List.append_assoc, ih _ _ (b + 1) t, List.cons_append]
      · congr 3
        simp only [stackSize, List.map_append, List.map_cons, total_append, total] at hk ⊢; omega
      · simp only [stackSize, List.map_append, List.map_cons, total_append, total] at hk ⊢; omega

/-- One stack element: its node, then its children's nodes, then the rest. -/
theorem forest_cons' (b : Nat) (x) (st) :
    forest b (x :: st) = mkN b x :: (forest (b + 1) (kids b x.2.val) ++ forest (b + x.2.size) st) := by
  rw [forest_cons, forest_append]
  have hk := stackSize_kids b x.2
  congr 3; omega

/-- Parents occurring in a forest are those of the stack elements or lie in the forest. -/
theorem forest_parent (st) : ∀ b, ∀ n ∈ forest b st, (∃ x ∈ st, n.parent = x.1.parent) ∨
    ∃ j, n.parent = some j ∧ b ≤ j ∧ j < b + stackSize st := by
  induction st using stack_induct with
  | h st ih =>
    intro b n hn
    cases st with
    | nil => simp [forest_nil] at hn
    | cons x st =>
      have hk := stackSize_kids b x.2
      rw [forest_cons', List.mem_cons, List.mem_append] at hn
      rcases hn with rfl | hn | hn
      · exact .inl ⟨x, by simp, rfl⟩
      · right
        rcases ih _ (by simp only [stackSize, List.map_cons, total] at hk ⊢; omega) (b + 1) n hn with ⟨y, hy, h⟩ | ⟨j, h1, h2, h3⟩
        · refine ⟨b, by rw [h, kids_parent b _ y hy], by omega, ?_⟩
          simp only [stackSize, List.map_cons, total] at hk ⊢; omega
        · refine ⟨j, h1, by omega, ?_⟩
          simp only [stackSize, List.map_cons, total] at hk h3 ⊢; omega
      · rcases ih _ (by have := size_pos x.2; simp only [stackSize, List.map_cons, total]; omega) (b + x.2.size) n hn with ⟨y, hy, h⟩ | ⟨j, h1, h2, h3⟩
        · exact .inl ⟨y, by simp [hy], h⟩
        · right
          refine ⟨j, h1, by omega, ?_⟩
          simp only [stackSize, List.map_cons, total] at h3 ⊢; omega

theorem forest_idx (st) : ∀ b i, (h : i < (forest b st).length) → ((forest b st)[i]).idx = b + i := by
  induction st using stack_induct with
  | h st ih =>
    intro b i h
    cases st with
    | nil => simp [forest_nil] at h
    | cons x st =>
      have hk := stackSize_kids b x.2
      simp only [forest_cons] at h ⊢
      cases i with
      | zero => simp [mkN]
      | succ i =>
        simp only [List.getElem_cons_succ]
        rw [ih]
        · omega
        · simp only [stackSize, List.map_append, List.map_cons, total_append, total] at hk ⊢; omega

/-- The nodes of the stack elements themselves. -/
def roots (b : Nat) : List (NavInfo × Kserd) → List NavNode
  | [] => []
  | x :: st => mkN b x :: roots (b + x.2.size) st

def childOf (p : Nat) (n : NavNode) : Bool := decide (n.parent = some p)

theorem filter_out (b : Nat) (st) (p : Nat) (h1 : ∀ x ∈ st, x.1.parent ≠ some p)
    (h2 : p < b ∨ b + stackSize st ≤ p) : (forest b st).filter (childOf p) = [] := by
  rw [List.filter_eq_nil_iff]
  intro n hn
  simp only [childOf, decide_eq_true_eq]
  rcases forest_parent st b n hn with ⟨x, hx, h⟩ | ⟨j, hj, h3, h4⟩
  · rw [h]; exact h1 x hx
  · rw [hj]; simp; omega

theorem filter_roots (p : Nat) (st) : ∀ b, p < b → (∀ x ∈ st, x.1.parent = some p) →
    (forest b st).filter (childOf p) = roots b st := by
  induction st with
  | nil => intros; simp [forest_nil, roots]
  | cons x st ih =>
    intro b hb hs
    rw [forest_cons', roots, List.filter_cons_of_pos (by simp [childOf, mkN, hs x (by simp)]), List.filter_append,
      filter_out (b + 1) _ p (by intro y hy; rw [kids_parent b _ y hy]; simp; omega) (by omega), List.nil_append,
      ih _ (by omega) (fun y hy => hs y (by simp [hy]))]

/-- The children of the node at index `j`, found by their parent link. -/
theorem filter_children (st) : ∀ b, (∀ x ∈ st, ∀ p, x.1.parent = some p → p < b) → ∀ i, (h : i < (forest b st).length) →
    (forest b st).filter (childOf (b + i)) = roots (b + i + 1) (kids (b + i) ((forest b st)[i]).kserd.val) := by
  induction st using stack_induct with
  | h st ih =>
    intro b hb i h
    cases st with
    | nil => simp [forest_nil] at h
    | cons x st =>
      have hk := stackSize_kids b x.2
      have hpos := size_pos x.2
      have hlen1 := forest_length (kids b x.2.val) (b + 1)
      have hlen2 := forest_length st (b + x.2.size)
      have hst : ∀ y ∈ st, ∀ q, b ≤ q → y.1.parent ≠ some q := by
        intro y hy q hq he
        have := hb y (by simp [hy]) q he; omega
      have hhead : ∀ q, b ≤ q → childOf q (mkN b x) = false := by
        intro q hq
        refine decide_eq_false fun he => ?_
        have := hb x (by simp) q he; omega
      simp only [forest_cons'] at h ⊢
      rw [List.filter_cons_of_neg (by simp [hhead (b + i) (by omega)]), List.filter_append]
      cases i with
      | zero =>
        simp only [Nat.add_zero, List.getElem_cons_zero]
        rw [filter_roots b _ (b + 1) (by omega) (kids_parent b _), filter_out _ _ _ (fun y hy => hst y hy b (by omega)) (by omega),
          List.append_nil]
        rfl
      | succ i =>
        simp only [List.getElem_cons_succ]
        by_cases hi : i < (forest (b + 1) (kids b x.2.val)).length
        · rw [List.getElem_append_left hi]
          rw [filter_out (b + x.2.size) st _ (fun y hy => hst y hy _ (by omega)) (by omega), List.append_nil]
          have := ih (kids b x.2.val) (by simp only [stackSize, List.map_cons, total] at hk ⊢; omega) (b + 1)
            (by intro y hy q hq; rw [kids_parent b _ y hy] at hq; simp at hq; omega) i hi
          rw [show b + 1 + i = b + (i + 1) by omega] at this
          exact this
        · rw [List.getElem_append_right (by omega)]
          rw [filter_out (b + 1) _ _ (by intro y hy; rw [kids_parent b _ y hy]; simp) (by omega), List.nil_append]
          simp only [List.length_cons, List.length_append] at h
          have := ih st (by simp only [stackSize, List.map_cons, total] at hk ⊢; omega) (b + x.2.size)
            (by intro y hy q hq; have := hb y (by simp [hy]) q hq; omega) (i - (forest (b + 1) (kids b x.2.val)).length) (by omega)
          rw [show b + x.2.size + (i - (forest (b + 1) (kids b x.2.val)).length) = b + (i + 1) by omega] at this
          exact this

/-- Positions of consecutive subtrees, starting at `b`. -/
def offs (b : Nat) : List Kserd → List Nat
  | [] => []
  | k :: r => b :: offs (b + k.size) r

def keyOffs (b : Nat) : List (Kserd × Kserd) → List Nat
  | [] => []
  | (k, v) :: r => b :: keyOffs (b + k.size + v.size) r

def valOffs (b : Nat) : List (Kserd × Kserd) → List Nat
  | [] => []
  | (k, v) :: r => (b + k.size) :: valOffs (b + k.size + v.size) r

/-- Positions of the value children of a node whose first child would be at `b`. -/
def valKids (b : Nat) : Value → List Nat
  | .map m => valOffs b m
  | v => offs b (kidsOf v)

/-- Positions of the key children of a node whose first child would be at `b`. -/
def keyKids (b : Nat) : Value → List Nat
  | .map m => keyOffs b m
  | _ => []

theorem sortInsert_last (k v : Nat) : ∀ l : List (Nat × Nat), (∀ p ∈ l, p.1 < k) →
    BTree.sortInsert compare k v l = l ++ [(k, v)]
  | [], _ => rfl
  | (k', v') :: r, h => by
    have : k' < k := h (k', v') (by simp)
    have hc : compare k k' = .gt := Nat.compare_eq_gt.mpr this
    simp only [BTree.sortInsert, hc, List.cons_append]
    rw [sortInsert_last k v r (fun p hp => h p (by simp [hp]))]

theorem sortPairs_foldl : ∀ (l acc : List (Nat × Nat)), (acc ++ l).Pairwise (fun a b => a.1 < b.1) →
    l.foldl (fun acc kv => BTree.sortInsert compare kv.1 kv.2 acc) acc = acc ++ l
  | [], acc, _ => by simp
  | (k, v) :: r, acc, h => by
    simp only [List.foldl_cons]
    rw [sortInsert_last k v acc (fun p hp => (List.pairwise_append.mp h).2.2 p hp (k, v) (by simp)),
      sortPairs_foldl r (acc ++ [(k, v)]) (by simpa using h)]
    simp

theorem sortPairs_sorted (l : List (Nat × Nat)) (h : l.Pairwise (fun a b => a.1 < b.1)) : sortPairs l = l := by
  simpa [sortPairs, BTree.stableSort] using sortPairs_foldl l [] (by simpa using h)

def valPair (c : NavNode) : Option (Nat × Nat) := c.valueIdx.map fun y => (y, c.idx)
def keyPair (c : NavNode) : Option (Nat × Nat) := c.keyIdx.map fun y => (y, c.idx)

/-- Zip with consecutive numbers from `i`. -/
def num (i : Nat) : List Nat → List (Nat × Nat)
  | [] => []
  | x :: r => (i, x) :: num (i + 1) r

theorem num_ge : ∀ i l, ∀ p ∈ num i l, i ≤ p.1
  | _, [], p, h => by simp [num] at h
  | i, x :: r, p, h => by
    simp only [num, List.mem_cons] at h
    rcases h with rfl | h
    · exact Nat.le_refl _
    · have := num_ge (i + 1) r p h; omega

theorem num_sorted : ∀ i l, (num i l).Pairwise (fun a b => a.1 < b.1)
  | _, [] => by simp [num]
  | i, x :: r => by
    rw [num, List.pairwise_cons]
    exact ⟨fun p hp => by have := num_ge (i + 1) r p hp; simp only; omega, num_sorted (i + 1) r⟩

theorem num_snd : ∀ i l, (num i l).map (·.2) = l
  | _, [] => rfl
  | i, x :: r => by simp [num, num_snd (i + 1) r]

theorem roots_list_val (p : Nat) : ∀ i b l, (roots b (listKids p i l)).filterMap valPair = num i (offs b l)
  | _, _, [] => rfl
  | i, b, k :: r => by
    simp only [listKids, roots, offs, num]
    rw [List.filterMap_cons_some (b := (i, b)) (by rfl), roots_list_val p (i + 1) _ r]

theorem roots_list_key (p : Nat) : ∀ i b l, (roots b (listKids p i l)).filterMap keyPair = []
  | _, _, [] => rfl
  | i, b, k :: r => by
    simp only [listKids, roots]
    rw [List.filterMap_cons_none (by rfl), roots_list_key p (i + 1) _ r]

theorem roots_map_val (p : Nat) : ∀ i b l, (roots b (mapKids p i l)).filterMap valPair = num i (valOffs b l)
  | _, _, [] => rfl
  | i, b, (k, v) :: r => by
    simp only [mapKids, roots, valOffs, num]
    rw [List.filterMap_cons_none (by rfl), List.filterMap_cons_some (b := (i, b + k.size)) (by rfl), roots_map_val p (i + 1) _ r]

theorem roots_map_key (p : Nat) : ∀ i b l, (roots b (mapKids p i l)).filterMap keyPair = num i (keyOffs b l)
  | _, _, [] => rfl
  | i, b, (k, v) :: r => by
    simp only [mapKids, roots, keyOffs, num]
    rw [List.filterMap_cons_some (b := (i, b)) (by rfl), List.filterMap_cons_none (by rfl), roots_map_key p (i + 1) _ r]

theorem roots_val (p b : Nat) (v : Value) :
    (sortPairs ((roots b (kids p v)).filterMap valPair)).map (·.2) = valKids b v := by
  have e : (roots b (kids p v)).filterMap valPair = num 0 (valKids b v) := by
    cases v <;> first | exact roots_list_val p 0 b _ | exact roots_map_val p 0 b _ | rfl
  rw [e, sortPairs_sorted _ (num_sorted _ _), num_snd]

theorem roots_key (p b : Nat) (v : Value) :
    (sortPairs ((roots b (kids p v)).filterMap keyPair)).map (·.2) = keyKids b v := by
  have e : (roots b (kids p v)).filterMap keyPair = num 0 (keyKids b v) := by
    cases v <;> first | exact roots_list_key p 0 b _ | exact roots_map_key p 0 b _ | rfl
  rw [e, sortPairs_sorted _ (num_sorted _ _), num_snd]

/-- The node at index `i` of a navigator. -/
def node (root : Kserd) (i : Nat) : Option NavNode := (forest 0 [({}, root)])[i]?

theorem new_eq (root : Kserd) : new root = link (forest 0 [({}, root)]) := by
  rw [new, flatten_eq _ _ _ (by simp [stackSize, total])]; rfl

theorem new_get (root : Kserd) (i : Nat) : (new root)[i]? = (node root i).map (fun n =>
    { n with valueChildren := valKids (i + 1) n.kserd.val, keyChildren := keyKids (i + 1) n.kserd.val }) := by
  rw [new_eq, link, List.getElem?_map, node]
  by_cases h : i < (forest 0 [({}, root)]).length
  · rw [List.getElem?_eq_getElem h]
    simp only [Option.map_some, Option.some.injEq]
    have hi := forest_idx [({}, root)] 0 i h
    have hf := filter_children [({}, root)] 0 (by simp) i h
    simp only [Nat.zero_add] at hi hf
    rw [hi]
    show _ = _
    have e1 : (fun c : NavNode => decide (c.parent = some i)) = childOf i := rfl
    have e2 : (fun c : NavNode => c.valueIdx.map fun y => (y, c.idx)) = valPair := rfl
    have e3 : (fun c : NavNode => c.keyIdx.map fun y => (y, c.idx)) = keyPair := rfl
    rw [e1, e2, e3, hf, roots_val, roots_key]
  · rw [List.getElem?_eq_none (by omega)]; rfl

theorem new_length (root : Kserd) : (new root).length = root.size := by
  rw [new_eq, link, List.length_map, forest_length]; simp [stackSize, total]


/-! ### Subtrees -/

theorem forest_drop : ∀ (i b : Nat) (st) (n), (forest b st)[i]? = some n →
    ∃ rest, (forest b st).drop (i + 1) = forest (b + i + 1) (kids (b + i) n.kserd.val ++ rest)
  | i, b, [], n, h => by simp [forest_nil] at h
  | 0, b, x :: st, n, h => by
    rw [forest_cons] at h ⊢
    simp only [List.getElem?_cons_zero, Option.some.injEq] at h
    subst h
    exact ⟨st, by simp [mkN]⟩
  | i + 1, b, x :: st, n, h => by
    rw [forest_cons] at h ⊢
    simp only [List.getElem?_cons_succ] at h
    obtain ⟨rest, hr⟩ := forest_drop i (b + 1) _ n h
    refine ⟨rest, ?_⟩
    rw [List.drop_succ_cons, hr, show b + 1 + i = b + (i + 1) by omega]

theorem roots_bounds : ∀ b st, ∀ m ∈ roots b st, b ≤ m.idx ∧ m.idx + m.kserd.size ≤ b + stackSize st
  | _, [], m, h => by simp [roots] at h
  | b, x :: st, m, h => by
    simp only [roots, List.mem_cons] at h
    rcases h with rfl | h
    · simp only [mkN, stackSize, List.map_cons, total]; omega
    · have := roots_bounds (b + x.2.size) st m h
      simp only [stackSize, List.map_cons, total] at this ⊢; omega

theorem forest_roots : ∀ b st rest, ∀ m ∈ roots b st, (forest b (st ++ rest))[m.idx - b]? = some m
  | _, [], _, m, h => by simp [roots] at h
  | b, x :: st, rest, m, h => by
    simp only [roots, List.mem_cons] at h
    rw [List.cons_append, forest_cons']
    rcases h with rfl | h
    · simp [mkN]
    · have hb := roots_bounds _ _ m h
      have := forest_roots (b + x.2.size) st rest m h
      have hl := forest_length (kids b x.2.val) (b + 1)
      have hk := stackSize_kids b x.2
      rw [show m.idx - b = (m.idx - b - 1) + 1 by have := size_pos x.2; omega, List.getElem?_cons_succ,
        List.getElem?_append_right (by omega), hl,
        show m.idx - b - 1 - stackSize (kids b x.2.val) = m.idx - (b + x.2.size) by omega]
      exact this

theorem node_idx {root : Kserd} {i : Nat} {n : NavNode} (h : node root i = some n) : n.idx = i := by
  obtain ⟨hi, rfl⟩ := List.getElem?_eq_some_iff.mp h
  have := forest_idx [({}, root)] 0 i hi; omega

theorem node_child {root : Kserd} {i : Nat} {n : NavNode} (h : node root i = some n) :
    ∀ m ∈ roots (i + 1) (kids i n.kserd.val), node root m.idx = some m := by
  intro m hm
  obtain ⟨rest, hr⟩ := forest_drop i 0 _ n h
  rw [Nat.zero_add] at hr
  have h1 := forest_roots _ _ rest m hm
  have hb := roots_bounds _ _ m hm
  rw [← hr, List.getElem?_drop, show i + 1 + (m.idx - (i + 1)) = m.idx by omega] at h1
  exact h1

theorem node_parent {root : Kserd} {i j : Nat} {n m : NavNode} (h : node root i = some n) (hm : node root j = some m) :
    m.parent = some i ↔ m ∈ roots (i + 1) (kids i n.kserd.val) := by
  obtain ⟨hi, rfl⟩ := List.getElem?_eq_some_iff.mp h
  have hf := filter_children [({}, root)] 0 (by simp) i hi
  simp only [Nat.zero_add] at hf
  rw [← hf, List.mem_filter]
  have : m ∈ forest 0 [({}, root)] := List.mem_of_getElem? hm
  simp [this, childOf]

/-- The value children among the roots of a node's children. -/
def valNodes (i : Nat) (v : Value) : List NavNode := (roots (i + 1) (kids i v)).filter (·.valueIdx.isSome)
def keyNodes (i : Nat) (v : Value) : List NavNode := (roots (i + 1) (kids i v)).filter (·.keyIdx.isSome)

theorem filterMap_pair_val : ∀ l : List NavNode, (l.filterMap valPair).map (·.2) = (l.filter (·.valueIdx.isSome)).map (·.idx)
  | [] => rfl
  | m :: l => by
    cases h : m.valueIdx with
    | none => rw [List.filterMap_cons_none (by simp [valPair, h]), List.filter_cons_of_neg (by simp [h]), filterMap_pair_val l]
    | some y => rw [List.filterMap_cons_some (b := (y, m.idx)) (by simp [valPair, h]), List.filter_cons_of_pos (by simp [h]),
        List.map_cons, List.map_cons, filterMap_pair_val l]

theorem filterMap_pair_key : ∀ l : List NavNode, (l.filterMap keyPair).map (·.2) = (l.filter (·.keyIdx.isSome)).map (·.idx)
  | [] => rfl
  | m :: l => by
    cases h : m.keyIdx with
    | none => rw [List.filterMap_cons_none (by simp [keyPair, h]), List.filter_cons_of_neg (by simp [h]), filterMap_pair_key l]
    | some y => rw [List.filterMap_cons_some (b := (y, m.idx)) (by simp [keyPair, h]), List.filter_cons_of_pos (by simp [h]),
        List.map_cons, List.map_cons, filterMap_pair_key l]

theorem valPairs_eq (p b : Nat) (v : Value) : (roots b (kids p v)).filterMap valPair = num 0 (valKids b v) := by
  cases v <;> first | exact roots_list_val p 0 b _ | exact roots_map_val p 0 b _ | rfl

theorem keyPairs_eq (p b : Nat) (v : Value) : (roots b (kids p v)).filterMap keyPair = num 0 (keyKids b v) := by
  cases v <;> first | exact roots_list_key p 0 b _ | exact roots_map_key p 0 b _ | rfl

theorem valKids_eq (i : Nat) (v : Value) : valKids (i + 1) v = (valNodes i v).map (·.idx) := by
  rw [valNodes, ← filterMap_pair_val, valPairs_eq, num_snd]

theorem keyKids_eq (i : Nat) (v : Value) : keyKids (i + 1) v = (keyNodes i v).map (·.idx) := by
  rw [keyNodes, ← filterMap_pair_key, keyPairs_eq, num_snd]

theorem num_get : ∀ i l x j, l[x]? = some j → (i + x, j) ∈ num i l
  | _, [], _, _, h => by simp at h
  | i, y :: r, 0, j, h => by simp at h; simp [num, h]
  | i, y :: r, x + 1, j, h => by
    simp only [List.getElem?_cons_succ] at h
    have := num_get (i + 1) r x j h
    simp only [num, List.mem_cons]
    right; rwa [show i + (x + 1) = i + 1 + x by omega]

theorem roots_kind (b : Nat) : ∀ st : List (NavInfo × Kserd), ∀ m ∈ roots b st, ∃ x ∈ st, m.parent = x.1.parent ∧
    m.valueIdx = x.1.valueIdx ∧ m.keyIdx = x.1.keyIdx ∧ m.kserd = x.2 := by
  intro st
  induction st generalizing b with
  | nil => intro m h; simp [roots] at h
  | cons x st ih =>
    intro m h
    simp only [roots, List.mem_cons] at h
    rcases h with rfl | h
    · exact ⟨x, by simp, rfl, rfl, rfl, rfl⟩
    · obtain ⟨y, hy, h⟩ := ih _ m h
      exact ⟨y, by simp [hy], h⟩

theorem listKids_kind (p : Nat) : ∀ i l, ∀ x ∈ listKids p i l, x.1.valueIdx.isSome = true ∧ x.1.keyIdx = none
  | _, [], x, h => by simp [listKids] at h
  | i, k :: r, x, h => by
    simp only [listKids, List.mem_cons] at h
    rcases h with rfl | h
    · exact ⟨rfl, rfl⟩
    · exact listKids_kind p (i + 1) r x h

theorem mapKids_kind (p : Nat) : ∀ i l, ∀ x ∈ mapKids p i l, (x.1.valueIdx.isSome = true ∧ x.1.keyIdx = none) ∨
    (x.1.valueIdx = none ∧ x.1.keyIdx.isSome = true)
  | _, [], x, h => by simp [mapKids] at h
  | i, (k, v) :: r, x, h => by
    simp only [mapKids, List.mem_cons] at h
    rcases h with rfl | rfl | h
    · exact .inr ⟨rfl, rfl⟩
    · exact .inl ⟨rfl, rfl⟩
    · exact mapKids_kind p (i + 1) r x h

theorem kids_kind (p : Nat) (v : Value) : ∀ x ∈ kids p v, (x.1.valueIdx.isSome = true ∧ x.1.keyIdx = none) ∨
    (x.1.valueIdx = none ∧ x.1.keyIdx.isSome = true) := by
  intro x hx
  cases v with
  | map m => exact mapKids_kind p 0 m x hx
  | tuple l => exact .inl (listKids_kind p 0 l x hx)
  | seq l => exact .inl (listKids_kind p 0 l x hx)
  | cntr l => exact .inl (listKids_kind p 0 _ x hx)
  | _ => simp [kids] at hx

end KS.Nav
