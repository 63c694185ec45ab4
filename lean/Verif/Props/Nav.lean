import Verif.Spec.Nav
import Verif.Lemmas.Nav
import Verif.Props.Kserds
/-!
# C18–C21: the navigator
-/

namespace KS.Props
open KS.Spec KS.Nav

/-! ## C18 -/

theorem preorderL_eq : ∀ l, preorderL l = l.flatMap preorder
  | [] => rfl
  | k :: r => by simp [preorderL, preorderL_eq r]

theorem preorderF_eq : ∀ l, preorderF l = (l.map (·.2)).flatMap preorder
  | [] => rfl
  | (_, k) :: r => by simp [preorderF, preorderF_eq r]

theorem preorderM_eq : ∀ l, preorderM l = (l.flatMap (fun p => [p.1, p.2])).flatMap preorder
  | [] => rfl
  | (_, k) :: r => by simp [preorderM, preorderM_eq r]

theorem preorder_eq (k : Kserd) : preorder k = k :: (kidsOf k.val).flatMap preorder := by
  obtain ⟨i, v⟩ := k
  cases v <;> simp [preorder, preorderV, kidsOf, preorderL_eq, preorderF_eq, preorderM_eq]

theorem forest_preorder (st) : ∀ b, (forest b st).map (·.kserd) = (st.map (·.2)).flatMap preorder := by
  induction st using stack_induct with
  | h st ih =>
    intro b
    cases st with
    | nil => simp [forest_nil]
    | cons x st =>
      have hk := stackSize_kids b x.2
      rw [forest_cons, List.map_cons, ih]
      · simp only [List.map_append, List.map_cons, List.flatMap_append, List.flatMap_cons, kids_snd]
        rw [preorder_eq x.2]; simp [mkN]
      · simp only [stackSize, List.map_append, List.map_cons, total_append, total] at hk ⊢; omega

/-- **C18.** The nodes of a navigator are exactly the Kserds of the tree in depth-first pre-order, map keys
immediately before their values; the node at position `i` has index `i`; the root is node 0. -/
theorem C18_preorder (root : Kserd) :
    (Nav.new root).map (·.kserd) = preorder root ∧
    (∀ (i : Nat) (n : NavNode), (Nav.new root)[i]? = some n → n.idx = i) ∧
    ∃ n, (Nav.new root)[0]? = some n ∧ n.kserd = root := by
  have hm : (Nav.new root).map (·.kserd) = preorder root := by
    rw [new_eq, link, List.map_map]
    have := forest_preorder [({}, root)] 0
    simpa [Function.comp_def] using this
  refine ⟨hm, ?_, ?_⟩
  · intro i n h
    rw [new_get] at h
    cases hn : node root i with
    | none => rw [hn] at h; simp at h
    | some m => rw [hn] at h; simp at h; subst h; exact (node_idx hn : m.idx = i)
  · refine ⟨_, by rw [new_get, node, forest_cons]; rfl, ?_⟩
    rfl

/-- **C18.** The flattening loop ends by itself: any larger amount of fuel gives the same navigator. -/
theorem C18_terminates (root : Kserd) (f : Nat) (h : (preorder root).length ≤ f) :
    link (flatten f [({}, root)] []) = Nav.new root := by
  have hl : (preorder root).length = root.size := by
    rw [← (C18_preorder root).1, List.length_map, new_length]
  rw [flatten_eq _ _ _ (by simp [stackSize, total]; omega), new_eq]; rfl

/-- Applied to a sequence of two with more fuel than nodes. -/
example : let k : Kserd := .mk none (.seq [.mk none .unit, .mk none (.bool true)])
    (link (flatten 50 [({}, k)] [])).length = 3 := by
  intro k
  rw [C18_terminates k 50 (by decide)]
  decide +kernel

/-! ## C19 -/

theorem get_node {root : Kserd} {i : Nat} {n : NavNode} (h : (Nav.new root)[i]? = some n) :
    ∃ n', node root i = some n' ∧ n.parent = n'.parent ∧ n.valueIdx = n'.valueIdx ∧ n.keyIdx = n'.keyIdx ∧
      n.kserd = n'.kserd ∧ n.valueChildren = (valNodes i n.kserd.val).map (·.idx) ∧
      n.keyChildren = (keyNodes i n.kserd.val).map (·.idx) := by
  rw [new_get] at h
  cases hn : node root i with
  | none => rw [hn] at h; simp at h
  | some m =>
    rw [hn] at h; simp at h; subst h
    exact ⟨m, rfl, rfl, rfl, rfl, rfl, valKids_eq _ _, keyKids_eq _ _⟩

theorem node_get {root : Kserd} {i : Nat} {n : NavNode} (h : node root i = some n) :
    ∃ n', (Nav.new root)[i]? = some n' ∧ n'.parent = n.parent ∧ n'.valueIdx = n.valueIdx ∧ n'.keyIdx = n.keyIdx ∧
      n'.kserd = n.kserd := by
  rw [new_get, h]; exact ⟨_, rfl, rfl, rfl, rfl, rfl⟩

theorem roots_list_kserd (p : Nat) : ∀ i b l,
    ((roots b (listKids p i l)).filter (·.valueIdx.isSome)).map (·.kserd) = l ∧
    ((roots b (listKids p i l)).filter (·.keyIdx.isSome)).map (·.kserd) = []
  | _, _, [] => ⟨rfl, rfl⟩
  | i, b, k :: r => by
    have := roots_list_kserd p (i + 1) (b + k.size) r
    simp only [listKids, roots]
    rw [List.filter_cons_of_pos (by rfl), List.filter_cons_of_neg (by simp [mkN]), List.map_cons, this.1, this.2]
    exact ⟨rfl, rfl⟩

theorem roots_map_kserd (p : Nat) : ∀ i b l,
    ((roots b (mapKids p i l)).filter (·.valueIdx.isSome)).map (·.kserd) = l.map (·.2) ∧
    ((roots b (mapKids p i l)).filter (·.keyIdx.isSome)).map (·.kserd) = l.map (·.1)
  | _, _, [] => ⟨rfl, rfl⟩
  | i, b, (k, v) :: r => by
    have := roots_map_kserd p (i + 1) (b + k.size + v.size) r
    simp only [mapKids, roots]
    rw [List.filter_cons_of_neg (by simp [mkN]), List.filter_cons_of_pos (by rfl),
      List.filter_cons_of_pos (by rfl), List.filter_cons_of_neg (by simp [mkN])]
    simp only [List.map_cons, this.1, this.2]
    exact ⟨rfl, rfl⟩

theorem nodes_kserd (i : Nat) (v : Value) : (valNodes i v).map (·.kserd) = valuesOf v ∧
    (keyNodes i v).map (·.kserd) = keysOf v := by
  cases v with
  | tuple l => exact roots_list_kserd i 0 _ l
  | seq l => exact roots_list_kserd i 0 _ l
  | cntr l => exact roots_list_kserd i 0 _ _
  | map l => exact roots_map_kserd i 0 _ l
  | _ => exact ⟨rfl, rfl⟩

theorem node_root {root : Kserd} {i : Nat} {n : NavNode} (h : node root i = some n) : n.parent = none ↔ i = 0 := by
  constructor
  · intro hp
    by_contra hi
    obtain ⟨i, rfl⟩ : ∃ j, i = j + 1 := ⟨i - 1, by omega⟩
    rw [node, forest_cons', List.getElem?_cons_succ, forest_nil, List.append_nil] at h
    have := List.mem_of_getElem? h
    rcases forest_parent _ _ n this with ⟨x, hx, h⟩ | ⟨j, hj, _⟩
    · rw [kids_parent 0 _ x hx] at h; simp [hp] at h
    · simp [hp] at hj
  · rintro rfl
    rw [node, forest_cons'] at h
    simp at h; subst h; rfl

/-- **C19.** For every node: it has no parent exactly when it is the root; its value (key) children are exactly
the nodes that name it as parent and are not (are) keys; a child's `idx_in_parent` is its position in that
list; and the children's Kserds are the node's direct children, in order. -/
theorem C19_links (root : Kserd) (i : Nat) (n : NavNode) (h : (Nav.new root)[i]? = some n) :
    (Nav.parent (Nav.new root) n = none ↔ i = 0) ∧ (n.parent = none ↔ i = 0) ∧
    (∀ j m, (Nav.new root)[j]? = some m →
      (j ∈ n.valueChildren ↔ m.parent = some i ∧ isKey m = false) ∧
      (j ∈ n.keyChildren ↔ m.parent = some i ∧ isKey m = true)) ∧
    (∀ x j, n.valueChildren[x]? = some j → ∃ m, (Nav.new root)[j]? = some m ∧ idxInParent m = x) ∧
    (∀ x j, n.keyChildren[x]? = some j → ∃ m, (Nav.new root)[j]? = some m ∧ idxInParent m = x) ∧
    n.valueChildren.map (fun j => ((Nav.new root)[j]?).map (·.kserd)) = (valuesOf n.kserd.val).map some ∧
    n.keyChildren.map (fun j => ((Nav.new root)[j]?).map (·.kserd)) = (keysOf n.kserd.val).map some := by
  obtain ⟨n', hn, h1, h2, h3, h4, h5, h6⟩ := get_node h
  have hpn : n.parent = none ↔ i = 0 := by rw [h1]; exact node_root hn
  have hkid : ∀ m ∈ roots (i + 1) (kids i n.kserd.val), ∃ m', (Nav.new root)[m.idx]? = some m' ∧
      m'.parent = m.parent ∧ m'.valueIdx = m.valueIdx ∧ m'.keyIdx = m.keyIdx ∧ m'.kserd = m.kserd := by
    intro m hm
    rw [h4] at hm
    exact node_get (node_child hn m hm)
  have hkind : ∀ m ∈ roots (i + 1) (kids i n.kserd.val), (m.valueIdx.isSome = true ∧ m.keyIdx = none) ∨
      (m.valueIdx = none ∧ m.keyIdx.isSome = true) := by
    intro m hm
    obtain ⟨x, hx, _, e1, e2, _⟩ := roots_kind _ _ m hm
    rw [e1, e2]; exact kids_kind _ _ x hx
  have hmem : ∀ j m, (Nav.new root)[j]? = some m → ∃ m', node root j = some m' ∧ m'.idx = j ∧ m.keyIdx = m'.keyIdx ∧
      (m.parent = some i ↔ m' ∈ roots (i + 1) (kids i n.kserd.val)) := by
    intro j m hm
    obtain ⟨m', hm', g1, _, g3, _⟩ := get_node hm
    exact ⟨m', hm', node_idx hm', g3, by rw [g1, h4]; exact node_parent hn hm'⟩
  refine ⟨?_, hpn, ?_, ?_, ?_, ?_, ?_⟩
  · rw [← hpn, Nav.parent]
    cases hp : n.parent with
    | none => simp
    | some p =>
      simp only [Option.bind_some, reduceCtorEq, iff_false]
      intro hc
      rw [h1] at hp
      have hlt : p < root.size := by
        have := List.mem_of_getElem? hn
        rcases forest_parent _ _ n' this with ⟨x, hx, hx'⟩ | ⟨j, hj, _, hj'⟩
        · simp at hx; subst hx; simp [hp] at hx'
        · rw [hp] at hj; simp at hj; subst hj
          simpa [stackSize, total] using hj'
      rw [List.getElem?_eq_none_iff, new_length] at hc
      omega
  · intro j m hm
    obtain ⟨m', hm', hidx, hkey, hpar⟩ := hmem j m hm
    rw [h5, h6, hpar]
    constructor
    · rw [List.mem_map]
      constructor
      · rintro ⟨y, hy, rfl⟩
        rw [valNodes, List.mem_filter] at hy
        obtain ⟨hy1, hy2⟩ := hy
        rw [h4] at hy1
        have e := node_child hn y hy1
        rw [e] at hm'; cases hm'
        rw [← h4] at hy1
        refine ⟨hy1, ?_⟩
        rcases hkind _ hy1 with ⟨_, h⟩ | ⟨h, _⟩
        · rw [isKey, hkey, h]; rfl
        · rw [h] at hy2; simp at hy2
      · rintro ⟨hy1, hy2⟩
        refine ⟨m', ?_, hidx⟩
        rw [valNodes, List.mem_filter]
        refine ⟨hy1, ?_⟩
        rcases hkind m' hy1 with ⟨h, _⟩ | ⟨_, h⟩
        · exact h
        · rw [isKey, hkey, h] at hy2; simp at hy2
    · rw [List.mem_map]
      constructor
      · rintro ⟨y, hy, rfl⟩
        rw [keyNodes, List.mem_filter] at hy
        obtain ⟨hy1, hy2⟩ := hy
        rw [h4] at hy1
        have e := node_child hn y hy1
        rw [e] at hm'; cases hm'
        rw [← h4] at hy1
        exact ⟨hy1, by rw [isKey, hkey]; exact hy2⟩
      · rintro ⟨hy1, hy2⟩
        refine ⟨m', ?_, hidx⟩
        rw [keyNodes, List.mem_filter]
        exact ⟨hy1, by rw [isKey, hkey] at hy2; exact hy2⟩
  · intro x j hx
    have e : n.valueChildren = valKids (i + 1) n.kserd.val := by rw [h5, valKids_eq]
    rw [e] at hx
    have := num_get 0 _ x j hx
    rw [← valPairs_eq i, List.mem_filterMap, Nat.zero_add] at this
    obtain ⟨m, hm, hp⟩ := this
    simp only [valPair, Option.map_eq_some_iff, Prod.mk.injEq] at hp
    obtain ⟨y, hy, he, rfl⟩ := hp
    subst he
    obtain ⟨m', g1, g2, g3, g4, g5⟩ := hkid m hm
    refine ⟨m', g1, ?_⟩
    rcases hkind m hm with ⟨_, h⟩ | ⟨h, _⟩
    · simp [idxInParent, g3, g4, hy, h]
    · rw [hy] at h; simp at h
  · intro x j hx
    have e : n.keyChildren = keyKids (i + 1) n.kserd.val := by rw [h6, keyKids_eq]
    rw [e] at hx
    have := num_get 0 _ x j hx
    rw [← keyPairs_eq i, List.mem_filterMap, Nat.zero_add] at this
    obtain ⟨m, hm, hp⟩ := this
    simp only [keyPair, Option.map_eq_some_iff, Prod.mk.injEq] at hp
    obtain ⟨y, hy, rfl, rfl⟩ := hp
    obtain ⟨m', g1, g2, g3, g4, g5⟩ := hkid m hm
    exact ⟨m', g1, by simp [idxInParent, g4, hy]⟩
  · rw [h5, List.map_map, ← (nodes_kserd i n.kserd.val).1, List.map_map]
    apply List.map_congr_left
    intro m hm
    rw [valNodes, List.mem_filter] at hm
    obtain ⟨m', g1, g2, g3, g4, g5⟩ := hkid m hm.1
    simp [g1, g5]
  · rw [h6, List.map_map, ← (nodes_kserd i n.kserd.val).2, List.map_map]
    apply List.map_congr_left
    intro m hm
    rw [keyNodes, List.mem_filter] at hm
    obtain ⟨m', g1, g2, g3, g4, g5⟩ := hkid m hm.1
    simp [g1, g5]

/-- Applied to a map: its key is a key child and its value a value child. -/
example : let k : Kserd := .mk none (.map [(.mk none (.bool true), .mk none .unit)])
    ∃ n, (Nav.new k)[0]? = some n ∧ 1 ∈ n.keyChildren ∧ 2 ∈ n.valueChildren ∧ 1 ∉ n.valueChildren := by
  intro k
  obtain ⟨n, hn⟩ : ∃ n, (Nav.new k)[0]? = some n := ⟨_, rfl⟩
  obtain ⟨m, hm⟩ : ∃ m, (Nav.new k)[1]? = some m := ⟨_, rfl⟩
  obtain ⟨m', hm'⟩ : ∃ m, (Nav.new k)[2]? = some m := ⟨_, rfl⟩
  have h := (C19_links k 0 n hn).2.2.1
  have e1 : m.parent = some 0 ∧ isKey m = true := by cases hm; exact ⟨rfl, rfl⟩
  have e2 : m'.parent = some 0 ∧ isKey m' = false := by cases hm'; exact ⟨rfl, rfl⟩
  exact ⟨n, hn, (h 1 m hm).2.mpr e1, (h 2 m' hm').1.mpr e2, fun hx => by have := ((h 1 m hm).1.mp hx).2; rw [e1.2] at this; cases this⟩

/-! ## C20 -/

theorem zipKids_map : ∀ b l, zipKids (keyOffs b l) (valOffs b l) = offs b (l.flatMap (fun p => [p.1, p.2]))
  | _, [] => rfl
  | b, (k, v) :: r => by simp [keyOffs, valOffs, zipKids, offs, zipKids_map]

theorem zipKids_eq (b : Nat) (v : Value) : zipKids (keyKids b v) (valKids b v) = offs b (kidsOf v) := by
  cases v <;> first | exact zipKids_map b _ | simp [keyKids, valKids, zipKids]

theorem offs_append : ∀ b s t, offs b (s ++ t) = offs b s ++ offs (b + total s) t
  | _, [], _ => by simp [offs, total]
  | b, k :: s, t => by simp [offs, total, offs_append _ s t, Nat.add_assoc]

/-- The subtrees `ks` lie at consecutive positions from `b` on. -/
def Placed (root : Kserd) : Nat → List Kserd → Prop
  | _, [] => True
  | b, k :: r => (∃ n, node root b = some n ∧ n.kserd = k) ∧ Placed root (b + k.size) r

theorem placed_append (root) : ∀ b s t, Placed root b s → Placed root (b + total s) t → Placed root b (s ++ t)
  | _, [], _, _, h => by simpa [total] using h
  | b, k :: s, t, h1, h2 => ⟨h1.1, placed_append root _ s t h1.2 (by simpa [total, Nat.add_assoc] using h2)⟩

theorem placed_roots (root) : ∀ b st, (∀ m ∈ roots b st, node root m.idx = some m) → Placed root b (st.map (·.2))
  | _, [], _ => trivial
  | b, x :: st, h => by
    simp only [roots] at h
    exact ⟨⟨_, h (mkN b x) (by simp), rfl⟩, placed_roots root _ st (fun m hm => h m (by simp [hm]))⟩

theorem placed_kids {root : Kserd} {i : Nat} {n : NavNode} (h : node root i = some n) :
    Placed root (i + 1) (kidsOf n.kserd.val) := by
  rw [← kids_snd i]
  exact placed_roots root _ _ (node_child h)

theorem range'_split (b : Nat) (k : Kserd) (r : List Kserd) :
    List.range' b (total (k :: r)) = b :: List.range' (b + 1) (total (kidsOf k.val ++ r)) := by
  rw [total, total_append, size_eq, show 1 + total (kidsOf k.val) + total r = (total (kidsOf k.val) + total r) + 1 by omega,
    List.range'_succ]

theorem depthLoop_eq (root : Kserd) : ∀ N ks, total ks ≤ N → ∀ b todo acc f, total ks ≤ f → Placed root b ks →
    depthLoop (Nav.new root) f (offs b ks ++ todo) acc =
      depthLoop (Nav.new root) (f - total ks) todo (acc ++ List.range' b (total ks))
  | N, [], _, b, todo, acc, f, _, _ => by simp [offs, total]
  | 0, k :: r, h, _, _, _, _, _, _ => by have := size_pos k; simp [total] at h; omega
  | N + 1, k :: r, h, b, todo, acc, f, hf, hp => by
    have hs := size_eq k
    have ht : total (k :: r) = total (kidsOf k.val ++ r) + 1 := by simp only [total, total_append]; omega
    obtain ⟨f, rfl⟩ : ∃ g, f = g + 1 := ⟨f - 1, by omega⟩
    obtain ⟨⟨n, hn, rfl⟩, hr⟩ := hp
    simp only [offs, List.cons_append, depthLoop]
    rw [new_get, hn]
    simp only [Option.map_some]
    rw [zipKids_eq, ← List.append_assoc,
      show offs (b + 1) (kidsOf n.kserd.val) ++ offs (b + n.kserd.size) r = offs (b + 1) (kidsOf n.kserd.val ++ r) by
        rw [offs_append]; congr 2; omega,
      depthLoop_eq root N _ (by omega) (b + 1) todo _ f (by omega)
        (placed_append root _ _ _ (placed_kids hn) (by rw [show b + 1 + total (kidsOf n.kserd.val) = b + n.kserd.size by omega]; exact hr)),
      range'_split, List.append_assoc]
    congr 1
    omega

theorem node_bounds {root : Kserd} {i : Nat} {n : NavNode} (h : node root i = some n) : i + n.kserd.size ≤ root.size := by
  obtain ⟨rest, hr⟩ := forest_drop i 0 _ n h
  have := congrArg List.length hr
  rw [List.length_drop, forest_length, forest_length] at this
  have hi : i < (forest 0 [({}, root)]).length := (List.getElem?_eq_some_iff.mp h).1
  rw [forest_length] at hi
  have hk := stackSize_kids i n.kserd
  simp only [stackSize, Nat.zero_add, List.map_append, total_append, List.map_cons, List.map_nil, total, Nat.add_zero] at this hi hk
  omega

theorem below_bounds {root : Kserd} {i : Nat} {n : NavNode} (h : (Nav.new root)[i]? = some n) {j : Nat}
    (hb : Below (Nav.new root) i j) : i < j ∧ ∃ m, (Nav.new root)[j]? = some m ∧ j + m.kserd.size ≤ i + n.kserd.size := by
  have step : ∀ {p j : Nat} {q m : NavNode}, (Nav.new root)[p]? = some q → (Nav.new root)[j]? = some m → m.parent = some p →
      p < j ∧ j + m.kserd.size ≤ p + q.kserd.size := by
    intro p j q m hq hm hp
    obtain ⟨q', hq', _, _, _, e4, _⟩ := get_node hq
    obtain ⟨m', hm', g1, _, _, g4, _⟩ := get_node hm
    rw [g1, node_parent hq' hm'] at hp
    have := roots_bounds _ _ _ hp
    have hk := stackSize_kids p q'.kserd
    rw [node_idx hm'] at this
    rw [g4, e4]; omega
  induction hb with
  | child hm hp => have := step h hm hp; exact ⟨this.1, _, hm, this.2⟩
  | step hm hp _ ih =>
    obtain ⟨h1, q, hq, h2⟩ := ih
    have := step hq hm hp
    exact ⟨by omega, _, hm, by omega⟩

theorem below_of_range {root : Kserd} {i : Nat} {n : NavNode} (h : (Nav.new root)[i]? = some n) : ∀ j, i < j →
    j < i + n.kserd.size → Below (Nav.new root) i j := by
  intro j
  induction j using Nat.strong_induction_on with
  | _ j ih =>
    intro h1 h2
    obtain ⟨n', hn, _, _, _, e4, _⟩ := get_node h
    have hlen : j < (forest 0 [({}, root)]).length := by
      rw [forest_length]
      have := node_bounds hn
      rw [← e4] at this
      simp only [stackSize, List.map_cons, List.map_nil, total]; omega
    obtain ⟨m, hm⟩ : ∃ m, node root j = some m := ⟨_, List.getElem?_eq_getElem hlen⟩
    obtain ⟨m', hm', g1, _⟩ := node_get hm
    obtain ⟨rest, hr⟩ := forest_drop i 0 _ n' hn
    rw [Nat.zero_add, forest_append] at hr
    have hk := stackSize_kids i n'.kserd
    have hmem : m ∈ forest (i + 1) (kids i n'.kserd.val) := by
      have hl := forest_length (kids i n'.kserd.val) (i + 1)
      have hj : ((forest 0 [({}, root)]).drop (i + 1))[j - (i + 1)]? = some m := by
        rw [List.getElem?_drop, show i + 1 + (j - (i + 1)) = j by omega]; exact hm
      rw [hr, List.getElem?_append_left (by rw [e4] at h2; omega)] at hj
      exact List.mem_of_getElem? hj
    rcases forest_parent _ _ m hmem with ⟨x, hx, he⟩ | ⟨p, hp, hp1, hp2⟩
    · rw [kids_parent i _ x hx] at he
      exact .child hm' (by rw [g1, he])
    · have hpj : p < j := by
        obtain ⟨q, hq⟩ : ∃ q, (Nav.new root)[p]? = some q := by
          have := node_bounds hn
          exact ⟨_, List.getElem?_eq_getElem (by rw [new_length]; omega)⟩
        obtain ⟨q', hq', _⟩ := get_node hq
        have hmm := (node_parent hq' hm).mp hp
        have := (roots_bounds _ _ _ hmm).1
        rw [node_idx hm] at this; omega
      exact .step hm' (by rw [g1, hp]) (ih p hpj (by omega) (by rw [e4]; omega))

/-- **C20.** `descendants_depth` of the node at index `i` returns (without panicking) the contiguous block of
indices after `i`, as long as the subtree, in order; and these are exactly the proper descendants. -/
theorem C20_descendants_depth (root : Kserd) (i : Nat) (n : NavNode) (h : (Nav.new root)[i]? = some n) :
    ∃ l, descendantsDepth (Nav.new root) n = some l ∧
      l = List.range' (i + 1) ((preorder n.kserd).length - 1) ∧
      ∀ j, j ∈ l ↔ Below (Nav.new root) i j := by
  have hlen : (preorder n.kserd).length = n.kserd.size := by
    rw [← (C18_preorder n.kserd).1, List.length_map, new_length]
  refine ⟨_, ?_, rfl, ?_⟩
  · obtain ⟨n', hn, _, _, _, h4, h5, h6⟩ := get_node h
    have hb := node_bounds hn
    have hs := size_eq n.kserd
    rw [descendantsDepth, h5, h6, ← valKids_eq, ← keyKids_eq, zipKids_eq]
    have := depthLoop_eq root _ (kidsOf n.kserd.val) (Nat.le_refl _) (i + 1) [] [] (Nav.new root).length
      (by rw [new_length]; rw [← h4] at hb; omega) (by rw [h4]; exact placed_kids hn)
    rw [List.append_nil] at this
    rw [this, hlen, show n.kserd.size - 1 = total (kidsOf n.kserd.val) by omega]
    cases (Nav.new root).length - total (kidsOf n.kserd.val) <;> simp [depthLoop]
  · intro j
    rw [List.mem_range'_1, hlen]
    constructor
    · intro hj
      exact below_of_range h j (by omega) (by omega)
    · intro hb
      obtain ⟨h1, m, hm, h2⟩ := below_bounds h hb
      have := size_pos m.kserd
      omega

/-- Applied to the first element of a tuple, itself a tuple of two. -/
example : let k : Kserd := .mk none (.tuple [.mk none (.tuple [.mk none .unit, .mk none .unit]), .mk none .unit])
    ∃ n, (Nav.new k)[1]? = some n ∧ descendantsDepth (Nav.new k) n = some [2, 3] := by
  intro k
  obtain ⟨n, hn⟩ : ∃ n, (Nav.new k)[1]? = some n := ⟨_, rfl⟩
  obtain ⟨l, h1, h2, _⟩ := C20_descendants_depth k 1 n hn
  refine ⟨n, hn, h1.trans ?_⟩
  cases hn
  rw [h2]
  decide

/-! ## C21 -/

/-- The subtree block of the node at index `i`. -/
def block (root : Kserd) (i : Nat) : List Nat :=
  match node root i with
  | some n => List.range' i n.kserd.size
  | none => []

theorem blocks_placed (root : Kserd) : ∀ b ks, Placed root b ks → (offs b ks).flatMap (block root) = List.range' b (total ks)
  | _, [], _ => by simp [offs, total]
  | b, k :: r, ⟨⟨n, hn, hk⟩, hr⟩ => by
    simp only [offs, List.flatMap_cons, blocks_placed root _ r hr, total]
    rw [block, hn]
    simp only [hk]
    rw [List.range'_append_1]

theorem zipKids_perm : ∀ a b, (zipKids a b).Perm (a ++ b)
  | [], vs => by simp [zipKids]
  | k :: ks, [] => by simp [zipKids]
  | k :: ks, v :: vs => by
    simp only [zipKids, List.cons_append]
    refine List.Perm.cons k ?_
    exact ((zipKids_perm ks vs).cons v).trans List.perm_middle.symm

theorem block_kids {root : Kserd} {i : Nat} {n : NavNode} (h : node root i = some n) :
    (block root i).Perm (i :: (keyKids (i + 1) n.kserd.val ++ valKids (i + 1) n.kserd.val).flatMap (block root)) := by
  have h1 : block root i = i :: (offs (i + 1) (kidsOf n.kserd.val)).flatMap (block root) := by
    rw [blocks_placed root _ _ (placed_kids h), block, h]
    simp only
    rw [size_eq, Nat.add_comm, List.range'_succ]
  rw [h1, ← zipKids_eq]
  exact List.Perm.cons i ((zipKids_perm _ _).flatMap_right _)

theorem breadthLoop_perm (root : Kserd) : ∀ f todo acc, (todo.flatMap (block root)).length ≤ f →
    (∀ i ∈ todo, i < root.size) →
    ∃ l, breadthLoop (Nav.new root) f todo acc = some (acc ++ l) ∧ l.Perm (todo.flatMap (block root))
  | f, [], acc, _, _ => ⟨[], by cases f <;> simp [breadthLoop], by simp⟩
  | 0, i :: todo, acc, h, hi => by
    exfalso
    obtain ⟨n, hn⟩ : ∃ n, node root i = some n :=
      ⟨_, List.getElem?_eq_getElem (by rw [forest_length]; simpa [stackSize, total] using hi i (by simp))⟩
    have := (block_kids hn).length_eq
    simp only [List.flatMap_cons, List.length_append, List.length_cons] at h this
    omega
  | f + 1, i :: todo, acc, h, hi => by
    obtain ⟨n, hn⟩ : ∃ n, node root i = some n :=
      ⟨_, List.getElem?_eq_getElem (by rw [forest_length]; simpa [stackSize, total] using hi i (by simp))⟩
    have hb := block_kids hn
    have hl := hb.length_eq
    simp only [List.length_cons] at hl
    simp only [breadthLoop]
    rw [new_get, hn]
    simp only [Option.map_some]
    obtain ⟨l, hl1, hl2⟩ := breadthLoop_perm root f
      (todo ++ (keyKids (i + 1) n.kserd.val ++ valKids (i + 1) n.kserd.val)) (acc ++ [i])
      (by simp only [List.flatMap_cons, List.flatMap_append, List.length_append] at h hl ⊢; omega)
      (by
        intro j hj
        rw [List.mem_append] at hj
        rcases hj with hj | hj
        · exact hi j (by simp [hj])
        · rw [valKids_eq, keyKids_eq, ← List.map_append, List.mem_map] at hj
          obtain ⟨m, hm, rfl⟩ := hj
          have hm' : m ∈ roots (i + 1) (kids i n.kserd.val) := by
            rw [List.mem_append] at hm
            rcases hm with hm | hm
            · exact (List.mem_filter.mp hm).1
            · exact (List.mem_filter.mp hm).1
          have := node_bounds (node_child hn m hm')
          have := size_pos m.kserd
          omega)
    refine ⟨i :: l, ?_, ?_⟩
    · rw [hl1]; simp
    · rw [List.flatMap_cons]
      refine List.Perm.trans ?_ (List.Perm.append_right _ hb.symm)
      rw [List.cons_append]
      refine List.Perm.cons i ?_
      refine hl2.trans ?_
      rw [List.flatMap_append]
      exact List.perm_append_comm

theorem atDepth_unique {nav : Navigator} {i d e : Nat} (h : AtDepth nav i d) (h' : AtDepth nav i e) : d = e := by
  induction h generalizing e with
  | root hm hp => cases h' with
    | root => rfl
    | step hm' hp' => rw [hm] at hm'; cases hm'; rw [hp] at hp'; cases hp'
  | step hm hp _ ih => cases h' with
    | root hm' hp' => rw [hm] at hm'; cases hm'; rw [hp] at hp'; cases hp'
    | step hm' hp' hd => rw [hm] at hm'; cases hm'; rw [hp] at hp'; cases hp'; rw [ih hd]

theorem atDepth_exists (root : Kserd) : ∀ j, j < root.size → ∃ d, AtDepth (Nav.new root) j d := by
  intro j
  induction j using Nat.strong_induction_on with
  | _ j ih =>
    intro hj
    obtain ⟨m, hm⟩ : ∃ m, (Nav.new root)[j]? = some m := ⟨_, List.getElem?_eq_getElem (by rw [new_length]; exact hj)⟩
    cases hp : m.parent with
    | none => exact ⟨0, .root hm hp⟩
    | some p =>
      obtain ⟨m', hm', g1, _⟩ := get_node hm
      have hpl : p < root.size := by
        have := List.mem_of_getElem? hm'
        rcases forest_parent _ _ m' this with ⟨x, hx, hx'⟩ | ⟨q, hq, _, hq'⟩
        · simp at hx; subst hx; rw [← g1, hp] at hx'; simp at hx'
        · rw [← g1, hp] at hq; simp at hq; subst hq
          simpa [stackSize, total] using hq'
      obtain ⟨q, hq⟩ : ∃ q, (Nav.new root)[p]? = some q := ⟨_, List.getElem?_eq_getElem (by rw [new_length]; exact hpl)⟩
      have hlt : p < j := by
        obtain ⟨q', hq', _⟩ := get_node hq
        have hmm := (node_parent hq' hm').mp (by rw [← g1, hp])
        have := (roots_bounds _ _ _ hmm).1
        rw [node_idx hm'] at this; omega
      obtain ⟨d, hd⟩ := ih p hlt hpl
      exact ⟨d + 1, .step hm hp hd⟩

/-- Breadth-first invariant: the queue is sorted by depth and spans at most two levels, and everything already
listed is sorted and no deeper than the queue. -/
theorem breadthLoop_sorted (root : Kserd) (dep : Nat → Nat)
    (hdep : ∀ i n, node root i = some n → ∀ j ∈ keyKids (i + 1) n.kserd.val ++ valKids (i + 1) n.kserd.val, dep j = dep i + 1) :
    ∀ f todo acc l, breadthLoop (Nav.new root) f todo acc = some l →
    todo.Pairwise (fun a b => dep a ≤ dep b) → acc.Pairwise (fun a b => dep a ≤ dep b) →
    (∀ a ∈ acc, ∀ b ∈ todo, dep a ≤ dep b) →
    (∀ a, todo.head? = some a → ∀ b ∈ todo, dep b ≤ dep a + 1) →
    l.Pairwise (fun a b => dep a ≤ dep b)
  | f, [], acc, l, h, _, hacc, _, _ => by
    have : l = acc := by cases f <;> (simp [breadthLoop] at h; exact h.symm)
    rw [this]; exact hacc
  | 0, i :: todo, acc, l, h, _, _, _, _ => by simp [breadthLoop] at h
  | f + 1, i :: todo, acc, l, h, ht, hacc, hat, hspan => by
    simp only [breadthLoop] at h
    rw [new_get] at h
    cases hn : node root i with
    | none => rw [hn] at h; simp at h
    | some n =>
      rw [hn] at h
      simp only [Option.map_some] at h
      have hk := hdep i n hn
      have hsp := hspan i rfl
      obtain ⟨ht1, ht2⟩ := List.pairwise_cons.mp ht
      refine breadthLoop_sorted root dep hdep f _ _ l h ?_ ?_ ?_ ?_
      · rw [List.pairwise_append]
        refine ⟨ht2, ?_, ?_⟩
        · apply List.Pairwise.imp_of_mem (R := fun _ _ => True)
          · intro a b ha hb _; rw [hk a ha, hk b hb]
          · exact List.pairwise_of_forall (fun _ _ => trivial)
        · intro a ha b hb
          have := hsp a (by simp [ha]); rw [hk b hb]; exact this
      · rw [List.pairwise_append]
        refine ⟨hacc, by simp, ?_⟩
        intro a ha b hb
        simp at hb; subst hb
        exact hat a ha _ (by simp)
      · intro a ha b hb
        rw [List.mem_append] at ha hb
        have hib : dep i ≤ dep b := by
          rcases hb with hb | hb
          · exact ht1 b hb
          · rw [hk b hb]; omega
        rcases ha with ha | ha
        · exact Nat.le_trans (hat a ha i (by simp)) hib
        · simp at ha; subst ha; exact hib
      · intro a ha b hb
        rw [List.mem_append] at hb
        have hia : dep i ≤ dep a := by
          have ha' : a ∈ todo ++ (keyKids (i + 1) n.kserd.val ++ valKids (i + 1) n.kserd.val) := List.mem_of_mem_head? ha
          rw [List.mem_append] at ha'
          rcases ha' with ha' | ha'
          · exact ht1 a ha'
          · rw [hk a ha']; omega
        rcases hb with hb | hb
        · have := hsp b (by simp [hb]); omega
        · rw [hk b hb]; omega

/-- **C21.** `descendants_breadth` of a node returns (without panicking) every proper descendant exactly once, in
order of non-decreasing depth. -/
theorem C21_descendants_breadth (root : Kserd) (i : Nat) (n : NavNode) (h : (Nav.new root)[i]? = some n) :
    ∃ l, descendantsBreadth (Nav.new root) n = some l ∧
      l.Nodup ∧ (∀ j, j ∈ l ↔ Below (Nav.new root) i j) ∧
      (∀ j ∈ l, ∃ d, AtDepth (Nav.new root) j d) ∧
      l.Pairwise (fun a b => ∀ d e, AtDepth (Nav.new root) a d → AtDepth (Nav.new root) b e → d ≤ e) := by
  obtain ⟨n', hn, _, _, _, h4, h5, h6⟩ := get_node h
  have hb := node_bounds hn
  have hs := size_eq n.kserd
  have hsub : ∀ {i : Nat} {n : NavNode}, node root i = some n → ∀ j ∈ keyKids (i + 1) n.kserd.val ++ valKids (i + 1) n.kserd.val,
      ∃ m, node root j = some m ∧ m.parent = some i := by
    intro i n hn j hj
    rw [valKids_eq, keyKids_eq, ← List.map_append, List.mem_map] at hj
    obtain ⟨m, hm, rfl⟩ := hj
    have hm' : m ∈ roots (i + 1) (kids i n.kserd.val) := by
      rw [List.mem_append] at hm
      rcases hm with hm | hm
      · exact (List.mem_filter.mp hm).1
      · exact (List.mem_filter.mp hm).1
    have := node_child hn m hm'
    exact ⟨m, this, (node_parent hn this).mpr hm'⟩
  have hperm : ((keyKids (i + 1) n'.kserd.val ++ valKids (i + 1) n'.kserd.val).flatMap (block root)).Perm
      (List.range' (i + 1) (n.kserd.size - 1)) := by
    have e := (zipKids_perm (keyKids (i + 1) n'.kserd.val) (valKids (i + 1) n'.kserd.val)).flatMap_right (block root)
    rw [zipKids_eq, blocks_placed root _ _ (placed_kids hn)] at e
    rw [h4] at hs ⊢
    rw [show n'.kserd.size - 1 = total (kidsOf n'.kserd.val) by omega]
    exact e.symm
  have hkids_lt : ∀ j ∈ keyKids (i + 1) n'.kserd.val ++ valKids (i + 1) n'.kserd.val, j < root.size := by
    intro j hj
    obtain ⟨m, hm, _⟩ := hsub hn j hj
    have := node_bounds hm
    have := size_pos m.kserd
    omega
  obtain ⟨l, hl, hl2⟩ := breadthLoop_perm root (Nav.new root).length
    (keyKids (i + 1) n'.kserd.val ++ valKids (i + 1) n'.kserd.val) []
    (by rw [hperm.length_eq, List.length_range', new_length]; rw [← h4] at hb; omega) hkids_lt
  rw [List.nil_append] at hl
  have hll := hl2.trans hperm
  refine ⟨l, ?_, ?_, ?_, ?_, ?_⟩
  · rw [descendantsBreadth, h5, h6, ← valKids_eq, ← keyKids_eq, h4]; exact hl
  · exact hll.nodup_iff.mpr List.nodup_range'
  · intro j
    rw [hll.mem_iff, List.mem_range'_1]
    constructor
    · intro hj
      exact below_of_range h j (by omega) (by omega)
    · intro hb
      obtain ⟨h1, m, hm, h2⟩ := below_bounds h hb
      have := size_pos m.kserd
      omega
  · intro j hj
    rw [hll.mem_iff, List.mem_range'_1] at hj
    exact atDepth_exists root j (by rw [← h4] at hb; omega)
  · classical
    let dep : Nat → Nat := fun j => if hj : j < root.size then Classical.choose (atDepth_exists root j hj) else 0
    have hdep : ∀ j d, AtDepth (Nav.new root) j d → dep j = d := by
      intro j d hd
      have hj : j < root.size := by
        have : ∃ m, (Nav.new root)[j]? = some m := by cases hd <;> exact ⟨_, by assumption⟩
        obtain ⟨m, hm⟩ := this
        have := (List.getElem?_eq_some_iff.mp hm).1
        rwa [new_length] at this
      simp only [dep, hj, dif_pos]
      exact atDepth_unique (Classical.choose_spec (atDepth_exists root j hj)) hd
    have hstep : ∀ i n, node root i = some n → ∀ j ∈ keyKids (i + 1) n.kserd.val ++ valKids (i + 1) n.kserd.val,
        dep j = dep i + 1 := by
      intro i n hn j hj
      obtain ⟨m, hm, hp⟩ := hsub hn j hj
      obtain ⟨m', hm', g1, _⟩ := node_get hm
      have hi : i < root.size := by have := node_bounds hn; have := size_pos n.kserd; omega
      obtain ⟨d, hd⟩ := atDepth_exists root i hi
      rw [hdep i d hd, hdep j (d + 1) (.step hm' (by rw [g1, hp]) hd)]
    have := breadthLoop_sorted root dep hstep _ _ _ _ hl
      (by
        apply List.Pairwise.imp_of_mem (R := fun _ _ => True)
        · intro a b ha hb _; rw [hstep i n' hn a ha, hstep i n' hn b hb]
        · exact List.pairwise_of_forall (fun _ _ => trivial))
      (by simp) (by simp)
      (by
        intro a ha b hb
        rw [hstep i n' hn b hb, hstep i n' hn a (List.mem_of_mem_head? ha)]; omega)
    refine this.imp ?_
    intro a b hab d e hd he
    rw [← hdep a d hd, ← hdep b e he]; exact hab

/-- Applied to a tuple whose first element is a tuple: the second element comes before the parts of the first. -/
example : let k : Kserd := .mk none (.tuple [.mk none (.tuple [.mk none .unit, .mk none .unit]), .mk none .unit])
    ∃ n, (Nav.new k)[0]? = some n ∧ descendantsBreadth (Nav.new k) n = some [1, 4, 2, 3] := ⟨_, rfl, by decide +kernel⟩

/-! ## C45: `Node::value` -/

theorem seqItems_all (nav : Navigator) : ∀ (idxs : List Nat) (ks : List Kserd),
    idxs.map (fun j => (nav[j]?).map (·.kserd)) = ks.map some →
    (seqItems nav idxs).map (·.kserd) = ks ∧ (seqItems nav idxs).map some = idxs.map (fun j => nav[j]?)
  | [], ks, h => by cases ks <;> simp [seqItems] at h ⊢
  | i :: r, [], h => by simp at h
  | i :: r, k :: ks, h => by
    simp only [List.map_cons, List.cons.injEq] at h
    obtain ⟨h1, h2⟩ := h
    have := seqItems_all nav r ks h2
    cases hi : nav[i]? with
    | none => rw [hi] at h1; simp at h1
    | some n =>
      rw [hi] at h1
      simp only [Option.map_some, Option.some.injEq] at h1
      simp [seqItems, hi, h1, this.1, this.2]

theorem namedItems_all (nav : Navigator) : ∀ (idxs : List Nat) (ks : List (Str × Kserd)),
    idxs.map (fun j => (nav[j]?).map (·.kserd)) = (ks.map (·.2)).map some →
    (namedItems nav (ks.map (·.1)) idxs).map (fun p => (p.1, p.2.kserd)) = ks ∧
    (namedItems nav (ks.map (·.1)) idxs).map (fun p => some p.2) = idxs.map (fun j => nav[j]?)
  | [], ks, h => by cases ks <;> simp [namedItems] at h ⊢
  | i :: r, [], h => by simp at h
  | i :: r, (n, k) :: ks, h => by
    simp only [List.map_cons, List.cons.injEq] at h
    obtain ⟨h1, h2⟩ := h
    have := namedItems_all nav r ks h2
    cases hi : nav[i]? with
    | none => rw [hi] at h1; simp at h1
    | some m =>
      rw [hi] at h1
      simp only [Option.map_some, Option.some.injEq] at h1
      simp [namedItems, hi, h1, this.1, this.2]

theorem keyedItems_all (nav : Navigator) : ∀ (kidxs idxs : List Nat) (ks : List (Kserd × Kserd)),
    kidxs.map (fun j => (nav[j]?).map (·.kserd)) = (ks.map (·.1)).map some →
    idxs.map (fun j => (nav[j]?).map (·.kserd)) = (ks.map (·.2)).map some →
    (keyedItems nav kidxs idxs).map (fun p => (p.1.kserd, p.2.kserd)) = ks ∧
    (keyedItems nav kidxs idxs).map (fun p => some p.1) = kidxs.map (fun j => nav[j]?) ∧
    (keyedItems nav kidxs idxs).map (fun p => some p.2) = idxs.map (fun j => nav[j]?)
  | [], idxs, ks, h, h' => by
    cases ks with
    | nil => simp at h'; simp [keyedItems, h']
    | cons => simp at h
  | i :: r, idxs, [], h, _ => by simp at h
  | i :: r, [], k :: ks, _, h' => by simp at h'
  | i :: r, j :: s, (n, k) :: ks, h, h' => by
    simp only [List.map_cons, List.cons.injEq] at h h'
    obtain ⟨h1, h2⟩ := h
    obtain ⟨h1', h2'⟩ := h'
    have := keyedItems_all nav r s ks h2 h2'
    cases hi : nav[i]? with
    | none => rw [hi] at h1; simp at h1
    | some m =>
      cases hj : nav[j]? with
      | none => rw [hj] at h1'; simp at h1'
      | some m' =>
        rw [hi] at h1; rw [hj] at h1'
        simp only [Option.map_some, Option.some.injEq] at h1 h1'
        simp [keyedItems, hi, hj, h1, h1', this.1, this.2.1, this.2.2]

/-- **C45.** `Node::value` mirrors the node's `Value`: same variant, and iterating yields a node for each direct
child in order, with its field name or its key node; the nodes are the linked children. -/
theorem C45_value (root : Kserd) (i : Nat) (n : NavNode) (h : (Nav.new root)[i]? = some n) :
    match n.kserd.val, Nav.value (Nav.new root) n with
    | .tuple l, .tuple ns => ns.map (·.kserd) = l ∧ ns.map some = n.valueChildren.map (fun j => (Nav.new root)[j]?)
    | .seq l, .seq ns => ns.map (·.kserd) = l ∧ ns.map some = n.valueChildren.map (fun j => (Nav.new root)[j]?)
    | .cntr f, .cntr ns => ns.map (fun p => (p.1, p.2.kserd)) = f ∧
        ns.map (fun p => some p.2) = n.valueChildren.map (fun j => (Nav.new root)[j]?)
    | .map m, .map ns => ns.map (fun p => (p.1.kserd, p.2.kserd)) = m ∧
        ns.map (fun p => some p.1) = n.keyChildren.map (fun j => (Nav.new root)[j]?) ∧
        ns.map (fun p => some p.2) = n.valueChildren.map (fun j => (Nav.new root)[j]?)
    | .unit, .primitive => True
    | .bool _, .primitive => True
    | .num _, .primitive => True
    | .str _, .primitive => True
    | .barr _, .primitive => True
    | _, _ => False := by
  obtain ⟨_, _, _, _, _, h6, h7⟩ := C19_links root i n h
  cases hv : n.kserd.val with
  | tuple l => rw [hv] at h6; simp only [Nav.value, hv]; exact seqItems_all _ _ _ h6
  | seq l => rw [hv] at h6; simp only [Nav.value, hv]; exact seqItems_all _ _ _ h6
  | cntr f => rw [hv] at h6; simp only [Nav.value, hv]; exact namedItems_all _ _ _ h6
  | map m => rw [hv] at h6 h7; simp only [Nav.value, hv]; exact keyedItems_all _ _ _ _ h7 h6
  | _ => simp [Nav.value, hv]

/-! ## C46: the debug-build self check -/

theorem kind_of_parent {root : Kserd} {j p : Nat} {m : NavNode} (hm : (Nav.new root)[j]? = some m) (hp : m.parent = some p) :
    (∃ q, (Nav.new root)[p]? = some q) ∧
    ((m.valueIdx.isSome = true ∧ m.keyIdx = none) ∨ (m.valueIdx = none ∧ m.keyIdx.isSome = true)) := by
  obtain ⟨m', hm', g1, g2, g3, _⟩ := get_node hm
  have hpl : p < root.size := by
    rcases forest_parent _ _ m' (List.mem_of_getElem? hm') with ⟨x, hx, hx'⟩ | ⟨q, hq, _, hq'⟩
    · simp at hx; subst hx; rw [← g1, hp] at hx'; simp at hx'
    · rw [← g1, hp] at hq; simp at hq; subst hq
      simpa [stackSize, total] using hq'
  obtain ⟨q, hq⟩ : ∃ q, (Nav.new root)[p]? = some q := ⟨_, List.getElem?_eq_getElem (by rw [new_length]; exact hpl)⟩
  refine ⟨⟨q, hq⟩, ?_⟩
  obtain ⟨q', hq', _⟩ := get_node hq
  have hmm := (node_parent hq' hm').mp (by rw [← g1, hp])
  obtain ⟨x, hx, _, e1, e2, _⟩ := roots_kind _ _ _ hmm
  rw [g2, g3, e1, e2]; exact kids_kind _ _ x hx

theorem checkKids_ok (nav : Navigator) (idxs : List Nat) (ks : List Kserd)
    (h : idxs.map (fun j => (nav[j]?).map (·.kserd)) = ks.map some) : checkKids nav idxs ks = true := by
  rw [checkKids, List.all_eq_true]
  intro i hi
  rw [List.mem_range] at hi
  have := congrArg (fun l => l[i]?) h
  simp only [List.getElem?_map, List.getElem?_eq_getElem hi, Option.map_some] at this
  cases hx : idxs[i]? with
  | none => rw [hx] at this; simp at this
  | some j =>
    rw [hx] at this
    simp only [Option.map_some, Option.some.injEq] at this
    cases hj : nav[j]? with
    | none => rw [hj] at this; simp at this
    | some n =>
      rw [hj] at this
      simp only [Option.map_some, Option.some.injEq] at this
      simp [List.getElem?_eq_getElem hi, hj, this, eq_self]

theorem eqAt_ok (l : List Kserd) (i : Nat) (k : Kserd) (h : l[i]? = some k) : eqAt l i k = true := by
  simp [eqAt, h, eq_self]

/-- **C46.** In debug builds `Navigator::new` checks itself; the check passes for every Kserd, so
construction never panics. -/
theorem C46_validate (root : Kserd) : validate (Nav.new root) = true := by
  obtain ⟨_, hidx, r, hr, hrk⟩ := C18_preorder root
  simp only [validate, Bool.and_eq_true, beq_iff_eq]
  refine ⟨⟨⟨⟨?_, ?_⟩, ?_⟩, ?_⟩, ?_⟩
  · rw [hr]
    simp only [Option.isNone_iff_eq_none]
    exact (C19_links root 0 r hr).2.1.mpr rfl
  · have hform : ∃ t, Nav.new root = r :: t := by
      cases hn : Nav.new root with
      | nil => rw [hn] at hr; simp at hr
      | cons a t => rw [hn] at hr; simp at hr; subst hr; exact ⟨t, rfl⟩
    obtain ⟨t, ht⟩ := hform
    have hrp := (C19_links root 0 r hr).2.1.mpr rfl
    rw [ht, List.filter_cons_of_pos (by simp [hrp]), List.length_cons]
    have : t.filter (·.parent.isNone) = [] := by
      rw [List.filter_eq_nil_iff]
      intro m hm
      obtain ⟨i, hi⟩ := List.mem_iff_getElem?.mp hm
      have hm' : (Nav.new root)[i + 1]? = some m := by rw [ht, List.getElem?_cons_succ]; exact hi
      have := (C19_links root (i + 1) m hm').2.1
      simp only [Option.isNone_iff_eq_none]
      intro hc; have := this.mp hc; omega
    rw [this]; rfl
  · rw [List.all_eq_true]
    intro i hi
    rw [List.mem_range] at hi
    rw [List.getElem?_eq_getElem hi]
    simp only [beq_iff_eq]
    exact hidx i _ (List.getElem?_eq_getElem hi)
  · rw [List.all_eq_true]
    intro m hm
    obtain ⟨j, hj⟩ := List.mem_iff_getElem?.mp hm
    cases hp : m.parent with
    | none => simp [checkParent, hp]
    | some p =>
      obtain ⟨⟨q, hq⟩, hkind⟩ := kind_of_parent hj hp
      obtain ⟨_, _, hmem, hv, hk, hvk, hkk⟩ := C19_links root p q hq
      obtain ⟨hm1, hm2⟩ := hmem j m hj
      have hval : ∀ x, m.valueIdx = some x → (valuesOf q.kserd.val)[x]? = some m.kserd := by
        intro x hx
        have hkn : m.keyIdx = none := by
          rcases hkind with ⟨_, h⟩ | ⟨h, _⟩
          · exact h
          · rw [hx] at h; simp at h
        obtain ⟨y, hy⟩ := List.mem_iff_getElem?.mp (hm1.mpr ⟨hp, by simp [isKey, hkn]⟩)
        obtain ⟨m', hm', hix⟩ := hv y j hy
        rw [hj] at hm'; cases hm'
        simp only [idxInParent, hkn, hx, Option.none_or, Option.getD_some] at hix
        subst hix
        have := congrArg (fun l => l[x]?) hvk
        simp only [List.getElem?_map, hy, Option.map_some, hj] at this
        cases hz : (valuesOf q.kserd.val)[x]? with
        | none => rw [hz] at this; simp at this
        | some z => rw [hz] at this; simp at this; rw [this]
      have hkey : ∀ x, m.keyIdx = some x → (keysOf q.kserd.val)[x]? = some m.kserd := by
        intro x hx
        obtain ⟨y, hy⟩ := List.mem_iff_getElem?.mp (hm2.mpr ⟨hp, by simp [isKey, hx]⟩)
        obtain ⟨m', hm', hix⟩ := hk y j hy
        rw [hj] at hm'; cases hm'
        simp only [idxInParent, hx, Option.some_or, Option.getD_some] at hix
        subst hix
        have := congrArg (fun l => l[x]?) hkk
        simp only [List.getElem?_map, hy, Option.map_some, hj] at this
        cases hz : (keysOf q.kserd.val)[x]? with
        | none => rw [hz] at this; simp at this
        | some z => rw [hz] at this; simp at this; rw [this]
      simp only [checkParent, hp, hq]
      cases hvi : m.valueIdx with
      | none =>
        cases hki : m.keyIdx with
        | none => rw [hvi, hki] at hkind; simp at hkind
        | some y =>
          have := hkey y hki
          cases hqv : q.kserd.val with
          | map mm =>
            rw [hqv] at this
            have e := eqAt_ok _ _ _ this
            simp only [keysOf] at e
            simp [e]
          | _ => rw [hqv] at this; simp [keysOf] at this
      | some x =>
        have := hval x hvi
        have hkn : m.keyIdx = none := by
          rcases hkind with ⟨_, h⟩ | ⟨h, _⟩
          · exact h
          · rw [hvi] at h; simp at h
        rw [hkn]
        have e := eqAt_ok _ _ _ this
        cases hqv : q.kserd.val <;> rw [hqv] at e this <;> simp only [valuesOf] at e this <;>
          first | (simp at this; done) | (simp [e]; done)
  · rw [List.all_eq_true]
    intro m hm
    obtain ⟨j, hj⟩ := List.mem_iff_getElem?.mp hm
    obtain ⟨_, _, _, _, _, hvk, hkk⟩ := C19_links root j m hj
    have l1 := congrArg List.length hvk
    have l2 := congrArg List.length hkk
    simp only [List.length_map] at l1 l2
    have c1 := checkKids_ok _ _ _ hvk
    have c2 := checkKids_ok _ _ _ hkk
    cases hv : m.kserd.val <;> rw [hv] at l1 l2 c1 c2 <;>
      simp [checkChildren, hv, valuesOf, keysOf] at l1 l2 c1 c2 ⊢ <;> simp [l1, l2, c1, c2]

/-- A map inside a tuple: keys precede values, and the two orders differ. -/
example : let k : Kserd := .mk none (.tuple [.mk none (.map [(.mk none (.num (.uint 1)), .mk none (.seq [.mk none .unit])),
      (.mk none (.num (.uint 2)), .mk none (.bool true))]), .mk none (.bool false)])
    (Nav.new k).map (fun n => (n.idx, n.parent, n.keyChildren, n.valueChildren)) =
      [(0, none, [], [1, 7]), (1, some 0, [2, 5], [3, 6]), (2, some 1, [], []), (3, some 1, [], [4]), (4, some 3, [], []),
       (5, some 1, [], []), (6, some 1, [], []), (7, some 0, [], [])] ∧
    ((Nav.new k)[0]?.bind (descendantsDepth (Nav.new k))) = some [1, 2, 3, 4, 5, 6, 7] ∧
    ((Nav.new k)[0]?.bind (descendantsBreadth (Nav.new k))) = some [1, 7, 2, 5, 3, 6, 4] := by decide +kernel

end KS.Props
