import Verif.Model.Widths
import Verif.Lemmas.Estimate
import Verif.Props.Format
/-!
# Lemmas about the width vectors
-/

namespace KS.SV
open KS.Spec KS.Nav KS.Props

/-! ## Totals -/

/-- The largest of `w` and the elements. -/
def maxOf (w : Nat) : List Nat → Nat
  | [] => w
  | x :: r => maxOf (max w x) r

theorem inlineTotalL_eq (c : FormattingConfig) : ∀ l, Solver.inlineTotalL c l = (l.map (Solver.inlineTotal c)).sum
  | [] => rfl
  | k :: r => by rw [Solver.inlineTotalL, List.map_cons, List.sum_cons, inlineTotalL_eq c r]
theorem inlineTotalF_eq (c : FormattingConfig) : ∀ l, Solver.inlineTotalF c l = (l.map fun p => Solver.inlineTotal c p.2).sum
  | [] => rfl
  | (n, k) :: r => by rw [Solver.inlineTotalF, List.map_cons, List.sum_cons, inlineTotalF_eq c r]
theorem inlineTotalM_eq (c : FormattingConfig) : ∀ l, Solver.inlineTotalM c l =
    (l.map fun p => Solver.inlineTotal c p.2).sum + (l.map fun p => Solver.inlineTotal c p.1).sum
  | [] => rfl
  | (n, k) :: r => by rw [Solver.inlineTotalM, List.map_cons, List.sum_cons, List.map_cons, List.sum_cons, inlineTotalM_eq c r]; simp only; omega

theorem inlineTotal_eq (c : FormattingConfig) (k : Kserd) : Solver.inlineTotal c k =
    Solver.inlineWidth c k.id k.val + ((valuesOf k.val).map (Solver.inlineTotal c)).sum + ((keysOf k.val).map (Solver.inlineTotal c)).sum := by
  obtain ⟨id, v⟩ := k
  rw [Solver.inlineTotal]
  cases v <;> simp only [Solver.inlineTotalV, Kserd.id, Kserd.val, valuesOf, keysOf, inlineTotalL_eq, inlineTotalF_eq, inlineTotalM_eq, List.map_nil,
    List.sum_nil, List.map_map, Nat.add_zero]
  · rfl
  · rw [Nat.add_assoc]; rfl

/-! ## Nodes and their children -/

/-- The nodes are nodes of the navigator. -/
def Located (nav : Navigator) (ns : List NavNode) : Prop := ∀ m ∈ ns, nav[m.idx]? = some m

theorem located_of {root : Kserd} {ns : List NavNode} {js : List Nat} (h : ns.map some = js.map fun j => (Nav.new root)[j]?) :
    Located (Nav.new root) ns := by
  intro m hm
  have : some m ∈ ns.map some := List.mem_map_of_mem hm
  rw [h, List.mem_map] at this
  obtain ⟨j, _, hj⟩ := this
  rw [(C18_preorder root).2.1 j m hj, hj]

theorem size_kid {k x : Kserd} (h : x ∈ kidsOf k.val) : x.size < k.size := by
  rw [size_eq k]
  have : ∀ (l : List Kserd), x ∈ l → x.size ≤ total l := by
    intro l
    induction l with
    | nil => intro h; cases h
    | cons y r ih =>
      intro h
      rw [total]
      rcases List.mem_cons.mp h with rfl | h
      · omega
      · have := ih h; omega
  have := this _ h
  omega

theorem values_kids {v : Value} {x : Kserd} (h : x ∈ valuesOf v) : x ∈ kidsOf v := by
  cases v <;> simp only [valuesOf, List.not_mem_nil] at h <;> try exact h
  obtain ⟨p, hp, rfl⟩ := List.mem_map.mp h
  exact List.mem_flatMap.mpr ⟨p, hp, by simp⟩

theorem keys_kids {v : Value} {x : Kserd} (h : x ∈ keysOf v) : x ∈ kidsOf v := by
  cases v <;> simp only [keysOf, List.not_mem_nil] at h
  obtain ⟨p, hp, rfl⟩ := List.mem_map.mp h
  exact List.mem_flatMap.mpr ⟨p, hp, by simp⟩

/-! ## The memo -/

/-- Every stored width is right. -/
def Good (nav : Navigator) (T : Kserd → Nat) (ws : Memo) : Prop :=
  ws.length = nav.length ∧ ∀ (i w : Nat) (n : NavNode), nav[i]? = some n → ws[i]? = some (some w) → w = T n.kserd

/-- Nothing stored is lost. -/
def Ext (ws ws' : Memo) : Prop := ∀ (i w : Nat), ws[i]? = some (some w) → ws'[i]? = some (some w)

theorem Ext.refl (ws : Memo) : Ext ws ws := fun _ _ h => h
theorem Ext.trans {a b c : Memo} (h : Ext a b) (h' : Ext b c) : Ext a c := fun i w x => h' i w (h i w x)

/-- The recursive call returns the right width. -/
def Right (nav : Navigator) (T : Kserd → Nat) (rec : NavNode → Memo → Option (Nat × Memo)) (n : NavNode) : Prop :=
  ∀ ws, Good nav T ws → ∃ ws', rec n ws = some (T n.kserd, ws') ∧ Good nav T ws' ∧ Ext ws ws'

variable {nav : Navigator} {T : Kserd → Nat} {rec : NavNode → Memo → Option (Nat × Memo)}

theorem lookup_right {n : NavNode} (hn : nav[n.idx]? = some n) (hr : Right nav T rec n) {ws : Memo} (hg : Good nav T ws) :
    ∃ ws', lookup rec n ws = some (T n.kserd, ws') ∧ Good nav T ws' ∧ Ext ws ws' ∧ ws'[n.idx]? = some (some (T n.kserd)) := by
  have hlt := (List.getElem?_eq_some_iff.mp hn).1
  obtain ⟨o, ho⟩ : ∃ o, ws[n.idx]? = some o := ⟨_, List.getElem?_eq_getElem (by rw [hg.1]; exact hlt)⟩
  cases o with
  | some w =>
    have := hg.2 _ _ _ hn ho
    subst this
    exact ⟨ws, by rw [lookup, ho], hg, .refl _, ho⟩
  | none =>
    obtain ⟨ws', h1, h2, h3⟩ := hr ws hg
    have hl : n.idx < ws'.length := by rw [h2.1]; exact hlt
    refine ⟨ws'.set n.idx (some (T n.kserd)), ?_, ⟨?_, ?_⟩, ?_, ?_⟩
    · rw [lookup, ho]; simp only [h1, if_pos hl]
    · rw [List.length_set]; exact h2.1
    · intro i w m hm hi
      rw [List.getElem?_set] at hi
      by_cases h : n.idx = i
      · subst h
        rw [if_pos rfl, if_pos hl] at hi
        rw [hn] at hm; cases hm; cases hi; rfl
      · rw [if_neg h] at hi
        exact h2.2 i w m hm hi
    · intro i w hi
      rw [List.getElem?_set]
      by_cases h : n.idx = i
      · subst h; rw [ho] at hi; cases hi
      · rw [if_neg h]; exact h3 i w hi
    · rw [List.getElem?_set, if_pos rfl, if_pos hl]

theorem sumKids_right : ∀ (ns : List NavNode), Located nav ns → (∀ m ∈ ns, Right nav T rec m) → ∀ (w : Nat) (ws : Memo), Good nav T ws →
    ∃ ws', sumKids rec ns w ws = some (w + (ns.map fun m => T m.kserd).sum, ws') ∧ Good nav T ws' ∧ Ext ws ws'
  | [], _, _, w, ws, hg => ⟨ws, by simp [sumKids], hg, .refl _⟩
  | n :: r, hl, hr, w, ws, hg => by
    obtain ⟨ws1, h1, h2, h3, _⟩ := lookup_right (hl n (by simp)) (hr n (by simp)) hg
    obtain ⟨ws2, g1, g2, g3⟩ := sumKids_right r (fun m hm => hl m (by simp [hm])) (fun m hm => hr m (by simp [hm])) (w + T n.kserd) ws1 h2
    refine ⟨ws2, ?_, g2, h3.trans g3⟩
    rw [sumKids, h1]
    simp only [g1, List.map_cons, List.sum_cons, Nat.add_assoc]

theorem maxKids_right : ∀ (ns : List (Nat × NavNode)), (∀ m ∈ ns, nav[m.2.idx]? = some m.2 ∧ Right nav T rec m.2) → ∀ (w : Nat) (ws : Memo), Good nav T ws →
    ∃ ws', maxKids rec (ns.map fun p => (some p.1, p.2)) w ws = some (maxOf w (ns.map fun m => m.1 + T m.2.kserd), ws') ∧ Good nav T ws' ∧ Ext ws ws'
  | [], _, w, ws, hg => ⟨ws, by simp [maxKids, maxOf], hg, .refl _⟩
  | (a, n) :: r, hr, w, ws, hg => by
    obtain ⟨q1, q2⟩ := hr (a, n) (by simp)
    obtain ⟨ws1, h1, h2, h3, _⟩ := lookup_right q1 q2 hg
    obtain ⟨ws2, g1, g2, g3⟩ := maxKids_right r (fun m hm => hr m (by simp [hm])) (max w (a + T n.kserd)) ws1 h2
    refine ⟨ws2, ?_, g2, h3.trans g3⟩
    rw [List.map_cons, maxKids]
    simp only [h1, g1, List.map_cons, maxOf]

theorem fillAll_right : ∀ (ns : List NavNode), Located nav ns → (∀ m ∈ ns, Right nav T rec m) → ∀ (ws : Memo), Good nav T ws →
    ∃ ws', fillAll rec ns ws = some ws' ∧ Good nav T ws' ∧ Ext ws ws' ∧ ∀ m ∈ ns, ws'[m.idx]? = some (some (T m.kserd))
  | [], _, _, ws, hg => ⟨ws, by simp [fillAll], hg, .refl _, by simp⟩
  | n :: r, hl, hr, ws, hg => by
    obtain ⟨ws1, h1, h2, h3, h4⟩ := lookup_right (hl n (by simp)) (hr n (by simp)) hg
    obtain ⟨ws2, g1, g2, g3, g4⟩ := fillAll_right r (fun m hm => hl m (by simp [hm])) (fun m hm => hr m (by simp [hm])) ws1 h2
    refine ⟨ws2, ?_, g2, h3.trans g3, ?_⟩
    · rw [fillAll, h1]; exact g1
    · intro m hm
      rcases List.mem_cons.mp hm with rfl | hm
      · exact g3 _ _ h4
      · exact g4 m hm

theorem collect_map : ∀ (l : List Nat), collect (l.map some) = some l
  | [] => rfl
  | x :: r => by rw [List.map_cons, collect, collect_map r]; rfl

/-- What the loop over all nodes gives. -/
theorem fill_collect {root : Kserd} (T : Kserd → Nat) (rec : NavNode → Memo → Option (Nat × Memo))
    (hr : ∀ (i : Nat) (n : NavNode), (Nav.new root)[i]? = some n → Right (Nav.new root) T rec n) :
    (fillAll rec (Nav.new root) (List.replicate (Nav.new root).length none)).bind collect = some ((preorder root).map T) := by
  have hidx := (C18_preorder root).2.1
  have hloc : Located (Nav.new root) (Nav.new root) := by
    intro m hm
    obtain ⟨i, hi⟩ := List.mem_iff_getElem?.mp hm
    rw [hidx i m hi, hi]
  have hgood : Good (Nav.new root) T (List.replicate (Nav.new root).length none) := by
    refine ⟨List.length_replicate, ?_⟩
    intro i w n _ h
    rw [List.getElem?_replicate] at h
    split at h <;> cases h
  obtain ⟨ws, h1, h2, _, h4⟩ := fillAll_right (Nav.new root) hloc
    (fun m hm => by obtain ⟨i, hi⟩ := List.mem_iff_getElem?.mp hm; exact hr i m hi) _ hgood
  have : ws = ((preorder root).map T).map some := by
    rw [← (C18_preorder root).1, List.map_map, List.map_map]
    apply List.ext_getElem?
    intro i
    rw [List.getElem?_map]
    cases hn : (Nav.new root)[i]? with
    | none =>
      rw [Option.map_none, List.getElem?_eq_none_iff, h2.1]
      exact List.getElem?_eq_none_iff.mp hn
    | some n =>
      have := h4 n (List.mem_of_getElem? hn)
      rw [hidx i n hn] at this
      rw [this]; rfl
  rw [h1, this]
  exact collect_map _

/-! ## Inline widths -/

theorem inlineRec_right (root : Kserd) (c : FormattingConfig) : ∀ (fuel i : Nat) (n : NavNode), (Nav.new root)[i]? = some n → n.kserd.size ≤ fuel →
    Right (Nav.new root) (Solver.inlineTotal c) (inlineRec (Nav.new root) c fuel) n
  | 0, _, n, _, h => by have := size_pos n.kserd; omega
  | fuel + 1, i, n, hn, hf => by
    intro ws hg
    obtain ⟨_, _, _, _, _, h6, h7⟩ := C19_links root i n hn
    obtain ⟨v1, v2⟩ := seqItems_all _ _ _ h6
    obtain ⟨k1, k2⟩ := seqItems_all _ _ _ h7
    have vl := located_of v2
    have kl := located_of k2
    have hv : ∀ m ∈ seqItems (Nav.new root) n.valueChildren, Right (Nav.new root) (Solver.inlineTotal c) (inlineRec (Nav.new root) c fuel) m := by
      intro m hm
      have : m.kserd ∈ valuesOf n.kserd.val := by rw [← v1]; exact List.mem_map_of_mem hm
      have := size_kid (values_kids this)
      exact inlineRec_right root c fuel m.idx m (vl m hm) (by omega)
    have hk : ∀ m ∈ seqItems (Nav.new root) n.keyChildren, Right (Nav.new root) (Solver.inlineTotal c) (inlineRec (Nav.new root) c fuel) m := by
      intro m hm
      have : m.kserd ∈ keysOf n.kserd.val := by rw [← k1]; exact List.mem_map_of_mem hm
      have := size_kid (keys_kids this)
      exact inlineRec_right root c fuel m.idx m (kl m hm) (by omega)
    obtain ⟨ws1, a1, a2, a3⟩ := sumKids_right _ vl hv (Solver.inlineWidth c n.kserd.id n.kserd.val) ws hg
    obtain ⟨ws2, b1, b2, b3⟩ := sumKids_right _ kl hk _ ws1 a2
    refine ⟨ws2, ?_, b2, a3.trans b3⟩
    rw [inlineRec, a1]
    simp only []
    rw [b1, inlineTotal_eq c n.kserd, ← v1, ← k1, List.map_map, List.map_map]
    rfl

theorem node_size {root : Kserd} {i : Nat} {n : NavNode} (hn : (Nav.new root)[i]? = some n) : n.kserd.size ≤ (Nav.new root).length := by
  obtain ⟨m, hm, _, _, _, e, _⟩ := get_node hn
  have := node_bounds hm
  rw [new_length, e]; omega

theorem inlineWidths_eq (root : Kserd) (c : FormattingConfig) :
    inlineWidths (Nav.new root) c = some ((preorder root).map (Solver.inlineTotal c)) :=
  fill_collect _ _ fun i n hn => inlineRec_right root c _ i n hn (node_size hn)

/-! ## Concise widths -/

theorem maxOf_max (x : Nat) : ∀ (w : Nat) (l : List Nat), maxOf (max w x) l = max (maxOf w l) x
  | w, [] => rfl
  | w, y :: r => by rw [maxOf, maxOf, ← maxOf_max x (max w y) r]; congr 1; omega

theorem conciseTotalL_eq (c : FormattingConfig) (w : Nat) : ∀ l, max w (Solver.conciseTotalL c l) =
    maxOf w (l.map fun k => W.indentW + Solver.conciseTotal c k)
  | [] => by simp [Solver.conciseTotalL, maxOf]
  | k :: r => by
    rw [Solver.conciseTotalL, List.map_cons, maxOf, maxOf_max, ← conciseTotalL_eq c w r]; omega
theorem conciseTotalF_eq (c : FormattingConfig) (w : Nat) : ∀ l, max w (Solver.conciseTotalF c l) =
    maxOf w (l.map fun p => W.indentW + p.1.length + W.assigner.length + 1 + Solver.conciseTotal c p.2)
  | [] => by simp [Solver.conciseTotalF, maxOf]
  | (n, k) :: r => by
    rw [Solver.conciseTotalF, List.map_cons, maxOf, maxOf_max, ← conciseTotalF_eq c w r]; simp only; omega
theorem conciseTotalM_eq (c : FormattingConfig) (w : Nat) : ∀ l, max w (Solver.conciseTotalM c l) =
    maxOf w (l.map fun p => W.indentW + Solver.inlineTotal c p.1 + W.keysAssigner.length + 1 + Solver.conciseTotal c p.2)
  | [] => by simp [Solver.conciseTotalM, maxOf]
  | (n, k) :: r => by
    rw [Solver.conciseTotalM, List.map_cons, maxOf, maxOf_max, ← conciseTotalM_eq c w r]; simp only; omega

theorem iw_get {root : Kserd} {c : FormattingConfig} {n : NavNode} (h : (Nav.new root)[n.idx]? = some n) :
    ((preorder root).map (Solver.inlineTotal c))[n.idx]? = some (Solver.inlineTotal c n.kserd) := by
  rw [← (C18_preorder root).1, List.map_map, List.getElem?_map, h]; rfl

/-- The children with their addends, and the concise total from them. -/
theorem conciseItems_eq {root : Kserd} (c : FormattingConfig) {i : Nat} {n : NavNode} (hn : (Nav.new root)[i]? = some n) :
    ∃ ns : List (Nat × NavNode), conciseItems (Nav.new root) ((preorder root).map (Solver.inlineTotal c)) n = ns.map (fun p => (some p.1, p.2)) ∧
      (∀ m ∈ ns, (Nav.new root)[m.2.idx]? = some m.2 ∧ m.2.kserd ∈ valuesOf n.kserd.val) ∧
      Solver.conciseTotal c n.kserd = maxOf (Solver.conciseWidth c n.kserd.id n.kserd.val) (ns.map fun m => m.1 + Solver.conciseTotal c m.2.kserd) := by
  have h45 := C45_value root i n hn
  rw [conciseItems]
  rcases hk : n.kserd with ⟨id, v⟩
  rw [hk] at h45
  simp only [Kserd.val, Kserd.id] at h45 ⊢
  rw [Solver.conciseTotal]
  cases v with
  | tuple l =>
    cases hv : Nav.value (Nav.new root) n <;> rw [hv] at h45 <;> simp only at h45
    rename_i ns
    refine ⟨ns.map fun m => (W.indentW, m), by simp, ?_, ?_⟩
    · intro m hm
      obtain ⟨x, hx, rfl⟩ := List.mem_map.mp hm
      exact ⟨located_of h45.2 x hx, by rw [valuesOf, ← h45.1]; exact List.mem_map_of_mem hx⟩
    · rw [Solver.conciseTotalV, conciseTotalL_eq, ← h45.1]; simp [List.map_map, Function.comp_def]
  | seq l =>
    cases hv : Nav.value (Nav.new root) n <;> rw [hv] at h45 <;> simp only at h45
    rename_i ns
    refine ⟨ns.map fun m => (W.indentW, m), by simp, ?_, ?_⟩
    · intro m hm
      obtain ⟨x, hx, rfl⟩ := List.mem_map.mp hm
      exact ⟨located_of h45.2 x hx, by rw [valuesOf, ← h45.1]; exact List.mem_map_of_mem hx⟩
    · rw [Solver.conciseTotalV, conciseTotalL_eq, ← h45.1]; simp [List.map_map, Function.comp_def]
  | cntr l =>
    cases hv : Nav.value (Nav.new root) n <;> rw [hv] at h45 <;> simp only at h45
    rename_i ns
    have hloc : Located (Nav.new root) (ns.map (·.2)) := located_of (js := n.valueChildren) (by rw [List.map_map]; exact h45.2)
    refine ⟨ns.map fun p => (W.indentW + p.1.length + W.assigner.length + 1, p.2), by simp, ?_, ?_⟩
    · intro m hm
      obtain ⟨x, hx, rfl⟩ := List.mem_map.mp hm
      refine ⟨hloc _ (List.mem_map_of_mem hx), ?_⟩
      rw [valuesOf, ← h45.1, List.map_map]; exact List.mem_map.mpr ⟨x, hx, rfl⟩
    · rw [Solver.conciseTotalV, conciseTotalF_eq, ← h45.1]; simp [List.map_map, Function.comp_def]
  | map l =>
    cases hv : Nav.value (Nav.new root) n <;> rw [hv] at h45 <;> simp only at h45
    rename_i ns
    have hloc : Located (Nav.new root) (ns.map (·.2)) := located_of (js := n.valueChildren) (by rw [List.map_map]; exact h45.2.2)
    have hlok : Located (Nav.new root) (ns.map (·.1)) := located_of (js := n.keyChildren) (by rw [List.map_map]; exact h45.2.1)
    refine ⟨ns.map fun p => (W.indentW + Solver.inlineTotal c p.1.kserd + W.keysAssigner.length + 1, p.2), ?_, ?_, ?_⟩
    · rw [List.map_map]
      apply List.map_congr_left
      intro p hp
      rw [iw_get (hlok p.1 (List.mem_map_of_mem hp))]; rfl
    · intro m hm
      obtain ⟨x, hx, rfl⟩ := List.mem_map.mp hm
      refine ⟨hloc _ (List.mem_map_of_mem hx), ?_⟩
      rw [valuesOf, ← h45.1, List.map_map]; exact List.mem_map.mpr ⟨x, hx, rfl⟩
    · rw [Solver.conciseTotalV, conciseTotalM_eq, ← h45.1]; simp [List.map_map, Function.comp_def]
  | _ =>
    cases hv : Nav.value (Nav.new root) n <;> rw [hv] at h45 <;> simp only at h45
    exact ⟨[], by simp, by simp, by simp [Solver.conciseTotalV, maxOf]⟩

theorem conciseRec_right (root : Kserd) (c : FormattingConfig) : ∀ (fuel i : Nat) (n : NavNode), (Nav.new root)[i]? = some n → n.kserd.size ≤ fuel →
    Right (Nav.new root) (Solver.conciseTotal c) (conciseRec (Nav.new root) c ((preorder root).map (Solver.inlineTotal c)) fuel) n
  | 0, _, n, _, h => by have := size_pos n.kserd; omega
  | fuel + 1, i, n, hn, hf => by
    intro ws hg
    obtain ⟨ns, h1, h2, h3⟩ := conciseItems_eq c hn
    obtain ⟨ws1, a1, a2, a3⟩ := maxKids_right ns (rec := conciseRec (Nav.new root) c ((preorder root).map (Solver.inlineTotal c)) fuel)
      (fun m hm => ⟨(h2 m hm).1, by
        have := size_kid (values_kids (h2 m hm).2)
        exact conciseRec_right root c fuel m.2.idx m.2 (h2 m hm).1 (by omega)⟩) (Solver.conciseWidth c n.kserd.id n.kserd.val) ws hg
    refine ⟨ws1, ?_, a2, a3⟩
    rw [conciseRec, h1, a1, h3]

theorem conciseWidths_eq (root : Kserd) (c : FormattingConfig) :
    conciseWidths (Nav.new root) c ((preorder root).map (Solver.inlineTotal c)) = some ((preorder root).map (Solver.conciseTotal c)) :=
  fill_collect _ _ fun i n hn => conciseRec_right root c _ i n hn (node_size hn)

end KS.SV
