import Verif.Lemmas.SerdeText
import Verif.Lemmas.RtGlue
/-! Formatting a Kserd without its hidden identities goes through the same states. -/

namespace KS.Hide

open Spec Nav ST

variable (c : FormattingConfig)

mutual
theorem size_hide : ∀ (k : Kserd), (hideIds c k).size = k.size
  | .mk id v => by rw [hideIds, Kserd.size, Kserd.size, sizeV_hide v]
theorem sizeV_hide : ∀ (v : Value), Kserd.sizeV (hideIdsV c v) = Kserd.sizeV v
  | .tuple l => by rw [hideIdsV, Kserd.sizeV, Kserd.sizeV, sizeL_hide l]
  | .seq l => by rw [hideIdsV, Kserd.sizeV, Kserd.sizeV, sizeL_hide l]
  | .cntr l => by rw [hideIdsV, Kserd.sizeV, Kserd.sizeV, sizeF_hide l]
  | .map l => by rw [hideIdsV, Kserd.sizeV, Kserd.sizeV, sizeM_hide l]
  | .unit => rfl
  | .bool _ => rfl
  | .num _ => rfl
  | .str _ => rfl
  | .barr _ => rfl
theorem sizeL_hide : ∀ (l : List Kserd), Kserd.sizeL (hideIdsL c l) = Kserd.sizeL l
  | [] => rfl
  | k :: r => by rw [hideIdsL, Kserd.sizeL, Kserd.sizeL, size_hide k, sizeL_hide r]
theorem sizeF_hide : ∀ (l : List (Str × Kserd)), Kserd.sizeF (hideIdsF c l) = Kserd.sizeF l
  | [] => rfl
  | (n, k) :: r => by rw [hideIdsF, Kserd.sizeF, Kserd.sizeF, size_hide k, sizeF_hide r]
theorem sizeM_hide : ∀ (l : List (Kserd × Kserd)), Kserd.sizeM (hideIdsM c l) = Kserd.sizeM l
  | [] => rfl
  | (k, v) :: r => by rw [hideIdsM, Kserd.sizeM, Kserd.sizeM, size_hide k, size_hide v, sizeM_hide r]
end

theorem val_hide (k : Kserd) : (hideIds c k).val = hideIdsV c k.val := by cases k; rw [hideIds]; rfl

theorem kind_hide (v : Value) : (hideIdsV c v).kind = v.kind := by cases v <;> rfl

/-- The node with its hidden identities removed. -/
def H (n : NavNode) : NavNode := { n with kserd := hideIds c n.kserd }

theorem listKids_hide (p : Nat) : ∀ (i : Nat) (l : List Kserd),
    listKids p i (l.map (hideIds c)) = (listKids p i l).map (fun x => (x.1, hideIds c x.2))
  | _, [] => rfl
  | i, k :: r => by simp only [List.map_cons, listKids, listKids_hide p (i + 1) r]

theorem mapKids_hide (p : Nat) : ∀ (i : Nat) (l : List (Kserd × Kserd)),
    mapKids p i (hideIdsM c l) = (mapKids p i l).map (fun x => (x.1, hideIds c x.2))
  | _, [] => rfl
  | i, (k, v) :: r => by simp only [hideIdsM, mapKids, List.map_cons, mapKids_hide p (i + 1) r]

theorem kids_hide (p : Nat) (v : Value) : kids p (hideIdsV c v) = (kids p v).map (fun x => (x.1, hideIds c x.2)) := by
  cases v with
  | tuple l => rw [hideIdsV, kids, kids, hide_L, listKids_hide]
  | seq l => rw [hideIdsV, kids, kids, hide_L, listKids_hide]
  | cntr l =>
    rw [hideIdsV, kids, kids, ← listKids_hide, hide_F, List.map_map, List.map_map]
    rfl
  | map l => rw [hideIdsV, kids, kids, mapKids_hide]
  | _ => rfl

theorem flatten_hide : ∀ (f : Nat) (st : List (NavInfo × Kserd)) (acc : Navigator),
    flatten f (st.map (fun x => (x.1, hideIds c x.2))) (acc.map (H c)) = (flatten f st acc).map (H c)
  | 0, _, _ => rfl
  | _ + 1, [], _ => rfl
  | f + 1, (info, node) :: st, acc => by
    rw [List.map_cons, flatten, flatten, ← flatten_hide f]
    simp only [val_hide, List.length_map, kids_hide, List.map_append, List.map_cons, List.map_nil]
    rfl

theorem link_hide (nav : Navigator) : link (nav.map (H c)) = (link nav).map (H c) := by
  unfold link
  rw [List.map_map, List.map_map]
  apply List.map_congr_left
  intro p _
  simp only [Function.comp_apply, H, List.filter_map, List.filterMap_map]
  rfl

theorem new_hide (root : Kserd) : Nav.new (hideIds c root) = (Nav.new root).map (H c) := by
  unfold Nav.new
  rw [size_hide, ← link_hide, ← flatten_hide]
  rfl

theorem get_hide (nav : Navigator) (i : Nat) : (nav.map (H c))[i]? = (nav[i]?).map (H c) := List.getElem?_map

theorem parent_hide (nav : Navigator) (n : NavNode) : Nav.parent (nav.map (H c)) (H c n) = (Nav.parent nav n).map (H c) := by
  unfold Nav.parent
  change n.parent.bind (fun p => (nav.map (H c))[p]?) = _
  cases n.parent with
  | none => rfl
  | some p => simp only [Option.bind_some, get_hide]

theorem depthLoop_hide (nav : Navigator) : ∀ (f : Nat) (todo acc : List Nat),
    depthLoop (nav.map (H c)) f todo acc = depthLoop nav f todo acc
  | _, [], _ => by unfold depthLoop; rfl
  | 0, _ :: _, _ => rfl
  | f + 1, i :: todo, acc => by
    simp only [depthLoop, get_hide]
    cases nav[i]? with
    | none => rfl
    | some n => exact depthLoop_hide nav f _ _

theorem breadthLoop_hide (nav : Navigator) : ∀ (f : Nat) (todo acc : List Nat),
    breadthLoop (nav.map (H c)) f todo acc = breadthLoop nav f todo acc
  | _, [], _ => by unfold breadthLoop; rfl
  | 0, _ :: _, _ => rfl
  | f + 1, i :: todo, acc => by
    simp only [breadthLoop, get_hide]
    cases nav[i]? with
    | none => rfl
    | some n => exact breadthLoop_hide nav f _ _

theorem depth_hide (nav : Navigator) (n : NavNode) : descendantsDepth (nav.map (H c)) (H c n) = descendantsDepth nav n := by
  unfold descendantsDepth
  rw [depthLoop_hide, List.length_map]; rfl

theorem breadth_hide (nav : Navigator) (n : NavNode) : descendantsBreadth (nav.map (H c)) (H c n) = descendantsBreadth nav n := by
  unfold descendantsBreadth
  rw [breadthLoop_hide, List.length_map]; rfl

/-! ## Widths -/

theorem sum_names (l : List (Str × Kserd)) : (hideIdsF c l).map (fun p => p.1.length) = l.map (fun p => p.1.length) := by
  rw [hide_F, List.map_map]; rfl

theorem length_hideL (l : List Kserd) : (hideIdsL c l).length = l.length := by rw [hide_L, List.length_map]
theorem length_hideF (l : List (Str × Kserd)) : (hideIdsF c l).length = l.length := by rw [hide_F, List.length_map]
theorem length_hideM (l : List (Kserd × Kserd)) : (hideIdsM c l).length = l.length := by rw [hide_M, List.length_map]

theorem inlineWidth_hide (id : Option Str) (v : Value) :
    Solver.inlineWidth c (shownId (showsId c v) v id) (hideIdsV c v) = Solver.inlineWidth c id v := by
  cases v with
  | unit => rfl
  | bool b => simp only [Solver.inlineWidth, hideIdsV, shownId, showsId]; by_cases h : c.idOnPrimitives = true <;> simp [h]
  | num b => simp only [Solver.inlineWidth, hideIdsV, shownId, showsId]; by_cases h : c.idOnPrimitives = true <;> simp [h]
  | str b => simp only [Solver.inlineWidth, hideIdsV, shownId, showsId]; by_cases h : c.idOnPrimitives = true <;> simp [h]
  | barr b => simp only [Solver.inlineWidth, hideIdsV, shownId, showsId]; by_cases h : c.idOnPrimitives = true <;> simp [h]
  | tuple l => simp only [Solver.inlineWidth, hideIdsV, shownId, showsId, length_hideL]; by_cases h : c.idOnTuples = true <;> simp [h]
  | seq l => simp only [Solver.inlineWidth, hideIdsV, shownId, showsId, length_hideL]; by_cases h : c.idOnSeqs = true <;> simp [h]
  | cntr l => simp only [Solver.inlineWidth, hideIdsV, shownId, showsId, length_hideF, sum_names]; by_cases h : c.idOnContainers = true <;> simp [h]
  | map l => simp only [Solver.inlineWidth, hideIdsV, shownId, showsId, length_hideM]; by_cases h : c.idOnMaps = true <;> simp [h]

theorem conciseWidth_hide (id : Option Str) (v : Value) :
    Solver.conciseWidth c (shownId (showsId c v) v id) (hideIdsV c v) = Solver.conciseWidth c id v := by
  cases v with
  | tuple l => simp only [Solver.conciseWidth, hideIdsV, shownId, showsId]; by_cases h : c.idOnTuples = true <;> simp [h]
  | seq l => simp only [Solver.conciseWidth, hideIdsV, shownId, showsId]; by_cases h : c.idOnSeqs = true <;> simp [h]
  | cntr l => simp only [Solver.conciseWidth, hideIdsV, shownId, showsId]; by_cases h : c.idOnContainers = true <;> simp [h]
  | map l => simp only [Solver.conciseWidth, hideIdsV, shownId, showsId]; by_cases h : c.idOnMaps = true <;> simp [h]
  | unit => exact inlineWidth_hide c id .unit
  | bool b => exact inlineWidth_hide c id (.bool b)
  | num n => exact inlineWidth_hide c id (.num n)
  | str t => exact inlineWidth_hide c id (.str t)
  | barr b => exact inlineWidth_hide c id (.barr b)

mutual
theorem inline_hide : ∀ (k : Kserd), Solver.inlineTotal c (hideIds c k) = Solver.inlineTotal c k
  | .mk id v => by rw [hideIds, Solver.inlineTotal, Solver.inlineTotal, inlineWidth_hide, inlineV_hide v]
theorem inlineV_hide : ∀ (v : Value), Solver.inlineTotalV c (hideIdsV c v) = Solver.inlineTotalV c v
  | .tuple l => by rw [hideIdsV, Solver.inlineTotalV, Solver.inlineTotalV, inlineL_hide l]
  | .seq l => by rw [hideIdsV, Solver.inlineTotalV, Solver.inlineTotalV, inlineL_hide l]
  | .cntr l => by rw [hideIdsV, Solver.inlineTotalV, Solver.inlineTotalV, inlineF_hide l]
  | .map l => by rw [hideIdsV, Solver.inlineTotalV, Solver.inlineTotalV, inlineM_hide l]
  | .unit => rfl
  | .bool _ => rfl
  | .num _ => rfl
  | .str _ => rfl
  | .barr _ => rfl
theorem inlineL_hide : ∀ (l : List Kserd), Solver.inlineTotalL c (hideIdsL c l) = Solver.inlineTotalL c l
  | [] => rfl
  | k :: r => by rw [hideIdsL, Solver.inlineTotalL, Solver.inlineTotalL, inline_hide k, inlineL_hide r]
theorem inlineF_hide : ∀ (l : List (Str × Kserd)), Solver.inlineTotalF c (hideIdsF c l) = Solver.inlineTotalF c l
  | [] => rfl
  | (n, k) :: r => by rw [hideIdsF, Solver.inlineTotalF, Solver.inlineTotalF, inline_hide k, inlineF_hide r]
theorem inlineM_hide : ∀ (l : List (Kserd × Kserd)), Solver.inlineTotalM c (hideIdsM c l) = Solver.inlineTotalM c l
  | [] => rfl
  | (k, v) :: r => by rw [hideIdsM, Solver.inlineTotalM, Solver.inlineTotalM, inline_hide k, inline_hide v, inlineM_hide r]
end

mutual
theorem concise_hide : ∀ (k : Kserd), Solver.conciseTotal c (hideIds c k) = Solver.conciseTotal c k
  | .mk id v => by rw [hideIds, Solver.conciseTotal, Solver.conciseTotal, conciseWidth_hide, conciseV_hide v]
theorem conciseV_hide : ∀ (v : Value), Solver.conciseTotalV c (hideIdsV c v) = Solver.conciseTotalV c v
  | .tuple l => by rw [hideIdsV, Solver.conciseTotalV, Solver.conciseTotalV, conciseL_hide l]
  | .seq l => by rw [hideIdsV, Solver.conciseTotalV, Solver.conciseTotalV, conciseL_hide l]
  | .cntr l => by rw [hideIdsV, Solver.conciseTotalV, Solver.conciseTotalV, conciseF_hide l]
  | .map l => by rw [hideIdsV, Solver.conciseTotalV, Solver.conciseTotalV, conciseM_hide l]
  | .unit => rfl
  | .bool _ => rfl
  | .num _ => rfl
  | .str _ => rfl
  | .barr _ => rfl
theorem conciseL_hide : ∀ (l : List Kserd), Solver.conciseTotalL c (hideIdsL c l) = Solver.conciseTotalL c l
  | [] => rfl
  | k :: r => by rw [hideIdsL, Solver.conciseTotalL, Solver.conciseTotalL, concise_hide k, conciseL_hide r]
theorem conciseF_hide : ∀ (l : List (Str × Kserd)), Solver.conciseTotalF c (hideIdsF c l) = Solver.conciseTotalF c l
  | [] => rfl
  | (n, k) :: r => by rw [hideIdsF, Solver.conciseTotalF, Solver.conciseTotalF, concise_hide k, conciseF_hide r]
theorem conciseM_hide : ∀ (l : List (Kserd × Kserd)), Solver.conciseTotalM c (hideIdsM c l) = Solver.conciseTotalM c l
  | [] => rfl
  | (k, v) :: r => by
    rw [hideIdsM, Solver.conciseTotalM, Solver.conciseTotalM, inline_hide, concise_hide v, conciseM_hide r]
end

/-! ## States of the formatter -/

/-- The formatter of the Kserd without its hidden identities, in the same state. -/
def F (f : Formatter) : Formatter := { root := hideIds c f.root, nav := f.nav.map (H c), fmts := f.fmts }

theorem maxLine_hide (n : NavNode) : Formatter.maxLineRepr (H c n) = Formatter.maxLineRepr n := by
  unfold Formatter.maxLineRepr
  have e1 : (H c n).kserd.val.kind = n.kserd.val.kind := by simp only [H, val_hide, kind_hide]
  rw [e1]
  rfl

theorem request_hide (f : Formatter) (i : Nat) (r : Repr') :
    (F c f).request i r = (f.request i r).map (F c) := by
  unfold Formatter.request
  simp only [F, get_hide]
  cases f.nav[i]? with
  | none => rfl
  | some n =>
    simp only [Option.map_some]
    cases f.fmts[i]? with
    | none => rfl
    | some fm =>
      simp only [parent_hide, depth_hide, maxLine_hide]
      have e1 : (H c n).kserd.val.kind = n.kserd.val.kind := by simp only [H, val_hide, kind_hide]
      rw [e1]
      have e2 : ((Nav.parent f.nav n).map (H c)).bind (fun p => f.fmts[p.idx]?.map (·.line)) =
          (Nav.parent f.nav n).bind fun p => f.fmts[p.idx]?.map (·.line) := by
        cases Nav.parent f.nav n <;> rfl
      rw [e2]
      by_cases h1 : r = fm.line
      · rw [if_pos h1, if_pos h1]; rfl
      rw [if_neg h1, if_neg h1]
      by_cases h2 : i = 0 ∧ r = .verbose ∧ (n.kserd.val.kind = .seq ∨ n.kserd.val.kind = .map)
      · rw [if_pos h2, if_pos h2]; rfl
      rw [if_neg h2, if_neg h2]
      cases Formatter.validateRequest (Formatter.maxLineRepr n)
        ((Nav.parent f.nav n).bind fun p => f.fmts[p.idx]?.map (·.line)) r with
      | error e => rfl
      | ok q =>
        cases descendantsDepth f.nav n with
        | none => rfl
        | some ds =>
          simp only
          by_cases h3 : (ds.all fun d => decide (d < f.fmts.length)) = true
          · rw [if_pos h3]; exact if_pos h3
          · rw [if_neg h3]; exact if_neg h3

theorem requestOk_hide (f : Formatter) (i : Nat) (r : Repr') :
    (F c f).requestOk i r = (f.requestOk i r).map (F c) := by
  unfold Formatter.requestOk
  rw [request_hide]
  cases f.request i r with
  | ok f' => rfl
  | error e => cases e <;> rfl

theorem foldlM_hide {α : Type} (s1 s2 : Formatter → α → Option Formatter) (h : ∀ f a, s2 (F c f) a = (s1 f a).map (F c)) :
    ∀ (l : List α) (f : Formatter), l.foldlM s2 (F c f) = (l.foldlM s1 f).map (F c)
  | [], f => rfl
  | a :: r, f => by
    rw [List.foldlM_cons, List.foldlM_cons, h]
    cases s1 f a with
    | none => rfl
    | some g => exact foldlM_hide s1 s2 h r g

theorem lowerStep_hide (f : Formatter) (i : Nat) : Formatter.lowerStep (F c f) i = (Formatter.lowerStep f i).map (F c) := by
  unfold Formatter.lowerStep
  have e : ((F c f).nav[i]?).bind (fun n => Nav.parent (F c f).nav n) = ((f.nav[i]?).bind (fun n => Nav.parent f.nav n)).map (H c) := by
    simp only [F, get_hide]
    cases f.nav[i]? with
    | none => rfl
    | some n => simp only [Option.map_some, Option.bind_some, parent_hide]
  rw [e]
  cases (f.nav[i]?).bind (fun n => Nav.parent f.nav n) with
  | none => rfl
  | some p =>
    simp only [Option.map_some]
    change (match f.fmts[i]?, f.fmts[p.idx]? with
      | some n, some pf => if pf.line < n.line then (F c f).requestOk i pf.line else some (F c f)
      | _, _ => none) = _
    cases f.fmts[i]? with
    | none => rfl
    | some n => cases f.fmts[p.idx]? with
      | none => rfl
      | some pf =>
        simp only [requestOk_hide]
        split <;> rfl

theorem formatter_new_hide (root : Kserd) : Formatter.new (hideIds c root) = (Formatter.new root).map (F c) := by
  have hinit : Formatter.init (hideIds c root) = F c (Formatter.init root) := by
    unfold Formatter.init F
    simp only [new_hide, List.map_map, Formatter.mk.injEq, true_and]
    apply List.map_congr_left
    intro n _
    simp only [Function.comp_apply, Formatter.initFmt, maxLine_hide]
    rfl
  have hroot : Formatter.rootStep (hideIds c root) = (Formatter.rootStep root).map (F c) := by
    unfold Formatter.rootStep
    rw [val_hide, kind_hide, hinit]
    cases root.val.kind <;> first | rfl | exact requestOk_hide c _ _ _
  unfold Formatter.new
  rw [hroot]
  cases Formatter.rootStep root with
  | none => rfl
  | some f =>
    simp only [Option.map_some]
    have : (Nav.new (hideIds c root)).map (·.idx) = (Nav.new root).map (·.idx) := by
      rw [new_hide, List.map_map]; rfl
    rw [this]
    exact foldlM_hide c _ _ (lowerStep_hide c) _ f

theorem setId_hide (f : Formatter) (i : Nat) (b : Bool) : (F c f).setId i b = (f.setId i b).map (F c) := by
  unfold Formatter.setId
  simp only [F]
  by_cases h : i < f.fmts.length
  · rw [if_pos h]; exact if_pos h
  · rw [if_neg h]; exact if_neg h

theorem idStep_hide (f : Formatter) (i : Nat) : Solver.idStep c (F c f) i = F c (Solver.idStep c f i) := by
  unfold Solver.idStep
  have : (F c f).nav[i]? = (f.nav[i]?).map (H c) := get_hide c _ _
  rw [this]
  cases f.nav[i]? with
  | none => rfl
  | some n =>
    have e1 : (H c n).kserd.val.kind = n.kserd.val.kind := by simp only [H, val_hide, kind_hide]
    simp only [Option.map_some, e1, setId_hide]
    cases f.setId i (Solver.idFlag c n.kserd.val.kind) <;> rfl

theorem applyIds_hide (f : Formatter) : Solver.applyIds (F c f) c = F c (Solver.applyIds f c) := by
  unfold Solver.applyIds
  have : (F c f).nav.length = f.nav.length := List.length_map _
  rw [this]
  clear this
  generalize List.range f.nav.length = l
  induction l generalizing f with
  | nil => rfl
  | cons a r ih => rw [List.foldl_cons, List.foldl_cons, idStep_hide, ih]

theorem mapEntry_hide (nav : Navigator) (fmts : List Fmt) (p n : NavNode) :
    Solver.mapEntryOffset c (nav.map (H c)) fmts (H c p) (H c n) = Solver.mapEntryOffset c nav fmts p n := by
  unfold Solver.mapEntryOffset
  change (if isKey n = true then some 0 else match p.keyChildren[idxInParent n]? with
    | none => none
    | some ki => match (nav.map (H c))[ki]?, fmts[ki]? with
      | some k, some kfmt => match kfmt.line with
        | .inline => some (Solver.inlineTotal c k.kserd + W.keysAssigner.length + 1)
        | .concise => some (1 + W.keysAssigner.length + 1)
        | .verbose => none
      | _, _ => none) = _
  split
  · rfl
  · cases p.keyChildren[idxInParent n]? with
    | none => rfl
    | some ki =>
      simp only [get_hide]
      cases nav[ki]? with
      | none => rfl
      | some k =>
        simp only [Option.map_some]
        cases fmts[ki]? with
        | none => rfl
        | some kf => simp only [H, inline_hide]; rfl

theorem concisePCC_hide (nav : Navigator) (fmts : List Fmt) (p n : NavNode) :
    Solver.concisePCC c (nav.map (H c)) fmts (H c p) (H c n) = Solver.concisePCC c nav fmts p n := by
  unfold Solver.concisePCC
  rw [mapEntry_hide]
  have : (H c p).kserd.val = hideIdsV c p.kserd.val := val_hide c _
  rw [this]
  have e : idxInParent (H c n) = idxInParent n := rfl
  rw [e]
  cases p.kserd.val with
  | cntr f =>
    simp only [hideIdsV, Solver.cntrFieldOffset, hide_F, List.getElem?_map]
    cases f[idxInParent n]? <;> rfl
  | _ => rfl

theorem verbosePCC_hide (p n : NavNode) : Solver.verbosePCC (H c p) (H c n) = Solver.verbosePCC p n := by
  unfold Solver.verbosePCC
  have e1 : (H c n).kserd.val.kind = n.kserd.val.kind := by simp only [H, val_hide, kind_hide]
  have e2 : (H c p).kserd.val.kind = p.kserd.val.kind := by simp only [H, val_hide, kind_hide]
  rw [e1, e2]
  rfl

theorem offsetLoop_hide (nav : Navigator) (fmts : List Fmt) : ∀ (f : Nat) (n : NavNode) (o : Nat),
    Solver.offsetLoop c (nav.map (H c)) fmts f (H c n) o = Solver.offsetLoop c nav fmts f n o
  | 0, _, _ => rfl
  | f + 1, n, o => by
    simp only [Solver.offsetLoop, parent_hide]
    cases Nav.parent nav n with
    | none => rfl
    | some p =>
      simp only [Option.map_some, concisePCC_hide, verbosePCC_hide, offsetLoop_hide nav fmts f p]
      rfl

theorem offset_hide (nav : Navigator) (fmts : List Fmt) (n : NavNode) :
    Solver.calculateOffset c (nav.map (H c)) fmts (H c n) = Solver.calculateOffset c nav fmts n := by
  unfold Solver.calculateOffset
  rw [parent_hide]
  cases Nav.parent nav n with
  | none => rfl
  | some p =>
    simp only [Option.map_some, concisePCC_hide, offsetLoop_hide, List.length_map]
    rfl

theorem applyNode_hide (f : Formatter) (i : Nat) : Solver.applyNode c (F c f) i = (Solver.applyNode c f i).map (F c) := by
  unfold Solver.applyNode
  have : (F c f).nav[i]? = (f.nav[i]?).map (H c) := get_hide c _ _
  rw [this]
  cases f.nav[i]? with
  | none => rfl
  | some n =>
    simp only [Option.map_some]
    have e0 : Solver.calculateOffset c (F c f).nav (F c f).fmts (H c n) = Solver.calculateOffset c f.nav f.fmts n := offset_hide c _ _ _
    rw [e0]
    cases Solver.calculateOffset c f.nav f.fmts n with
    | none => rfl
    | some o =>
      have e1 : Nav.parent (F c f).nav (H c n) = (Nav.parent f.nav n).map (H c) := parent_hide c _ _
      simp only [e1]
      cases Nav.parent f.nav n with
      | none => rfl
      | some p =>
        have e2 : ∀ m, (H c m).kserd.val.kind = m.kserd.val.kind := fun m => by simp only [H, val_hide, kind_hide]
        simp only [Option.map_some, e2, requestOk_hide]
        simp only [H, inline_hide, concise_hide]

/-- The solver reaches the same state. -/
theorem applyConfig_hide (f : Formatter) : Solver.applyConfig (F c f) c = (Solver.applyConfig f c).map (F c) := by
  unfold Solver.applyConfig
  rw [applyIds_hide]
  generalize Solver.applyIds f c = f
  simp only
  have : (F c f).nav[0]? = (f.nav[0]?).map (H c) := get_hide c _ _
  rw [this]
  cases f.nav[0]? with
  | none => rfl
  | some n =>
    simp only [Option.map_some]
    have e : descendantsBreadth (F c f).nav (H c n) = descendantsBreadth f.nav n := breadth_hide c _ _
    rw [e]
    cases descendantsBreadth f.nav n with
    | none => rfl
    | some ds =>
      have e2 : (H c n).kserd = hideIds c n.kserd := rfl
      simp only [e2, inline_hide, concise_hide, requestOk_hide]
      cases f.requestOk 0 _ with
      | none => rfl
      | some g => exact foldlM_hide c _ _ (applyNode_hide c) ds g

mutual
theorem hide_hide : ∀ (k : Kserd), hideIds c (hideIds c k) = hideIds c k
  | .mk id v => by
    have : shownId (showsId c (hideIdsV c v)) (hideIdsV c v) (shownId (showsId c v) v id) = shownId (showsId c v) v id := by
      cases v <;> simp only [hideIdsV, shownId, showsId]
      · by_cases h : c.idOnPrimitives = true <;> simp [h]
      · by_cases h : c.idOnPrimitives = true <;> simp [h]
      · by_cases h : c.idOnPrimitives = true <;> simp [h]
      · by_cases h : c.idOnPrimitives = true <;> simp [h]
      · by_cases h : c.idOnTuples = true <;> simp [h]
      · by_cases h : c.idOnContainers = true <;> simp [h]
      · by_cases h : c.idOnSeqs = true <;> simp [h]
      · by_cases h : c.idOnMaps = true <;> simp [h]
    rw [hideIds, hideIds, hideV_hide v, this]
theorem hideV_hide : ∀ (v : Value), hideIdsV c (hideIdsV c v) = hideIdsV c v
  | .tuple l => by rw [hideIdsV, hideIdsV, hideL_hide l]
  | .seq l => by rw [hideIdsV, hideIdsV, hideL_hide l]
  | .cntr l => by rw [hideIdsV, hideIdsV, hideF_hide l]
  | .map l => by rw [hideIdsV, hideIdsV, hideM_hide l]
  | .unit => rfl
  | .bool _ => rfl
  | .num _ => rfl
  | .str _ => rfl
  | .barr _ => rfl
theorem hideL_hide : ∀ (l : List Kserd), hideIdsL c (hideIdsL c l) = hideIdsL c l
  | [] => rfl
  | k :: r => by rw [hideIdsL, hideIdsL, hide_hide k, hideL_hide r]
theorem hideF_hide : ∀ (l : List (Str × Kserd)), hideIdsF c (hideIdsF c l) = hideIdsF c l
  | [] => rfl
  | (n, k) :: r => by rw [hideIdsF, hideIdsF, hide_hide k, hideF_hide r]
theorem hideM_hide : ∀ (l : List (Kserd × Kserd)), hideIdsM c (hideIdsM c l) = hideIdsM c l
  | [] => rfl
  | (k, v) :: r => by rw [hideIdsM, hideIdsM, hide_hide k, hide_hide v, hideM_hide r]
end

end KS.Hide
