import Verif.Spec.Renum
import Verif.Lemmas.RtGlue
/-! Formatting a Kserd with other numbers of the same texts goes through the same states and writes the same text. -/

namespace KS.Renum

open Spec Nav

variable (g : Number → Number)

theorem renum_L {g : Number → Number} {l : List Kserd} : mapNumL g l = l.map (mapNum g) := by
  induction l with
  | nil => rfl
  | cons a r ih => rw [mapNumL, ih]; rfl

theorem renum_F {g : Number → Number} {l : List (Str × Kserd)} : mapNumF g l = l.map (fun p => (p.1, mapNum g p.2)) := by
  induction l with
  | nil => rfl
  | cons a r ih => obtain ⟨n, k⟩ := a; rw [mapNumF, ih]; rfl

theorem renum_M {g : Number → Number} {l : List (Kserd × Kserd)} :
    mapNumM g l = l.map (fun p => (mapNum g p.1, mapNum g p.2)) := by
  induction l with
  | nil => rfl
  | cons a r ih => obtain ⟨n, k⟩ := a; rw [mapNumM, ih]; rfl

mutual
theorem size_renum : ∀ (k : Kserd), (mapNum g k).size = k.size
  | .mk id v => by rw [mapNum, Kserd.size, Kserd.size, sizeV_renum v]
theorem sizeV_renum : ∀ (v : Value), Kserd.sizeV (mapNumV g v) = Kserd.sizeV v
  | .tuple l => by rw [mapNumV, Kserd.sizeV, Kserd.sizeV, sizeL_renum l]
  | .seq l => by rw [mapNumV, Kserd.sizeV, Kserd.sizeV, sizeL_renum l]
  | .cntr l => by rw [mapNumV, Kserd.sizeV, Kserd.sizeV, sizeF_renum l]
  | .map l => by rw [mapNumV, Kserd.sizeV, Kserd.sizeV, sizeM_renum l]
  | .unit => rfl
  | .bool _ => rfl
  | .num _ => rfl
  | .str _ => rfl
  | .barr _ => rfl
theorem sizeL_renum : ∀ (l : List Kserd), Kserd.sizeL (mapNumL g l) = Kserd.sizeL l
  | [] => rfl
  | k :: r => by rw [mapNumL, Kserd.sizeL, Kserd.sizeL, size_renum k, sizeL_renum r]
theorem sizeF_renum : ∀ (l : List (Str × Kserd)), Kserd.sizeF (mapNumF g l) = Kserd.sizeF l
  | [] => rfl
  | (n, k) :: r => by rw [mapNumF, Kserd.sizeF, Kserd.sizeF, size_renum k, sizeF_renum r]
theorem sizeM_renum : ∀ (l : List (Kserd × Kserd)), Kserd.sizeM (mapNumM g l) = Kserd.sizeM l
  | [] => rfl
  | (k, v) :: r => by rw [mapNumM, Kserd.sizeM, Kserd.sizeM, size_renum k, size_renum v, sizeM_renum r]
end

theorem val_renum (k : Kserd) : (mapNum g k).val = mapNumV g k.val := by cases k; rw [mapNum]; rfl

theorem kind_renum (v : Value) : (mapNumV g v).kind = v.kind := by cases v <;> rfl

/-- The node with its hidden identities removed. -/
def H (n : NavNode) : NavNode := { n with kserd := mapNum g n.kserd }

theorem listKids_renum (p : Nat) : ∀ (i : Nat) (l : List Kserd),
    listKids p i (l.map (mapNum g)) = (listKids p i l).map (fun x => (x.1, mapNum g x.2))
  | _, [] => rfl
  | i, k :: r => by simp only [List.map_cons, listKids, listKids_renum p (i + 1) r]

theorem mapKids_renum (p : Nat) : ∀ (i : Nat) (l : List (Kserd × Kserd)),
    mapKids p i (mapNumM g l) = (mapKids p i l).map (fun x => (x.1, mapNum g x.2))
  | _, [] => rfl
  | i, (k, v) :: r => by simp only [mapNumM, mapKids, List.map_cons, mapKids_renum p (i + 1) r]

theorem kids_renum (p : Nat) (v : Value) : kids p (mapNumV g v) = (kids p v).map (fun x => (x.1, mapNum g x.2)) := by
  cases v with
  | tuple l => rw [mapNumV, kids, kids, renum_L, listKids_renum]
  | seq l => rw [mapNumV, kids, kids, renum_L, listKids_renum]
  | cntr l =>
    rw [mapNumV, kids, kids, ← listKids_renum, renum_F, List.map_map, List.map_map]
    rfl
  | map l => rw [mapNumV, kids, kids, mapKids_renum]
  | _ => rfl

theorem flatten_renum : ∀ (f : Nat) (st : List (NavInfo × Kserd)) (acc : Navigator),
    flatten f (st.map (fun x => (x.1, mapNum g x.2))) (acc.map (H g)) = (flatten f st acc).map (H g)
  | 0, _, _ => rfl
  | _ + 1, [], _ => rfl
  | f + 1, (info, node) :: st, acc => by
    rw [List.map_cons, flatten, flatten, ← flatten_renum f]
    simp only [val_renum, List.length_map, kids_renum, List.map_append, List.map_cons, List.map_nil]
    rfl

theorem link_renum (nav : Navigator) : link (nav.map (H g)) = (link nav).map (H g) := by
  unfold link
  rw [List.map_map, List.map_map]
  apply List.map_congr_left
  intro p _
  simp only [Function.comp_apply, H, List.filter_map, List.filterMap_map]
  rfl

theorem new_renum (root : Kserd) : Nav.new (mapNum g root) = (Nav.new root).map (H g) := by
  unfold Nav.new
  rw [size_renum, ← link_renum, ← flatten_renum]
  rfl

theorem get_renum (nav : Navigator) (i : Nat) : (nav.map (H g))[i]? = (nav[i]?).map (H g) := List.getElem?_map

theorem parent_renum (nav : Navigator) (n : NavNode) : Nav.parent (nav.map (H g)) (H g n) = (Nav.parent nav n).map (H g) := by
  unfold Nav.parent
  change n.parent.bind (fun p => (nav.map (H g))[p]?) = _
  cases n.parent with
  | none => rfl
  | some p => simp only [Option.bind_some, get_renum]

theorem depthLoop_renum (nav : Navigator) : ∀ (f : Nat) (todo acc : List Nat),
    depthLoop (nav.map (H g)) f todo acc = depthLoop nav f todo acc
  | _, [], _ => by unfold depthLoop; rfl
  | 0, _ :: _, _ => rfl
  | f + 1, i :: todo, acc => by
    simp only [depthLoop, get_renum]
    cases nav[i]? with
    | none => rfl
    | some n => exact depthLoop_renum nav f _ _

theorem breadthLoop_renum (nav : Navigator) : ∀ (f : Nat) (todo acc : List Nat),
    breadthLoop (nav.map (H g)) f todo acc = breadthLoop nav f todo acc
  | _, [], _ => by unfold breadthLoop; rfl
  | 0, _ :: _, _ => rfl
  | f + 1, i :: todo, acc => by
    simp only [breadthLoop, get_renum]
    cases nav[i]? with
    | none => rfl
    | some n => exact breadthLoop_renum nav f _ _

theorem depth_renum (nav : Navigator) (n : NavNode) : descendantsDepth (nav.map (H g)) (H g n) = descendantsDepth nav n := by
  unfold descendantsDepth
  rw [depthLoop_renum, List.length_map]; rfl

theorem breadth_renum (nav : Navigator) (n : NavNode) : descendantsBreadth (nav.map (H g)) (H g n) = descendantsBreadth nav n := by
  unfold descendantsBreadth
  rw [breadthLoop_renum, List.length_map]; rfl

/-! ## Widths -/

theorem sum_names (l : List (Str × Kserd)) : (mapNumF g l).map (fun p => p.1.length) = l.map (fun p => p.1.length) := by
  rw [renum_F, List.map_map]; rfl

theorem length_renumL (l : List Kserd) : (mapNumL g l).length = l.length := by rw [renum_L, List.length_map]
theorem length_renumF (l : List (Str × Kserd)) : (mapNumF g l).length = l.length := by rw [renum_F, List.length_map]
theorem length_renumM (l : List (Kserd × Kserd)) : (mapNumM g l).length = l.length := by rw [renum_M, List.length_map]

section
variable {g : Number → Number} (hg : ∀ n, (g n).disp = n.disp) (c : FormattingConfig)
include hg

theorem inlineWidth_renum (id : Option Str) (v : Value) :
    Solver.inlineWidth c id (mapNumV g v) = Solver.inlineWidth c id v := by
  cases v <;> simp only [Solver.inlineWidth, mapNumV, length_renumL, length_renumF, length_renumM, sum_names, hg]

theorem conciseWidth_renum (id : Option Str) (v : Value) :
    Solver.conciseWidth c id (mapNumV g v) = Solver.conciseWidth c id v := by
  cases v <;> simp only [Solver.conciseWidth, Solver.inlineWidth, mapNumV, hg]

mutual
theorem inline_renum : ∀ (k : Kserd), Solver.inlineTotal c (mapNum g k) = Solver.inlineTotal c k
  | .mk id v => by rw [mapNum, Solver.inlineTotal, Solver.inlineTotal, inlineWidth_renum hg, inlineV_renum v]
theorem inlineV_renum : ∀ (v : Value), Solver.inlineTotalV c (mapNumV g v) = Solver.inlineTotalV c v
  | .tuple l => by rw [mapNumV, Solver.inlineTotalV, Solver.inlineTotalV, inlineL_renum l]
  | .seq l => by rw [mapNumV, Solver.inlineTotalV, Solver.inlineTotalV, inlineL_renum l]
  | .cntr l => by rw [mapNumV, Solver.inlineTotalV, Solver.inlineTotalV, inlineF_renum l]
  | .map l => by rw [mapNumV, Solver.inlineTotalV, Solver.inlineTotalV, inlineM_renum l]
  | .unit => rfl
  | .bool _ => rfl
  | .num _ => rfl
  | .str _ => rfl
  | .barr _ => rfl
theorem inlineL_renum : ∀ (l : List Kserd), Solver.inlineTotalL c (mapNumL g l) = Solver.inlineTotalL c l
  | [] => rfl
  | k :: r => by rw [mapNumL, Solver.inlineTotalL, Solver.inlineTotalL, inline_renum k, inlineL_renum r]
theorem inlineF_renum : ∀ (l : List (Str × Kserd)), Solver.inlineTotalF c (mapNumF g l) = Solver.inlineTotalF c l
  | [] => rfl
  | (n, k) :: r => by rw [mapNumF, Solver.inlineTotalF, Solver.inlineTotalF, inline_renum k, inlineF_renum r]
theorem inlineM_renum : ∀ (l : List (Kserd × Kserd)), Solver.inlineTotalM c (mapNumM g l) = Solver.inlineTotalM c l
  | [] => rfl
  | (k, v) :: r => by rw [mapNumM, Solver.inlineTotalM, Solver.inlineTotalM, inline_renum k, inline_renum v, inlineM_renum r]
end

mutual
theorem concise_renum : ∀ (k : Kserd), Solver.conciseTotal c (mapNum g k) = Solver.conciseTotal c k
  | .mk id v => by rw [mapNum, Solver.conciseTotal, Solver.conciseTotal, conciseWidth_renum hg, conciseV_renum v]
theorem conciseV_renum : ∀ (v : Value), Solver.conciseTotalV c (mapNumV g v) = Solver.conciseTotalV c v
  | .tuple l => by rw [mapNumV, Solver.conciseTotalV, Solver.conciseTotalV, conciseL_renum l]
  | .seq l => by rw [mapNumV, Solver.conciseTotalV, Solver.conciseTotalV, conciseL_renum l]
  | .cntr l => by rw [mapNumV, Solver.conciseTotalV, Solver.conciseTotalV, conciseF_renum l]
  | .map l => by rw [mapNumV, Solver.conciseTotalV, Solver.conciseTotalV, conciseM_renum l]
  | .unit => rfl
  | .bool _ => rfl
  | .num _ => rfl
  | .str _ => rfl
  | .barr _ => rfl
theorem conciseL_renum : ∀ (l : List Kserd), Solver.conciseTotalL c (mapNumL g l) = Solver.conciseTotalL c l
  | [] => rfl
  | k :: r => by rw [mapNumL, Solver.conciseTotalL, Solver.conciseTotalL, concise_renum k, conciseL_renum r]
theorem conciseF_renum : ∀ (l : List (Str × Kserd)), Solver.conciseTotalF c (mapNumF g l) = Solver.conciseTotalF c l
  | [] => rfl
  | (n, k) :: r => by rw [mapNumF, Solver.conciseTotalF, Solver.conciseTotalF, concise_renum k, conciseF_renum r]
theorem conciseM_renum : ∀ (l : List (Kserd × Kserd)), Solver.conciseTotalM c (mapNumM g l) = Solver.conciseTotalM c l
  | [] => rfl
  | (k, v) :: r => by
    rw [mapNumM, Solver.conciseTotalM, Solver.conciseTotalM, inline_renum hg, concise_renum v, conciseM_renum r]
end

end

/-! ## States of the formatter -/

/-- The formatter of the Kserd without its hidden identities, in the same state. -/
def F (f : Formatter) : Formatter := { root := mapNum g f.root, nav := f.nav.map (H g), fmts := f.fmts }

theorem maxLine_renum (n : NavNode) : Formatter.maxLineRepr (H g n) = Formatter.maxLineRepr n := by
  unfold Formatter.maxLineRepr
  have e1 : (H g n).kserd.val.kind = n.kserd.val.kind := by simp only [H, val_renum, kind_renum]
  rw [e1]
  rfl

theorem request_renum (f : Formatter) (i : Nat) (r : Repr') :
    (F g f).request i r = (f.request i r).map (F g) := by
  unfold Formatter.request
  simp only [F, get_renum]
  cases f.nav[i]? with
  | none => rfl
  | some n =>
    simp only [Option.map_some]
    cases f.fmts[i]? with
    | none => rfl
    | some fm =>
      simp only [parent_renum, depth_renum, maxLine_renum]
      have e1 : (H g n).kserd.val.kind = n.kserd.val.kind := by simp only [H, val_renum, kind_renum]
      rw [e1]
      have e2 : ((Nav.parent f.nav n).map (H g)).bind (fun p => f.fmts[p.idx]?.map (·.line)) =
          (Nav.parent f.nav n).bind fun p => f.fmts[p.idx]?.map (·.line) := by
        cases Nav.parent f.nav n <;> rfl
      rw [e2]
      by_cases h1 : r = fm.line
      · rw [if_pos h1, if_pos h1]; rfl
      rw [if_neg h1, if_neg h1]
      by_cases h2 : i = 0 ∧ r = .verbose ∧ (n.kserd.val.kind = .seq ∨ n.kserd.val.kind = .map)
      · rw [if_pos h2, if_pos h2]; rfl
      rw [if_neg h2, if_neg h2]
      cases Formatter.validateRequest (Formatter.maxLineRepr n)
        ((Nav.parent f.nav n).bind fun p => f.fmts[p.idx]?.map (·.line)) r with
      | error e => rfl
      | ok q =>
        cases descendantsDepth f.nav n with
        | none => rfl
        | some ds =>
          simp only
          by_cases h3 : (ds.all fun d => decide (d < f.fmts.length)) = true
          · rw [if_pos h3]; exact if_pos h3
          · rw [if_neg h3]; exact if_neg h3

theorem requestOk_renum (f : Formatter) (i : Nat) (r : Repr') :
    (F g f).requestOk i r = (f.requestOk i r).map (F g) := by
  unfold Formatter.requestOk
  rw [request_renum]
  cases f.request i r with
  | ok f' => rfl
  | error e => cases e <;> rfl

theorem foldlM_renum {α : Type} (s1 s2 : Formatter → α → Option Formatter) (h : ∀ f a, s2 (F g f) a = (s1 f a).map (F g)) :
    ∀ (l : List α) (f : Formatter), l.foldlM s2 (F g f) = (l.foldlM s1 f).map (F g)
  | [], f => rfl
  | a :: r, f => by
    rw [List.foldlM_cons, List.foldlM_cons, h]
    cases s1 f a with
    | none => rfl
    | some g => exact foldlM_renum s1 s2 h r g

theorem lowerStep_renum (f : Formatter) (i : Nat) : Formatter.lowerStep (F g f) i = (Formatter.lowerStep f i).map (F g) := by
  unfold Formatter.lowerStep
  have e : ((F g f).nav[i]?).bind (fun n => Nav.parent (F g f).nav n) = ((f.nav[i]?).bind (fun n => Nav.parent f.nav n)).map (H g) := by
    simp only [F, get_renum]
    cases f.nav[i]? with
    | none => rfl
    | some n => simp only [Option.map_some, Option.bind_some, parent_renum]
  rw [e]
  cases (f.nav[i]?).bind (fun n => Nav.parent f.nav n) with
  | none => rfl
  | some p =>
    simp only [Option.map_some]
    change (match f.fmts[i]?, f.fmts[p.idx]? with
      | some n, some pf => if pf.line < n.line then (F g f).requestOk i pf.line else some (F g f)
      | _, _ => none) = _
    cases f.fmts[i]? with
    | none => rfl
    | some n => cases f.fmts[p.idx]? with
      | none => rfl
      | some pf =>
        simp only [requestOk_renum]
        split <;> rfl

theorem formatter_new_renum (root : Kserd) : Formatter.new (mapNum g root) = (Formatter.new root).map (F g) := by
  have hinit : Formatter.init (mapNum g root) = F g (Formatter.init root) := by
    unfold Formatter.init F
    simp only [new_renum, List.map_map, Formatter.mk.injEq, true_and]
    apply List.map_congr_left
    intro n _
    simp only [Function.comp_apply, Formatter.initFmt, maxLine_renum]
    rfl
  have hroot : Formatter.rootStep (mapNum g root) = (Formatter.rootStep root).map (F g) := by
    unfold Formatter.rootStep
    rw [val_renum, kind_renum, hinit]
    cases root.val.kind <;> first | rfl | exact requestOk_renum g _ _ _
  unfold Formatter.new
  rw [hroot]
  cases Formatter.rootStep root with
  | none => rfl
  | some f =>
    simp only [Option.map_some]
    have : (Nav.new (mapNum g root)).map (·.idx) = (Nav.new root).map (·.idx) := by
      rw [new_renum, List.map_map]; rfl
    rw [this]
    exact foldlM_renum g _ _ (lowerStep_renum g) _ f

theorem setId_renum (f : Formatter) (i : Nat) (b : Bool) : (F g f).setId i b = (f.setId i b).map (F g) := by
  unfold Formatter.setId
  simp only [F]
  by_cases h : i < f.fmts.length
  · rw [if_pos h]; exact if_pos h
  · rw [if_neg h]; exact if_neg h

variable (c : FormattingConfig)

theorem idStep_renum (f : Formatter) (i : Nat) : Solver.idStep c (F g f) i = F g (Solver.idStep c f i) := by
  unfold Solver.idStep
  have : (F g f).nav[i]? = (f.nav[i]?).map (H g) := get_renum g _ _
  rw [this]
  cases f.nav[i]? with
  | none => rfl
  | some n =>
    have e1 : (H g n).kserd.val.kind = n.kserd.val.kind := by simp only [H, val_renum, kind_renum]
    simp only [Option.map_some, e1, setId_renum]
    cases f.setId i (Solver.idFlag c n.kserd.val.kind) <;> rfl

theorem applyIds_renum (f : Formatter) : Solver.applyIds (F g f) c = F g (Solver.applyIds f c) := by
  unfold Solver.applyIds
  have : (F g f).nav.length = f.nav.length := List.length_map _
  rw [this]
  clear this
  generalize List.range f.nav.length = l
  induction l generalizing f with
  | nil => rfl
  | cons a r ih => rw [List.foldl_cons, List.foldl_cons, idStep_renum, ih]

variable {g} (hg : ∀ n, (g n).disp = n.disp)

section
include hg

theorem mapEntry_renum (nav : Navigator) (fmts : List Fmt) (p n : NavNode) :
    Solver.mapEntryOffset c (nav.map (H g)) fmts (H g p) (H g n) = Solver.mapEntryOffset c nav fmts p n := by
  unfold Solver.mapEntryOffset
  change (if isKey n = true then some 0 else match p.keyChildren[idxInParent n]? with
    | none => none
    | some ki => match (nav.map (H g))[ki]?, fmts[ki]? with
      | some k, some kfmt => match kfmt.line with
        | .inline => some (Solver.inlineTotal c k.kserd + W.keysAssigner.length + 1)
        | .concise => some (1 + W.keysAssigner.length + 1)
        | .verbose => none
      | _, _ => none) = _
  split
  · rfl
  · cases p.keyChildren[idxInParent n]? with
    | none => rfl
    | some ki =>
      simp only [get_renum]
      cases nav[ki]? with
      | none => rfl
      | some k =>
        simp only [Option.map_some]
        cases fmts[ki]? with
        | none => rfl
        | some kf => simp only [H, inline_renum hg]; rfl

theorem concisePCC_renum (nav : Navigator) (fmts : List Fmt) (p n : NavNode) :
    Solver.concisePCC c (nav.map (H g)) fmts (H g p) (H g n) = Solver.concisePCC c nav fmts p n := by
  unfold Solver.concisePCC
  rw [mapEntry_renum c hg]
  have : (H g p).kserd.val = mapNumV g p.kserd.val := val_renum g _
  rw [this]
  have e : idxInParent (H g n) = idxInParent n := rfl
  rw [e]
  cases p.kserd.val with
  | cntr f =>
    simp only [mapNumV, Solver.cntrFieldOffset, renum_F, List.getElem?_map]
    cases f[idxInParent n]? <;> rfl
  | _ => rfl

omit hg in
theorem verbosePCC_renum (p n : NavNode) : Solver.verbosePCC (H g p) (H g n) = Solver.verbosePCC p n := by
  unfold Solver.verbosePCC
  have e1 : (H g n).kserd.val.kind = n.kserd.val.kind := by simp only [H, val_renum, kind_renum]
  have e2 : (H g p).kserd.val.kind = p.kserd.val.kind := by simp only [H, val_renum, kind_renum]
  rw [e1, e2]
  rfl

theorem offsetLoop_renum (nav : Navigator) (fmts : List Fmt) : ∀ (f : Nat) (n : NavNode) (o : Nat),
    Solver.offsetLoop c (nav.map (H g)) fmts f (H g n) o = Solver.offsetLoop c nav fmts f n o
  | 0, _, _ => rfl
  | f + 1, n, o => by
    simp only [Solver.offsetLoop, parent_renum]
    cases Nav.parent nav n with
    | none => rfl
    | some p =>
      simp only [Option.map_some, concisePCC_renum c hg, verbosePCC_renum, offsetLoop_renum nav fmts f p]
      rfl

theorem offset_renum (nav : Navigator) (fmts : List Fmt) (n : NavNode) :
    Solver.calculateOffset c (nav.map (H g)) fmts (H g n) = Solver.calculateOffset c nav fmts n := by
  unfold Solver.calculateOffset
  rw [parent_renum]
  cases Nav.parent nav n with
  | none => rfl
  | some p =>
    simp only [Option.map_some, concisePCC_renum c hg, offsetLoop_renum c hg, List.length_map]
    rfl

theorem applyNode_renum (f : Formatter) (i : Nat) : Solver.applyNode c (F g f) i = (Solver.applyNode c f i).map (F g) := by
  unfold Solver.applyNode
  have : (F g f).nav[i]? = (f.nav[i]?).map (H g) := get_renum g _ _
  rw [this]
  cases f.nav[i]? with
  | none => rfl
  | some n =>
    simp only [Option.map_some]
    have e0 : Solver.calculateOffset c (F g f).nav (F g f).fmts (H g n) = Solver.calculateOffset c f.nav f.fmts n := offset_renum c hg _ _ _
    rw [e0]
    cases Solver.calculateOffset c f.nav f.fmts n with
    | none => rfl
    | some o =>
      have e1 : Nav.parent (F g f).nav (H g n) = (Nav.parent f.nav n).map (H g) := parent_renum g _ _
      simp only [e1]
      cases Nav.parent f.nav n with
      | none => rfl
      | some p =>
        have e2 : ∀ m, (H g m).kserd.val.kind = m.kserd.val.kind := fun m => by simp only [H, val_renum, kind_renum]
        simp only [Option.map_some, e2, requestOk_renum]
        simp only [H, inline_renum hg, concise_renum hg]

/-- The solver reaches the same state. -/
theorem applyConfig_renum (f : Formatter) : Solver.applyConfig (F g f) c = (Solver.applyConfig f c).map (F g) := by
  unfold Solver.applyConfig
  rw [applyIds_renum]
  generalize Solver.applyIds f c = f
  simp only
  have : (F g f).nav[0]? = (f.nav[0]?).map (H g) := get_renum g _ _
  rw [this]
  cases f.nav[0]? with
  | none => rfl
  | some n =>
    simp only [Option.map_some]
    have e : descendantsBreadth (F g f).nav (H g n) = descendantsBreadth f.nav n := breadth_renum g _ _
    rw [e]
    cases descendantsBreadth f.nav n with
    | none => rfl
    | some ds =>
      have e2 : (H g n).kserd = mapNum g n.kserd := rfl
      simp only [e2, inline_renum hg, concise_renum hg, requestOk_renum]
      cases f.requestOk 0 _ with
      | none => rfl
      | some h => exact foldlM_renum g _ _ (applyNode_renum c hg) ds h

/-! ## The text -/

omit hg in
theorem empty_renumL (l : List Kserd) : (mapNumL g l).isEmpty = l.isEmpty := by cases l <;> rfl
omit hg in
theorem empty_renumF (l : List (Str × Kserd)) : (mapNumF g l).isEmpty = l.isEmpty := by rcases l with _ | ⟨⟨n, k⟩, r⟩ <;> rfl
omit hg in
theorem empty_renumM (l : List (Kserd × Kserd)) : (mapNumM g l).isEmpty = l.isEmpty := by rcases l with _ | ⟨⟨k, v⟩, r⟩ <;> rfl
omit hg in
theorem nests_renum (v : Value) : W.nests (mapNumV g v) = W.nests v := by cases v <;> rfl

variable (fmts : List Fmt)

mutual
theorem node_renum : ∀ (k : Kserd) (i col : Nat) (b : Str), W.node fmts (mapNum g k) i col b = W.node fmts k i col b
  | .mk id v, i, col, b => by
    cases v with
    | tuple l => simp only [mapNum, mapNumV, W.node, listInline_renum l, listConcise_renum l, empty_renumL]
    | seq l => simp only [mapNum, mapNumV, W.node, listInline_renum l, listConcise_renum l, empty_renumL]
    | cntr l => simp only [mapNum, mapNumV, W.node, cntrInline_renum l, cntrConcise_renum l, cntrVerbose_renum l, empty_renumF]
    | map l => simp only [mapNum, mapNumV, W.node, mapInline_renum l, mapConcise_renum l, empty_renumM]
    | num n => simp only [mapNum, mapNumV, W.node, W.prim, hg]
    | unit => rfl
    | bool _ => rfl
    | str _ => rfl
    | barr _ => rfl
theorem listInline_renum : ∀ (l : List Kserd) (i col : Nat) (b : Str),
    W.listInline fmts (mapNumL g l) i col b = W.listInline fmts l i col b
  | [], _, _, _ => rfl
  | k :: r, i, col, b => by simp only [mapNumL, W.listInline, node_renum k, listInline_renum r, size_renum]
theorem listConcise_renum : ∀ (l : List Kserd) (i col : Nat) (b : Str),
    W.listConcise fmts (mapNumL g l) i col b = W.listConcise fmts l i col b
  | [], _, _, _ => rfl
  | k :: r, i, col, b => by simp only [mapNumL, W.listConcise, node_renum k, listConcise_renum r, size_renum]
theorem seqVerbose_renum (name : Str) : ∀ (l : List Kserd) (i col : Nat) (b : Str),
    W.seqVerbose fmts name (mapNumL g l) i col b = W.seqVerbose fmts name l i col b
  | [], _, _, _ => rfl
  | k :: r, i, col, b => by simp only [mapNumL, W.seqVerbose, node_renum k, seqVerbose_renum name r, size_renum]
theorem cntrInline_renum : ∀ (l : List (Str × Kserd)) (i col : Nat) (b : Str),
    W.cntrInline fmts (mapNumF g l) i col b = W.cntrInline fmts l i col b
  | [], _, _, _ => rfl
  | (n, k) :: r, i, col, b => by simp only [mapNumF, W.cntrInline, node_renum k, cntrInline_renum r, size_renum]
theorem cntrConcise_renum : ∀ (l : List (Str × Kserd)) (i col : Nat) (b : Str),
    W.cntrConcise fmts (mapNumF g l) i col b = W.cntrConcise fmts l i col b
  | [], _, _, _ => rfl
  | (n, k) :: r, i, col, b => by simp only [mapNumF, W.cntrConcise, node_renum k, cntrConcise_renum r, size_renum]
theorem cntrVerbose_renum : ∀ (l : List (Str × Kserd)) (i col : Nat) (b : Str),
    W.cntrVerbose fmts (mapNumF g l) i col b = W.cntrVerbose fmts l i col b
  | [], _, _, _ => rfl
  | (n, k) :: r, i, col, b => by
    simp only [mapNumF, W.cntrVerbose, node_renum k, nested_renum _ n k, cntrVerbose_renum r, size_renum, val_renum, nests_renum]
theorem nested_renum (p : Bool) (n : Str) : ∀ (k : Kserd) (i col : Nat) (b : Str),
    W.nested fmts p n (mapNum g k) i col b = W.nested fmts p n k i col b
  | .mk id v, i, col, b => by
    cases v with
    | cntr l => simp only [mapNum, mapNumV, W.nested, cntrVerbose_renum l]
    | seq l => simp only [mapNum, mapNumV, W.nested, seqVerbose_renum n l]
    | map l => simp only [mapNum, mapNumV, W.nested, mapVerbose_renum n l]
    | tuple _ => rfl
    | num _ => rfl
    | unit => rfl
    | bool _ => rfl
    | str _ => rfl
    | barr _ => rfl
theorem mapInline_renum : ∀ (l : List (Kserd × Kserd)) (i col : Nat) (b : Str),
    W.mapInline fmts (mapNumM g l) i col b = W.mapInline fmts l i col b
  | [], _, _, _ => rfl
  | (k, v) :: r, i, col, b => by simp only [mapNumM, W.mapInline, node_renum k, node_renum v, mapInline_renum r, size_renum]
theorem mapConcise_renum : ∀ (l : List (Kserd × Kserd)) (i col : Nat) (b : Str),
    W.mapConcise fmts (mapNumM g l) i col b = W.mapConcise fmts l i col b
  | [], _, _, _ => rfl
  | (k, v) :: r, i, col, b => by simp only [mapNumM, W.mapConcise, node_renum k, node_renum v, mapConcise_renum r, size_renum]
theorem mapVerbose_renum (name : Str) : ∀ (l : List (Kserd × Kserd)) (i col : Nat) (b : Str),
    W.mapVerbose fmts name (mapNumM g l) i col b = W.mapVerbose fmts name l i col b
  | [], _, _, _ => rfl
  | (k, v) :: r, i, col, b => by simp only [mapNumM, W.mapVerbose, node_renum k, node_renum v, mapVerbose_renum name r, size_renum]
end

theorem writeString_renum (f : Formatter) (b : Str) : (F g f).writeString b = f.writeString b := by
  unfold Formatter.writeString
  exact node_renum hg _ _ _ _ _

end

end KS.Renum
