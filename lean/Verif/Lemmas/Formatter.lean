import Verif.Spec.Fmt
import Verif.Props.Nav
/-!
# Lemmas about the formatter state
-/

namespace KS.Fm
open KS.Spec KS.Nav KS.Props

theorem rle_iff (a b : Repr') : a ≤ b ↔ a.rank ≤ b.rank := Iff.rfl
theorem rlt_iff (a b : Repr') : a < b ↔ a.rank < b.rank := Iff.rfl
theorem rle_refl (a : Repr') : a ≤ a := Nat.le_refl _
theorem rle_trans {a b c : Repr'} (h : a ≤ b) (h' : b ≤ c) : a ≤ c := Nat.le_trans h h'
theorem rnot_lt {a b : Repr'} : ¬ a < b ↔ b ≤ a := Nat.not_lt
theorem rle_verbose (a : Repr') : a ≤ .verbose := by cases a <;> decide
theorem inline_rle (a : Repr') : .inline ≤ a := by cases a <;> decide
theorem rle_inline {a : Repr'} (h : a ≤ .inline) : a = .inline := by cases a <;> first | rfl | (exfalso; revert h; decide)
theorem rle_antisymm {a b : Repr'} (h : a ≤ b) (h' : b ≤ a) : a = b := by
  cases a <;> cases b <;> first | rfl | (exfalso; revert h h'; decide)
theorem rlt_of_le_ne {a b : Repr'} (h : a ≤ b) (h' : a ≠ b) : a < b := by
  cases a <;> cases b <;> first | decide | (exfalso; revert h h'; decide)
theorem rmin_le_left (a b : Repr') : Repr'.min a b ≤ a := by cases a <;> cases b <;> decide
theorem rmin_le_right (a b : Repr') : Repr'.min a b ≤ b := by cases a <;> cases b <;> decide
theorem rmin_of_le {a b : Repr'} (h : a ≤ b) : Repr'.min a b = a := by
  cases a <;> cases b <;> first | rfl | (exfalso; revert h; decide)
theorem rle_min {a b c : Repr'} (h : a ≤ b) (h' : a ≤ c) : a ≤ Repr'.min b c := by
  cases a <;> cases b <;> cases c <;> first | decide | (exfalso; revert h h'; decide)

/-- Lower a format to at most `r`. -/
def lower (r : Repr') (f : Fmt) : Fmt := if r < f.line then { f with line := r } else f

theorem lower_line (r : Repr') (f : Fmt) : (lower r f).line = Repr'.min f.line r := by
  unfold lower Repr'.min; split <;> rfl

theorem lower_id (r : Repr') (f : Fmt) : (lower r f).id = f.id := by unfold lower; split <;> rfl

theorem lower_lower (r : Repr') (f : Fmt) : lower r (lower r f) = lower r f := by
  have : ¬ r < (lower r f).line := by rw [rnot_lt, lower_line]; exact rmin_le_right _ _
  rw [lower, if_neg this]

theorem lowerAll_get (r : Repr') : ∀ (ds : List Nat) (fmts : List Fmt) (j : Nat),
    (Formatter.lowerAll r fmts ds)[j]? = if j ∈ ds then (fmts[j]?).map (lower r) else fmts[j]?
  | [], fmts, j => by simp [Formatter.lowerAll]
  | d :: ds, fmts, j => by
    have ih := lowerAll_get r ds (fmts.modify d (lower r)) j
    have e : Formatter.lowerAll r fmts (d :: ds) = Formatter.lowerAll r (fmts.modify d (lower r)) ds := rfl
    rw [e, ih, List.getElem?_modify]
    by_cases hd : d = j
    · subst hd
      by_cases hm : d ∈ ds
      · simp only [hm, if_true, List.mem_cons, true_or]
        cases fmts[d]? <;> simp [lower_lower]
      · simp [hm]
    · have hjd : ¬ j = d := fun h => hd h.symm
      simp only [hd, if_false, List.mem_cons, hjd, false_or]
      cases fmts[j]? <;> simp

theorem lowerAll_length (r : Repr') : ∀ (ds : List Nat) (fmts : List Fmt), (Formatter.lowerAll r fmts ds).length = fmts.length
  | [], fmts => rfl
  | d :: ds, fmts => by
    have e : Formatter.lowerAll r fmts (d :: ds) = Formatter.lowerAll r (fmts.modify d (lower r)) ds := rfl
    rw [e, lowerAll_length r ds, List.length_modify]

theorem kind_seqmap (v : Value) : (v.kind = .seq ∨ v.kind = .map) ↔ isSeqMap v = true := by
  cases v <;> simp [Value.kind, isSeqMap]

theorem children_empty {root : Kserd} {i : Nat} {n : NavNode} (h : (Nav.new root)[i]? = some n) :
    n.valueChildren.isEmpty = (valuesOf n.kserd.val).isEmpty := by
  obtain ⟨_, _, _, _, _, h6, _⟩ := C19_links root i n h
  have := congrArg List.length h6
  simp only [List.length_map] at this
  cases h1 : n.valueChildren <;> cases h2 : valuesOf n.kserd.val <;> rw [h1, h2] at this <;> simp at this ⊢

theorem maxLine_eq {root : Kserd} {i : Nat} {n : NavNode} (h : (Nav.new root)[i]? = some n) :
    Formatter.maxLineRepr n = maxRepr n.kserd.val := by
  have he := children_empty h
  rw [Formatter.maxLineRepr]
  cases hv : n.kserd.val <;> rw [hv] at he <;> simp only [Value.kind, maxRepr, valuesOf] at he ⊢ <;>
    simp only [he, List.isEmpty_iff, List.map_eq_nil_iff]

/-- The shape part of `Rules`, preserved by everything. -/
structure Shape (f : Formatter) : Prop where
  nav : f.nav = Nav.new f.root
  len : f.fmts.length = f.nav.length

theorem Shape.fmt {f : Formatter} (h : Shape f) {i : Nat} {n : NavNode} (hn : f.nav[i]? = some n) :
    ∃ fm, f.fmts[i]? = some fm := by
  have := (List.getElem?_eq_some_iff.mp hn).1
  exact ⟨_, List.getElem?_eq_getElem (by rw [h.len]; exact this)⟩

theorem Shape.parent_eq {f : Formatter} (h : Shape f) {i : Nat} {n : NavNode} (hn : f.nav[i]? = some n) :
    (Nav.parent f.nav n).bind (fun p => f.fmts[p.idx]?.map (·.line)) = n.parent.bind (fun p => line f p) := by
  rw [Nav.parent]
  cases hp : n.parent with
  | none => rfl
  | some p =>
    simp only [Option.bind_some]
    rw [h.nav] at hn ⊢
    obtain ⟨⟨q, hq⟩, _⟩ := kind_of_parent hn hp
    rw [hq]
    simp only [Option.bind_some, (C18_preorder f.root).2.1 p q hq]
    rfl

/-- What a granted request does to the formats. -/
def after (f : Formatter) (ds : List Nat) (idx : Nat) (r : Repr') : List Fmt :=
  Formatter.lowerAll r (f.fmts.modify idx fun x => { x with line := r }) ds

theorem after_get (f : Formatter) (ds : List Nat) (idx : Nat) (r : Repr') (hi : idx ∉ ds) (j : Nat) :
    (after f ds idx r)[j]? = if j = idx then (f.fmts[j]?).map (fun x => { x with line := r })
      else if j ∈ ds then (f.fmts[j]?).map (lower r) else f.fmts[j]? := by
  rw [after, lowerAll_get, List.getElem?_modify]
  by_cases hj : j = idx
  · subst hj; simp [hi]
  · have : ¬ idx = j := fun h => hj h.symm
    simp only [this, if_false, hj]
    split <;> (cases f.fmts[j]? <;> rfl)

/-- The complete behaviour of `request_repr_alteration` on a well-shaped formatter. -/
theorem request_eq {f : Formatter} (h : Shape f) (idx : Nat) (r : Repr') :
    (∀ n fm, f.nav[idx]? = some n → f.fmts[idx]? = some fm →
      ∃ ds, (∀ j, j ∈ ds ↔ Below f.nav idx j) ∧ idx ∉ ds ∧
      f.request idx r =
        if r = fm.line then .ok f
        else if idx = 0 ∧ r = .verbose ∧ isSeqMap n.kserd.val = true then .error .seqMapAtRoot
        else match Formatter.validateRequest (maxRepr n.kserd.val) (n.parent.bind (fun p => line f p)) r with
          | .error e => .error e
          | .ok r => .ok { f with fmts := after f ds idx r }) ∧
    (f.nav[idx]? = none → f.request idx r = .error .idxOutOfBounds) := by
  constructor
  · intro n fm hn hfm
    have hn' := hn
    rw [h.nav] at hn'
    obtain ⟨ds, hds, hrange, hbelow⟩ := C20_descendants_depth f.root idx n hn'
    have hall : ds.all (fun d => decide (d < f.fmts.length)) = true := by
      rw [List.all_eq_true]
      intro d hd
      rw [hbelow d] at hd
      obtain ⟨_, m, hm, _⟩ := below_bounds hn' hd
      have := (List.getElem?_eq_some_iff.mp hm).1
      simp only [decide_eq_true_eq, h.len, h.nav]; exact this
    refine ⟨ds, by rw [h.nav]; exact hbelow, ?_, ?_⟩
    · rw [hrange, List.mem_range'_1]; omega
    · simp only [Formatter.request, hn, hfm]
      simp only [kind_seqmap]
      rw [maxLine_eq hn', h.parent_eq hn]
      split
      · rfl
      · split
        · rfl
        · cases Formatter.validateRequest (maxRepr n.kserd.val) (n.parent.bind fun p => line f p) r with
          | error e => rfl
          | ok r' =>
            have hds' : descendantsDepth f.nav n = some ds := by rw [h.nav]; exact hds
            simp only [hds', hall, if_true, after]
  · intro hn
    simp only [Formatter.request, hn]

theorem validate_ok {m r r' : Repr'} {p : Option Repr'} (h : Formatter.validateRequest m p r = .ok r') :
    r' = r ∧ r ≤ m ∧ ∀ q, p = some q → r ≤ q := by
  rw [Formatter.validateRequest] at h
  split at h
  · cases h
  · rename_i h1
    split at h
    · split at h <;> cases h
    · rename_i h2
      cases h
      refine ⟨rfl, rnot_lt.mp h1, ?_⟩
      intro q hq; subst hq; exact rnot_lt.mp h2

theorem validate_of {m r : Repr'} {p : Option Repr'} (hm : r ≤ m) (hp : ∀ q, p = some q → r ≤ q) :
    Formatter.validateRequest m p r = .ok r := by
  rw [Formatter.validateRequest]
  rw [if_neg (rnot_lt.mpr hm), if_neg]
  cases p with
  | none => exact rnot_lt.mpr (rle_verbose r)
  | some q => exact rnot_lt.mpr (hp q rfl)

theorem validate_ne_panic {m r : Repr'} {p : Option Repr'} : Formatter.validateRequest m p r ≠ .error .panic := by
  cases m <;> cases r <;> rcases p with _ | p <;> first | decide | (cases p <;> decide)

theorem request_ne_panic {f : Formatter} (h : Shape f) (idx : Nat) (r : Repr') : f.request idx r ≠ .error .panic := by
  cases hn : f.nav[idx]? with
  | none => rw [(request_eq h idx r).2 hn]; intro h; cases h
  | some n =>
    obtain ⟨fm, hfm⟩ := h.fmt hn
    obtain ⟨ds, _, _, he⟩ := (request_eq h idx r).1 n fm hn hfm
    rw [he]
    split
    · intro h; cases h
    · split
      · intro h; cases h
      · split
        · rename_i e hv; intro h; cases h; exact validate_ne_panic hv
        · intro h; cases h

theorem requestOk_cases {f : Formatter} (h : Shape f) (idx : Nat) (r : Repr') :
    (∃ f', f.requestOk idx r = some f' ∧ f.request idx r = .ok f') ∨
    (f.requestOk idx r = some f ∧ ∃ e, f.request idx r = .error e) := by
  have hp := request_ne_panic h idx r
  rw [Formatter.requestOk]
  cases hr : f.request idx r with
  | ok f' => exact .inl ⟨f', rfl, rfl⟩
  | error e =>
    refine .inr ⟨?_, e, rfl⟩
    cases e <;> first | rfl | exact absurd hr hp

theorem request_shape {f f' : Formatter} (h : Shape f) {idx : Nat} {r : Repr'} (hr : f.request idx r = .ok f') :
    Shape f' ∧ f'.root = f.root ∧ f'.nav = f.nav := by
  cases hn : f.nav[idx]? with
  | none => rw [(request_eq h idx r).2 hn] at hr; cases hr
  | some n =>
    obtain ⟨fm, hfm⟩ := h.fmt hn
    obtain ⟨ds, _, _, he⟩ := (request_eq h idx r).1 n fm hn hfm
    rw [he] at hr
    split at hr
    · cases hr; exact ⟨h, rfl, rfl⟩
    · split at hr
      · cases hr
      · split at hr
        · cases hr
        · cases hr
          refine ⟨⟨h.nav, ?_⟩, rfl, rfl⟩
          simp only [after, lowerAll_length, List.length_modify, h.len]

/-- The lines after a granted request. -/
theorem request_lines {f f' : Formatter} (h : Shape f) {idx : Nat} {r : Repr'} (hr : f.request idx r = .ok f') :
    (f' = f ∧ line f idx = some r) ∨ ∃ n, f.nav[idx]? = some n ∧ r ≤ maxRepr n.kserd.val ∧ (∀ p q, n.parent = some p → line f p = some q → r ≤ q) ∧
      ¬ (idx = 0 ∧ r = .verbose ∧ isSeqMap n.kserd.val = true) ∧
      (∀ j, idOn f' j = idOn f j) ∧
      (line f' idx = some r) ∧ (∀ j, Below f.nav idx j → line f' j = (line f j).map (fun x => Repr'.min x r)) ∧
      (∀ j, j ≠ idx → ¬ Below f.nav idx j → line f' j = line f j) := by
  cases hn : f.nav[idx]? with
  | none => rw [(request_eq h idx r).2 hn] at hr; cases hr
  | some n =>
    obtain ⟨fm, hfm⟩ := h.fmt hn
    obtain ⟨ds, hds, hidx, he⟩ := (request_eq h idx r).1 n fm hn hfm
    rw [he] at hr
    split at hr
    · rename_i h1; cases hr; exact .inl ⟨rfl, by rw [line, hfm, h1]; rfl⟩
    · split at hr
      · cases hr
      · rename_i h1 h2
        cases hv : Formatter.validateRequest (maxRepr n.kserd.val) (n.parent.bind fun p => line f p) r with
        | error e => rw [hv] at hr; cases hr
        | ok r' =>
          rw [hv] at hr
          obtain ⟨rfl, hm, hpq⟩ := validate_ok hv
          cases hr
          refine .inr ⟨n, rfl, hm, ?_, h2, ?_, ?_, ?_, ?_⟩
          · intro p q hp hq; exact hpq q (by rw [hp]; exact hq)
          · intro j
            show ((after f ds idx r')[j]?).map (·.id) = (f.fmts[j]?).map (·.id)
            rw [after_get f ds idx r' hidx]
            split
            · cases f.fmts[j]? <;> rfl
            · split
              · cases f.fmts[j]? <;> simp [lower_id]
              · rfl
          · show ((after f ds idx r')[idx]?).map (·.line) = _
            rw [after_get f ds idx r' hidx, if_pos rfl, hfm]; rfl
          · intro j hj
            have hjd := (hds j).mpr hj
            have hne : j ≠ idx := fun e => hidx (e ▸ hjd)
            show ((after f ds idx r')[j]?).map (·.line) = ((f.fmts[j]?).map (·.line)).map _
            rw [after_get f ds idx r' hidx, if_neg hne, if_pos hjd]
            cases f.fmts[j]? <;> simp [lower_line]
          · intro j hne hj
            have hjd : j ∉ ds := fun e => hj ((hds j).mp e)
            show ((after f ds idx r')[j]?).map (·.line) = (f.fmts[j]?).map (·.line)
            rw [after_get f ds idx r' hidx, if_neg hne, if_neg hjd]

end KS.Fm
