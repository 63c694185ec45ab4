import Verif.Props.Choice
import Verif.Lemmas.ChoiceHistory
/-!
# C73: what `apply_config` makes of a formatter that was changed before
-/

namespace KS.Props
open KS.Spec KS.Nav KS.Fm KS.Wr KS.Ch

/-- How `apply_config` begins on a formatter that was changed before. -/
theorem history_start (root : Kserd) (f : Formatter) (hf : Reachable root f) (c : FormattingConfig) :
    ∃ (ds : List Nat) (g : Formatter) (x : Repr'), (∀ j, j ∈ ds ↔ 0 < j ∧ j < (Nav.new root).length) ∧
      (∀ a d b, ds = a ++ d :: b → Closed (Nav.new root) (0 :: a) ∧ Next (Nav.new root) (0 :: a) d) ∧
      g.root = root ∧ Rules g ∧ line f 0 = some x ∧
      line g 0 = some (if wish c c.widthLimit root ≤ maxRepr root.val ∧ ¬ (wish c c.widthLimit root = .verbose ∧ isSeqMap root.val = true) then
        wish c c.widthLimit root else x) ∧ (∀ d ∈ ds, From f g d) ∧
      Solver.applyConfig f c = ds.foldlM (Solver.applyNode c) g := by
  obtain ⟨h0, hr⟩ := C22_rules root f hf
  obtain ⟨i1, i2, i3⟩ := rules_applyIds hr c
  have hshape : Shape (Solver.applyIds f c) := ⟨i1.nav, i1.len⟩
  obtain ⟨n, hn, hnk⟩ := root_get hshape
  have hroot : (Solver.applyIds f c).root = root := by rw [i2, h0]
  have hn' := hn; rw [i1.nav, hroot] at hn'
  obtain ⟨ds, hds, _⟩ := C21_descendants_breadth _ 0 n hn'
  obtain ⟨hnd, hmem, hord⟩ := order hn' hds
  rw [← hroot, ← i1.nav] at hds
  have h : ∀ g, (Solver.applyIds f c).requestOk 0
      (Solver.minLineRepr c.widthLimit (Solver.inlineTotal c root) (Solver.conciseTotal c root)) = some g →
      Solver.applyConfig f c = ds.foldlM (Solver.applyNode c) g := by
    intro g hg
    rw [Solver.applyConfig]
    simp only [hn, hds]
    rw [hnk, hroot, hg]
  have hw : Solver.minLineRepr c.widthLimit (Solver.inlineTotal c root) (Solver.conciseTotal c root) = wish c c.widthLimit root := minLine_wish c _ _
  rw [hw] at h
  have hnf : f.nav[0]? = some n := by rw [← i3]; exact hn
  obtain ⟨x, hx⟩ := line_some ⟨hr.nav, hr.len⟩ hnf
  have hdown : ∀ d ∈ ds, From f (Solver.applyIds f c) d := by
    intro d _ m p P y hm hp hP hy
    rw [applyIds_line] at hP ⊢
    rw [i3] at hm
    have := hr.parent d p m y P hm hp hy hP
    rw [hy]
    congr 1
    revert this
    cases y <;> cases P <;> decide
  have hnop : n.parent = none := (C19_links _ 0 n hn').2.1.mpr rfl
  have hnv : n.kserd.val = root.val := by rw [hnk, hroot]
  generalize hrw : wish c c.widthLimit root = w at h
  obtain ⟨g, hg⟩ := requestOk_some hshape 0 w
  obtain ⟨r1, r2, r3⟩ := rules_requestOk i1 hg
  refine ⟨ds, g, x, hmem, hord, by rw [r2, hroot], r1, hx, ?_, ?_, h g hg⟩
  · rcases requestOk_cases hshape 0 w with ⟨g2, h2, h3⟩ | ⟨h2, er, h3⟩
    · rw [hg] at h2; cases h2
      obtain ⟨m', hm', hle, _, hsm⟩ := (C23_granted _ i1 0 w).mp ⟨_, h3⟩
      rw [hn] at hm'; cases hm'
      rw [hnv] at hle hsm
      rw [(C23_effect _ _ i1 0 w h3).2.2.1, if_pos ⟨hle, fun y => hsm ⟨rfl, y⟩⟩]
    · rw [hg] at h2; cases h2
      rw [applyIds_line, hx, if_neg]
      rintro ⟨a, b⟩
      have hp0 : ∀ p q, n.parent = some p → line (Solver.applyIds f c) p = some q → w ≤ q := by
        intro p q hp _
        rw [hnop] at hp; cases hp
      obtain ⟨g3, h6⟩ := (C23_granted _ i1 0 w).mpr ⟨n, hn, by rw [hnv]; exact a, hp0, fun ⟨_, y, z⟩ => b ⟨y, by rw [← hnv]; exact z⟩⟩
      rw [h6] at h3; cases h3
  · intro d hd
    rcases requestOk_cases hshape 0 w with ⟨g2, h2, h3⟩ | ⟨h2, er, h3⟩
    · rw [hg] at h2; cases h2
      refine from_kept hr (by rw [i3]) i1 h3 (x0 := x) (Pd := .verbose) ?_ hx (by cases w <;> decide) (by have := ((hmem d).mp hd).1; omega) (hdown d hd)
      rw [applyIds_line, hx]
      cases x <;> rfl
    · rw [hg] at h2; cases h2
      exact hdown d hd

/-- **C73.** What `apply_config` does to a formatter with any history. The root gets what it asks for if its kind allows that, and keeps what it had otherwise.
Every other node asks for the layout that fits its column in the result. It gets that if its kind and its parent's new layout allow it. Otherwise it keeps what it
had, cut down to its parent's new layout. So the history matters exactly where a request is refused. -/
theorem C73_from_history (root : Kserd) (f f' : Formatter) (hf : Reachable root f) (c : FormattingConfig) (h : Solver.applyConfig f c = some f') :
    (∃ x, line f 0 = some x ∧
      line f' 0 = some (if wish c c.widthLimit root ≤ maxRepr root.val ∧ ¬ (wish c c.widthLimit root = .verbose ∧ isSeqMap root.val = true) then
        wish c c.widthLimit root else x)) ∧
    ∀ (d p : Nat) (m q : NavNode) (x P : Repr'), (Nav.new root)[d]? = some m → m.parent = some p → (Nav.new root)[p]? = some q →
      line f d = some x → line f' p = some P →
      ∃ o, Solver.calculateOffset c f'.nav f'.fmts m = some o ∧
        line f' d = some (if wishOf c (q.kserd.val.kind = .seq) o m.kserd ≤ maxRepr m.kserd.val ∧ wishOf c (q.kserd.val.kind = .seq) o m.kserd ≤ P then
          wishOf c (q.kserd.val.kind = .seq) o m.kserd else Repr'.min x P) := by
  obtain ⟨ds, g, x, hmem, hord, h0, hr, hx, hl, hfrom, he⟩ := history_start root f hf c
  obtain ⟨hf0, hfr⟩ := C22_rules root f hf
  rw [he] at h
  obtain ⟨x1, x2, x3, x4⟩ := run_from hfr hf0 hord hmem ds [] g f' rfl h0 hr (fun d hd => by cases hd) hfrom h
  refine ⟨⟨x, hx, by rw [x4, hl]⟩, ?_⟩
  intro d p m q y P hm hp hq hy hP
  have hd : d ∈ ds := (hmem d).mpr ⟨by have := (parent_lt hm hp).1; omega, (List.getElem?_eq_some_iff.mp hm).1⟩
  obtain ⟨m', p', q', o, P', y', a1, a2, a3, a4, a5, a6, a7⟩ := x1 d hd
  have hnav : f'.nav = Nav.new root := by rw [x2.nav, x3]
  rw [hnav, hm] at a1; cases a1
  rw [hp] at a2; cases a2
  rw [hnav, hq] at a3; cases a3
  rw [hP] at a5; cases a5
  rw [hy] at a6; cases a6
  refine ⟨o, a4, ?_⟩
  rw [a7, settle, wishAt_eq]

/-- **C73.** If the text on one line fits, or there is no limit, the history does not matter: everything is on one line. -/
theorem C73_fits (root : Kserd) (f f' : Formatter) (hf : Reachable root f) (c : FormattingConfig) (h : Solver.applyConfig f c = some f')
    (hw : ∀ w, c.widthLimit = some w → blockWidth c root ≤ w ∧ subtreeWidth c root ≤ w) : ∀ fm ∈ f'.fmts, fm.line = .inline := by
  obtain ⟨⟨x, _, h0⟩, _⟩ := C73_from_history root f f' hf c h
  obtain ⟨e0, hr⟩ := C22_rules root f' (.config c hf h)
  have hwish : wish c c.widthLimit root = .inline := by
    cases hc : c.widthLimit with
    | none => rfl
    | some w =>
      obtain ⟨a, b⟩ := hw w hc
      rw [wish, if_neg (by omega), if_neg (by omega)]
  rw [hwish, if_pos ⟨by cases maxRepr root.val <;> decide, by rintro ⟨a, _⟩; cases a⟩] at h0
  have all : ∀ (j : Nat) (m : NavNode), f'.nav[j]? = some m → line f' j = some .inline := by
    intro j
    induction j using Nat.strong_induction_on with
    | _ j ih =>
      intro m hm
      cases hp : m.parent with
      | none =>
        rw [hr.nav] at hm
        rw [(C19_links _ j m hm).2.1.mp hp]; exact h0
      | some p =>
        have hm' := hm; rw [hr.nav] at hm'
        obtain ⟨hlt, q, hq⟩ := parent_lt hm' hp
        rw [← hr.nav] at hq
        obtain ⟨y, hy⟩ := line_some ⟨hr.nav, hr.len⟩ hm
        have := hr.parent j p m y _ hm hp hy (ih p hlt q hq)
        rw [hy]; congr 1
        revert this
        cases y <;> decide
  intro fm hfm
  obtain ⟨j, hj, rfl⟩ := List.mem_iff_getElem.mp hfm
  have hjn : j < f'.nav.length := by rw [← hr.len]; exact hj
  have := all j _ (List.getElem?_eq_getElem hjn)
  rw [line, List.getElem?_eq_getElem hj] at this
  exact Option.some.inj this

/-- A case: the tuple of `C73_history` asks to be verbose, is refused, and keeps the layout it had; a container asks to be verbose and gets it whatever was before. -/
example : ∃ (f g f2 : Formatter), Formatter.new (.mk (some (str "T")) (.tuple [nm 1])) = some f ∧ Solver.applyConfig f { widthLimit := none } = some g ∧
    Solver.applyConfig g { widthLimit := some 0 } = some f2 ∧ line f 0 = some .concise ∧ line g 0 = some .inline ∧ line f2 0 = some .inline ∧
    wish { widthLimit := some 0 } (some 0) (.mk (some (str "T")) (.tuple [nm 1])) = .verbose :=
  ⟨_, _, _, by rfl, by rfl, by rfl, by decide +kernel, by decide +kernel, by decide +kernel, by decide +kernel⟩

example : ∃ (f g f2 : Formatter), Formatter.new mixRoot = some f ∧ Solver.applyConfig f { widthLimit := none } = some g ∧
    Solver.applyConfig g { widthLimit := some 21 } = some f2 ∧ line g 0 = some .inline ∧ line f2 0 = some .concise :=
  ⟨_, _, _, by rfl, by rfl, by rfl, by decide +kernel, by decide +kernel⟩

end KS.Props
