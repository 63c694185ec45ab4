import Verif.Lemmas.ChoiceAgain
/-!
# C72, C73: the layout a configuration leads to
-/

namespace KS.Props
open KS.Spec KS.Nav KS.Fm KS.Wr KS.Ch

/-- **C21.** `descendants_breadth` of a node is its children, a map's keys before its values, followed by the children of each listed node in turn:
the order is breadth first, and nothing about it is left open. -/
theorem C21_order (root : Kserd) (i : Nat) (n : NavNode) (h : (Nav.new root)[i]? = some n) :
    ∃ l, descendantsBreadth (Nav.new root) n = some l ∧
      l = (n.keyChildren ++ n.valueChildren) ++ l.flatMap (fun j => match (Nav.new root)[j]? with
        | some m => m.keyChildren ++ m.valueChildren
        | none => []) := by
  obtain ⟨l, hl, _⟩ := C21_descendants_breadth root i n h
  refine ⟨l, hl, ?_⟩
  obtain ⟨rest, e1, e2⟩ := breadthLoop_fix _ _ _ _ _ hl
  rw [List.nil_append] at e1
  subst e1
  exact e2

/-- A case in which the order of keys and values shows. -/
example : let k : Kserd := .mk none (.map [(.mk none (.tuple [.mk none .unit]), .mk none (.seq [.mk none .unit])), (.mk none (.bool true), .mk none .unit)])
    ((Nav.new k)[0]?.bind (descendantsBreadth (Nav.new k))) = some [1, 5, 3, 6, 2, 4] := by decide +kernel

/-! ## C72 -/

/-- The layout of the root. -/
def topLine (c : FormattingConfig) (root : Kserd) : Repr' :=
  least (wish c c.widthLimit root) (maxRepr root.val) (if isSeqMap root.val then .concise else .verbose)

/-- How `apply_config` begins on a new formatter: the request for the root is answered, every other node is as verbose as its kind and its parent allow. -/
theorem config_start (root : Kserd) (f : Formatter) (hf : Formatter.new root = some f) (c : FormattingConfig) :
    ∃ (ds : List Nat) (g : Formatter), (∀ j, j ∈ ds ↔ 0 < j ∧ j < (Nav.new root).length) ∧
      (∀ a d b, ds = a ++ d :: b → Closed (Nav.new root) (0 :: a) ∧ Next (Nav.new root) (0 :: a) d) ∧
      g.root = root ∧ Rules g ∧ line g 0 = some (topLine c root) ∧ (∀ d ∈ ds, Down g d) ∧
      Solver.applyConfig f c = ds.foldlM (Solver.applyNode c) g := by
  obtain ⟨h0, hr⟩ := C22_rules root f (.new hf)
  obtain ⟨hmax0, hmax⟩ := C22_new_maximal root f hf
  obtain ⟨i1, i2, i3⟩ := rules_applyIds hr c
  have hshape : Shape (Solver.applyIds f c) := ⟨i1.nav, i1.len⟩
  obtain ⟨n, hn, hnk⟩ := root_get hshape
  have hroot : (Solver.applyIds f c).root = root := by rw [i2, h0]
  have hn' := hn; rw [i1.nav, hroot] at hn'
  obtain ⟨ds, hds, _⟩ := C21_descendants_breadth _ 0 n hn'
  obtain ⟨hnd, hmem, hord⟩ := order hn' hds
  rw [← hroot, ← i1.nav] at hds
  have h : ∀ g, (Solver.applyIds f c).requestOk 0
      (Solver.minLineRepr c.widthLimit (Solver.inlineTotal c root) (Solver.conciseTotal c root)) = some g →
      Solver.applyConfig f c = ds.foldlM (Solver.applyNode c) g := by
    intro g hg
    rw [Solver.applyConfig]
    simp only [hn, hds]
    rw [hnk, hroot, hg]
  have hw : Solver.minLineRepr c.widthLimit (Solver.inlineTotal c root) (Solver.conciseTotal c root) = wish c c.widthLimit root := minLine_wish c _ _
  rw [hw] at h
  have hdown : ∀ d ∈ ds, Down (Solver.applyIds f c) d := by
    intro d _ m p P hm hp hP
    rw [applyIds_line] at hP ⊢
    rw [i3] at hm
    exact hmax d p m P hm hp hP
  have hl0 : line (Solver.applyIds f c) 0 = some (if isSeqMap root.val then Repr'.min (maxRepr root.val) .concise else maxRepr root.val) := by
    rw [applyIds_line]; exact hmax0
  have hnop : n.parent = none := (C19_links _ 0 n hn').2.1.mpr rfl
  have hnv : n.kserd.val = root.val := by rw [hnk, hroot]
  generalize hrw : wish c c.widthLimit root = w at h
  -- the request for the root
  have key : ∀ g, (Solver.applyIds f c).requestOk 0 w = some g → line g 0 = some (least w (maxRepr root.val) (if isSeqMap root.val then .concise else .verbose)) ∧
      ∀ d ∈ ds, Down g d := by
    intro g hg
    rcases requestOk_cases hshape 0 w with ⟨g2, h2, h3⟩ | ⟨h2, er, h3⟩
    · rw [hg] at h2; cases h2
      obtain ⟨m', hm', hle, _, hsm⟩ := (C23_granted _ i1 0 w).mp ⟨_, h3⟩
      rw [hn] at hm'; cases hm'
      rw [hnv] at hle hsm
      refine ⟨?_, ?_⟩
      · rw [(C23_effect _ _ i1 0 w h3).2.2.1]
        congr 1
        revert hle hsm
        cases isSeqMap root.val <;> cases maxRepr root.val <;> cases w <;> decide
      · intro d hd
        refine down_kept i1 h3 hl0 ?_ (by have := ((hmem d).mp hd).1; omega) (hdown d hd)
        revert hle hsm
        cases isSeqMap root.val <;> cases maxRepr root.val <;> cases w <;> decide
    · rw [hg] at h2; cases h2
      refine ⟨?_, hdown⟩
      rw [hl0]
      congr 1
      have hno : ¬ (w ≤ maxRepr root.val ∧ ¬ (w = .verbose ∧ isSeqMap root.val = true)) := by
        rintro ⟨a, b⟩
        have hb : ¬ (0 = 0 ∧ w = .verbose ∧ isSeqMap n.kserd.val = true) := fun ⟨_, x, y⟩ => b ⟨x, by rw [← hnv]; exact y⟩
        have ha : w ≤ maxRepr n.kserd.val := by rw [hnv]; exact a
        have hp0 : ∀ p q, n.parent = some p → line (Solver.applyIds f c) p = some q → w ≤ q := by
          intro p q hp _
          rw [hnop] at hp; cases hp
        obtain ⟨g3, h6⟩ := (C23_granted _ i1 0 w).mpr ⟨n, hn, ha, hp0, hb⟩
        rw [h6] at h3; cases h3
      revert hno
      cases isSeqMap root.val <;> cases maxRepr root.val <;> cases w <;> decide
  obtain ⟨g, hg⟩ := requestOk_some hshape 0 w
  obtain ⟨k1, k2⟩ := key g hg
  obtain ⟨r1, r2, r3⟩ := rules_requestOk i1 hg
  exact ⟨ds, g, hmem, hord, by rw [r2, hroot], r1, by rw [k1, topLine, hrw], k2, h g hg⟩

/-- What `apply_config` leaves behind on a new formatter. -/
theorem config_done (root : Kserd) (f f' : Formatter) (hf : Formatter.new root = some f) (c : FormattingConfig)
    (h : Solver.applyConfig f c = some f') : f'.root = root ∧ Done c f' (topLine c root) := by
  obtain ⟨ds, g, hmem, hord, h0, hr, hl, hdown, he⟩ := config_start root f hf c
  rw [he] at h
  obtain ⟨x1, x2, x3, x4⟩ := run hord hmem ds [] g f' rfl h0 hr (fun d hd => by cases hd) hdown h
  refine ⟨x3, x2, ?_, by rw [x4, hl], fun _ _ _ _ _ _ => trivial, fun _ _ _ _ _ _ _ _ _ _ _ => trivial⟩
  intro d hd hdl _
  apply x1
  rw [hmem]
  rw [x2.nav, x3] at hdl
  exact ⟨hd, hdl⟩

/-- Where a formatter is settled, its layouts are those of the plan. -/
theorem layouts_on {c : FormattingConfig} {root : Kserd} {g : Formatter} {S : Nat → Prop} (h0 : g.root = root)
    (hd : DoneOn c g (topLine c root) S) : Seg S g 0 (layouts c root) := by
  have hshape : Shape g := ⟨hd.rules.nav, hd.rules.len⟩
  obtain ⟨n, hn, hnk⟩ := root_get hshape
  have hnode : ∃ m, node g.root 0 = some m ∧ m.kserd = root := by
    have hn' := hn; rw [hd.rules.nav] at hn'
    obtain ⟨m, hm, _, _, _, h4, _⟩ := get_node hn'
    exact ⟨m, hm, by rw [← h4, hnk, h0]⟩
  obtain ⟨m, hm, hmk⟩ := hnode
  have hkids := node_child hm
  rw [hmk] at hkids
  have hseg := val_plan hd root.val 0 0 _ n hkids hn (by rw [hnk, h0]) hd.root .root
  rw [layouts]
  exact Seg.cons hd.root hseg

/-- **C72.** `apply_config` on a new formatter gives the nodes, in preorder, the layouts that `layouts` describes from the top down: every node the least of
the layout its room suggests, the one its kind allows, and its parent's. -/
theorem C72_layouts (root : Kserd) (f f' : Formatter) (hf : Formatter.new root = some f) (c : FormattingConfig)
    (h : Solver.applyConfig f c = some f') : f'.fmts.map (·.line) = layouts c root := by
  obtain ⟨h0, hd⟩ := config_done root f f' hf c h
  have hall := layouts_on h0 hd
  have hlen : (layouts c root).length = f'.fmts.length := by
    rw [layouts]
    simp only [List.length_cons, planV_length]
    rw [hd.rules.len, hd.rules.nav, new_length, h0, size_eq root]
    omega
  apply List.ext_getElem?
  intro j
  by_cases hj : j < (layouts c root).length
  · have := hall j _ (List.getElem?_eq_getElem hj) trivial
    rw [Nat.zero_add, line] at this
    rw [List.getElem?_map, this, List.getElem?_eq_getElem hj]
  · rw [List.getElem?_eq_none (by rw [List.length_map]; omega), List.getElem?_eq_none (by omega)]

/-- A case with all three layouts. -/
def mixRoot : Kserd := .mk (some (str "T")) (.cntr [(str "a", .mk none (.seq [nm 1, nm 2, nm 3, nm 4, nm 5])), (str "b", .mk none (.str (str "hello world")))])

example : layouts { widthLimit := some 20 } mixRoot = [.verbose, .inline, .inline, .inline, .inline, .inline, .inline, .inline] ∧
    layouts { widthLimit := some 21 } mixRoot = [.concise, .concise, .inline, .inline, .inline, .inline, .inline, .inline] ∧
    layouts { widthLimit := some 60 } mixRoot = List.replicate 8 .inline := by decide +kernel

example : ∃ f f', Formatter.new mixRoot = some f ∧ Solver.applyConfig f { widthLimit := some 21 } = some f' := ⟨_, _, by rfl, by rfl⟩

/-- **C72.** What the documentation says about the root, if its concise text is estimated to be no wider than its inline text: inline if that fits the limit,
else concise if that fits, else verbose — as far as the root's kind allows. -/
theorem C72_preference_partial (root : Kserd) (f f' : Formatter) (hf : Formatter.new root = some f) (c : FormattingConfig) (w : Nat)
    (hc : c.widthLimit = some w) (h : Solver.applyConfig f c = some f') (hle : blockWidth c root ≤ subtreeWidth c root) :
    (line f' 0 = some .inline ↔ maxRepr root.val = .inline ∨ subtreeWidth c root ≤ w) ∧
    (line f' 0 = some .verbose ↔ maxRepr root.val = .verbose ∧ isSeqMap root.val = false ∧ w < blockWidth c root) := by
  have hr := (config_done root f f' hf c h).2.root
  rw [hr, topLine, hc, wish]
  generalize blockWidth c root = x at hle
  generalize subtreeWidth c root = y at hle
  rcases Nat.lt_or_ge w x with h1 | h1
  · have h2 : ¬ y ≤ w := by omega
    rw [if_pos h1, eq_true h1, eq_false h2]
    cases isSeqMap root.val <;> cases maxRepr root.val <;> decide
  · have h2 : ¬ w < x := by omega
    rw [if_neg h2, eq_false h2]
    rcases Nat.lt_or_ge w y with h3 | h3
    · have h4 : ¬ y ≤ w := by omega
      rw [if_pos h3, eq_false h4]
      cases isSeqMap root.val <;> cases maxRepr root.val <;> decide
    · have h4 : ¬ w < y := by omega
      rw [if_neg h4, eq_true (show y ≤ w from h3)]
      cases isSeqMap root.val <;> cases maxRepr root.val <;> decide

example : blockWidth {} mixRoot ≤ subtreeWidth {} mixRoot := by decide +kernel

/-- **C72.** Without that condition it fails: a text that fits the limit on one line is put on several lines, one of which does not fit. -/
theorem C72_fits_but_broken : ∃ (root : Kserd) (one several : Str), root.asStrWithConfig { widthLimit := none } = some one ∧ one.length ≤ 4 ∧
    root.asStrWithConfig { widthLimit := some 4 } = some several ∧ several = str "(\n    1\n)" ∧ ¬ LinesFit 4 several :=
  ⟨.mk none (.tuple [nm 1]), str "(1)", str "(\n    1\n)", by decide +kernel, by decide +kernel, by decide +kernel, rfl,
    fun h => absurd (h (str "(\n") (str "    1") (str "\n)") (by decide +kernel) (by decide +kernel)) (by decide +kernel)⟩

/-- **C72.** More room can make a node more verbose: with limit 20 the sequence in `mixRoot` is inline, with limit 21 it takes several lines. -/
theorem C72_not_monotone : ∃ (root : Kserd) (f f1 f2 : Formatter), Formatter.new root = some f ∧ Solver.applyConfig f { widthLimit := some 20 } = some f1 ∧
    Solver.applyConfig f { widthLimit := some 21 } = some f2 ∧ line f1 1 = some .inline ∧ line f2 1 = some .concise :=
  ⟨mixRoot, _, _, _, by rfl, by rfl, by rfl, by decide +kernel, by decide +kernel⟩

/-! ## C73 -/

/-- **C73.** Whatever was asked of a formatter before, applying a configuration a second time changes nothing. -/
theorem C73_again (root : Kserd) (f f' : Formatter) (h : Reachable root f) (c : FormattingConfig) (hc : Solver.applyConfig f c = some f') :
    Solver.applyConfig f' c = some f' := by
  obtain ⟨h0, hr⟩ := C22_rules root f h
  obtain ⟨h0', hr'⟩ := C22_rules root f' (.config c h hc)
  have hids := config_id hr hc
  have hnavs : f'.nav = f.nav := by rw [hr'.nav, hr.nav, h0, h0']
  obtain ⟨i1, i2, i3⟩ := rules_applyIds hr c
  have hshape : Shape (Solver.applyIds f c) := ⟨i1.nav, i1.len⟩
  obtain ⟨n, hn, hnk⟩ := root_get hshape
  have hroot : (Solver.applyIds f c).root = root := by rw [i2, h0]
  have hn' := hn; rw [i1.nav, hroot] at hn'
  obtain ⟨ds, hds, _⟩ := C21_descendants_breadth _ 0 n hn'
  obtain ⟨hnd, hmem, hord⟩ := order hn' hds
  have hds' := hds
  rw [← hroot, ← i1.nav] at hds
  rw [Solver.applyConfig] at hc
  simp only [hn, hds] at hc
  have hnf : f'.nav[0]? = some n := by rw [hr'.nav, h0']; exact hn'
  have hnop : n.parent = none := (C19_links _ 0 n hn').2.1.mpr rfl
  split at hc
  · cases hc
  · rename_i g hg
    obtain ⟨r1, r2, r3⟩ := rules_requestOk i1 hg
    obtain ⟨x1, x2, x3, x4⟩ := run_again hord hmem ds [] g f' rfl (by rw [r2, hroot]) r1 (fun d hd => by cases hd) hc
    rw [Solver.applyConfig, ids_same hr' (fun i n hn => hids i n (by rw [← hnavs]; exact hn))]
    simp only [hnf]
    rw [hr'.nav, h0', hds']
    simp only
    have : f'.requestOk 0 (Solver.minLineRepr c.widthLimit (Solver.inlineTotal c n.kserd) (Solver.conciseTotal c n.kserd)) = some f' := by
      rcases requestOk_cases hshape 0 (Solver.minLineRepr c.widthLimit (Solver.inlineTotal c n.kserd) (Solver.conciseTotal c n.kserd))
        with ⟨g2, h2, h3⟩ | ⟨h2, er, h3⟩
      · rw [hg] at h2; cases h2
        exact request_same hr' hnf (by rw [x4]; exact (C23_effect _ _ i1 0 _ h3).2.2.1)
      · apply request_not hr'
        rintro ⟨m', hm', a, _, b⟩
        rw [hnf] at hm'; cases hm'
        have hp0 : ∀ p q, n.parent = some p → line (Solver.applyIds f c) p = some q →
            Solver.minLineRepr c.widthLimit (Solver.inlineTotal c n.kserd) (Solver.conciseTotal c n.kserd) ≤ q := by
          intro p q hp _
          rw [hnop] at hp; cases hp
        obtain ⟨g3, h6⟩ := (C23_granted _ i1 0 _).mpr ⟨n, hn, a, hp0, b⟩
        rw [h6] at h3; cases h3
    rw [this]
    exact fold_same hr' ds x1

/-- A case meeting the hypotheses in which the first application does change something. -/
example : ∃ f f', Formatter.new mixRoot = some f ∧ Solver.applyConfig f { widthLimit := some 21 } = some f' ∧ f'.fmts ≠ f.fmts :=
  ⟨_, _, by rfl, by rfl, by decide +kernel⟩

/-- **C73 (partial).** On a new formatter the result depends on nothing but the Kserd and the configuration. -/
theorem C73_new_partial (root : Kserd) (f f' : Formatter) (hf : Formatter.new root = some f) (c : FormattingConfig)
    (h : Solver.applyConfig f c = some f') :
    f'.fmts = List.zipWith (fun x r => (⟨Solver.idFlag c x.val.kind, r⟩ : Fmt)) (preorder root) (layouts c root) := by
  obtain ⟨h0, hr⟩ := C22_rules root f (.new hf)
  obtain ⟨h0', hr'⟩ := C22_rules root f' (.config c (.new hf) h)
  have hl := C72_layouts root f f' hf c h
  have hnavs : f'.nav = f.nav := by rw [hr'.nav, hr.nav, h0, h0']
  apply List.ext_getElem?
  intro j
  rw [List.getElem?_zipWith, ← hl, ← (C18_preorder root).1, List.getElem?_map, List.getElem?_map, ← h0', ← hr'.nav]
  cases hn : f'.nav[j]? with
  | none =>
    have : f'.fmts[j]? = none := by
      rw [List.getElem?_eq_none_iff] at hn ⊢
      rw [hr'.len]; exact hn
    rw [this]; rfl
  | some n =>
    obtain ⟨fm, hfm⟩ := Shape.fmt ⟨hr'.nav, hr'.len⟩ hn
    have hid := config_id hr h j n (by rw [← hnavs]; exact hn)
    rw [idOn, hfm] at hid
    have hid : fm.id = _ := Option.some.inj hid
    rw [hfm]
    obtain ⟨a, b⟩ := fm
    simp only [Option.map_some] at hid ⊢
    rw [← hid]

/-- **C73.** On a formatter that was configured before it may depend on that: after asking for everything on one line, a limit of 0 no longer puts the
elements of a tuple on lines of their own. -/
theorem C73_history : ∃ (root : Kserd) (f f1 g f2 : Formatter), Formatter.new root = some f ∧
    Solver.applyConfig f { widthLimit := some 0 } = some f1 ∧ f1.writeString [] = some (str "T(\n    1\n)") ∧
    Solver.applyConfig f { widthLimit := none } = some g ∧ Solver.applyConfig g { widthLimit := some 0 } = some f2 ∧
    f2.writeString [] = some (str "T(1)") :=
  ⟨.mk (some (str "T")) (.tuple [nm 1]), _, _, _, _, by rfl, by rfl, by decide +kernel, by rfl, by rfl, by decide +kernel⟩

end KS.Props
