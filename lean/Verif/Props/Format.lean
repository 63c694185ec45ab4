import Verif.Lemmas.Write
/-!
# C24: panics of configuration and writing
-/

namespace KS.Props
open KS.Spec KS.Nav KS.Fm KS.Wr

/-! ## C24 -/

/-- **C24 (partial).** Writing a reachable formatter panics exactly when some string of the Kserd contains every one
of the twenty delimiters. The full claim, that it never panics, is false: see `C24_write_panics`. -/
theorem C24_write_partial (root : Kserd) (f : Formatter) (h : Reachable root f) (buf : Str) :
    (∃ out, f.writeString buf = some out) ↔ Writable (preorder root) := by
  obtain ⟨rfl, hr⟩ := C22_rules root f h
  rw [← node_isSome f.root 0 0 buf (rules_at hr), Option.isSome_iff_exists]; rfl

/-- **C24 negated for writing.** A string of the twenty delimiters cannot be written. -/
theorem C24_write_panics : ∃ f, Reachable (.mk none (.str delimiters)) f ∧ f.writeString [] = none :=
  ⟨_, .new (by rfl), by decide +kernel⟩

theorem links_len {root : Kserd} {i : Nat} {n : NavNode} (h : (Nav.new root)[i]? = some n) :
    n.valueChildren.length = (valuesOf n.kserd.val).length ∧ n.keyChildren.length = (keysOf n.kserd.val).length := by
  obtain ⟨_, _, _, _, _, h6, h7⟩ := C19_links root i n h
  have a := congrArg List.length h6
  have b := congrArg List.length h7
  simp only [List.length_map] at a b
  exact ⟨a, b⟩

/-- Every map key is a primitive, a tuple or empty. -/
def SmallKeys (root : Kserd) : Prop :=
  ∀ x ∈ preorder root, ∀ k ∈ keysOf x.val, maxRepr k.val ≤ .concise

/-- No key is verbose in the state. -/
def KeysOk (f : Formatter) : Prop :=
  ∀ (i : Nat) (n : NavNode), f.nav[i]? = some n → isKey n = true → line f i ≠ some .verbose

theorem idx_lt {root : Kserd} {j p : Nat} {m q : NavNode} (hm : (Nav.new root)[j]? = some m) (hp : m.parent = some p)
    (hq : (Nav.new root)[p]? = some q) :
    (isKey m = false → idxInParent m < q.valueChildren.length) ∧ (isKey m = true → idxInParent m < q.keyChildren.length) := by
  obtain ⟨_, _, h3, h4, h5, _⟩ := C19_links root p q hq
  obtain ⟨a, b⟩ := h3 j m hm
  constructor
  · intro hk
    obtain ⟨x, hx⟩ := List.mem_iff_getElem?.mp (a.mpr ⟨hp, hk⟩)
    obtain ⟨m', hm', rfl⟩ := h4 x j hx
    rw [hm] at hm'; cases hm'
    exact (List.getElem?_eq_some_iff.mp hx).1
  · intro hk
    obtain ⟨x, hx⟩ := List.mem_iff_getElem?.mp (b.mpr ⟨hp, hk⟩)
    obtain ⟨m', hm', rfl⟩ := h5 x j hx
    rw [hm] at hm'; cases hm'
    exact (List.getElem?_eq_some_iff.mp hx).1

theorem keyed_of_key {root : Kserd} {j p : Nat} {m q : NavNode} (hm : (Nav.new root)[j]? = some m) (hp : m.parent = some p)
    (hq : (Nav.new root)[p]? = some q) (hk : isKey m = true) : m.kserd ∈ keysOf q.kserd.val := by
  obtain ⟨_, _, h3, _, _, _, h7⟩ := C19_links root p q hq
  have hj := (h3 j m hm).2.mpr ⟨hp, hk⟩
  have : ((Nav.new root)[j]?).map (·.kserd) ∈ q.keyChildren.map (fun j => ((Nav.new root)[j]?).map (·.kserd)) :=
    List.mem_map_of_mem hj
  rw [h7, hm, List.mem_map] at this
  obtain ⟨x, hx, he⟩ := this
  cases he; exact hx

theorem key_has_parent {root : Kserd} {j : Nat} {m : NavNode} (hm : (Nav.new root)[j]? = some m) (hk : isKey m = true) :
    ∃ p, m.parent = some p := by
  cases hp : m.parent with
  | some p => exact ⟨p, rfl⟩
  | none =>
    have h0 := ((C19_links root j m hm).2.1).mp hp
    subst h0
    obtain ⟨n', hn', _, _, h3, _⟩ := get_node hm
    have : n' = mkN 0 ({}, root) := by rw [node, forest_cons] at hn'; simpa using hn'.symm
    rw [isKey, h3, this] at hk; cases hk

theorem keysOk_of_small {f : Formatter} (h : Rules f) (hs : SmallKeys f.root) : KeysOk f := by
  intro i n hn hk hv
  have hn' := hn; rw [h.nav] at hn'
  obtain ⟨p, hp⟩ := key_has_parent hn' hk
  obtain ⟨_, q, hq⟩ := parent_lt hn' hp
  have hmem := keyed_of_key hn' hp hq hk
  have hqm : q.kserd ∈ preorder f.root := by
    rw [← (C18_preorder f.root).1]; exact List.mem_map_of_mem (List.mem_of_getElem? hq)
  have h1 := hs q.kserd hqm _ hmem
  have h2 := h.max i n .verbose hn hv
  exact absurd (rle_trans h2 h1) (by decide)

theorem pcc_some {f : Formatter} (h : Rules f) (hk : KeysOk f) {config : FormattingConfig} {j p : Nat} {m q : NavNode}
    (hm : f.nav[j]? = some m) (hp : m.parent = some p) (hq : f.nav[p]? = some q) {r : Repr'} (hl : line f p = some r)
    (hr : r ≠ .inline) : ∃ o, Solver.concisePCC config f.nav f.fmts q m = some o := by
  have hmax := h.max p q r hq hl
  have hshape : Shape f := ⟨h.nav, h.len⟩
  have hm' := hm; have hq' := hq
  rw [h.nav] at hm' hq'
  obtain ⟨i1, i2⟩ := idx_lt hm' hp hq'
  obtain ⟨l1, l2⟩ := links_len hq'
  have nokey : keysOf q.kserd.val = [] → isKey m = false := by
    intro he
    cases hkm : isKey m with
    | false => rfl
    | true => have := i2 hkm; rw [l2, he] at this; simp at this
  rw [Solver.concisePCC]
  cases hv : q.kserd.val <;> rw [hv] at hmax l1 l2 nokey
  case tuple l => exact ⟨_, rfl⟩
  case seq l => exact ⟨_, rfl⟩
  case cntr fs =>
    have := i1 (nokey rfl)
    rw [l1] at this
    simp only [valuesOf, List.length_map] at this
    simp only [Solver.cntrFieldOffset, List.getElem?_eq_getElem this]
    exact ⟨_, rfl⟩
  case map ms =>
    simp only [Solver.mapEntryOffset]
    cases hkm : isKey m with
    | true => exact ⟨_, rfl⟩
    | false =>
      have := i1 hkm
      rw [l1] at this
      simp only [valuesOf, List.length_map] at this
      obtain ⟨ki, hki⟩ : ∃ ki, q.keyChildren[idxInParent m]? = some ki :=
        ⟨_, List.getElem?_eq_getElem (by rw [l2]; simpa [keysOf] using this)⟩
      obtain ⟨_, _, h3, _, h5, _, _⟩ := C19_links f.root p q hq'
      obtain ⟨kn, hkn, _⟩ := h5 _ _ hki
      have hkey := ((h3 ki kn hkn).2.mp (List.mem_of_getElem? hki)).2
      rw [← h.nav] at hkn
      obtain ⟨kf, hkf⟩ := hshape.fmt hkn
      have hnv := hk ki kn hkn hkey
      have hlk : line f ki = some kf.line := by rw [line, hkf]; rfl
      rw [hlk] at hnv
      simp only [hki, hkn, hkf]
      cases hkl : kf.line with
      | inline => exact ⟨_, rfl⟩
      | concise => exact ⟨_, rfl⟩
      | verbose => rw [hkl] at hnv; exact absurd rfl hnv
  all_goals exact absurd (rle_inline hmax) hr

theorem vpcc_some {f : Formatter} (h : Rules f) {p : Nat} {q : NavNode} (m : NavNode)
    (hq : f.nav[p]? = some q) (hl : line f p = some .verbose) : ∃ o, Solver.verbosePCC q m = some o := by
  have hmax := h.max p q .verbose hq hl
  rw [Solver.verbosePCC]
  cases hv : q.kserd.val <;> rw [hv] at hmax
  case tuple l => exact absurd hmax tuple_not_verbose
  case seq l => exact ⟨_, rfl⟩
  case map l => exact ⟨_, rfl⟩
  case cntr l => simp only [Value.kind]; cases m.kserd.val <;> exact ⟨_, rfl⟩
  all_goals exact absurd hmax (by simp only [maxRepr]; decide)

theorem offsetLoop_some {f : Formatter} (h : Rules f) (hk : KeysOk f) {config : FormattingConfig} :
    ∀ (fuel j : Nat) (m : NavNode) (off : Nat), j < fuel → f.nav[j]? = some m →
      ∃ o, Solver.offsetLoop config f.nav f.fmts fuel m off = some o
  | 0, j, m, off, hj, _ => by omega
  | fuel + 1, j, m, off, hj, hm => by
    have hshape : Shape f := ⟨h.nav, h.len⟩
    have hm' := hm; rw [h.nav] at hm'
    have hidx := (C18_preorder f.root).2.1 j m hm'
    rw [Solver.offsetLoop]
    cases hp : m.parent with
    | none =>
      have : Nav.parent f.nav m = none := by rw [Nav.parent, hp]; rfl
      obtain ⟨fm, hfm⟩ := hshape.fmt hm
      rw [this, hidx]
      simp only [hfm]
      exact ⟨_, rfl⟩
    | some p =>
      obtain ⟨hpj, q, hq⟩ := parent_lt hm' hp
      have hqi := (C18_preorder f.root).2.1 p q hq
      rw [← h.nav] at hq
      have : Nav.parent f.nav m = some q := by rw [Nav.parent, hp]; exact hq
      obtain ⟨pf, hpf⟩ := hshape.fmt hq
      have hlp : line f p = some pf.line := by rw [line, hpf]; rfl
      rw [this]
      simp only [hqi, hpf]
      have hadd : ∃ a, (match pf.line with
          | .inline => some 0
          | .concise => Solver.concisePCC config f.nav f.fmts q m
          | .verbose => Solver.verbosePCC q m) = some a := by
        cases hl : pf.line with
        | inline => exact ⟨0, rfl⟩
        | concise => exact pcc_some h hk hm hp hq hlp (by rw [hl]; decide)
        | verbose => rw [hl] at hlp; exact vpcc_some h m hq hlp
      obtain ⟨a, ha⟩ := hadd
      split
      · rename_i hn
        exfalso
        have := hn.symm.trans ha
        cases this
      · exact offsetLoop_some h hk fuel p q _ (by omega) hq

theorem calculateOffset_some {f : Formatter} (h : Rules f) (hk : KeysOk f) {config : FormattingConfig} {j : Nat} {m : NavNode}
    (hm : f.nav[j]? = some m) : ∃ o, Solver.calculateOffset config f.nav f.fmts m = some o := by
  have hshape : Shape f := ⟨h.nav, h.len⟩
  have hm' := hm; rw [h.nav] at hm'
  rw [Solver.calculateOffset]
  cases hp : m.parent with
  | none =>
    have : Nav.parent f.nav m = none := by rw [Nav.parent, hp]; rfl
    rw [this]; exact ⟨0, rfl⟩
  | some p =>
    obtain ⟨hpj, q, hq⟩ := parent_lt hm' hp
    have hqi := (C18_preorder f.root).2.1 p q hq
    rw [← h.nav] at hq
    have : Nav.parent f.nav m = some q := by rw [Nav.parent, hp]; exact hq
    obtain ⟨pf, hpf⟩ := hshape.fmt hq
    have hlp : line f p = some pf.line := by rw [line, hpf]; rfl
    rw [this]
    simp only [hqi, hpf]
    have hadd : ∃ a, (match pf.line with
        | .inline => some 0
        | _ => Solver.concisePCC config f.nav f.fmts q m) = some a := by
      cases hl : pf.line with
      | inline => exact ⟨0, rfl⟩
      | concise => exact pcc_some h hk hm hp hq hlp (by rw [hl]; decide)
      | verbose => exact pcc_some h hk hm hp hq hlp (by rw [hl]; decide)
    obtain ⟨a, ha⟩ := hadd
    split
    · rename_i hn
      exfalso
      have := hn.symm.trans ha
      cases this
    · have hl := (List.getElem?_eq_some_iff.mp hq).1
      exact offsetLoop_some h hk _ p q _ (by omega) hq

theorem requestOk_some {f : Formatter} (h : Shape f) (d : Nat) (r : Repr') : ∃ g, f.requestOk d r = some g := by
  rcases requestOk_cases h d r with ⟨g, hg, _⟩ | ⟨hg, _⟩
  · exact ⟨g, hg⟩
  · exact ⟨f, hg⟩

theorem applyNodes_some {c : FormattingConfig} : ∀ (ds : List Nat) (f : Formatter), Rules f →
    (∀ (g : Formatter), Rules g → g.root = f.root → KeysOk g) → (∀ d ∈ ds, 0 < d ∧ d < f.nav.length) →
    ∃ f', ds.foldlM (Solver.applyNode c) f = some f'
  | [], f, _, _, _ => ⟨f, rfl⟩
  | d :: ds, f, h, hk, hd => by
    have hshape : Shape f := ⟨h.nav, h.len⟩
    obtain ⟨h0, hlt⟩ := hd d (by simp)
    obtain ⟨m, hm⟩ : ∃ m, f.nav[d]? = some m := ⟨_, List.getElem?_eq_getElem hlt⟩
    have hm' := hm; rw [h.nav] at hm'
    obtain ⟨p, hp⟩ : ∃ p, m.parent = some p := by
      cases hp : m.parent with
      | some p => exact ⟨p, rfl⟩
      | none => have := ((C19_links f.root d m hm').2.1).mp hp; omega
    obtain ⟨_, q, hq⟩ := parent_lt hm' hp
    have hpar : Nav.parent f.nav m = some q := by rw [Nav.parent, hp, h.nav]; exact hq
    obtain ⟨o, ho⟩ := calculateOffset_some h (hk f h rfl) (config := c) hm
    have hg : ∃ g, Solver.applyNode c f d = some g := by
      simp only [Solver.applyNode, hm, ho, hpar]
      exact requestOk_some hshape _ _
    obtain ⟨g, hg⟩ := hg
    obtain ⟨h1, h2, h3⟩ := rules_applyNode h hg
    rw [List.foldlM_cons, hg]
    exact applyNodes_some ds g h1 (fun g' hg' hr => hk g' hg' (by rw [hr, h2])) (fun d' hd' => by rw [h3]; exact hd d' (by simp [hd']))

/-- **C24 (partial).** Applying any configuration to a reachable formatter of a Kserd whose map keys are primitives,
tuples or empty never panics. Without the restriction the claim is false: see `C24_config_panics`. -/
theorem C24_config_partial (root : Kserd) (f : Formatter) (h : Reachable root f) (hk : SmallKeys root) (c : FormattingConfig) :
    ∃ f', Solver.applyConfig f c = some f' := by
  obtain ⟨rfl, hr⟩ := C22_rules root f h
  obtain ⟨h1, h2, h3⟩ := rules_applyIds hr c
  have hshape : Shape (Solver.applyIds f c) := ⟨h1.nav, h1.len⟩
  obtain ⟨n, hn, hnk⟩ := root_get hshape
  have hn' := hn; rw [h1.nav] at hn'
  obtain ⟨ds, hds, _, hb, _⟩ := C21_descendants_breadth _ 0 n hn'
  rw [← h1.nav] at hds
  rw [Solver.applyConfig]
  simp only [hn, hds]
  obtain ⟨g, hg⟩ : ∃ g, (Solver.applyIds f c).requestOk 0 (Solver.minLineRepr c.widthLimit (Solver.inlineTotal c n.kserd)
      (Solver.conciseTotal c n.kserd)) = some g := by
    exact requestOk_some hshape _ _
  rw [hg]
  obtain ⟨r1, r2, r3⟩ := rules_requestOk h1 hg
  apply applyNodes_some ds g r1
  · intro g' hg' hr'
    apply keysOk_of_small hg'
    rw [hr', r2, h2]; exact hk
  · intro d hd
    rw [hb d] at hd
    obtain ⟨a, m, hm, _⟩ := below_bounds hn' hd
    have := (List.getElem?_eq_some_iff.mp hm).1
    rw [r3, h1.nav]; exact ⟨a, this⟩

/-- **C24 negated for configurations.** A map with a sequence as key, inside a container, with width limit 0. -/
theorem C24_config_panics : ∃ root f, Reachable root f ∧ Solver.applyConfig f { widthLimit := some 0 } = none :=
  ⟨.mk none (.cntr [(str "a", .mk none (.map [(.mk none (.seq [.mk none (.num (.uint 1))]), .mk none (.num (.uint 1)))]))]), _,
    .new (by rfl), by decide +kernel⟩

/-- A Kserd meeting the hypothesis: a map with a tuple and a number as keys. -/
example : SmallKeys (.mk none (.map [(.mk none (.tuple [.mk none .unit]), .mk none .unit), (.mk none (.num (.uint 1)), .mk none .unit)])) := by
  intro x hx k hk
  simp only [preorder, preorderV, preorderM, preorderL, List.mem_cons, List.mem_append, List.not_mem_nil, or_false, List.append_nil] at hx
  rcases hx with rfl | (rfl | rfl) | rfl | rfl | rfl <;> simp [Kserd.val, keysOf] at hk
  rcases hk with rfl | rfl <;> decide

end KS.Props
