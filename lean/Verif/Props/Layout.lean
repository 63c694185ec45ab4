import Verif.Props.Format
import Verif.Lemmas.WriteInline
import Verif.Lemmas.WriteWidth
import Verif.Lemmas.WriteIds
/-!
# C25–C28: width limits and identity switches
-/

namespace KS.Props
open KS.Spec KS.Nav KS.Fm KS.Wr

/-! ## C25 -/

/-- Every node is inline. -/
def AllInline (f : Formatter) : Prop := ∀ i r, line f i = some r → r = .inline

theorem applyIds_line {f : Formatter} (c : FormattingConfig) (i : Nat) : line (Solver.applyIds f c) i = line f i := by
  rw [Solver.applyIds]
  generalize List.range f.nav.length = l
  induction l generalizing f with
  | nil => rfl
  | cons a l ih =>
    rw [List.foldl_cons, ih, Solver.idStep]
    split
    · rfl
    · split
      · rename_i h; exact (setId_line h i).1
      · rfl

theorem below_root {root : Kserd} {i : Nat} {n : NavNode} (hn : (Nav.new root)[i]? = some n) (hi : i ≠ 0) :
    Below (Nav.new root) 0 i := by
  obtain ⟨_, _, n0, hn0, hk⟩ := C18_preorder root
  apply below_of_range hn0 i (by omega)
  have := (List.getElem?_eq_some_iff.mp hn).1
  rw [new_length] at this
  rw [hk]; omega

/-- With everything inline and no width limit, the pass over the descendants changes nothing. -/
theorem applyNode_inline {f : Formatter} (h : Rules f) (hi : AllInline f) {c : FormattingConfig} (hc : c.widthLimit = none)
    {d : Nat} (hd : 0 < d ∧ d < f.nav.length) : Solver.applyNode c f d = some f := by
  have hshape : Shape f := ⟨h.nav, h.len⟩
  obtain ⟨m, hm⟩ : ∃ m, f.nav[d]? = some m := ⟨_, List.getElem?_eq_getElem hd.2⟩
  have hm' := hm; rw [h.nav] at hm'
  obtain ⟨p, hp⟩ : ∃ p, m.parent = some p := by
    cases hp : m.parent with
    | some p => exact ⟨p, rfl⟩
    | none => have := ((C19_links f.root d m hm').2.1).mp hp; omega
  obtain ⟨_, q, hq⟩ := parent_lt hm' hp
  have hpar : Nav.parent f.nav m = some q := by rw [Nav.parent, hp, h.nav]; exact hq
  have hk : KeysOk f := by
    intro i n hn _ hv
    cases hi i _ hv
  obtain ⟨o, ho⟩ := calculateOffset_some h hk (config := c) hm
  obtain ⟨fm, hfm⟩ := hshape.fmt hm
  have hline : fm.line = .inline := hi d _ (by rw [line, hfm]; rfl)
  simp only [Solver.applyNode, hm, ho, hpar, hc, Option.map_none, Solver.minLineRepr]
  rw [if_neg (by rintro ⟨h, _⟩; cases h), Formatter.requestOk, Formatter.request]
  simp only [hm, hfm, hline, if_true]

/-- **C25.** Without width limit configuring succeeds and puts every node inline. -/
theorem C25_inline (root : Kserd) (f : Formatter) (h : Reachable root f) (c : FormattingConfig) (hc : c.widthLimit = none) :
    ∃ f', Solver.applyConfig f c = some f' ∧ f'.root = root ∧ ∀ i < (preorder root).length, line f' i = some .inline := by
  obtain ⟨rfl, hr⟩ := C22_rules root f h
  obtain ⟨h1, h2, h3⟩ := rules_applyIds hr c
  have hshape : Shape (Solver.applyIds f c) := ⟨h1.nav, h1.len⟩
  obtain ⟨n, hn, hnk⟩ := root_get hshape
  have hn' := hn; rw [h1.nav] at hn'
  obtain ⟨ds, hds, _, hb, _⟩ := C21_descendants_breadth _ 0 n hn'
  rw [← h1.nav] at hds
  -- the request for the root is granted
  obtain ⟨g, hg⟩ := (C23_granted _ h1 0 .inline).mpr ⟨n, hn, inline_rle _, fun _ _ _ _ => inline_rle _, by rintro ⟨_, h, _⟩; cases h⟩
  obtain ⟨g1, g2, g3⟩ := rules_request h1 hg
  obtain ⟨_, _, e1, e2, _⟩ := C23_effect _ g h1 0 .inline hg
  have hall : AllInline g := by
    intro i r hl
    by_cases hi : i = 0
    · subst hi; rw [e1] at hl; cases hl; rfl
    · have hlt : i < g.fmts.length := by
        rw [line] at hl
        cases hx : g.fmts[i]? with
        | none => rw [hx] at hl; cases hl
        | some x => exact (List.getElem?_eq_some_iff.mp hx).1
      rw [g1.len, g3] at hlt
      obtain ⟨m, hm⟩ : ∃ m, (Solver.applyIds f c).nav[i]? = some m := ⟨_, List.getElem?_eq_getElem hlt⟩
      obtain ⟨x, hx⟩ := line_some hshape hm
      have hm' := hm; rw [h1.nav] at hm'
      have := e2 i x (by rw [h1.nav]; exact below_root hm' hi) hx
      rw [this] at hl; cases hl
      exact rle_inline (rmin_le_right _ _)
  have hpass : ∀ ds : List Nat, (∀ d ∈ ds, 0 < d ∧ d < g.nav.length) → ds.foldlM (Solver.applyNode c) g = some g := by
    intro ds
    induction ds with
    | nil => intro _; rfl
    | cons d ds ih =>
      intro hd
      rw [List.foldlM_cons, applyNode_inline g1 hall hc (hd d (by simp))]
      exact ih (fun d' hd' => hd d' (by simp [hd']))
  refine ⟨g, ?_, by rw [g2, h2], ?_⟩
  · have hok : (Solver.applyIds f c).requestOk 0 .inline = some g := by rw [Formatter.requestOk, hg]
    rw [Solver.applyConfig]
    simp only [hn, hds, hc, Solver.minLineRepr, hok]
    apply hpass
    intro d hd
    rw [hb d] at hd
    obtain ⟨a, m, hm, _⟩ := below_bounds hn' hd
    have := (List.getElem?_eq_some_iff.mp hm).1
    rw [g3, h1.nav]; exact ⟨a, this⟩
  · intro i hi
    have hlt : i < g.nav.length := by rw [g3, h3, hr.nav, new_length, ← size_preorder]; exact hi
    obtain ⟨m, hm⟩ : ∃ m, g.nav[i]? = some m := ⟨_, List.getElem?_eq_getElem hlt⟩
    obtain ⟨r, hl⟩ := line_some ⟨g1.nav, g1.len⟩ hm
    rw [hl, hall i r hl]

theorem allInline_at {f : Formatter} (hr : Rules f) (h : ∀ i < (preorder f.root).length, line f i = some .inline) :
    At InlineOk f.fmts 0 (preorder f.root) := by
  apply at_of_nav hr.nav hr.len
  intro i n fm hn hfm
  have hl := (List.getElem?_eq_some_iff.mp hn).1
  rw [hr.nav, new_length, ← size_preorder] at hl
  have := h i hl
  rw [line, hfm] at this
  exact Option.some.inj this

/-- **C25.** A reachable formatter all of whose nodes are inline writes a text whose characters are printable ASCII or
come from identities, strings and field names of the Kserd. -/
theorem C25_chars (root : Kserd) (f : Formatter) (h : Reachable root f) (Q : Char → Prop) (hQ : ∀ c, Printable c → Q c)
    (hi : ∀ i < (preorder root).length, line f i = some .inline) (ht : ∀ x ∈ preorder root, TextAll Q x) (out : Str)
    (ho : f.writeString [] = some out) : ∀ c ∈ out, Q c := by
  obtain ⟨rfl, hr⟩ := C22_rules root f h
  exact node_cs hQ f.root 0 0 [] out (allInline_at hr hi) ht cs_nil ho

/-- **C25.** Without width limit the text has a line break only if some identity, string or field name has one. -/
theorem C25_one_line (root : Kserd) (c : FormattingConfig) (hc : c.widthLimit = none)
    (ht : ∀ x ∈ preorder root, TextAll (· ≠ '\n') x) (out : Str) (ho : root.asStrWithConfig c = some out) : '\n' ∉ out := by
  obtain ⟨f, hf, _, _⟩ := C22_new root
  obtain ⟨f', hf', h1, h2⟩ := C25_inline root f (.new hf) c hc
  rw [Kserd.asStrWithConfig, hf] at ho
  simp only [Option.bind_some, hf'] at ho
  intro hm
  exact C25_chars root f' (.config c (.new hf) hf') (· ≠ '\n')
    (by rintro c ⟨h, _⟩ rfl; revert h; decide) h2 ht out ho _ hm rfl

/-- The hypotheses are met by a container with a sequence. -/
example : (Kserd.mk (some (str "T")) (.cntr [(str "a", .mk none (.seq [.mk none (.num (.uint 1)), .mk none (.str (str "x"))]))])).asStrWithConfig
    { widthLimit := none } = some (str "T (a = [1, \"x\"])") := by decide +kernel

/-! ## C26 -/

/-- A configuration run is a request for the root followed by requests for other nodes. -/
theorem applyConfig_inv {f f' : Formatter} {c : FormattingConfig} (hr : Rules f) (h : Solver.applyConfig f c = some f')
    (Inv : Formatter → Prop)
    (hroot : ∀ g, Rules g → (Solver.applyIds f c).requestOk 0 (Solver.minLineRepr c.widthLimit (Solver.inlineTotal c f.root)
      (Solver.conciseTotal c f.root)) = some g → Inv g)
    (hstep : ∀ g g' d, Rules g → Inv g → 0 < d → d < g.nav.length → Solver.applyNode c g d = some g' → Inv g') : Inv f' := by
  obtain ⟨h1, h2, h3⟩ := rules_applyIds hr c
  have hshape : Shape (Solver.applyIds f c) := ⟨h1.nav, h1.len⟩
  obtain ⟨n, hn, hnk⟩ := root_get hshape
  have hn' := hn; rw [h1.nav] at hn'
  obtain ⟨ds, hds, hnd, hb, hkk⟩ := C21_descendants_breadth _ 0 n hn'
  rw [← h1.nav] at hds
  rw [Solver.applyConfig] at h
  simp only [hn, hds] at h
  rw [hnk, h2] at h
  split at h
  · cases h
  · rename_i g hg
    obtain ⟨r1, r2, r3⟩ := rules_requestOk h1 hg
    have hd : ∀ d ∈ ds, 0 < d ∧ d < g.nav.length := by
      intro d hd
      rw [hb d] at hd
      obtain ⟨a, m, hm, _⟩ := below_bounds hn' hd
      have := (List.getElem?_eq_some_iff.mp hm).1
      rw [r3, h1.nav]; exact ⟨a, this⟩
    have hi := hroot g r1 hg
    clear hg hds hb r2 r3 hnd hkk
    induction ds generalizing g with
    | nil => simp only [List.foldlM_nil] at h; cases h; exact hi
    | cons d ds ih =>
      rw [List.foldlM_cons] at h
      cases he : Solver.applyNode c g d with
      | none => rw [he] at h; cases h
      | some g' =>
        rw [he] at h
        obtain ⟨a, _, b⟩ := rules_applyNode r1 he
        exact ih g' h a (fun d' hd' => by rw [b]; exact hd d' (by simp [hd'])) (hstep g g' d r1 hi (hd d (by simp)).1 (hd d (by simp)).2 he)

/-- The body of the loop is a request. -/
theorem applyNode_request {g g' : Formatter} {c : FormattingConfig} {d : Nat} (h : Solver.applyNode c g d = some g') :
    ∃ (m : NavNode) (o : Nat) (r : Repr'), g.nav[d]? = some m ∧ g.requestOk d r = some g' ∧
      (Solver.minLineRepr (c.widthLimit.map (· - o)) (Solver.inlineTotal c m.kserd) (Solver.conciseTotal c m.kserd) = .verbose → r = .verbose) := by
  rw [Solver.applyNode] at h
  split at h
  · cases h
  · rename_i m hm
    split at h
    · cases h
    · rename_i o ho
      dsimp only at h
      split at h
      · cases h
      · refine ⟨m, o, _, hm, h, ?_⟩
        intro hv
        simp only [hv]
        simp

theorem inlineWidth_pos (c : FormattingConfig) (id : Option Str) (v : Value) : 0 < Solver.inlineWidth c id v := by
  cases v <;> simp only [Solver.inlineWidth]
  case unit => split <;> omega
  case bool b => cases b <;> simp
  case num n =>
    have := disp_ne_nil n
    have := List.length_pos_iff.mpr this
    omega
  all_goals omega

theorem conciseTotal_pos (c : FormattingConfig) (k : Kserd) : 0 < Solver.conciseTotal c k := by
  obtain ⟨id, v⟩ := k
  rw [Solver.conciseTotal]
  have : 0 < Solver.conciseWidth c id v := by
    cases v <;> simp only [Solver.conciseWidth] <;> first | omega | exact inlineWidth_pos _ _ _
  omega

/-- Every line of `f` is at most that of `g`. -/
def LinesLe (f g : Formatter) : Prop := ∀ i x, line f i = some x → ∃ y, line g i = some y ∧ x ≤ y

theorem LinesLe.trans {f g h : Formatter} (a : LinesLe f g) (b : LinesLe g h) : LinesLe f h := by
  intro i x hx
  obtain ⟨y, hy, h1⟩ := a i x hx
  obtain ⟨z, hz, h2⟩ := b i y hy
  exact ⟨z, hz, rle_trans h1 h2⟩

theorem requestOk_verbose {g g' : Formatter} (hr : Rules g) {d : Nat} (h : g.requestOk d .verbose = some g') : LinesLe g g' := by
  have hs : Shape g := ⟨hr.nav, hr.len⟩
  rcases requestOk_cases hs d .verbose with ⟨g2, h2, h3⟩ | ⟨h2, _⟩
  · rw [h] at h2; cases h2
    obtain ⟨_, _, e1, e2, e3, _⟩ := C23_effect _ _ hr d .verbose h3
    intro i x hx
    by_cases hi : i = d
    · subst hi; exact ⟨_, e1, rle_verbose _⟩
    · by_cases hb : Below g.nav d i
      · exact ⟨_, e2 i x hb hx, rle_min (rle_refl _) (rle_verbose _)⟩
      · exact ⟨x, by rw [e3 i hi hb, hx], rle_refl _⟩
  · rw [h] at h2; cases h2
    exact fun i x hx => ⟨x, hx, rle_refl _⟩

theorem zero_width {c : FormattingConfig} (hc : c.widthLimit = some 0) (o : Nat) (k : Kserd) :
    Solver.minLineRepr (c.widthLimit.map (· - o)) (Solver.inlineTotal c k) (Solver.conciseTotal c k) = .verbose := by
  rw [hc]
  simp only [Option.map_some, Nat.zero_sub, Solver.minLineRepr]
  rw [if_pos (conciseTotal_pos c k)]

theorem config_zero {f f' : Formatter} (hr : Rules f) {c : FormattingConfig} (hc : c.widthLimit = some 0)
    (h : Solver.applyConfig f c = some f') : LinesLe f f' := by
  apply applyConfig_inv hr h (fun g => LinesLe f g)
  · intro g _ hg
    have := zero_width hc 0 f.root
    rw [hc] at this
    rw [hc] at hg
    simp only [Option.map_some, Nat.zero_sub] at this
    rw [this] at hg
    have h1 := requestOk_verbose (rules_applyIds hr c).1 hg
    intro i x hx
    exact h1 i x (by rw [applyIds_line]; exact hx)
  · intro g g' d hg hi _ _ hs
    obtain ⟨m, o, r, _, hr', hv⟩ := applyNode_request hs
    rw [hv (zero_width hc o _)] at hr'
    exact hi.trans (requestOk_verbose hg hr')

theorem parent_nonempty {root : Kserd} {j p : Nat} {m q : NavNode} (hm : (Nav.new root)[j]? = some m) (hp : m.parent = some p)
    (hq : (Nav.new root)[p]? = some q) : maxRepr q.kserd.val ≠ .inline := by
  obtain ⟨h1, h2⟩ := idx_lt hm hp hq
  obtain ⟨l1, l2⟩ := links_len hq
  have hpos : valuesOf q.kserd.val ≠ [] ∨ keysOf q.kserd.val ≠ [] := by
    cases hk : isKey m with
    | false => left; intro h; have := h1 hk; rw [l1, h] at this; simp at this
    | true => right; intro h; have := h2 hk; rw [l2, h] at this; simp at this
  cases hv : q.kserd.val <;> rw [hv] at hpos <;> simp only [valuesOf, keysOf] at hpos <;> simp only [maxRepr]
  case tuple l => rw [if_neg (by simpa using hpos)]; decide
  case seq l => rw [if_neg (by simpa using hpos)]; decide
  case cntr l => rw [if_neg (by simpa using hpos)]; decide
  case map l => rw [if_neg (by simpa using hpos)]; decide
  all_goals simp at hpos

/-- After `Formatter::new` only nodes that must be are inline. -/
theorem new_not_inline (root : Kserd) (f : Formatter) (hf : Formatter.new root = some f) (i : Nat) (n : NavNode) :
    (Nav.new root)[i]? = some n → maxRepr n.kserd.val ≠ .inline → ∃ r, line f i = some r ∧ Repr'.concise ≤ r := by
  obtain ⟨f', hf', hroot, hr⟩ := C22_new root
  rw [hf] at hf'; cases hf'
  obtain ⟨m1, m2⟩ := C22_new_maximal root f hf
  have hge : ∀ {r : Repr'}, r ≠ .inline → Repr'.concise ≤ r := by intro r h; cases r <;> first | exact absurd rfl h | decide
  have hnav : f.nav = Nav.new root := by rw [hr.nav, hroot]
  induction i using Nat.strongRecOn generalizing n with
  | ind i ih =>
    intro hn hmax
    have hmin : Repr'.concise ≤ Repr'.min (maxRepr n.kserd.val) .concise := rle_min (hge hmax) (by decide)
    cases hp : n.parent with
    | none =>
      have := ((C19_links root i n hn).2.1).mp hp
      subst this
      obtain ⟨n', hn', hk⟩ := root_get (f := f) ⟨hr.nav, hr.len⟩
      rw [hnav, hn] at hn'; cases hn'
      rw [hroot] at hk
      refine ⟨_, m1, ?_⟩
      rw [hk] at hmax hmin
      split
      · exact hmin
      · exact hge hmax
    | some p =>
      obtain ⟨hlt, q, hq⟩ := parent_lt hn hp
      obtain ⟨r, hl, hle⟩ := ih p hlt q hq (parent_nonempty hn hp hq)
      refine ⟨_, m2 i p n r (by rw [hnav]; exact hn) hp hl, rle_min ?_ hle⟩
      split
      · exact hmin
      · exact hge hmax

/-- **C26.** With width limit 0 every node that may be more than inline is, and a non-empty root container is verbose. -/
theorem C26_zero (root : Kserd) (f f' : Formatter) (hf : Formatter.new root = some f) (c : FormattingConfig)
    (hc : c.widthLimit = some 0) (h : Solver.applyConfig f c = some f') :
    (∀ (i : Nat) (n : NavNode), (Nav.new root)[i]? = some n → maxRepr n.kserd.val ≠ .inline → ∃ r, line f' i = some r ∧ r ≠ .inline) ∧
    (∀ fs, root.val = .cntr fs → fs ≠ [] → line f' 0 = some .verbose) := by
  obtain ⟨rfl, hr⟩ := C22_rules root f (.new hf)
  have hle := config_zero hr hc h
  refine ⟨?_, ?_⟩
  · intro i n hn hm
    obtain ⟨r, hl, hge⟩ := new_not_inline _ f hf i n hn hm
    obtain ⟨y, hy, hxy⟩ := hle i r hl
    refine ⟨y, hy, ?_⟩
    rintro rfl
    exact absurd (rle_trans hge hxy) (by decide)
  · intro fs hfs hne
    obtain ⟨m1, _⟩ := C22_new_maximal _ f hf
    rw [hfs] at m1
    simp only [isSeqMap, maxRepr, if_neg hne] at m1
    obtain ⟨y, hy, hxy⟩ := hle 0 _ m1
    rw [hy, rle_antisymm (rle_verbose y) hxy]

/-- **C26.** If every map key is a primitive, a tuple or empty, width limit 0 leaves every node in the largest
representation the rules allow. -/
theorem C26_zero_maximal (root : Kserd) (hk : SmallKeys root) (f : Formatter) (hf : Formatter.new root = some f)
    (c : FormattingConfig) (hc : c.widthLimit = some 0) :
    ∃ f', Solver.applyConfig f c = some f' ∧ ∀ i, line f' i = line f i := by
  obtain ⟨f', hf'⟩ := C24_config_partial root f (.new hf) hk c
  refine ⟨f', hf', ?_⟩
  obtain ⟨rfl, hr⟩ := C22_rules root f (.new hf)
  obtain ⟨m1, m2⟩ := C22_new_maximal _ f hf
  obtain ⟨_, hroot', hnav'⟩ := rules_applyIds hr c
  -- the invariant: same lines as `f`
  have noop : ∀ (g g' : Formatter) (d : Nat), Rules g → g.nav = f.nav → g.root = f.root → (∀ i, line g i = line f i) →
      g.requestOk d .verbose = some g' → g'.nav = f.nav ∧ g'.root = f.root ∧ ∀ i, line g' i = line f i := by
    intro g g' d hg e1 e2 e3 h
    have hs : Shape g := ⟨hg.nav, hg.len⟩
    rcases requestOk_cases hs d .verbose with ⟨g2, h2, h3⟩ | ⟨h2, _⟩
    · rw [h] at h2; cases h2
      obtain ⟨n, hn, a1, a2, a3⟩ := (C23_granted g hg d .verbose).mp ⟨g', h3⟩
      have hmax := rle_antisymm (rle_verbose _) a1
      have hv : line g d = some .verbose := by
        have hn' := hn; rw [e1] at hn'
        have hnn := hn; rw [hg.nav] at hnn
        cases hp : n.parent with
        | none =>
          have h0 := ((C19_links _ d n hnn).2.1).mp hp
          subst h0
          obtain ⟨n', hn2, hkk⟩ := root_get hs
          rw [hn] at hn2; cases hn2
          rw [e3, m1, ← e2, ← hkk]
          rw [if_neg, hmax]
          intro hsm; exact a3 ⟨rfl, rfl, hsm⟩
        | some p =>
          obtain ⟨_, q, hq⟩ := parent_lt hnn hp
          rw [← hg.nav] at hq
          obtain ⟨r, hl⟩ := line_some hs hq
          have := rle_antisymm (rle_verbose _) (a2 p r hp hl)
          subst this
          have hl' := hl; rw [e3] at hl'
          rw [e3, m2 d p n .verbose hn' hp hl', hmax]
          rw [if_neg]
          · rfl
          · intro hkey
            rw [hg.nav] at hq
            have hmem := keyed_of_key hnn hp hq hkey
            have hqm : q.kserd ∈ preorder g.root := by
              rw [← (C18_preorder g.root).1]; exact List.mem_map_of_mem (List.mem_of_getElem? hq)
            rw [e2] at hqm
            have := hk _ hqm _ hmem
            rw [hmax] at this
            exact absurd this (by decide)
      rcases request_lines hs h3 with ⟨rfl, _⟩ | ⟨_, _, _, _, _, _, f1, f2, f3⟩
      · exact ⟨e1, e2, e3⟩
      · obtain ⟨_, b1, b2⟩ := request_shape hs h3
        refine ⟨b2.trans e1, b1.trans e2, fun i => ?_⟩
        by_cases hi : i = d
        · subst hi; rw [f1, ← e3, hv]
        · by_cases hb : Below g.nav d i
          · rw [f2 i hb, ← e3]
            cases line g i with
            | none => rfl
            | some x => exact congrArg some (rmin_of_le (rle_verbose x))
          · rw [f3 i hi hb, e3]
    · rw [h] at h2; cases h2; exact ⟨e1, e2, e3⟩
  have key := applyConfig_inv hr hf' (fun g => g.nav = f.nav ∧ g.root = f.root ∧ ∀ i, line g i = line f i) ?_ ?_
  · exact key.2.2
  · intro g _ hg
    have := zero_width hc 0 f.root
    rw [hc] at this
    rw [hc] at hg
    simp only [Option.map_some, Nat.zero_sub] at this
    rw [this] at hg
    exact noop _ g 0 (rules_applyIds hr c).1 hnav' hroot' (applyIds_line c) hg
  · intro g g' d hg ⟨i1, i2, i3⟩ _ _ hs
    obtain ⟨m, o, r, _, hr', hv⟩ := applyNode_request hs
    rw [hv (zero_width hc o _)] at hr'
    exact noop g g' d hg i1 i2 i3 hr'

/-- A case meeting the hypotheses. -/
example : ∃ f f', Formatter.new (.mk (some (str "T")) (.cntr [(str "a", .mk none (.seq [.mk none (.num (.uint 1)), .mk none (.tuple [.mk none .unit])]))])) = some f ∧
    Solver.applyConfig f { widthLimit := some 0 } = some f' ∧
    f'.fmts.map (·.line) = [.verbose, .verbose, .inline, .concise, .inline] :=
  ⟨_, _, by rfl, by rfl, by decide +kernel⟩

/-! ## C27 -/

theorem applyIds_id {f : Formatter} (hr : Rules f) (c : FormattingConfig) (i : Nat) (n : NavNode) (hn : f.nav[i]? = some n) :
    idOn (Solver.applyIds f c) i = some (Solver.idFlag c n.kserd.val.kind) := by
  have key : ∀ (l : List Nat) (g : Formatter), g.nav = f.nav → g.fmts.length = f.nav.length →
      (i ∈ l ∨ idOn g i = some (Solver.idFlag c n.kserd.val.kind)) →
      idOn (l.foldl (Solver.idStep c) g) i = some (Solver.idFlag c n.kserd.val.kind) := by
    intro l
    induction l with
    | nil => intro g _ _ h; rcases h with h | h; · cases h
             · exact h
    | cons a l ih =>
      intro g h1 h2 h
      rw [List.foldl_cons]
      have hs : (Solver.idStep c g a).nav = f.nav ∧ (Solver.idStep c g a).fmts.length = f.nav.length ∧
          (idOn g i = some (Solver.idFlag c n.kserd.val.kind) ∨ a = i → idOn (Solver.idStep c g a) i = some (Solver.idFlag c n.kserd.val.kind)) := by
        rw [Solver.idStep]
        split
        · rename_i hnone
          refine ⟨h1, h2, ?_⟩
          rintro (h | rfl)
          · exact h
          · rw [h1, hn] at hnone; cases hnone
        · rename_i m hm
          have hlt : a < g.fmts.length := by rw [h2, ← h1]; exact (List.getElem?_eq_some_iff.mp hm).1
          rw [Formatter.setId, if_pos hlt]
          refine ⟨h1, by simp [h2], ?_⟩
          intro hc
          simp only [idOn, List.getElem?_modify]
          by_cases ha : a = i
          · subst ha
            rw [h1, hn] at hm; cases hm
            rw [List.getElem?_eq_getElem hlt]; simp
          · rcases hc with hc | hc
            · simp only [if_neg ha, Option.map_eq_map]
              rw [idOn] at hc
              cases hx : g.fmts[i]? with
              | none => rw [hx] at hc; cases hc
              | some x => rw [hx] at hc; exact hc
            · exact absurd hc ha
      apply ih _ hs.1 hs.2.1
      rcases h with h | h
      · rcases List.mem_cons.mp h with rfl | h
        · exact .inr (hs.2.2 (.inr rfl))
        · exact .inl h
      · exact .inr (hs.2.2 (.inl h))
  rw [Solver.applyIds]
  apply key _ f rfl hr.len
  left
  exact List.mem_range.mpr (List.getElem?_eq_some_iff.mp hn).1

theorem requestOk_id {g g' : Formatter} (hr : Rules g) {d : Nat} {r : Repr'} (h : g.requestOk d r = some g') (i : Nat) :
    idOn g' i = idOn g i := by
  rcases requestOk_cases ⟨hr.nav, hr.len⟩ d r with ⟨g2, h2, h3⟩ | ⟨h2, _⟩
  · rw [h] at h2; cases h2
    exact (C23_effect _ _ hr d r h3).2.2.2.2.2 i
  · rw [h] at h2; cases h2; rfl

/-- Configuring sets the identity flag of every node by the kind of its value. -/
theorem config_id {f f' : Formatter} (hr : Rules f) {c : FormattingConfig} (h : Solver.applyConfig f c = some f') (i : Nat) (n : NavNode)
    (hn : f.nav[i]? = some n) : idOn f' i = some (Solver.idFlag c n.kserd.val.kind) := by
  apply applyConfig_inv hr h (fun g => idOn g i = some (Solver.idFlag c n.kserd.val.kind))
  · intro g _ hg
    rw [requestOk_id (rules_applyIds hr c).1 hg, applyIds_id hr c i n hn]
  · intro g g' d hg hi _ _ hs
    obtain ⟨m, o, r, _, hr', _⟩ := applyNode_request hs
    rw [requestOk_id hg hr', hi]

theorem root_line_kept {g g' : Formatter} (hr : Rules g) {d : Nat} {r : Repr'} (hd : 0 < d) (h : g.requestOk d r = some g') :
    line g' 0 = line g 0 := by
  rcases requestOk_cases ⟨hr.nav, hr.len⟩ d r with ⟨g2, h2, h3⟩ | ⟨h2, _⟩
  · rw [h] at h2; cases h2
    refine (C23_effect _ _ hr d r h3).2.2.2.2.1 0 (by omega) ?_
    intro hb
    obtain ⟨n, hn, _⟩ := (C23_granted g hr d r).mp ⟨_, h3⟩
    rw [hr.nav] at hn hb
    have := (below_bounds hn hb).1
    omega
  · rw [h] at h2; cases h2; rfl

/-- A root that was not inline and is inline after configuring had been estimated to fit. -/
theorem config_root {f f' : Formatter} (hr : Rules f) {c : FormattingConfig} (h : Solver.applyConfig f c = some f')
    (h0 : line f 0 ≠ some .inline) (h1 : line f' 0 = some .inline) :
    Solver.minLineRepr c.widthLimit (Solver.inlineTotal c f.root) (Solver.conciseTotal c f.root) = .inline := by
  refine applyConfig_inv hr h (fun g => line g 0 = some .inline →
    Solver.minLineRepr c.widthLimit (Solver.inlineTotal c f.root) (Solver.conciseTotal c f.root) = .inline) ?_ ?_ h1
  · intro g _ hg hl
    have hr' := (rules_applyIds hr c).1
    rcases requestOk_cases ⟨hr'.nav, hr'.len⟩ 0 _ with ⟨g2, h2, h3⟩ | ⟨h2, _⟩
    · rw [hg] at h2; cases h2
      have := (C23_effect _ _ hr' 0 _ h3).2.2.1
      rw [this] at hl
      exact Option.some.inj hl
    · rw [hg] at h2; cases h2
      rw [applyIds_line] at hl; exact absurd hl h0
  · intro g g' d hg hi hd _ hs hl
    obtain ⟨m, o, r, _, hr', _⟩ := applyNode_request hs
    rw [root_line_kept hg hd hr'] at hl
    exact hi hl

theorem root_inline_all {f : Formatter} (hr : Rules f) (h : line f 0 = some .inline) (i : Nat) (n : NavNode) :
    f.nav[i]? = some n → line f i = some .inline := by
  induction i using Nat.strongRecOn generalizing n with
  | ind i ih =>
    intro hn
    obtain ⟨r, hl⟩ := line_some ⟨hr.nav, hr.len⟩ hn
    have hn' := hn; rw [hr.nav] at hn'
    cases hp : n.parent with
    | none =>
      have := ((C19_links _ i n hn').2.1).mp hp
      subst this; exact h
    | some p =>
      obtain ⟨hlt, q, hq⟩ := parent_lt hn' hp
      rw [← hr.nav] at hq
      have := hr.parent i p n r .inline hn hp hl (ih p hlt q hq)
      rw [hl, rle_inline this]

/-- **C27 (partial).** When the formatter puts a root that could be longer on a single line under the limit `w`, that
line is at most `w` plus the slack of the nodes. The claim without slack is false, see `C27_too_long`; the slack is 0 when
there is no non-empty map, no unit with identity, no string containing `"`, no byte array shorter than two and no empty
identity. -/
theorem C27_width_partial (root : Kserd) (f f' : Formatter) (hf : Formatter.new root = some f) (c : FormattingConfig) (w : Nat)
    (hc : c.widthLimit = some w) (h : Solver.applyConfig f c = some f') (hm : maxRepr root.val ≠ .inline)
    (hl : line f' 0 = some .inline) (out : Str) (ho : f'.writeString [] = some out) :
    out.length ≤ w + slack (preorder root) := by
  obtain ⟨rfl, hr⟩ := C22_rules root f (.new hf)
  obtain ⟨hroot, hr'⟩ := C22_rules _ f' (.config c (.new hf) h)
  have h0 : line f 0 ≠ some .inline := by
    obtain ⟨n, hn, hk⟩ := root_get (f := f) ⟨hr.nav, hr.len⟩
    rw [hr.nav] at hn
    obtain ⟨r, hx, hge⟩ := new_not_inline _ f hf 0 n hn (by rw [hk]; exact hm)
    intro e; rw [e] at hx; cases hx; exact absurd hge (by decide)
  have hmin := config_root hr h h0 hl
  rw [hc] at hmin
  simp only [Solver.minLineRepr] at hmin
  split at hmin
  · cases hmin
  · split at hmin
    · cases hmin
    · rename_i h2
      have hat : At (WidthOk c) f'.fmts 0 (preorder f'.root) := by
        apply at_of_nav hr'.nav hr'.len
        intro i n fm hn hfm
        have hn' := hn
        have a := root_inline_all hr' hl i n hn
        have b := config_id hr h i n (by rw [hr.nav, ← hroot, ← hr'.nav]; exact hn)
        rw [line, hfm] at a
        rw [idOn, hfm] at b
        exact ⟨Option.some.inj a, Option.some.inj b⟩
      have := node_len f'.root 0 0 [] out hat ho
      rw [hroot] at this
      simp only [List.length_nil] at this
      omega

/-- **C27 negated.** `{ 1: 1, 2: 2 }` has 14 characters but is kept on one line under the limit 12. -/
theorem C27_too_long : ∃ (root : Kserd) (out : Str), root.asStrWithConfig { widthLimit := some 12 } = some out ∧ '\n' ∉ out ∧ 12 < out.length :=
  ⟨.mk none (.map [(.mk none (.num (.uint 1)), .mk none (.num (.uint 1))), (.mk none (.num (.uint 2)), .mk none (.num (.uint 2)))]),
    str "{ 1: 1, 2: 2 }", by decide +kernel, by decide, by decide⟩

/-- A case of slack 0. -/
example : ∃ f f' root, root = Kserd.mk (some (str "T")) (.cntr [(str "a", .mk none (.seq [.mk none (.num (.uint 1)), .mk none (.str (str "x"))]))]) ∧
    Formatter.new root = some f ∧ Solver.applyConfig f { widthLimit := some 17 } = some f' ∧
    line f' 0 = some .inline ∧ slack (preorder root) = 0 ∧ f'.writeString [] = some (str "T (a = [1, \"x\"])") := by
  refine ⟨_, _, _, rfl, by rfl, by rfl, by decide +kernel, by decide +kernel, by decide +kernel⟩

/-! ## C28 -/

/-- **C28 (partial).** If no tuple with an identity has it hidden, a reachable formatter writes exactly what the
formatter of the Kserd without its hidden identities writes with all identities shown. The full claim is false: a hidden
tuple identity removes the preceding character (`C28_tuple_eats`) and the identity of a unit is never hidden
(`C28_unit_shown`, so `shown` keeps it). -/
theorem C28_hide_partial (root : Kserd) (f : Formatter) (h : Reachable root f)
    (ht : ∀ (i : Nat) (n : NavNode) (l : List Kserd), f.nav[i]? = some n → idOn f i = some false → n.kserd.val = .tuple l → n.kserd.id = none)
    (buf : Str) : f.writeString buf = (withoutHidden f).writeString buf := by
  obtain ⟨rfl, hr⟩ := C22_rules root f h
  have hat : At IdsOk f.fmts 0 (preorder f.root) := by
    apply at_of_nav hr.nav hr.len
    intro i n fm hn hfm hid ⟨l, hl⟩
    exact ht i n l hn (by rw [idOn, hfm, ← hid]; rfl) hl
  exact node_shown f.root 0 0 buf hat

/-- **C28 negated.** With tuple identities hidden, the opening bracket of the sequence `[T(1)]` disappears. -/
theorem C28_tuple_eats : (Kserd.mk none (.seq [.mk (some (str "T")) (.tuple [.mk none (.num (.uint 1))])])).asStrWithConfig
    { idOnTuples := false } = some (str "(1)]") := by decide +kernel

/-- **C28 negated.** A unit shows its identity whatever the settings. -/
theorem C28_unit_shown (i : Str) (hi : i ≠ []) (c : FormattingConfig) :
    ∃ f f', Formatter.new (.mk (some i) .unit) = some f ∧ Solver.applyConfig f c = some f' ∧ f'.writeString [] = some (i ++ str "()") := by
  obtain ⟨f, hf, _, _⟩ := C22_new (.mk (some i) .unit)
  obtain ⟨f', hf'⟩ := C24_config_partial _ f (.new hf) (by
    intro x hx k hk
    simp only [preorder, preorderV, List.mem_cons, List.not_mem_nil, or_false] at hx
    subst hx; cases hk) c
  obtain ⟨hroot, hr⟩ := C22_rules _ f' (.config c (.new hf) hf')
  refine ⟨f, f', hf, hf', ?_⟩
  obtain ⟨n, hn, _⟩ := root_get (f := f') ⟨hr.nav, hr.len⟩
  obtain ⟨fm, hfm⟩ := Shape.fmt (f := f') ⟨hr.nav, hr.len⟩ hn
  rw [Formatter.writeString, hroot]
  simp only [W.node, hfm, W.prim, W.unit]
  cases i with
  | nil => exact absurd rfl hi
  | cons a r => simp

/-- A case with hidden identities on a sequence and on a number. -/
example : ∃ f, Reachable (.mk (some (str "T")) (.seq [.mk (some (str "u")) (.num (.uint 1))])) f ∧
    idOn f 0 = some false ∧ idOn f 1 = some false ∧ f.writeString [] = some (str "[1]") ∧
    (withoutHidden f).root = .mk none (.seq [.mk none (.num (.uint 1))]) :=
  ⟨_, .config {} (.new (by rfl)) (by rfl), by decide +kernel, by decide +kernel, by decide +kernel, by rfl⟩

end KS.Props
