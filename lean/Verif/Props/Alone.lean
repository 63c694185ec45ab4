import Verif.Props.InlineLength
/-!
# C76: what stands on one line fits the limit by itself
-/

namespace KS.Props
open KS.Spec KS.Nav KS.Fm KS.Wr KS.Ch KS.IL KS.SV

/-- A child is in the list of values or of keys of its parent, which therefore is not empty and is estimated to be at least as wide. -/
theorem child_width (c : FormattingConfig) {root : Kserd} {i p : Nat} {m q : NavNode} (hm : (Nav.new root)[i]? = some m) (hp : m.parent = some p)
    (hq : (Nav.new root)[p]? = some q) : maxRepr q.kserd.val ≠ .inline ∧ Solver.inlineTotal c m.kserd ≤ Solver.inlineTotal c q.kserd := by
  obtain ⟨_, _, hc, _, _, hv, hk⟩ := C19_links root p q hq
  have hmem : m.kserd ∈ valuesOf q.kserd.val ∨ m.kserd ∈ keysOf q.kserd.val := by
    cases hb : isKey m with
    | false =>
      left
      have h1 := (hc i m hm).1.mpr ⟨hp, hb⟩
      have h2 : some m.kserd ∈ (valuesOf q.kserd.val).map some := by
        rw [← hv]; exact List.mem_map.mpr ⟨i, h1, by rw [hm]; rfl⟩
      simpa using h2
    | true =>
      right
      have h1 := (hc i m hm).2.mpr ⟨hp, hb⟩
      have h2 : some m.kserd ∈ (keysOf q.kserd.val).map some := by
        rw [← hk]; exact List.mem_map.mpr ⟨i, h1, by rw [hm]; rfl⟩
      simpa using h2
  generalize m.kserd = x at hmem
  generalize q.kserd = y at hmem
  have key : ∀ (l : List Kserd), x ∈ l → Solver.inlineTotal c x ≤ (l.map (Solver.inlineTotal c)).sum := by
    intro l
    induction l with
    | nil => intro h; cases h
    | cons a l ih =>
      intro h
      rw [List.map_cons, List.sum_cons]
      rcases List.mem_cons.mp h with rfl | h
      · omega
      · have := ih h; omega
  refine ⟨?_, ?_⟩
  · obtain ⟨id, v⟩ := y
    simp only [Kserd.val] at hmem ⊢
    intro hv
    cases v with
    | tuple l => cases l <;> simp [valuesOf, keysOf, maxRepr] at hmem hv
    | seq l => cases l <;> simp [valuesOf, keysOf, maxRepr] at hmem hv
    | cntr l => cases l <;> simp [valuesOf, keysOf, maxRepr] at hmem hv
    | map l => cases l <;> simp [valuesOf, keysOf, maxRepr] at hmem hv
    | _ => simp [valuesOf, keysOf] at hmem
  · rw [inlineTotal_eq c y]
    rcases hmem with h | h
    · have := key _ h; omega
    · have := key _ h; omega

/-- The estimate of what is on one line, though it need not be, is within the limit. -/
theorem inline_estimate (root : Kserd) (f f' : Formatter) (hf : Formatter.new root = some f) (c : FormattingConfig) (w : Nat)
    (hc : c.widthLimit = some w) (h : Solver.applyConfig f c = some f') : ∀ (i : Nat) (n : NavNode), (Nav.new root)[i]? = some n →
    maxRepr n.kserd.val ≠ .inline → line f' i = some .inline → Solver.inlineTotal c n.kserd ≤ w := by
  obtain ⟨h0, hd⟩ := config_done root f f' hf c h
  have hnav : f'.nav = Nav.new root := by rw [hd.rules.nav, h0]
  have hwish : ∀ (r : Nat) (k : Kserd), wish c (some r) k = .inline → Solver.inlineTotal c k ≤ r := by
    intro r k e
    rw [SV.total_sum]
    rw [wish] at e
    split at e
    · cases e
    · split at e
      · cases e
      · omega
  intro i
  induction i using Nat.strong_induction_on with
  | _ i ih =>
    intro n hn hm hl
    rcases Nat.eq_zero_or_pos i with rfl | hi
    · have hr := hd.root
      have hk : n.kserd = root := by
        obtain ⟨x, hx, hxk⟩ := root_get (f := f') ⟨hd.rules.nav, hd.rules.len⟩
        rw [hnav, hn] at hx; cases hx
        rw [hxk, h0]
      rw [hk] at hm ⊢
      rw [hl, topLine, hc] at hr
      apply hwish
      have hr := (Option.some.inj hr).symm
      revert hr hm
      cases wish c (some w) root <;> cases maxRepr root.val <;> cases isSeqMap root.val <;> decide
    · have hlen : i < f'.nav.length := by rw [hnav]; exact (List.getElem?_eq_some_iff.mp hn).1
      obtain ⟨m, p, q, o, P, g1, g2, g3, g4, g5, g6⟩ := hd.good i hi hlen trivial
      rw [hnav] at g1 g3
      rw [hn] at g1; cases g1
      obtain ⟨hlt, _⟩ := parent_lt hn g2
      obtain ⟨hne, hle⟩ := child_width c hn g2 g3
      by_cases hP : P = .inline
      · subst hP
        exact Nat.le_trans hle (ih p hlt q g3 hne g5)
      · rw [hl] at g6
        have g6 := (Option.some.inj g6).symm
        have hw : wishAt c n q o = .inline := by
          revert g6 hm hP
          cases wishAt c n q o <;> cases maxRepr n.kserd.val <;> cases P <;> decide
        rw [wishAt] at hw
        split at hw
        · cases hw
        · rw [hc] at hw
          have := hwish (w - o) n.kserd (by rw [minLine_wish] at hw; exact hw)
          omega

/-- **C76 (partial).** In every layout, verbose ones included, whatever composite stands on one line would, written by itself, fit the limit, up to the
slack of its parts. Without the slack this is false (`C27_too_long`). -/
theorem C76_alone_partial (root : Kserd) (f f' : Formatter) (hf : Formatter.new root = some f) (c : FormattingConfig) (w : Nat)
    (hc : c.widthLimit = some w) (h : Solver.applyConfig f c = some f') (i : Nat) (n : NavNode) (hn : (Nav.new root)[i]? = some n)
    (hm : maxRepr n.kserd.val ≠ .inline) (hl : line f' i = some .inline) (one : Str)
    (ho : n.kserd.asStrWithConfig { c with widthLimit := none } = some one) : one.length ≤ w + slack (preorder n.kserd) := by
  have hest := inline_estimate root f f' hf c w hc h i n hn hm hl
  generalize n.kserd = k at hest ho
  obtain ⟨a, ha, _, _⟩ := C22_new k
  obtain ⟨b, hb, b1, b2⟩ := C25_inline k a (.new ha) { c with widthLimit := none } rfl
  rw [Kserd.asStrWithConfig, ha] at ho
  simp only [Option.bind_some, hb] at ho
  obtain ⟨e, hr⟩ := C22_rules k a (.new ha)
  obtain ⟨e', hr'⟩ := C22_rules k b (.config _ (.new ha) hb)
  have hl0 := b2 0 (by rw [size_preorder]; exact size_pos _)
  have hat : At (WidthOk { c with widthLimit := none }) b.fmts 0 (preorder b.root) := by
    apply at_of_nav hr'.nav hr'.len
    intro i n fm hn hfm
    have x := root_inline_all hr' hl0 i n hn
    have y := config_id hr hb i n (by rw [hr.nav, e, ← e', ← hr'.nav]; exact hn)
    rw [line, hfm] at x
    rw [idOn, hfm] at y
    exact ⟨Option.some.inj x, Option.some.inj y⟩
  have := node_len b.root 0 0 [] one hat ho
  have hsame : Solver.inlineTotal { c with widthLimit := none } k = Solver.inlineTotal c k := by
    rw [total_sum, total_sum]; rfl
  rw [e', hsame, List.length_nil] at this
  omega

/-- **C76 (partial).** More exactly: the text by itself, together with what the formatter reckons too much, fits the limit together with what it misses.
By `C74_fits_exact` such a Kserd is put on one line as a root. -/
theorem C76_exact_partial (root : Kserd) (f f' : Formatter) (hf : Formatter.new root = some f) (c : FormattingConfig) (w : Nat)
    (hc : c.widthLimit = some w) (h : Solver.applyConfig f c = some f') (i : Nat) (n : NavNode) (hn : (Nav.new root)[i]? = some n)
    (hm : maxRepr n.kserd.val ≠ .inline) (hl : line f' i = some .inline) (ht : TupleIds c n.kserd) (one : Str)
    (ho : n.kserd.asStrWithConfig { c with widthLimit := none } = some one) : one.length + surplus c n.kserd ≤ w + missed c n.kserd := by
  have hest := inline_estimate root f f' hf c w hc h i n hn hm hl
  rw [total_sum] at hest
  have hlen := C74_length n.kserd { c with widthLimit := none } rfl ht one ho
  rw [oneLineWidth_limit] at hlen
  have := C74_reckoned n.kserd c
  omega

/-- **C76 (partial).** Without slack the limit itself is kept. -/
theorem C76_plain_partial (root : Kserd) (f f' : Formatter) (hf : Formatter.new root = some f) (c : FormattingConfig) (w : Nat)
    (hc : c.widthLimit = some w) (h : Solver.applyConfig f c = some f') (hs : slack (preorder root) = 0) (i : Nat) (n : NavNode)
    (hn : (Nav.new root)[i]? = some n) (hm : maxRepr n.kserd.val ≠ .inline) (hl : line f' i = some .inline) (one : Str)
    (ho : n.kserd.asStrWithConfig { c with widthLimit := none } = some one) : one.length ≤ w := by
  have h1 := C76_alone_partial root f f' hf c w hc h i n hn hm hl one ho
  have h2 : slack (preorder n.kserd) = 0 := by
    have zero : ∀ l : List Kserd, slack l = 0 ↔ ∀ x ∈ l, slack1 x = 0 := by
      intro l
      induction l with
      | nil => simp [slack]
      | cons a l ih => rw [slack_cons, Nat.add_eq_zero_iff, ih]; simp
    rw [zero] at hs ⊢
    intro x hx
    obtain ⟨j, hj⟩ := List.mem_iff_getElem?.mp hx
    exact hs x (List.mem_of_getElem? (preorder_sub hn hj))
  omega

/-- A case in a verbose layout: in `inSeq` the sequence `[1, 2]`, node 3, is on one line under the limit 10, and the line it is on is longer than that
(`C49_verbose_too_long`), but by itself it has 6 characters. -/
example : ∃ f f' n, Formatter.new inSeq = some f ∧ Solver.applyConfig f { widthLimit := some 10 } = some f' ∧ line f' 0 = some .verbose ∧
    (Nav.new inSeq)[3]? = some n ∧ maxRepr n.kserd.val ≠ .inline ∧ line f' 3 = some .inline ∧ slack (preorder inSeq) = 0 ∧
    n.kserd.asStrWithConfig { widthLimit := none } = some (str "[1, 2]") :=
  ⟨_, _, _, by rfl, by rfl, by decide +kernel, by rfl, by decide +kernel, by decide +kernel, by decide +kernel, by decide +kernel⟩

end KS.Props
