import Verif.Lemmas.Formatter
/-!
# C22, C23: the formatter rules and requests
-/

namespace KS.Props
open KS.Spec KS.Nav KS.Fm

/-! ## C22 -/

/-- The rules with the parent rule only for nodes below `k`. -/
structure Upto (k : Nat) (f : Formatter) : Prop where
  shape : Shape f
  max : ∀ (i : Nat) (n : NavNode) (r : Repr'), f.nav[i]? = some n → line f i = some r → r ≤ maxRepr n.kserd.val
  parent : ∀ (i p : Nat) (n : NavNode) (r q : Repr'), i < k → f.nav[i]? = some n → n.parent = some p →
    line f i = some r → line f p = some q → r ≤ q
  root : isSeqMap f.root.val = true → line f 0 ≠ some .verbose

theorem Upto.rules {f : Formatter} (h : Upto f.nav.length f) : Rules f :=
  ⟨h.shape.nav, h.shape.len, h.max, fun i p n r q hn => h.parent i p n r q (List.getElem?_eq_some_iff.mp hn).1 hn, h.root⟩

theorem rules_upto {f : Formatter} (h : Rules f) (k : Nat) : Upto k f :=
  ⟨⟨h.nav, h.len⟩, h.max, fun i p n r q _ => h.parent i p n r q, h.root⟩

theorem parent_lt {root : Kserd} {j p : Nat} {m : NavNode} (hm : (Nav.new root)[j]? = some m) (hp : m.parent = some p) :
    p < j ∧ ∃ q, (Nav.new root)[p]? = some q := by
  obtain ⟨⟨q, hq⟩, _⟩ := kind_of_parent hm hp
  exact ⟨(below_bounds hq (.child hm hp)).1, q, hq⟩

theorem line_some {f : Formatter} (h : Shape f) {i : Nat} {n : NavNode} (hn : f.nav[i]? = some n) : ∃ r, line f i = some r := by
  obtain ⟨fm, hfm⟩ := h.fmt hn
  exact ⟨fm.line, by rw [line, hfm]; rfl⟩

theorem root_get {f : Formatter} (h : Shape f) : ∃ n, f.nav[0]? = some n ∧ n.kserd = f.root := by
  obtain ⟨_, _, h3⟩ := C18_preorder f.root
  rw [h.nav]; exact h3

/-- A granted request keeps the maximum and root rules, and the parent rule for every node for which it held and
for the requested node's descendants. -/
theorem request_upto {k : Nat} {f f' : Formatter} (h : Upto k f) {idx : Nat} {r : Repr'} (hr : f.request idx r = .ok f') :
    Upto k f' := by
  obtain ⟨hs', hroot, hnav⟩ := request_shape h.shape hr
  rcases request_lines h.shape hr with ⟨rfl, _⟩ | ⟨n, hn, hm, hpar, h0, _, hi, hb, ho⟩
  · exact h
  have hmono : ∀ j, j ≠ idx → ∀ x, line f' j = some x → ∃ y, line f j = some y ∧ x ≤ y ∧ (Below f.nav idx j → x = Repr'.min y r)
      ∧ (¬ Below f.nav idx j → x = y) := by
    intro j hj x hx
    by_cases hbj : Below f.nav idx j
    · rw [hb j hbj] at hx
      cases hy : line f j with
      | none => rw [hy] at hx; cases hx
      | some y => rw [hy] at hx; cases hx; exact ⟨y, rfl, rmin_le_left _ _, fun _ => rfl, fun h => absurd hbj h⟩
    · rw [ho j hj hbj] at hx; exact ⟨x, hx, rle_refl x, fun h => absurd h hbj, fun _ => rfl⟩
  refine ⟨hs', ?_, ?_, ?_⟩
  · intro i m x hm' hx
    rw [hnav] at hm'
    by_cases hii : i = idx
    · subst hii
      rw [hn] at hm'; cases hm'
      rw [hi] at hx; cases hx; exact hm
    · obtain ⟨y, hy, hxy, _⟩ := hmono i hii x hx
      exact rle_trans hxy (h.max i m y hm' hy)
  · intro i p m x q hik hm' hp hx hq
    rw [hnav] at hm'
    have hm'' := hm'; rw [h.shape.nav] at hm''
    have hn' := hn; rw [h.shape.nav] at hn'
    have hpi := (parent_lt hm'' hp).1
    by_cases hii : i = idx
    · subst hii
      rw [hn] at hm'; cases hm'
      rw [hi] at hx; cases hx
      have hpb : ¬ Below f.nav i p := by
        rw [h.shape.nav]; intro hbl; have := (below_bounds hn' hbl).1; omega
      rw [ho p (by omega) hpb] at hq
      exact hpar p q hp hq
    · obtain ⟨y, hy, hxy, hxb, hxn⟩ := hmono i hii x hx
      by_cases hpi' : p = idx
      · subst hpi'
        rw [hi] at hq; cases hq
        rw [hxb (.child hm' hp)]; exact rmin_le_right _ _
      · obtain ⟨z, hz, hqz, hqb, hqn⟩ := hmono p hpi' q hq
        have hyz := h.parent i p m y z hik hm' hp hy hz
        by_cases hpb : Below f.nav idx p
        · rw [hqb hpb, hxb (.step hm' hp hpb)]
          exact rle_min (rle_trans (rmin_le_left _ _) hyz) (rmin_le_right _ _)
        · rw [hqn hpb]
          exact rle_trans hxy hyz
  · intro hsm
    rw [hroot] at hsm
    by_cases hi0 : idx = 0
    · subst hi0
      rw [hi]
      intro hv
      obtain ⟨rn, hrn, hrk⟩ := root_get h.shape
      rw [hn] at hrn; cases hrn
      exact h0 ⟨rfl, by cases hv; rfl, by rw [hrk]; exact hsm⟩
    · intro hv
      obtain ⟨y, hy, hxy, _⟩ := hmono 0 (fun e => hi0 e.symm) _ hv
      have : y = .verbose := rle_antisymm (rle_verbose y) hxy
      rw [this] at hy
      exact h.root hsm hy

theorem requestOk_upto {k : Nat} {f f' : Formatter} (h : Upto k f) {idx : Nat} {r : Repr'} (hr : f.requestOk idx r = some f') :
    Upto k f' ∧ f'.root = f.root ∧ f'.nav = f.nav := by
  rcases requestOk_cases h.shape idx r with ⟨g, hg, hok⟩ | ⟨hg, _⟩
  · rw [hg] at hr; cases hr
    exact ⟨request_upto h hok, (request_shape h.shape hok).2⟩
  · rw [hg] at hr; cases hr; exact ⟨h, rfl, rfl⟩

theorem lowerStep_upto {k : Nat} {f : Formatter} (h : Upto k f) (hk : k < f.nav.length) :
    ∃ f', Formatter.lowerStep f k = some f' ∧ Upto (k + 1) f' ∧ f'.root = f.root ∧ f'.nav = f.nav := by
  obtain ⟨n, hn⟩ : ∃ n, f.nav[k]? = some n := ⟨_, List.getElem?_eq_getElem hk⟩
  have hn' := hn; rw [h.shape.nav] at hn'
  have extend : ∀ {g : Formatter}, Upto k g → g.nav = f.nav → (∀ p r q, n.parent = some p → line g k = some r → line g p = some q → r ≤ q) →
      Upto (k + 1) g := by
    intro g hg hgn hlast
    refine ⟨hg.shape, hg.max, ?_, hg.root⟩
    intro i p m r q hi hm hp hr hq
    by_cases hik : i = k
    · subst hik; rw [hgn, hn] at hm; cases hm; exact hlast p r q hp hr hq
    · exact hg.parent i p m r q (by omega) hm hp hr hq
  rw [Formatter.lowerStep, hn]
  simp only [Option.bind_some]
  cases hp : n.parent with
  | none =>
    have : Nav.parent f.nav n = none := by rw [Nav.parent, hp]; rfl
    rw [this]
    exact ⟨f, rfl, extend h rfl (fun p _ _ hp' => by rw [hp] at hp'; cases hp'), rfl, rfl⟩
  | some p =>
    obtain ⟨hpk, q, hq⟩ := parent_lt hn' hp
    rw [← h.shape.nav] at hq
    have hqi : q.idx = p := by rw [h.shape.nav] at hq; exact (C18_preorder f.root).2.1 p q hq
    have : Nav.parent f.nav n = some q := by rw [Nav.parent, hp]; exact hq
    rw [this]
    obtain ⟨fm, hfm⟩ := h.shape.fmt hn
    obtain ⟨pf, hpf⟩ := h.shape.fmt hq
    simp only [hqi, hfm, hpf]
    have hlk : line f k = some fm.line := by rw [line, hfm]; rfl
    have hlp : line f p = some pf.line := by rw [line, hpf]; rfl
    split
    · rename_i hlt
      -- the request is granted
      have hle : pf.line ≤ fm.line := Nat.le_of_lt hlt
      obtain ⟨ds, _, _, he⟩ := (request_eq h.shape k pf.line).1 n fm hn hfm
      have hne : ¬ pf.line = fm.line := by intro e; rw [e] at hlt; exact absurd hlt (Nat.lt_irrefl _)
      have hk0 : ¬ (k = 0 ∧ pf.line = .verbose ∧ isSeqMap n.kserd.val = true) := by omega
      rw [if_neg hne, if_neg hk0, validate_of (rle_trans hle (h.max k n _ hn hlk))
        (by intro q' hq'; rw [hp] at hq'; simp only [Option.bind_some, hlp] at hq'; cases hq'; exact rle_refl _)] at he
      obtain ⟨g, hg⟩ : ∃ g, f.request k pf.line = .ok g := ⟨_, he⟩
      have hok : f.requestOk k pf.line = some g := by rw [Formatter.requestOk, hg]
      obtain ⟨hu, hroot, hnav⟩ := requestOk_upto h hok
      refine ⟨g, hok, extend hu hnav ?_, hroot, hnav⟩
      rcases request_lines h.shape hg with ⟨rfl, e⟩ | ⟨m, hm, _, _, _, _, hi, _, ho⟩
      · rw [hlk] at e; exact absurd (Option.some.inj e).symm hne
      · intro p' r q' hp' hr hq'
        rw [hi] at hr; cases hr
        rw [hp] at hp'; cases hp'
        have hpb : ¬ Below f.nav k p := by
          rw [h.shape.nav]; intro hbl; have := (below_bounds hn' hbl).1; omega
        rw [ho p (by omega) hpb, hlp] at hq'; cases hq'; exact rle_refl _
    · rename_i hlt
      refine ⟨f, rfl, extend h rfl ?_, rfl, rfl⟩
      intro p' r q' hp' hr hq'
      rw [hlk] at hr; cases hr
      rw [hp] at hp'; cases hp'
      rw [hlp] at hq'; cases hq'
      exact rnot_lt.mp hlt

theorem lowerPass : ∀ (m k : Nat) (f : Formatter), Upto k f → k + m = f.nav.length →
    ∃ f', (List.range' k m).foldlM Formatter.lowerStep f = some f' ∧ Upto f'.nav.length f' ∧ f'.root = f.root ∧ f'.nav = f.nav
  | 0, k, f, h, hk => ⟨f, rfl, by have : f.nav.length = k := by omega
                                  rw [this]; exact h, rfl, rfl⟩
  | m + 1, k, f, h, hk => by
    obtain ⟨g, hg, hu, hr, hn⟩ := lowerStep_upto h (by omega)
    obtain ⟨f', hf', hu', hr', hn'⟩ := lowerPass m (k + 1) g hu (by rw [hn]; omega)
    refine ⟨f', ?_, hu', by rw [hr', hr], by rw [hn', hn]⟩
    rw [List.range'_succ, List.foldlM_cons, hg]
    exact hf'

theorem nav_idx (root : Kserd) : (Nav.new root).map (·.idx) = List.range' 0 (Nav.new root).length := by
  apply List.ext_getElem?
  intro i
  rw [List.getElem?_map]
  cases h : (Nav.new root)[i]? with
  | none =>
    have : (Nav.new root).length ≤ i := by simpa using h
    simp [this]
  | some n =>
    have hl := (List.getElem?_eq_some_iff.mp h).1
    have := (C18_preorder root).2.1 i n h
    simp [this, hl]

/-- Lines of the initial formats. -/
theorem init_line (root : Kserd) {i : Nat} {n : NavNode} (hn : (Nav.new root)[i]? = some n) :
    line (Formatter.init root) i =
      some (if isKey n then Repr'.min (maxRepr n.kserd.val) .concise else maxRepr n.kserd.val) := by
  show (((Nav.new root).map Formatter.initFmt)[i]?).map (·.line) = _
  rw [List.getElem?_map, hn]
  simp [Formatter.initFmt, maxLine_eq hn]

theorem maxRepr_seqmap {v : Value} (h : isSeqMap v = true) : maxRepr v = .inline ∨ maxRepr v = .verbose := by
  cases v <;> simp [isSeqMap] at h <;> simp only [maxRepr] <;> split <;> simp

/-- The state before the lowering pass. -/
theorem pre_pass (root : Kserd) :
    ∃ f', Formatter.rootStep root = some f' ∧
      Upto 0 f' ∧ f'.root = root ∧ f'.nav = Nav.new root := by
  obtain ⟨_, hidx, n0, hn0, hk0⟩ := C18_preorder root
  rw [Formatter.rootStep]
  generalize hf : Formatter.init root = f
  have hshape : Shape f := by subst hf; exact ⟨rfl, by simp [Formatter.init]⟩
  have hnav : f.nav = Nav.new root := by subst hf; rfl
  have hroot : f.root = root := by subst hf; rfl
  have hline : ∀ {i : Nat} {n : NavNode}, (Nav.new root)[i]? = some n →
      line f i = some (if isKey n then Repr'.min (maxRepr n.kserd.val) .concise else maxRepr n.kserd.val) := by
    intro i n hn; subst hf; exact init_line root hn
  have hmax : ∀ (i : Nat) (n : NavNode) (r : Repr'), f.nav[i]? = some n → line f i = some r → r ≤ maxRepr n.kserd.val := by
    intro i n r hn hr
    rw [hnav] at hn
    rw [hline hn] at hr; cases hr
    split
    · exact rmin_le_left _ _
    · exact rle_refl _
  have hkey0 : isKey n0 = false := by
    have hp := ((C19_links root 0 n0 hn0).2.1).mpr rfl
    obtain ⟨n', hn', h1, h2, h3, _⟩ := get_node hn0
    have : n' = mkN 0 ({}, root) := by
      rw [node, forest_cons] at hn'; simpa using hn'.symm
    rw [isKey, h3, this]; rfl
  have hl0 : line f 0 = some (maxRepr root.val) := by rw [hline hn0, hkey0, hk0]; rfl
  have noparent : ∀ (i p : Nat) (n : NavNode) (r q : Repr'), i < 0 → f.nav[i]? = some n → n.parent = some p →
    line f i = some r → line f p = some q → r ≤ q := fun i _ _ _ _ h => absurd h (Nat.not_lt_zero i)
  have done : isSeqMap root.val = false → Upto 0 f := fun hs =>
    ⟨hshape, hmax, noparent, by rw [hroot, hs]; intro h; cases h⟩
  have req : isSeqMap root.val = true → ∃ f', Formatter.requestOk f 0 .concise = some f' ∧ Upto 0 f' ∧ f'.root = root ∧
      f'.nav = Nav.new root := by
    intro hs
    rcases requestOk_cases hshape 0 .concise with ⟨g, hg, hok⟩ | ⟨hg, e, herr⟩
    · obtain ⟨hsg, hgr, hgn⟩ := request_shape hshape hok
      refine ⟨g, hg, ?_, by rw [hgr, hroot], by rw [hgn, hnav]⟩
      rcases request_lines hshape hok with ⟨rfl, e⟩ | ⟨n, hn, hm, _, _, _, hi, hb, ho⟩
      · refine ⟨hshape, hmax, noparent, ?_⟩
        intro _; rw [e]; intro h; cases h
      · refine ⟨hsg, ?_, ?_, ?_⟩
        · intro i m x hm' hx
          rw [hgn] at hm'
          by_cases hii : i = 0
          · subst hii; rw [hn] at hm'; cases hm'; rw [hi] at hx; cases hx; exact hm
          · by_cases hbi : Below f.nav 0 i
            · rw [hb i hbi] at hx
              cases hy : line f i with
              | none => rw [hy] at hx; cases hx
              | some y => rw [hy] at hx; cases hx; exact rle_trans (rmin_le_left _ _) (hmax i m y hm' hy)
            · rw [ho i hii hbi] at hx; exact hmax i m x hm' hx
        · exact fun i _ _ _ _ h => absurd h (Nat.not_lt_zero i)
        · intro _; rw [hi]; intro h; cases h
    · refine ⟨f, hg, ⟨hshape, hmax, noparent, ?_⟩, hroot, hnav⟩
      intro _ hv
      rw [hl0] at hv
      obtain ⟨fm, hfm⟩ := hshape.fmt (i := 0) (n := n0) (by rw [hnav]; exact hn0)
      obtain ⟨ds, _, hnd, he⟩ := (request_eq hshape 0 .concise).1 n0 fm (by rw [hnav]; exact hn0) hfm
      have hp0 : n0.parent = none := ((C19_links root 0 n0 hn0).2.1).mpr rfl
      have hmv : maxRepr root.val = .verbose := Option.some.inj hv
      rw [hk0, hmv, hp0, validate_of (by decide) (by intro q hq; cases hq), herr] at he
      split at he
      · cases he
      · rw [if_neg (by intro h; cases h.2.1)] at he; cases he
  cases hv : root.val <;> rw [hv] at done req <;> simp only [Value.kind] <;>
    first | exact ⟨f, rfl, done rfl, hroot, hnav⟩ | exact req rfl

/-- **C22.** `Formatter::new` never panics and what it builds obeys the rules. -/
theorem C22_new (root : Kserd) : ∃ f, Formatter.new root = some f ∧ f.root = root ∧ Rules f := by
  obtain ⟨g, hg, hu, hr, hn⟩ := pre_pass root
  obtain ⟨f, hf, huf, hrf, _⟩ := lowerPass g.nav.length 0 g hu (by omega)
  refine ⟨f, ?_, by rw [hrf, hr], huf.rules⟩
  rw [Formatter.new, hg]
  simp only [nav_idx]
  rw [← hn]; exact hf

theorem rules_requestOk {f f' : Formatter} (h : Rules f) {i : Nat} {r : Repr'} (hr : f.requestOk i r = some f') :
    Rules f' ∧ f'.root = f.root ∧ f'.nav = f.nav := by
  obtain ⟨hu, h1, h2⟩ := requestOk_upto (rules_upto h f.nav.length) hr
  exact ⟨by rw [← h2] at hu; exact hu.rules, h1, h2⟩

theorem rules_request {f f' : Formatter} (h : Rules f) {i : Nat} {r : Repr'} (hr : f.request i r = .ok f') :
    Rules f' ∧ f'.root = f.root ∧ f'.nav = f.nav :=
  rules_requestOk h (by rw [Formatter.requestOk, hr] : f.requestOk i r = some f')

theorem setId_line {f f' : Formatter} {i : Nat} {b : Bool} (hr : f.setId i b = .ok f') (j : Nat) :
    line f' j = line f j ∧ f'.root = f.root ∧ f'.nav = f.nav ∧ f'.fmts.length = f.fmts.length := by
  rw [Formatter.setId] at hr
  split at hr
  · cases hr
    refine ⟨?_, rfl, rfl, by simp⟩
    show ((f.fmts.modify i _)[j]?).map (·.line) = (f.fmts[j]?).map (·.line)
    rw [List.getElem?_modify]
    cases f.fmts[j]? <;> simp
    split <;> rfl
  · cases hr

theorem rules_setId {f f' : Formatter} (h : Rules f) {i : Nat} {b : Bool} (hr : f.setId i b = .ok f') :
    Rules f' ∧ f'.root = f.root ∧ f'.nav = f.nav := by
  have hl := fun j => (setId_line hr j).1
  obtain ⟨_, h1, h2, h3⟩ := setId_line hr 0
  refine ⟨⟨by rw [h1, h2]; exact h.nav, by rw [h3, h2]; exact h.len, ?_, ?_, ?_⟩, h1, h2⟩
  · intro i n r hn hr; rw [h2] at hn; rw [hl] at hr; exact h.max i n r hn hr
  · intro i p n r q hn hp hr hq; rw [h2] at hn; rw [hl] at hr hq; exact h.parent i p n r q hn hp hr hq
  · intro hs; rw [hl]; exact h.root (by rw [← h1]; exact hs)

theorem rules_applyIds {f : Formatter} (h : Rules f) (c : FormattingConfig) :
    Rules (Solver.applyIds f c) ∧ (Solver.applyIds f c).root = f.root ∧ (Solver.applyIds f c).nav = f.nav := by
  rw [Solver.applyIds]
  generalize List.range f.nav.length = l
  induction l generalizing f with
  | nil => exact ⟨h, rfl, rfl⟩
  | cons i l ih =>
    rw [List.foldl_cons]
    have step : Rules (Solver.idStep c f i) ∧ (Solver.idStep c f i).root = f.root ∧ (Solver.idStep c f i).nav = f.nav := by
      rw [Solver.idStep]
      split
      · exact ⟨h, rfl, rfl⟩
      · split
        · rename_i hs; exact rules_setId h hs
        · exact ⟨h, rfl, rfl⟩
    obtain ⟨h1, h2, h3⟩ := step
    obtain ⟨a, b, c⟩ := ih h1
    exact ⟨a, by rw [b, h2], by rw [c, h3]⟩

theorem rules_applyNode {f f' : Formatter} (h : Rules f) {c : FormattingConfig} {i : Nat}
    (hr : Solver.applyNode c f i = some f') : Rules f' ∧ f'.root = f.root ∧ f'.nav = f.nav := by
  rw [Solver.applyNode] at hr
  split at hr
  · cases hr
  · split at hr
    · cases hr
    · simp only at hr
      split at hr
      · cases hr
      · exact rules_requestOk h hr

theorem rules_applyNodes {c : FormattingConfig} : ∀ (ds : List Nat) {f f' : Formatter}, Rules f →
    ds.foldlM (Solver.applyNode c) f = some f' → Rules f' ∧ f'.root = f.root ∧ f'.nav = f.nav
  | [], f, f', h, hr => by cases hr; exact ⟨h, rfl, rfl⟩
  | d :: ds, f, f', h, hr => by
    rw [List.foldlM_cons] at hr
    cases hg : Solver.applyNode c f d with
    | none => rw [hg] at hr; cases hr
    | some g =>
      rw [hg] at hr
      obtain ⟨h1, h2, h3⟩ := rules_applyNode h hg
      obtain ⟨a, b, c⟩ := rules_applyNodes ds h1 hr
      exact ⟨a, by rw [b, h2], by rw [c, h3]⟩

theorem rules_applyConfig {f f' : Formatter} (h : Rules f) {c : FormattingConfig}
    (hr : Solver.applyConfig f c = some f') : Rules f' ∧ f'.root = f.root ∧ f'.nav = f.nav := by
  obtain ⟨h1, h2, h3⟩ := rules_applyIds h c
  rw [Solver.applyConfig] at hr
  simp only at hr
  split at hr
  · cases hr
  · split at hr
    · cases hr
    · split at hr
      · cases hr
      · rename_i hq
        obtain ⟨a, b, c⟩ := rules_requestOk h1 hq
        obtain ⟨x, y, z⟩ := rules_applyNodes _ a hr
        exact ⟨x, by rw [y, b, h2], by rw [z, c, h3]⟩

/-- **C22.** Every formatter reachable through the public interface obeys the rules. -/
theorem C22_rules (root : Kserd) (f : Formatter) (h : Reachable root f) : f.root = root ∧ Rules f := by
  induction h with
  | new hn =>
    obtain ⟨g, hg, h1, h2⟩ := C22_new root
    rw [hn] at hg; cases hg; exact ⟨h1, h2⟩
  | repr i r _ hr ih => obtain ⟨a, b, _⟩ := rules_request ih.2 hr; exact ⟨by rw [b]; exact ih.1, a⟩
  | id i b _ hr ih => obtain ⟨a, b, _⟩ := rules_setId ih.2 hr; exact ⟨by rw [b]; exact ih.1, a⟩
  | config c _ hr ih => obtain ⟨a, b, _⟩ := rules_applyConfig ih.2 hr; exact ⟨by rw [b]; exact ih.1, a⟩

/-- A map holding a map inside a container, formatted with zero width: reachable by construction, configuration and
requests, so the rules apply to it. -/
example : ∃ f f', Reachable (.mk (some (str "T")) (.cntr [(str "a", .mk none (.seq [.mk none (.num (.uint 1)), .mk none (.tuple [.mk none .unit])]))])) f ∧
    f.request 1 .inline = .ok f' ∧ f.fmts.map (·.line) = [.verbose, .verbose, .inline, .concise, .inline] ∧
    f'.fmts.map (·.line) = [.verbose, .inline, .inline, .inline, .inline] := by
  refine ⟨_, _, .config { widthLimit := some 0 } (.new (by rfl)) (by rfl), by rfl, by decide +kernel, by decide +kernel⟩

/-- The largest representation `Formatter::new` may give a node: map keys are at most concise. -/
def start (n : NavNode) : Repr' :=
  if isKey n then Repr'.min (maxRepr n.kserd.val) .concise else maxRepr n.kserd.val

/-- Lines lie between the own maximum and the least restriction by the parent. -/
def Between (f : Formatter) : Prop :=
  ∀ (i p : Nat) (n : NavNode) (r q : Repr'), f.nav[i]? = some n → n.parent = some p → line f i = some r → line f p = some q →
    Repr'.min (start n) q ≤ r ∧ r ≤ start n

theorem rmin_mono {a b c : Repr'} (h : b ≤ c) : Repr'.min a b ≤ Repr'.min a c := by
  cases a <;> cases b <;> cases c <;> first | decide | (exfalso; revert h; decide)

/-- Lowering requests keep lines between the bounds. -/
theorem request_between {f f' : Formatter} (hs : Shape f) (h : Between f) {idx : Nat} {r : Repr'} (hr : f.request idx r = .ok f')
    (hle : ∀ x, line f idx = some x → r ≤ x)
    (hge : ∀ n p q, f.nav[idx]? = some n → n.parent = some p → line f p = some q → Repr'.min (start n) q ≤ r) : Between f' := by
  obtain ⟨hs', hroot, hnav⟩ := request_shape hs hr
  rcases request_lines hs hr with ⟨rfl, _⟩ | ⟨n, hn, hm, hpar, h0, _, hi, hb, ho⟩
  · exact h
  intro i p m x q hm' hp hx hq
  rw [hnav] at hm'
  have hm'' := hm'; rw [hs.nav] at hm''
  have hn' := hn; rw [hs.nav] at hn'
  have hpi := (parent_lt hm'' hp).1
  by_cases hii : i = idx
  · subst hii
    rw [hn] at hm'; cases hm'
    rw [hi] at hx; cases hx
    have hpb : ¬ Below f.nav i p := by
      rw [hs.nav]; intro hbl; have := (below_bounds hn' hbl).1; omega
    rw [ho p (by omega) hpb] at hq
    refine ⟨hge n p q hn hp hq, ?_⟩
    obtain ⟨y, hy⟩ := line_some hs hn
    exact rle_trans (hle y hy) (h i p n y q hn hp hy hq).2
  · by_cases hbi : Below f.nav idx i
    · rw [hb i hbi] at hx
      cases hy : line f i with
      | none => rw [hy] at hx; cases hx
      | some y =>
        rw [hy] at hx; cases hx
        by_cases hpi' : p = idx
        · subst hpi'
          rw [hi] at hq; cases hq
          obtain ⟨z, hz⟩ := line_some hs hn
          obtain ⟨a, b⟩ := h i p m y z hm' hp hy hz
          exact ⟨rle_min (rle_trans (rmin_mono (hle z hz)) a) (rmin_le_right _ _), rle_trans (rmin_le_left _ _) b⟩
        · have hpb : Below f.nav idx p := by
            cases hbi with
            | child hm2 hp2 => rw [hm'] at hm2; cases hm2; rw [hp] at hp2; cases hp2; exact absurd rfl hpi'
            | step hm2 hp2 hb2 => rw [hm'] at hm2; cases hm2; rw [hp] at hp2; cases hp2; exact hb2
          rw [hb p hpb] at hq
          cases hz : line f p with
          | none => rw [hz] at hq; cases hq
          | some z =>
            rw [hz] at hq; cases hq
            obtain ⟨a, b⟩ := h i p m y z hm' hp hy hz
            refine ⟨rle_min (rle_trans (rmin_mono (rmin_le_left _ _)) a) ?_, rle_trans (rmin_le_left _ _) b⟩
            exact rle_trans (rmin_le_right _ _) (rmin_le_right _ _)
    · have hpb : ¬ Below f.nav idx p := fun hpb => hbi (.step hm' hp hpb)
      have hpn : p ≠ idx := fun e => hbi (.child hm' (by rw [hp, e]))
      rw [ho i hii hbi] at hx
      rw [ho p hpn hpb] at hq
      exact h i p m x q hm' hp hx hq

theorem lowerStep_between {k : Nat} {f f' : Formatter} (hs : Shape f) (h : Between f) (hf : Formatter.lowerStep f k = some f') :
    Between f' ∧ Shape f' ∧ (0 < f.nav.length → line f' 0 = line f 0) := by
  rw [Formatter.lowerStep] at hf
  split at hf
  · cases hf; exact ⟨h, hs, fun _ => rfl⟩
  · rename_i q hq
    cases hn : f.nav[k]? with
    | none => rw [hn] at hq; cases hq
    | some n =>
      rw [hn] at hq
      simp only [Option.bind_some] at hq
      rw [Nav.parent] at hq
      cases hp : n.parent with
      | none => rw [hp] at hq; cases hq
      | some p =>
        rw [hp] at hq
        simp only [Option.bind_some] at hq
        have hqi : q.idx = p := by rw [hs.nav] at hq; exact (C18_preorder f.root).2.1 p q hq
        have hn' := hn; rw [hs.nav] at hn'
        have hpk := (parent_lt hn' hp).1
        split at hf
        · rename_i fm pf hfm hpf
          rw [hqi] at hpf
          split at hf
          · rename_i hlt
            rcases requestOk_cases hs k pf.line with ⟨g, hg, hok⟩ | ⟨hg, _⟩
            · rw [hg] at hf; cases hf
              refine ⟨request_between hs h hok ?_ ?_, (request_shape hs hok).1, ?_⟩
              · intro x hx
                rw [line, hfm] at hx; cases hx
                exact Nat.le_of_lt hlt
              · intro n' p' q' hn2 hp2 hq2
                rw [hn] at hn2; cases hn2
                rw [hp] at hp2; cases hp2
                rw [line, hpf] at hq2; cases hq2
                exact rmin_le_right _ _
              · intro _
                rcases request_lines hs hok with ⟨rfl, _⟩ | ⟨m, _, _, _, _, _, _, _, ho⟩
                · rfl
                · apply ho 0 (by omega)
                  rw [hs.nav]; intro hbl; have := (below_bounds hn' hbl).1; omega
            · rw [hg] at hf; cases hf; exact ⟨h, hs, fun _ => rfl⟩
          · cases hf; exact ⟨h, hs, fun _ => rfl⟩
        · cases hf

theorem lowerPass_between : ∀ (l : List Nat) (f f' : Formatter), Shape f → Between f → l.foldlM Formatter.lowerStep f = some f' →
    Between f' ∧ (line f' 0 = line f 0)
  | [], f, f', _, h, hf => by cases hf; exact ⟨h, rfl⟩
  | k :: l, f, f', hs, h, hf => by
    rw [List.foldlM_cons] at hf
    cases hg : Formatter.lowerStep f k with
    | none => rw [hg] at hf; cases hf
    | some g =>
      rw [hg] at hf
      obtain ⟨a, b, c⟩ := lowerStep_between hs h hg
      obtain ⟨d, e⟩ := lowerPass_between l g f' b a hf
      have hpos : 0 < f.nav.length := by
        obtain ⟨n, hn, _⟩ := root_get hs
        exact (List.getElem?_eq_some_iff.mp hn).1
      exact ⟨d, by rw [e, c hpos]⟩

theorem init_between (root : Kserd) : Between (Formatter.init root) := by
  intro i p n r q hn hp hr hq
  have hn' : (Nav.new root)[i]? = some n := hn
  rw [init_line root hn'] at hr
  cases hr
  exact ⟨rmin_le_left _ _, rle_refl _⟩

theorem key_root {root : Kserd} {n0 : NavNode} (hn0 : (Nav.new root)[0]? = some n0) : isKey n0 = false := by
  obtain ⟨n', hn', h1, h2, h3, _⟩ := get_node hn0
  have : n' = mkN 0 ({}, root) := by
    rw [node, forest_cons] at hn'; simpa using hn'.symm
  rw [isKey, h3, this]; rfl

theorem rootStep_between (root : Kserd) (f : Formatter) (hf : Formatter.rootStep root = some f) :
    Between f ∧ Shape f ∧
      line f 0 = some (if isSeqMap root.val then Repr'.min (maxRepr root.val) .concise else maxRepr root.val) := by
  obtain ⟨_, hidx, n0, hn0, hk0⟩ := C18_preorder root
  have hs : Shape (Formatter.init root) := ⟨rfl, by simp [Formatter.init]⟩
  have hb := init_between root
  have hl0 : line (Formatter.init root) 0 = some (maxRepr root.val) := by
    rw [init_line root hn0, key_root hn0, hk0]; rfl
  have hp0 : n0.parent = none := ((C19_links root 0 n0 hn0).2.1).mpr rfl
  have hn0' : (Formatter.init root).nav[0]? = some n0 := hn0
  have done : isSeqMap root.val = false → some (Formatter.init root) = some f → Between f ∧ Shape f ∧
      line f 0 = some (if isSeqMap root.val then Repr'.min (maxRepr root.val) .concise else maxRepr root.val) := by
    intro hsm he; cases he
    exact ⟨hb, hs, by rw [hl0, hsm]; rfl⟩
  have req : isSeqMap root.val = true → (Formatter.init root).requestOk 0 .concise = some f → Between f ∧ Shape f ∧
      line f 0 = some (if isSeqMap root.val then Repr'.min (maxRepr root.val) .concise else maxRepr root.val) := by
    intro hsm he
    rw [hsm, if_pos rfl]
    rcases maxRepr_seqmap hsm with hmx | hmx
    · -- empty: refused
      rw [hmx] at hl0 ⊢
      rcases requestOk_cases hs 0 .concise with ⟨g, hg, hok⟩ | ⟨hg, _⟩
      · exfalso
        rcases request_lines hs hok with ⟨_, e⟩ | ⟨n, hn, hm, _⟩
        · rw [hl0] at e; cases e
        · rw [hn0'] at hn; cases hn; rw [hk0, hmx] at hm; exact absurd hm (by decide)
      · rw [hg] at he; cases he
        exact ⟨hb, hs, by rw [hl0]; rfl⟩
    · rw [hmx] at hl0 ⊢
      obtain ⟨fm, hfm⟩ := hs.fmt hn0'
      have hfl : fm.line = .verbose := by rw [line, hfm] at hl0; exact Option.some.inj hl0
      obtain ⟨ds, _, hnd, hreq⟩ := (request_eq hs 0 .concise).1 n0 fm hn0' hfm
      rw [hfl, if_neg (by decide), if_neg (by rintro ⟨_, h, _⟩; cases h), hk0, hmx, hp0,
        validate_of (by decide) (by intro q hq; cases hq)] at hreq
      obtain ⟨g, hg⟩ : ∃ g, (Formatter.init root).request 0 .concise = .ok g := ⟨_, hreq⟩
      rw [Formatter.requestOk, hg] at he; cases he
      refine ⟨request_between hs hb hg ?_ ?_, (request_shape hs hg).1, ?_⟩
      · intro x hx; rw [hl0] at hx; cases hx; decide
      · intro n p q hn hp; rw [hn0'] at hn; cases hn; rw [hp0] at hp; cases hp
      · rcases request_lines hs hg with ⟨rfl, e⟩ | ⟨n, hn, hm, _, _, _, hi, _⟩
        · rw [e]; rfl
        · rw [hi]; rfl
  rw [Formatter.rootStep] at hf
  cases hv : root.val <;> rw [hv] at done req <;> simp only [hv, Value.kind] at hf <;>
    first | exact done rfl hf | exact req rfl hf

/-- **C22.** `Formatter::new` gives every node the largest representation the rules allow: the root its maximum (concise
if it is a sequence or map), every other node the smaller of its own maximum (at most concise for a map key) and its
parent's representation. -/
theorem C22_new_maximal (root : Kserd) (f : Formatter) (hf : Formatter.new root = some f) :
    line f 0 = some (if isSeqMap root.val then Repr'.min (maxRepr root.val) .concise else maxRepr root.val) ∧
    ∀ (i p : Nat) (n : NavNode) (q : Repr'), f.nav[i]? = some n → n.parent = some p → line f p = some q →
      line f i = some (Repr'.min (if isKey n then Repr'.min (maxRepr n.kserd.val) .concise else maxRepr n.kserd.val) q) := by
  obtain ⟨f', hf', _, hr⟩ := C22_new root
  rw [hf] at hf'; cases hf'
  rw [Formatter.new] at hf
  split at hf
  · cases hf
  · rename_i g hg
    obtain ⟨h1, h2, h3⟩ := rootStep_between root g hg
    obtain ⟨h4, h5⟩ := lowerPass_between _ g f h2 h1 hf
    refine ⟨by rw [h5]; exact h3, ?_⟩
    intro i p n q hn hp hq
    obtain ⟨r, hl⟩ := line_some ⟨hr.nav, hr.len⟩ hn
    obtain ⟨a, b⟩ := h4 i p n r q hn hp hl hq
    have c := hr.parent i p n r q hn hp hl hq
    rw [hl]
    exact congrArg some (rle_antisymm (rle_min b c) a)

/-- Applied to a sequence at the root: it starts concise. -/
example : ∃ f, Formatter.new (.mk none (.seq [.mk none .unit])) = some f ∧ line f 0 = some .concise := by
  obtain ⟨f, hf⟩ : ∃ f, Formatter.new (.mk none (.seq [.mk none .unit])) = some f := ⟨_, by rfl⟩
  exact ⟨f, hf, (C22_new_maximal _ f hf).1⟩

/-! ## C23 -/

/-- What a request needs. -/
def Allowed (f : Formatter) (i : Nat) (r : Repr') : Prop :=
  ∃ n, f.nav[i]? = some n ∧ r ≤ maxRepr n.kserd.val ∧ (∀ p q, n.parent = some p → line f p = some q → r ≤ q) ∧
    ¬ (i = 0 ∧ r = .verbose ∧ isSeqMap n.kserd.val = true)

/-- **C23.** A request is granted exactly when the index exists, the node's own maximum and its parent's
representation allow it, and it is not verbose for a root sequence or map. -/
theorem C23_granted (f : Formatter) (h : Rules f) (i : Nat) (r : Repr') :
    (∃ f', f.request i r = .ok f') ↔ Allowed f i r := by
  have hs : Shape f := ⟨h.nav, h.len⟩
  cases hn : f.nav[i]? with
  | none =>
    rw [(request_eq hs i r).2 hn]
    constructor
    · rintro ⟨_, h⟩; cases h
    · rintro ⟨n, hn', _⟩; rw [hn] at hn'; cases hn'
  | some n =>
    obtain ⟨fm, hfm⟩ := hs.fmt hn
    have hl : line f i = some fm.line := by rw [line, hfm]; rfl
    constructor
    · rintro ⟨f', hf'⟩
      rcases request_lines hs hf' with ⟨_, e⟩ | ⟨n, hn', h1, h2, h3, _⟩
      · refine ⟨n, hn, h.max i n r hn e, fun p q hp hq => h.parent i p n r q hn hp e hq, ?_⟩
        rintro ⟨rfl, rfl, hsm⟩
        obtain ⟨m, hm, hmk⟩ := root_get hs
        rw [hn] at hm; cases hm
        exact h.root (by rw [← hmk]; exact hsm) e
      · exact ⟨n, hn', h1, h2, h3⟩
    · rintro ⟨n', hn', h1, h2, h3⟩
      rw [hn] at hn'; cases hn'
      obtain ⟨ds, _, _, he⟩ := (request_eq hs i r).1 n fm hn hfm
      rw [he]
      split
      · exact ⟨_, rfl⟩
      · rw [validate_of h1]
        · exact ⟨_, rfl⟩
        · intro q hq
          cases hp : n.parent with
          | none => rw [hp] at hq; cases hq
          | some p => rw [hp] at hq; exact h2 p q hp hq

/-- **C23.** A granted request sets the node, lowers its descendants to at most the requested representation and
changes nothing else. -/
theorem C23_effect (f f' : Formatter) (h : Rules f) (i : Nat) (r : Repr') (hr : f.request i r = .ok f') :
    f'.root = f.root ∧ f'.nav = f.nav ∧ line f' i = some r ∧
    (∀ j x, Below f.nav i j → line f j = some x → line f' j = some (Repr'.min x r)) ∧
    (∀ j, j ≠ i → ¬ Below f.nav i j → line f' j = line f j) ∧
    (∀ j, idOn f' j = idOn f j) := by
  have hs : Shape f := ⟨h.nav, h.len⟩
  obtain ⟨_, h1, h2⟩ := request_shape hs hr
  refine ⟨h1, h2, ?_⟩
  rcases request_lines hs hr with ⟨rfl, e⟩ | ⟨n, hn', _, _, _, h4, h5, h6, h7⟩
  · refine ⟨e, ?_, fun _ _ _ => rfl, fun _ => rfl⟩
    intro j x hb hx
    rw [rmin_of_le ?_]; · exact hx
    -- descendants are at most the node
    have key : ∀ j, Below f'.nav i j → ∀ x, line f' j = some x → x ≤ r := by
      intro j hb
      induction hb with
      | child hm hp => intro x hx; exact h.parent _ _ _ x r hm hp hx e
      | step hm hp hb ih =>
        intro x hx
        obtain ⟨q, hq⟩ : ∃ q, line f' _ = some q := by
          have hm' := hm; rw [h.nav] at hm'
          obtain ⟨_, q, hq⟩ := parent_lt hm' hp
          rw [← h.nav] at hq; exact line_some hs hq
        exact rle_trans (h.parent _ _ _ x q hm hp hx hq) (ih q hq)
    exact key j hb x hx
  · refine ⟨h5, ?_, h7, h4⟩
    intro j x hb hx
    rw [h6 j hb, hx]; rfl

/-- **C23.** Which error a refused request gives. -/
theorem C23_refused (f : Formatter) (h : Rules f) (i : Nat) (r : Repr') (e : FmtError) (he : f.request i r = .error e) :
    (e = .idxOutOfBounds ∧ f.nav.length ≤ i) ∨
    ∃ n, f.nav[i]? = some n ∧
      ((e = .seqMapAtRoot ∧ i = 0 ∧ r = .verbose ∧ isSeqMap f.root.val = true) ∨
       (e = .requestTooHigh (maxRepr n.kserd.val) r ∧ maxRepr n.kserd.val < r) ∨
       (∃ p, n.parent = some p ∧ r ≤ maxRepr n.kserd.val ∧
        ((e = .parentIsInline ∧ line f p = some .inline ∧ Repr'.inline < r) ∨
         (e = .parentIsConcise ∧ line f p = some .concise ∧ Repr'.concise < r)))) := by
  have hs : Shape f := ⟨h.nav, h.len⟩
  cases hn : f.nav[i]? with
  | none =>
    rw [(request_eq hs i r).2 hn] at he; cases he
    exact .inl ⟨rfl, by simpa using hn⟩
  | some n =>
    refine .inr ⟨n, rfl, ?_⟩
    obtain ⟨fm, hfm⟩ := hs.fmt hn
    obtain ⟨ds, _, _, heq⟩ := (request_eq hs i r).1 n fm hn hfm
    rw [heq] at he
    split at he
    · cases he
    · split at he
      · rename_i _ hc
        cases he
        obtain ⟨m, hm, hmk⟩ := root_get hs
        obtain ⟨rfl, h2, h3⟩ := hc
        rw [hn] at hm; cases hm
        exact .inl ⟨rfl, rfl, h2, by rw [← hmk]; exact h3⟩
      · split at he
        · rename_i e' hv
          cases he
          right
          rw [Formatter.validateRequest] at hv
          split at hv
          · rename_i hlt; cases hv; exact .inl ⟨rfl, hlt⟩
          · rename_i hlt
            right
            split at hv
            · rename_i hlt'
              cases hp : n.parent with
              | none =>
                rw [hp] at hlt'
                exact absurd hlt' (rnot_lt.mpr (rle_verbose r))
              | some p =>
                rw [hp] at hlt' hv
                refine ⟨p, rfl, rnot_lt.mp hlt, ?_⟩
                simp only [Option.bind_some] at hlt' hv
                have hn' := hn; rw [h.nav] at hn'
                obtain ⟨_, q, hq⟩ := parent_lt hn' hp
                rw [← h.nav] at hq
                obtain ⟨x, hx⟩ := line_some hs hq
                rw [hx] at hlt' hv ⊢
                simp only [Option.getD_some] at hlt' hv
                cases x
                · cases hv; exact .inl ⟨rfl, rfl, hlt'⟩
                · cases hv; exact .inr ⟨rfl, rfl, hlt'⟩
                · exact absurd hlt' (rnot_lt.mpr (rle_verbose r))
            · cases hv
        · cases he

/-- A refused and a granted request on the same formatter. -/
example : ∃ f f', Formatter.new (.mk none (.seq [.mk none (.num (.uint 1))])) = some f ∧
    f.request 0 .verbose = .error .seqMapAtRoot ∧ f.request 1 .concise = .error (.requestTooHigh .inline .concise) ∧
    f.request 0 .inline = .ok f' := ⟨_, _, by rfl, by rfl, by rfl, by rfl⟩

end KS.Props
