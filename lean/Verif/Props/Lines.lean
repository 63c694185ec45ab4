import Verif.Lemmas.WriteLines
import Verif.Props.Layout
/-!
# C49: line lengths of layouts that are not verbose
-/

namespace KS.Props
open KS.Spec KS.Nav KS.Fm KS.Wr

/-! ## Columns -/

/-- The column of a child in a concise parent, from the column of the parent. -/
def dcol (c : FormattingConfig) (q m : NavNode) : Option Nat :=
  match q.kserd.val with
  | .tuple _ => some 4
  | .seq _ => some 4
  | .cntr f => (f[idxInParent m]?).map fun p => 4 + (p.1.length + 3)
  | .map l => if isKey m then some 4 else (l[idxInParent m]?).map fun p => 4 + (Solver.inlineTotal c p.1 + 2)
  | _ => none

/-- The column of a node if everything above it is concise. -/
inductive Col (c : FormattingConfig) (nav : Navigator) : Nat → Nat → Prop
  | root : Col c nav 0 0
  | child {j p e d : Nat} {m q : NavNode} : nav[j]? = some m → m.parent = some p → nav[p]? = some q → dcol c q m = some d →
      Col c nav p e → Col c nav j (e + d)

/-- Every map key is a primitive or empty. -/
def KeysPlain (f : Formatter) : Prop :=
  ∀ (i : Nat) (n : NavNode), f.nav[i]? = some n → isKey n = true → maxRepr n.kserd.val = .inline

theorem keysPlain {f : Formatter} (hr : Rules f) (h : ∀ x ∈ preorder f.root, PlainKeys x) : KeysPlain f := by
  intro i n hn hk
  rw [hr.nav] at hn
  obtain ⟨p, hp⟩ := key_has_parent hn hk
  obtain ⟨_, q, hq⟩ := parent_lt hn hp
  have hm := keyed_of_key hn hp hq hk
  have hqm : q.kserd ∈ preorder f.root := by
    rw [← (C18_preorder f.root).1]
    exact List.mem_map_of_mem (List.mem_of_getElem? hq)
  cases hv : q.kserd.val <;> rw [hv] at hm <;> simp only [keysOf, List.not_mem_nil] at hm
  rename_i l
  obtain ⟨x, hx, he⟩ := List.mem_map.mp hm
  have := h _ hqm l hv x hx
  rw [← he]; exact this

theorem pcc_dcol {f : Formatter} (hr : Rules f) (hk : KeysPlain f) {c : FormattingConfig} {j p o d : Nat} {m q : NavNode}
    (hm : f.nav[j]? = some m) (hp : m.parent = some p) (hq : f.nav[p]? = some q)
    (ho : Solver.concisePCC c f.nav f.fmts q m = some o) (hd : dcol c q m = some d) : o = d := by
  rw [Solver.concisePCC] at ho
  rw [dcol] at hd
  cases hv : q.kserd.val <;> rw [hv] at ho hd <;> simp only at ho hd
  case tuple l => cases ho; cases hd; rfl
  case seq l => cases ho; cases hd; rfl
  case cntr l =>
    rw [Solver.cntrFieldOffset] at ho
    cases he : l[idxInParent m]? with
    | none => rw [he] at ho; cases ho
    | some x => rw [he] at ho hd; cases ho; cases hd; rw [asg_len, ind4]
  case map l =>
    rw [Solver.mapEntryOffset] at ho
    by_cases hkm : isKey m = true
    · rw [if_pos hkm] at ho hd; cases ho; cases hd; rfl
    · rw [if_neg hkm] at ho hd
      cases he : l[idxInParent m]? with
      | none => rw [he] at hd; cases hd
      | some x =>
        rw [he] at hd; cases hd
        cases hki : q.keyChildren[idxInParent m]? with
        | none => rw [hki] at ho; cases ho
        | some ki =>
          have hq' := hq; rw [hr.nav] at hq'
          obtain ⟨_, _, h3, _, h5, _, h7⟩ := C19_links f.root p q hq'
          obtain ⟨kn, hkn, _⟩ := h5 _ _ hki
          have hkey := ((h3 ki kn hkn).2.mp (List.mem_of_getElem? hki)).2
          have hks := congrArg (fun z => z[idxInParent m]?) h7
          simp only [List.getElem?_map, hki, Option.map_some, hkn, hv, keysOf, he] at hks
          have hks : kn.kserd = x.1 := by simpa using hks
          rw [← hr.nav] at hkn
          obtain ⟨kf, hkf⟩ := Shape.fmt ⟨hr.nav, hr.len⟩ hkn
          have hl : kf.line = .inline := by
            have := hr.max ki kn kf.line hkn (by rw [line, hkf]; rfl)
            rw [hk ki kn hkn hkey] at this
            exact rle_inline this
          simp only [hki, hkn, hkf, hl, hks] at ho
          cases ho
          rw [kas_len, ind4]
  all_goals cases ho

/-- Everything above a node whose parent is concise is concise, if the root is. -/
theorem concise_above {f : Formatter} (hr : Rules f) (h0 : line f 0 = some .concise) (i : Nat) (n : NavNode) (hn : f.nav[i]? = some n) :
    ∃ r, line f i = some r ∧ r ≤ .concise := by
  induction i using Nat.strongRecOn generalizing n with
  | ind i ih =>
    obtain ⟨r, hl⟩ := line_some ⟨hr.nav, hr.len⟩ hn
    have hn' := hn; rw [hr.nav] at hn'
    cases hp : n.parent with
    | none =>
      have := ((C19_links _ i n hn').2.1).mp hp
      subst this; exact ⟨_, h0, rle_refl _⟩
    | some p =>
      obtain ⟨hlt, q, hq⟩ := parent_lt hn' hp
      rw [← hr.nav] at hq
      obtain ⟨s, hs, hle⟩ := ih p hlt q hq
      exact ⟨r, hl, rle_trans (hr.parent i p n r s hn hp hl hs) hle⟩

theorem idx_of {f : Formatter} (hr : Rules f) {i : Nat} {n : NavNode} (hn : f.nav[i]? = some n) : n.idx = i := by
  rw [hr.nav] at hn; exact (C18_preorder f.root).2.1 i n hn

theorem parent_of {f : Formatter} {n q : NavNode} {p : Nat} (hp : n.parent = some p) (hq : f.nav[p]? = some q) :
    Nav.parent f.nav n = some q := by
  rw [Nav.parent, hp]; exact hq

theorem offsetLoop_col {f : Formatter} (hr : Rules f) (hk : KeysPlain f) {c : FormattingConfig} (h0 : line f 0 = some .concise)
    {j e : Nat} (hc : Col c f.nav j e) : ∀ (fuel off o : Nat) (m : NavNode), f.nav[j]? = some m → line f j = some .concise →
      Solver.offsetLoop c f.nav f.fmts fuel m off = some o → o = off + e := by
  induction hc with
  | root =>
    intro fuel off o m hm hl ho
    cases fuel with
    | zero => cases ho
    | succ fuel =>
      have hm' := hm; rw [hr.nav] at hm'
      have hp : Nav.parent f.nav m = none := by rw [hr.nav]; exact (C19_links _ 0 m hm').1.mpr rfl
      rw [Solver.offsetLoop, hp] at ho
      simp only [idx_of hr hm] at ho
      rw [line] at h0
      cases hf : f.fmts[0]? with
      | none => rw [hf] at ho; cases ho
      | some fm =>
        rw [hf] at ho h0
        have h0 : fm.line = .concise := Option.some.inj h0
        simp only [h0] at ho
        cases ho; rfl
  | child hm hp hq hd _ ih =>
    rename_i j p e d m q _
    intro fuel off o m' hm' hl ho
    rw [hm] at hm'; cases hm'
    cases fuel with
    | zero => cases ho
    | succ fuel =>
      have hlp : line f p = some .concise := by
        obtain ⟨r, h1, h2⟩ := concise_above hr h0 p q hq
        rw [h1, rle_antisymm h2 (hr.parent j p m _ r hm hp hl h1)]
      rw [Solver.offsetLoop, parent_of hp hq] at ho
      simp only [idx_of hr hq] at ho
      rw [line] at hlp
      cases hf : f.fmts[p]? with
      | none => rw [hf] at ho; cases ho
      | some fm =>
        rw [hf] at ho hlp
        have hlf : fm.line = .concise := Option.some.inj hlp
        simp only [hlf] at ho
        cases ha : Solver.concisePCC c f.nav f.fmts q m with
        | none => rw [ha] at ho; cases ho
        | some a =>
          rw [ha] at ho
          have := pcc_dcol hr hk hm hp hq ha hd
          subst this
          have := ih fuel (off + a) o q hq (by rw [line, hf]; exact hlp) ho
          omega

theorem offset_col {f : Formatter} (hr : Rules f) (hk : KeysPlain f) {c : FormattingConfig} (h0 : line f 0 = some .concise)
    {j p e o : Nat} {m : NavNode} (hc : Col c f.nav j e) (hm : f.nav[j]? = some m) (hp : m.parent = some p)
    (hl : line f p = some .concise) (ho : Solver.calculateOffset c f.nav f.fmts m = some o) : o = e := by
  cases hc with
  | root =>
    rw [hr.nav] at hm
    have := (C19_links _ 0 m hm).2.1.mpr rfl
    rw [this] at hp; cases hp
  | child hm' hp' hq hd hc =>
    rename_i q
    rw [hm] at hm'; cases hm'
    rw [hp] at hp'; cases hp'
    rw [Solver.calculateOffset, parent_of hp hq] at ho
    simp only [idx_of hr hq] at ho
    have hl' := hl
    rw [line] at hl
    cases hf : f.fmts[p]? with
    | none => rw [hf] at ho; cases ho
    | some fm =>
      rw [hf] at ho hl
      have hlf : fm.line = .concise := Option.some.inj hl
      simp only [hlf] at ho
      cases ha : Solver.concisePCC c f.nav f.fmts q m with
      | none => rw [ha] at ho; cases ho
      | some a =>
        rw [ha] at ho
        have := pcc_dcol hr hk hm hp hq ha hd
        subst this
        have := offsetLoop_col hr hk h0 hc _ _ _ _ hq hl' ho
        omega

theorem dcol_some {root : Kserd} {c : FormattingConfig} {j p : Nat} {m q : NavNode} (hm : (Nav.new root)[j]? = some m) (hp : m.parent = some p)
    (hq : (Nav.new root)[p]? = some q) : ∃ d, dcol c q m = some d := by
  obtain ⟨i1, i2⟩ := idx_lt hm hp hq
  obtain ⟨l1, l2⟩ := links_len hq
  have hne := parent_nonempty hm hp hq
  have nokey : keysOf q.kserd.val = [] → isKey m = false := by
    intro he
    cases hkm : isKey m with
    | false => rfl
    | true => have := i2 hkm; rw [l2, he] at this; simp at this
  rw [dcol]
  cases hv : q.kserd.val <;> rw [hv] at hne l1 l2 nokey
  case tuple l => exact ⟨_, rfl⟩
  case seq l => exact ⟨_, rfl⟩
  case cntr fs =>
    have := i1 (nokey rfl)
    rw [l1] at this
    simp only [valuesOf, List.length_map] at this
    simp only [List.getElem?_eq_getElem this]
    exact ⟨_, rfl⟩
  case map ms =>
    cases hkm : isKey m with
    | true => exact ⟨_, rfl⟩
    | false =>
      have := i1 hkm
      rw [l1] at this
      simp only [valuesOf, List.length_map] at this
      simp only [List.getElem?_eq_getElem this]
      exact ⟨_, rfl⟩
  all_goals exact absurd rfl hne

theorem col_some {root : Kserd} {c : FormattingConfig} (i : Nat) (n : NavNode) (hn : (Nav.new root)[i]? = some n) : ∃ e, Col c (Nav.new root) i e := by
  induction i using Nat.strongRecOn generalizing n with
  | ind i ih =>
    cases hp : n.parent with
    | none =>
      have := ((C19_links _ i n hn).2.1).mp hp
      subst this; exact ⟨_, .root⟩
    | some p =>
      obtain ⟨hlt, q, hq⟩ := parent_lt hn hp
      obtain ⟨e, he⟩ := ih p hlt q hq
      obtain ⟨d, hd⟩ := dcol_some (c := c) hn hp hq
      exact ⟨_, .child hn hp hq hd he⟩

/-! ## The choices of the solver -/

/-- Nodes on lines of their own are inline only if they must be or fit. -/
def Snug (c : FormattingConfig) (w : Nat) (g : Formatter) : Prop :=
  ∀ (i p e : Nat) (n : NavNode), g.nav[i]? = some n → n.parent = some p → line g p = some .concise → line g i = some .inline →
    Col c g.nav i e → maxRepr n.kserd.val = .inline ∨ e + Solver.inlineTotal c n.kserd ≤ w

theorem applyNode_min {g g' : Formatter} {c : FormattingConfig} {d : Nat} {m : NavNode} (hm : g.nav[d]? = some m) (h : Solver.applyNode c g d = some g') :
    ∃ (o : Nat) (r : Repr'), Solver.calculateOffset c g.nav g.fmts m = some o ∧ g.requestOk d r = some g' ∧
      (r = Solver.minLineRepr (c.widthLimit.map (· - o)) (Solver.inlineTotal c m.kserd) (Solver.conciseTotal c m.kserd) ∨ r = .verbose) := by
  rw [Solver.applyNode, hm] at h
  simp only at h
  split at h
  · cases h
  · rename_i o ho
    split at h
    · cases h
    · refine ⟨o, _, ho, h, ?_⟩
      split
      · exact .inr rfl
      · exact .inl rfl

theorem min_inline {w o i k : Nat} (h : Solver.minLineRepr (some (w - o)) i k = .inline) (hi : 0 < i) : o + i ≤ w := by
  rw [Solver.minLineRepr] at h
  split at h
  · cases h
  · split at h
    · cases h
    · omega

theorem min_concise {w o i k : Nat} (h : Solver.minLineRepr (some (w - o)) i k = .concise) : ¬ o + i ≤ w := by
  rw [Solver.minLineRepr] at h
  split at h
  · cases h
  · split at h
    · omega
    · cases h

theorem inlineTotal_pos (c : FormattingConfig) (k : Kserd) : 0 < Solver.inlineTotal c k := by
  obtain ⟨id, v⟩ := k
  rw [Solver.inlineTotal]
  have := inlineWidth_pos c id v
  omega

theorem snug_step {g g' : Formatter} {c : FormattingConfig} {w d : Nat} (hr : Rules g) (hk : KeysPlain g) (hc : c.widthLimit = some w)
    (h0 : line g 0 = some .concise) (hs : Snug c w g) (hd : 0 < d) (h : Solver.applyNode c g d = some g') : Snug c w g' := by
  cases hm : g.nav[d]? with
  | none => rw [Solver.applyNode, hm] at h; cases h
  | some m =>
    obtain ⟨o, r, ho, hreq, hmin⟩ := applyNode_min hm h
    rw [hc, Option.map_some] at hmin
    rcases requestOk_cases ⟨hr.nav, hr.len⟩ d r with ⟨g2, h2, h3⟩ | ⟨h2, _⟩
    · rw [hreq] at h2; cases h2
      obtain ⟨e1, e2, e3, e4, e5, _⟩ := C23_effect _ _ hr d r h3
      obtain ⟨m', hm', hmax, hpar, _⟩ := (C23_granted g hr d r).mp ⟨_, h3⟩
      rw [hm] at hm'; cases hm'
      have hm' := hm; rw [hr.nav] at hm'
      obtain ⟨p, hp⟩ : ∃ p, m.parent = some p := by
        cases hp : m.parent with
        | some p => exact ⟨p, rfl⟩
        | none => have := (C19_links _ d m hm').2.1.mp hp; omega
      obtain ⟨hlt, q, hq⟩ := parent_lt hm' hp
      rw [← hr.nav] at hq
      obtain ⟨lp, hlp, hlpc⟩ := concise_above hr h0 p q hq
      obtain ⟨ld, hld⟩ := line_some ⟨hr.nav, hr.len⟩ hm
      have hrp : r ≤ lp := hpar p lp hp hlp
      have hr1 : r = Solver.minLineRepr (some (w - o)) (Solver.inlineTotal c m.kserd) (Solver.conciseTotal c m.kserd) := by
        rcases hmin with h | h
        · exact h
        · exfalso; rw [h] at hrp; have := rle_trans hrp hlpc; revert this; decide
      obtain ⟨e, he⟩ := col_some (c := c) d m hm'
      rw [← hr.nav] at he
      have hcases : r = .inline ∨ r = .concise := by
        have := rle_trans hrp hlpc
        cases r <;> first | exact .inl rfl | exact .inr rfl | (exfalso; revert this; decide)
      rcases hcases with rfl | rfl
      · -- inline
        intro i p' e' n hn hp' hlp' hli hci
        rw [e2] at hn hci
        have a1 : p' ≠ d := by rintro rfl; rw [e3] at hlp'; cases hlp'
        have a2 : ¬ Below g.nav d p' := by
          intro hb
          rw [hr.nav] at hb
          obtain ⟨_, q', hq', _⟩ := below_bounds hm' hb
          rw [← hr.nav] at hq' hb
          obtain ⟨x, hx⟩ := line_some ⟨hr.nav, hr.len⟩ hq'
          rw [e4 p' x hb hx] at hlp'
          cases x <;> cases hlp'
        rw [e5 p' a1 a2] at hlp'
        by_cases hid : i = d
        · subst hid
          rw [hm] at hn; cases hn
          have := offset_col hr hk h0 hci hm hp' hlp' ho
          subst this
          exact .inr (min_inline hr1.symm (inlineTotal_pos c _))
        · have a3 : ¬ Below g.nav d i := by
            intro hb
            cases hb with
            | child hb1 hb2 => rw [hn] at hb1; cases hb1; rw [hp'] at hb2; cases hb2; exact a1 rfl
            | step hb1 hb2 hb3 => rw [hn] at hb1; cases hb1; rw [hp'] at hb2; cases hb2; exact a2 hb3
          rw [e5 i hid a3] at hli
          exact hs i p' e' n hn hp' hlp' hli hci
      · -- concise
        have hlpe : lp = .concise := rle_antisymm hlpc hrp
        subst hlpe
        have hoe := offset_col hr hk h0 he hm hp hlp ho
        subst hoe
        have hldc : ld = .concise := by
          have := hr.parent d p m ld _ hm hp hld hlp
          cases ld with
          | concise => rfl
          | verbose => exfalso; revert this; decide
          | inline =>
            rcases hs d p o m hm hp hlp hld he with h | h
            · rw [h] at hmax; exfalso; revert hmax; decide
            · exact absurd h (min_concise hr1.symm)
        subst hldc
        have hsame : ∀ j n, g.nav[j]? = some n → line g' j = line g j := by
          intro j n hn
          by_cases hj : j = d
          · subst hj; rw [e3, hld]
          · by_cases hb : Below g.nav d j
            · obtain ⟨x, hx, hxc⟩ := concise_above hr h0 j n hn
              rw [e4 j x hb hx, hx, rmin_of_le hxc]
            · exact e5 j hj hb
        intro i p' e' n hn hp' hlp' hli hci
        rw [e2] at hn hci
        have hn' := hn; rw [hr.nav] at hn'
        obtain ⟨_, q', hq'⟩ := parent_lt hn' hp'
        rw [← hr.nav] at hq'
        rw [hsame _ _ hn] at hli
        rw [hsame _ _ hq'] at hlp'
        exact hs i p' e' n hn hp' hlp' hli hci
    · rw [hreq] at h2; cases h2; exact hs

/-- What configuring makes of a root container that it does not lay out verbosely. -/
theorem config_snug {f f' : Formatter} {c : FormattingConfig} {w : Nat} (hf : Formatter.new f.root = some f) (hr : Rules f)
    (hc : c.widthLimit = some w) (h : Solver.applyConfig f c = some f') (hk : ∀ x ∈ preorder f.root, PlainKeys x) {fs : Fields}
    (hv : f.root.val = .cntr fs) (hne : fs ≠ []) (h1 : line f' 0 = some .concise) :
    Snug c w f' ∧ Solver.conciseTotal c f.root ≤ w := by
  have hmaxr : maxRepr f.root.val = .verbose := by rw [hv, maxRepr, if_neg hne]
  refine (applyConfig_inv hr h (fun g => g.root = f.root ∧ (line g 0 = some .concise → Snug c w g ∧ Solver.conciseTotal c f.root ≤ w)) ?_ ?_).2 h1
  · intro g hg hreq
    obtain ⟨i1, i2, i3⟩ := rules_applyIds hr c
    obtain ⟨n0, hn0, hk0⟩ := root_get (f := Solver.applyIds f c) ⟨i1.nav, i1.len⟩
    have hn0' := hn0; rw [i1.nav] at hn0'
    have hnop : n0.parent = none := (C19_links _ 0 n0 hn0').2.1.mpr rfl
    rw [hc] at hreq
    obtain ⟨g2, h3⟩ := (C23_granted _ i1 0 (Solver.minLineRepr (some w) (Solver.inlineTotal c f.root) (Solver.conciseTotal c f.root))).mpr
      ⟨n0, hn0, by rw [hk0, i2, hmaxr]; exact rle_verbose _, fun p _ hp => (by rw [hnop] at hp; cases hp),
        (by rintro ⟨_, _, hb⟩; rw [hk0, i2, hv] at hb; cases hb)⟩
    rcases requestOk_cases ⟨i1.nav, i1.len⟩ 0 (Solver.minLineRepr (some w) (Solver.inlineTotal c f.root) (Solver.conciseTotal c f.root))
      with ⟨g3, h4, h5⟩ | ⟨_, e, h5⟩
    · rw [h4] at hreq; cases hreq
      obtain ⟨e1, e2, e3, e4, _, _⟩ := C23_effect _ _ i1 0 _ h5
      refine ⟨by rw [e1, i2], ?_⟩
      intro hl
      rw [hl] at e3
      have hmin := (Option.some.inj e3).symm
      refine ⟨?_, ?_⟩
      · intro i p e n hn hp hlp hli _
        left
        rw [e2, i3] at hn
        have hn' := hn; rw [hr.nav] at hn'
        by_contra hmax
        obtain ⟨r, hlr, hge⟩ := new_not_inline _ f hf i n hn' hmax
        have hi0 : i ≠ 0 := by rintro rfl; rw [(C19_links _ 0 n hn').2.1.mpr rfl] at hp; cases hp
        have hb : Below (Solver.applyIds f c).nav 0 i := by
          rw [i3, hr.nav]
          exact below_root hn' hi0
        have := e4 i r hb (by rw [applyIds_line]; exact hlr)
        rw [hmin, hli] at this
        cases r with
        | inline => revert hge; decide
        | concise => cases this
        | verbose => cases this
      · rw [Solver.minLineRepr] at hmin
        split at hmin
        · cases hmin
        · omega
    · rw [h3] at h5; cases h5
  · intro g g' d hg hi hd _ hs
    obtain ⟨m, o, r, hm, hr', _⟩ := applyNode_request hs
    obtain ⟨_, q1, _⟩ := rules_requestOk hg hr'
    refine ⟨by rw [q1, hi.1], ?_⟩
    intro hl
    rw [root_line_kept hg hd hr'] at hl
    obtain ⟨a, b⟩ := hi.2 hl
    exact ⟨snug_step hg (keysPlain hg (by rw [hi.1]; exact hk)) hc hl a hd hs, b⟩

/-! ## From the navigator to the tree -/

theorem inline_below {g : Formatter} (hr : Rules g) {i j : Nat} (hl : line g i = some .inline) (hb : Below g.nav i j) : line g j = some .inline := by
  induction hb with
  | child hm hp =>
    obtain ⟨r, hx⟩ := line_some ⟨hr.nav, hr.len⟩ hm
    rw [hx, rle_inline (hr.parent _ _ _ _ _ hm hp hx hl)]
  | step hm hp _ ih =>
    obtain ⟨r, hx⟩ := line_some ⟨hr.nav, hr.len⟩ hm
    rw [hx, rle_inline (hr.parent _ _ _ _ _ hm hp hx ih)]

theorem preorder_sub {root : Kserd} {i j : Nat} {n : NavNode} {x : Kserd} (hn : (Nav.new root)[i]? = some n)
    (hx : (preorder n.kserd)[j]? = some x) : (preorder root)[i + j]? = some x := by
  obtain ⟨n', hn', _, _, _, hk, _⟩ := get_node hn
  have hp := forest_preorder [({}, root)] 0
  simp only [List.map_cons, List.map_nil, List.flatMap_cons, List.flatMap_nil, List.append_nil] at hp
  rw [← hp]
  rw [hk, preorder_eq] at hx
  cases j with
  | zero =>
    rw [List.getElem?_cons_zero] at hx
    rw [Nat.add_zero, List.getElem?_map, show (forest 0 [({}, root)])[i]? = some n' from hn']
    exact hx
  | succ j =>
    rw [List.getElem?_cons_succ] at hx
    obtain ⟨rest, hr⟩ := forest_drop i 0 _ n' hn'
    rw [show i + (j + 1) = (i + 1) + j by omega, ← List.getElem?_drop, ← List.map_drop, hr, forest_preorder, List.map_append,
      List.flatMap_append, kids_snd, List.getElem?_append_left (List.getElem?_eq_some_iff.mp hx).1]
    exact hx

/-- Everything from an inline node down is inline. -/
theorem at_inline {g : Formatter} (hr : Rules g) {c : FormattingConfig}
    (hid : ∀ (i : Nat) (n : NavNode), g.nav[i]? = some n → idOn g i = some (Solver.idFlag c n.kserd.val.kind)) {i : Nat} {n : NavNode}
    (hn : g.nav[i]? = some n) (hl : line g i = some .inline) : At (WidthOk c) g.fmts i (preorder n.kserd) := by
  intro j x hx
  have hn' := hn; rw [hr.nav] at hn'
  have hjl : j < n.kserd.size := by rw [← size_preorder]; exact (List.getElem?_eq_some_iff.mp hx).1
  have hroot : (preorder g.root)[i + j]? = some x := preorder_sub hn' hx
  obtain ⟨y, hy, rfl⟩ : ∃ y, g.nav[i + j]? = some y ∧ y.kserd = x := by
    rw [← (C18_preorder g.root).1, List.getElem?_map, ← hr.nav] at hroot
    cases hy : g.nav[i + j]? with
    | none => rw [hy] at hroot; cases hroot
    | some y => rw [hy] at hroot; cases hroot; exact ⟨y, rfl, rfl⟩
  have hly : line g (i + j) = some .inline := by
    rcases Nat.eq_zero_or_pos j with rfl | hj
    · exact hl
    · refine inline_below hr hl ?_
      rw [hr.nav]
      exact below_of_range hn' (i + j) (by omega) (by omega)
  have hidy := hid _ _ hy
  obtain ⟨fm, hfm⟩ := Shape.fmt ⟨hr.nav, hr.len⟩ hy
  rw [line, hfm] at hly
  rw [idOn, hfm] at hidy
  exact ⟨fm, hfm, Option.some.inj hly, Option.some.inj hidy⟩

/-- A formatter whose root is concise, with `Snug`. -/
structure Laid (c : FormattingConfig) (w : Nat) (g : Formatter) : Prop where
  rules : Rules g
  keys : KeysPlain g
  root : line g 0 = some .concise
  snug : Snug c w g
  ids : ∀ (i : Nat) (n : NavNode), g.nav[i]? = some n → idOn g i = some (Solver.idFlag c n.kserd.val.kind)

theorem Laid.get {c : FormattingConfig} {w : Nat} {g : Formatter} (h : Laid c w g) {i : Nat} {m : NavNode} (hm : node g.root i = some m) :
    ∃ n, g.nav[i]? = some n ∧ n.parent = m.parent ∧ n.kserd = m.kserd ∧ isKey n = isKey m ∧ idxInParent n = idxInParent m := by
  obtain ⟨n, hn, h1, h2, h3, h4⟩ := node_get hm
  refine ⟨n, by rw [h.rules.nav]; exact hn, h1, h4, ?_, ?_⟩
  · rw [isKey, isKey, h3]
  · rw [idxInParent, idxInParent, h2, h3]

theorem dcol_congr {c : FormattingConfig} {q m n : NavNode} (h1 : isKey n = isKey m) (h2 : idxInParent n = idxInParent m) : dcol c q n = dcol c q m := by
  rw [dcol, dcol, h1, h2]

mutual
theorem fit_node {c : FormattingConfig} {w : Nat} {g : Formatter} (h : Laid c w g) (k : Kserd) (i p e d : Nat) (m q : NavNode)
    (hm : node g.root i = some m) (hk : m.kserd = k) (hp : m.parent = some p) (hq : g.nav[p]? = some q) (hd : dcol c q m = some d)
    (hl : line g p = some .concise) (hc : Col c g.nav p e) : Fit c w g.fmts k i (e + d) := by
  obtain ⟨id, v⟩ := k
  obtain ⟨n, hn, n1, n2, n3, n4⟩ := h.get hm
  rw [hk] at n2
  have hcol : Col c g.nav i (e + d) := .child hn (by rw [n1]; exact hp) hq (by rw [dcol_congr n3 n4]; exact hd) hc
  obtain ⟨r, hlr, hrc⟩ := concise_above h.rules h.root i n hn
  obtain ⟨fm, hfm⟩ := Shape.fmt ⟨h.rules.nav, h.rules.len⟩ hn
  have hlf : fm.line = r := by rw [line, hfm] at hlr; exact Option.some.inj hlr
  have hidf : fm.id = Solver.idFlag c v.kind := by
    have := h.ids i n hn
    rw [idOn, hfm, n2] at this; exact Option.some.inj this
  rw [Fit]
  refine ⟨fm, hfm, hidf, ?_⟩
  have hrr : r = .inline ∨ r = .concise := by
    cases r <;> first | exact .inl rfl | exact .inr rfl | (exfalso; revert hrc; decide)
  rcases hrr with rfl | rfl
  · refine .inl ⟨hlf, ?_, ?_⟩
    · have := h.snug i p (e + d) n hn (by rw [n1]; exact hp) hl hlr hcol
      rw [n2] at this; exact this
    · have := at_inline h.rules h.ids hn hlr
      rw [n2] at this; exact this
  · refine .inr ⟨hlf, ?_⟩
    have hkids := node_child hm
    rw [hk] at hkids
    have hmax := h.rules.max i n _ hn hlr
    rw [n2] at hmax
    have hval : n.kserd.val = v := by rw [n2]; rfl
    cases v with
    | tuple l => exact fit_list h l (i + 1) i 0 (e + d) n hkids hn (fun m => by rw [dcol, hval]) hlr hcol
    | seq l => exact fit_list h l (i + 1) i 0 (e + d) n hkids hn (fun m => by rw [dcol, hval]) hlr hcol
    | cntr l => exact fit_fields h l [] (i + 1) i (e + d) n hkids hn hval hlr hcol
    | map l => exact fit_map h l [] (i + 1) i (e + d) n hkids hn hval hlr hcol
    | _ => have := rle_inline hmax; cases this
theorem fit_list {c : FormattingConfig} {w : Nat} {g : Formatter} (h : Laid c w g) (l : List Kserd) (b p x e : Nat) (q : NavNode)
    (hkids : ∀ m ∈ roots b (listKids p x l), node g.root m.idx = some m) (hq : g.nav[p]? = some q) (hd : ∀ m, dcol c q m = some 4)
    (hl : line g p = some .concise) (hc : Col c g.nav p e) : FitL c w g.fmts l b (e + 4) := by
  match l with
  | [] => rw [FitL]; trivial
  | k :: r =>
    rw [FitL]
    simp only [listKids, roots] at hkids
    refine ⟨fit_node h k b p e 4 _ q (hkids _ (List.mem_cons_self ..)) rfl rfl hq (hd _) hl hc, ?_⟩
    exact fit_list h r _ p (x + 1) e q (fun m hm => hkids m (List.mem_cons_of_mem _ hm)) hq hd hl hc
theorem fit_fields {c : FormattingConfig} {w : Nat} {g : Formatter} (h : Laid c w g) (l a : List (Str × Kserd)) (b p e : Nat) (q : NavNode)
    (hkids : ∀ m ∈ roots b (listKids p a.length (l.map (·.2))), node g.root m.idx = some m) (hq : g.nav[p]? = some q)
    (hv : q.kserd.val = .cntr (a ++ l)) (hl : line g p = some .concise) (hc : Col c g.nav p e) : FitF c w g.fmts l b (e + 4) := by
  match l with
  | [] => rw [FitF]; trivial
  | (s, k) :: r =>
    rw [FitF]
    simp only [List.map_cons, listKids, roots] at hkids
    refine ⟨?_, ?_⟩
    · rw [Nat.add_assoc]
      refine fit_node h k b p e _ _ q (hkids _ (List.mem_cons_self ..)) rfl rfl hq ?_ hl hc
      rw [dcol, hv]
      simp only [idxInParent, mkN, Option.none_or, Option.getD_some]
      rw [List.getElem?_append_right (Nat.le_refl _), Nat.sub_self]
      rfl
    · refine fit_fields h r (a ++ [(s, k)]) _ p e q (fun m hm => hkids m (List.mem_cons_of_mem _ ?_)) hq (by rw [hv]; simp) hl hc
      rw [List.length_append] at hm; exact hm
theorem fit_map {c : FormattingConfig} {w : Nat} {g : Formatter} (h : Laid c w g) (l a : List (Kserd × Kserd)) (b p e : Nat) (q : NavNode)
    (hkids : ∀ m ∈ roots b (mapKids p a.length l), node g.root m.idx = some m) (hq : g.nav[p]? = some q)
    (hv : q.kserd.val = .map (a ++ l)) (hl : line g p = some .concise) (hc : Col c g.nav p e) : FitM c w g.fmts l b (e + 4) := by
  match l with
  | [] => rw [FitM]; trivial
  | (s, k) :: r =>
    rw [FitM]
    simp only [mapKids, roots] at hkids
    refine ⟨?_, ?_, ?_⟩
    · obtain ⟨n, hn, n1, n2, n3, n4⟩ := h.get (hkids _ (List.mem_cons_self ..))
      have hkey := h.keys _ _ hn n3
      obtain ⟨r, hx⟩ := line_some ⟨h.rules.nav, h.rules.len⟩ hn
      have hm := h.rules.max _ _ _ hn hx
      rw [hkey] at hm
      rw [rle_inline hm] at hx
      have := at_inline h.rules h.ids hn hx
      rw [n2] at this; exact this
    · rw [Nat.add_assoc]
      refine fit_node h k _ p e _ _ q (hkids _ (List.mem_cons_of_mem _ (List.mem_cons_self ..))) rfl rfl hq ?_ hl hc
      rw [dcol, hv]
      simp only [isKey, idxInParent, mkN, Option.none_or, Option.getD_some]
      rw [List.getElem?_append_right (Nat.le_refl _), Nat.sub_self]
      rfl
    · refine fit_map h r (a ++ [(s, k)]) _ p e q (fun m hm => hkids m (List.mem_cons_of_mem _ (List.mem_cons_of_mem _ ?_))) hq (by rw [hv]; simp) hl hc
      rw [List.length_append] at hm; exact hm
end

/-! ## The theorem -/

/-- **C49 (partial).** When the formatter does not lay out a non-empty root container verbosely under the limit `w`, no line is longer than `w`
plus the slack of the nodes. The claim without slack is false (`C49_empty_too_long`), and so it is with keys that are not primitive
(`C49_keys_too_long`) and for verbose layouts (`C49_verbose_too_long`). -/
theorem C49_lines_partial (root : Kserd) (f f' : Formatter) (hf : Formatter.new root = some f) (c : FormattingConfig) (w : Nat)
    (hc : c.widthLimit = some w) (h : Solver.applyConfig f c = some f') (fs : Fields) (hv : root.val = .cntr fs) (hne : fs ≠ [])
    (hk : ∀ x ∈ preorder root, PlainKeys x) (hl : line f' 0 ≠ some .verbose) (out : Str) (ho : f'.writeString [] = some out) :
    LinesFit (w + lineSlack (preorder root)) out := by
  obtain ⟨rfl, hr⟩ := C22_rules root f (.new hf)
  obtain ⟨hroot, hr'⟩ := C22_rules _ f' (.config c (.new hf) h)
  obtain ⟨n0, hn0, hk0⟩ := root_get (f := f') ⟨hr'.nav, hr'.len⟩
  obtain ⟨r, hlr⟩ := line_some ⟨hr'.nav, hr'.len⟩ hn0
  cases r with
  | verbose => exact absurd hlr hl
  | inline =>
    have := C27_width_partial _ f f' hf c w hc h (by rw [hv, maxRepr, if_neg hne]; decide) hlr out ho
    intro a l b he _
    have h2 := congrArg List.length he
    simp only [List.length_append] at h2
    have := slack_le (preorder f.root)
    omega
  | concise =>
    obtain ⟨hs, hst⟩ := config_snug hf hr hc h hk hv hne hlr
    have hids : ∀ (i : Nat) (n : NavNode), f'.nav[i]? = some n → idOn f' i = some (Solver.idFlag c n.kserd.val.kind) :=
      fun i n hn => config_id hr h i n (by rw [hr.nav, ← hroot, ← hr'.nav]; exact hn)
    have laid : Laid c w f' := ⟨hr', keysPlain hr' (by rw [hroot]; exact hk), hlr, hs, hids⟩
    have hn0' := hn0; rw [hr'.nav] at hn0'
    obtain ⟨m0, hm0, _, _, _, e4, _⟩ := get_node hn0'
    have hkids := node_child hm0
    rw [← e4, hk0, hroot, hv] at hkids
    have hF := fit_fields laid fs [] 1 0 0 n0 (by rw [hroot]; exact hkids) hn0 (by rw [hk0, hroot, hv]; rfl) hlr .root
    rcases hrt : f.root with ⟨id, v⟩
    rw [hrt] at hv hst hroot
    have hv : v = .cntr fs := hv
    subst hv
    obtain ⟨fm, hfm⟩ := Shape.fmt ⟨hr'.nav, hr'.len⟩ hn0
    have h0 := hids 0 n0 hn0
    rw [idOn, hfm, hk0, hroot] at h0
    rw [line, hfm] at hlr
    rw [Formatter.writeString, hroot] at ho
    exact root_fits hfm (Option.some.inj hlr) (Option.some.inj h0) hF hst ho

/-! ## Cases -/

def nm (i : Nat) : Kserd := .mk none (.num (.uint i))

/-- A container with a sequence and a map, of slack 2. -/
def tallRoot : Kserd := .mk (some (str "T")) (.cntr [(str "a", .mk none (.seq [nm 1, nm 2])), (str "b", .mk none (.map [(nm 1, nm 2), (nm 3, nm 44444)]))])

/-- Under the limit 21 it is laid out concisely. -/
example : tallRoot.asStrWithConfig { widthLimit := some 21 } =
    some (str "T (\n    a = [1, 2]\n    b = {\n            1: 2\n            3: 44444\n        }\n)") := by decide +kernel

example : ∃ f f', Formatter.new tallRoot = some f ∧ Solver.applyConfig f { widthLimit := some 21 } = some f' ∧ line f' 0 = some .concise :=
  ⟨_, _, by rfl, by rfl, by decide +kernel⟩

example : ∀ x ∈ preorder tallRoot, PlainKeys x := by
  intro x hx m hm p hp
  simp only [tallRoot, nm, preorder, preorderV, preorderF, preorderL, preorderM, List.append_nil, List.mem_append, List.mem_cons,
    List.not_mem_nil, or_false, List.nil_append] at hx
  rcases hx with rfl | (rfl | rfl | rfl) | (rfl | rfl | rfl | rfl | rfl) <;> try cases hm
  simp only [List.mem_cons, List.not_mem_nil, or_false] at hp
  rcases hp with rfl | rfl <;> rfl

/-- A case of slack 0. -/
example : (Kserd.mk none (.cntr [(str "a", .mk none (.seq [nm 1, nm 2])), (str "b", .mk none (.tuple [nm 3, nm 4]))])).asStrWithConfig
    { widthLimit := some 14 } = some (str "(\n    a = [1, 2]\n    b = (3, 4)\n)") := by decide +kernel

/-- **C49 (partial)** for `as_str`: the default limit is 60. -/
theorem C49_default_partial (root : Kserd) (f f' : Formatter) (hf : Formatter.new root = some f)
    (h : Solver.applyConfig f {} = some f') (fs : Fields) (hv : root.val = .cntr fs) (hne : fs ≠ [])
    (hk : ∀ x ∈ preorder root, PlainKeys x) (hl : line f' 0 ≠ some .verbose) (out : Str) (ho : root.asStr = some out) :
    LinesFit (60 + lineSlack (preorder root)) out := by
  refine C49_lines_partial root f f' hf {} 60 rfl h fs hv hne hk hl out ?_
  have : root.asStr = (Formatter.new root).bind fun f => (Solver.applyConfig f {}).bind fun f => f.writeString [] := rfl
  rw [hf, Option.bind_some, h, Option.bind_some] at this
  rw [← this]; exact ho

/-- **C49 negated.** The lines `a = []` and `b = []` have 10 characters although the limit is 9. -/
theorem C49_empty_too_long : ∃ (root : Kserd) (out : Str), root.asStrWithConfig { widthLimit := some 9 } = some out ∧
    (∃ f f', Formatter.new root = some f ∧ Solver.applyConfig f { widthLimit := some 9 } = some f' ∧ line f' 0 = some .concise) ∧ ¬ LinesFit 9 out :=
  ⟨.mk none (.cntr [(str "a", .mk none (.seq [])), (str "b", .mk none (.seq []))]), str "(\n    a = []\n    b = []\n)", by decide +kernel,
    ⟨_, _, by rfl, by rfl, by decide +kernel⟩, fun h => absurd (h (str "(\n") (str "    a = []") (str "\n    b = []\n)") (by decide) (by decide)) (by decide)⟩

/-- A map with two keys `[[[1]]]` and `[[[2]]]`. -/
def deepKeys : Kserd :=
  let key i := Kserd.mk none (.seq [.mk none (.seq [.mk none (.seq [nm i])])])
  .mk none (.cntr [(str "a", .mk none (.map [(key 1, nm 1), (key 2, nm 1)]))])

/-- **C49 negated for keys that are not primitive.** Under the limit 22 the keys `[[[1]]]` are spread over lines of up to 25 characters, although
they would fit on one line. -/
theorem C49_keys_too_long : ∃ out, deepKeys.asStrWithConfig { widthLimit := some 22 } = some out ∧
    (∃ f f', Formatter.new deepKeys = some f ∧ Solver.applyConfig f { widthLimit := some 22 } = some f' ∧ line f' 0 = some .concise) ∧
    ¬ LinesFit (22 + lineSlack (preorder deepKeys)) out :=
  ⟨str "(\n    a = {\n            [\n                [\n                    [\n                        1\n                    ]\n                ]\n            ]: 1\n            [\n                [\n                    [\n                        2\n                    ]\n                ]\n            ]: 1\n        }\n)",
    by decide +kernel, ⟨_, _, by rfl, by rfl, by decide +kernel⟩,
    fun h => absurd (h (str "(\n    a = {\n            [\n                [\n                    [\n") (str "                        1")
      (str "\n                    ]\n                ]\n            ]: 1\n            [\n                [\n                    [\n                        2\n                    ]\n                ]\n            ]: 1\n        }\n)")
      (by decide +kernel) (by decide)) (by decide +kernel)⟩

/-- A container with a sequence of one container. -/
def inSeq : Kserd := .mk none (.cntr [(str "a", .mk none (.seq [.mk none (.cntr [(str "b", .mk none (.seq [nm 1, nm 2])), (str "c", nm 2)])]))])

/-- **C49 negated for verbose layouts.** Under the limit 10 the line `    b = [1, 2]` is kept, as if it began in the first column. -/
theorem C49_verbose_too_long : ∃ out, inSeq.asStrWithConfig { widthLimit := some 10 } = some out ∧ ¬ LinesFit (10 + lineSlack (preorder inSeq)) out :=
  ⟨str "\n[[a]]\n    b = [1, 2]\n    c = 2\n", by decide +kernel,
    fun h => absurd (h (str "\n[[a]]\n") (str "    b = [1, 2]") (str "\n    c = 2\n") (by decide) (by decide)) (by decide +kernel)⟩

end KS.Props
