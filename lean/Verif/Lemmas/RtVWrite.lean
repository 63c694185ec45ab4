import Verif.Lemmas.RtLines
import Verif.Lemmas.RtGlue
import Verif.Spec.Verbose
/-!
# What the writers write for verbose containers
-/

namespace KS.RT
open KS.Spec KS.P KS.Nom KS.Nav KS.Wr KS.Props

/-- `x` is node `i`. -/
def At (f : Formatter) (i : Nat) (x : Kserd) : Prop := (preorder f.root)[i]? = some x

/-- How the text of a sequence or map begins. -/
def opn : Value → Char
  | .seq _ => '['
  | _ => '{'

section
variable {f : Formatter} (hr : Rules f) (h : Readable f)
include hr

theorem at_fmt {i : Nat} {x : Kserd} (hx : At f i x) : ∃ fm, f.fmts[i]? = some fm ∧ line f i = some fm.line ∧ fm.line ≤ maxRepr x.val := by
  obtain ⟨n, hn, rfl⟩ := nav_get hr hx
  have hs : Fm.Shape f := ⟨hr.nav, hr.len⟩
  obtain ⟨fm, hfm⟩ := hs.fmt hn
  have hl : line f i = some fm.line := by rw [line, hfm]; rfl
  exact ⟨fm, hfm, hl, hr.max i n fm.line hn hl⟩

theorem quiet_range {i : Nat} {x : Kserd} (hx : At f i x) (hl : line f i ≠ some .verbose) :
    ∀ j, i ≤ j → j < i + x.size → line f j ≠ some .verbose := by
  intro j hij hj
  by_cases hji : j = i
  · rw [hji]; exact hl
  obtain ⟨n, hn, rfl⟩ := nav_get hr hx
  have hn' := hn; rw [hr.nav] at hn'
  have hb := below_of_range hn' j (by omega) hj
  rw [← hr.nav] at hb
  clear hji hj hij
  have key : ∀ {j p : Nat} {m : NavNode}, f.nav[j]? = some m → m.parent = some p → line f p ≠ some .verbose → (∃ q, line f p = some q) →
      line f j ≠ some .verbose := by
    rintro j p m hm hp hlp ⟨q, hq⟩ hj
    have := hr.parent j p m .verbose q hm hp hj hq
    rw [hq] at hlp
    exact hlp (by rw [Fm.rle_antisymm (Fm.rle_verbose q) this])
  have hs : Fm.Shape f := ⟨hr.nav, hr.len⟩
  have step : ∀ {j : Nat}, Below f.nav i j → line f j ≠ some .verbose ∧ ∃ q, line f j = some q := by
    intro j hb
    induction hb with
    | @child j m hm hp => exact ⟨key hm hp hl (line_some hs hn), line_some hs hm⟩
    | @step j p m hm hp _ ih => exact ⟨key hm hp ih.1 ih.2, line_some hs hm⟩
  exact (step hb).1

theorem flat_of {i : Nat} {x : Kserd} (hx : At f i x) (hl : line f i ≠ some .verbose) : Flat f i x :=
  fun j hj _ _ _ => quiet_range hr hx hl (i + j) (by omega) (by omega)

include h

theorem at_text {i : Nat} {x : Kserd} (hx : At f i x) : TextOk (shown (flags f) i x) :=
  (all_mem _).mp h.text _ (List.mem_of_getElem? (shown_get f hx))

theorem plain_at {i : Nat} {x : Kserd} (hx : At f i x) (hv : (∃ fs, x.val = .cntr fs) → line f i ≠ some .verbose) : Plain f.fmts i x := by
  obtain ⟨n, hn, rfl⟩ := nav_get hr hx
  have hs : Fm.Shape f := ⟨hr.nav, hr.len⟩
  have hline : ∀ fm, f.fmts[i]? = some fm → line f i = some fm.line := fun fm hfm => by rw [line, hfm]; rfl
  refine ⟨hs.fmt hn, ?_, ?_, ?_, ?_, ?_, ?_⟩
  · intro fm hfm; exact hr.max i n fm.line hn (hline fm hfm)
  · intro fm hfm fs hfs e
    exact hv ⟨fs, hfs⟩ (by rw [hline fm hfm, e])
  · intro fm hfm e ⟨l, hl⟩
    refine h.hidden i _ l hx ?_ hl
    rw [← flag_eq, flag_of hfm, e]
  · intro fm hfm e m hm fm' hfm'
    have := inline_range hr hn (by rw [hline fm hfm, e]) (i + m) (by omega) (by omega)
    rw [line, hfm'] at this
    exact Option.some.inj this
  · intro fm hfm e
    have := h.lines i _ hx (by rw [hline fm hfm]; intro h; exact e (Option.some.inj h))
    rw [flag_eq]
    rcases hk : n.kserd with ⟨id, v⟩
    rw [hk, shown] at this
    exact this
  · intro e
    have := at_text hr h hx
    rcases hk : n.kserd with ⟨id, v⟩
    rw [hk] at e this
    cases e
    exact this.2

theorem sub_plain {i : Nat} {k : Kserd} (hsub : AtN (At f) i (preorder k)) (hf : Flat f i k) : AtN (Plain f.fmts) i (preorder k) := by
  intro j x hx
  refine plain_at hr h (hsub j x hx) fun hc => hf j ?_ x hx hc
  have := (List.getElem?_eq_some_iff.mp hx).1
  rwa [size_preorder] at this

/-- A sequence or map that is not on one line. -/
theorem multi_head {idx col : Nat} {buf : Str} {k : Kserd} {out : Str} (hp : AtN (Plain f.fmts) idx (preorder k)) (hx : At f idx k)
    (hsm : isSeqMap k.val = true) (hl : line f idx ≠ some .inline)
    (ho : W.node f.fmts k idx col buf = some out) :
    ∃ x, out = buf ++ (nid [' '] (shown (flags f) idx k).id ++ (opn k.val) :: '\n' :: x) := by
  obtain ⟨id, v⟩ := k
  rw [preorder, atN_cons] at hp
  obtain ⟨hp, hq⟩ := hp
  obtain ⟨fm, hfm⟩ := hp.fm
  have hne : fm.line ≠ .inline := by intro e; rw [line, hfm] at hl; exact hl (by rw [← e]; rfl)
  have hsep := hp.sep fm hfm hne
  rw [← flag_eq, shown, flag_of hfm]
  simp only [shownId, Kserd.id, Kserd.val] at hsm ⊢
  cases v with
  | seq l =>
    simp only [W.node, hfm] at ho
    simp only [preorderV] at hq
    have key : ∀ b, W.listConcise f.fmts l (idx + 1) (col + W.indentW) (W.nonprimIdent buf fm.id id ++ ['[', '\n']) = some b → W.indent b col ++ [']'] = out →
        ∃ x, out = buf ++ (nid [' '] (if fm.id = true then id else none) ++ '[' :: '\n' :: x) := by
      intro b hb ho
      rw [nonprim_txt, show buf ++ nid [' '] (if fm.id = true then id else none) ++ ['[', '\n'] = (buf ++ nid [' '] (if fm.id = true then id else none) ++ ['[']) ++ ['\n'] by simp] at hb
      obtain ⟨b', rfl, ht⟩ := listConcise_txt l _ _ _ _ hq hsep hb
      obtain ⟨r, hr⟩ := txtC_cons (ht col)
      refine ⟨r ++ [']'], ?_⟩
      rw [← ho, indent_nl]
      generalize nid [' '] (if fm.id = true then id else none) = I at *
      have e : buf ++ I ++ ['['] ++ b' ++ '\n' :: List.replicate col ' ' ++ [']'] = buf ++ (I ++ '[' :: ((b' ++ '\n' :: List.replicate col ' ') ++ [']'])) := by simp
      rw [e, hr]; simp
    show ∃ x, out = buf ++ (nid [' '] (if fm.id = true then id else none) ++ '[' :: '\n' :: x)
    cases hln : fm.line with
    | inline => exact absurd hln hne
    | concise =>
      simp only [hln, Option.map_eq_some_iff] at ho
      obtain ⟨b, hb, ho⟩ := ho
      exact key b hb ho
    | verbose =>
      simp only [hln, Option.map_eq_some_iff] at ho
      obtain ⟨b, hb, ho⟩ := ho
      exact key b hb ho
  | map l =>
    simp only [W.node, hfm] at ho
    simp only [preorderV] at hq
    have key : ∀ b, W.mapConcise f.fmts l (idx + 1) (col + W.indentW) (W.nonprimIdent buf fm.id id ++ ['{', '\n']) = some b → W.indent b col ++ ['}'] = out →
        ∃ x, out = buf ++ (nid [' '] (if fm.id = true then id else none) ++ '{' :: '\n' :: x) := by
      intro b hb ho
      rw [nonprim_txt, show buf ++ nid [' '] (if fm.id = true then id else none) ++ ['{', '\n'] = (buf ++ nid [' '] (if fm.id = true then id else none) ++ ['{']) ++ ['\n'] by simp] at hb
      obtain ⟨b', rfl, ht⟩ := mapConcise_txt l _ _ _ _ hq hsep hb
      obtain ⟨r, hr⟩ := txtMC_cons (ht col)
      refine ⟨r ++ ['}'], ?_⟩
      rw [← ho, indent_nl]
      generalize nid [' '] (if fm.id = true then id else none) = I at *
      have e : buf ++ I ++ ['{'] ++ b' ++ '\n' :: List.replicate col ' ' ++ ['}'] = buf ++ (I ++ '{' :: ((b' ++ '\n' :: List.replicate col ' ') ++ ['}'])) := by simp
      rw [e, hr]; simp
    show ∃ x, out = buf ++ (nid [' '] (if fm.id = true then id else none) ++ '{' :: '\n' :: x)
    cases hln : fm.line with
    | inline => exact absurd hln hne
    | concise =>
      simp only [hln, Option.map_eq_some_iff] at ho
      obtain ⟨b, hb, ho⟩ := ho
      exact key b hb ho
    | verbose =>
      simp only [hln, Option.map_eq_some_iff] at ho
      obtain ⟨b, hb, ho⟩ := ho
      exact key b hb ho
  | _ => cases hsm

/-- A value without verbose containers. -/
theorem direct_txt {idx col : Nat} {buf out : Str} {k : Kserd} (hsub : AtN (At f) idx (preorder k)) (hf : Flat f idx k)
    (ho : W.node f.fmts k idx col buf = some out) :
    ∃ T, out = buf ++ T ∧ Txt false (shown (flags f) idx k) T ∧ (line f idx = some .inline → Txt true (shown (flags f) idx k) T) ∧
      (line f idx ≠ some .inline → (¬ ∃ x, T = '[' :: '\n' :: x) → NoHeading (shown (flags f) idx k)) ∧
      (line f idx ≠ some .inline → isSeqMap k.val = true → Multi (shown (flags f) idx k) T) := by
  have hp := sub_plain hr h hsub hf
  obtain ⟨T, rfl, hT⟩ := node_txt k idx col buf _ hp false (by simp) ho
  rw [flag_eq] at hT
  have hx : At f idx k := hsub 0 k (by cases k; rfl)
  refine ⟨T, rfl, hT, ?_, ?_, ?_⟩
  · intro hl
    have hx : At f idx k := hsub 0 k (by cases k; rfl)
    obtain ⟨n, hn, hk⟩ := nav_get hr hx
    obtain ⟨T', e, hT'⟩ := node_txt k idx col buf _ hp true (by
      intro _ m hm fm hfm
      have := inline_range hr hn hl (idx + m) (by omega) (by rw [hk]; omega)
      rw [line, hfm] at this
      exact Option.some.inj this) ho
    rw [flag_eq] at hT'
    rw [List.append_cancel_left e]; exact hT'
  · intro hl hno hid l hval
    exfalso; apply hno
    obtain ⟨id, v⟩ := k
    cases v <;> simp only [shown, shownV, Kserd.val, reduceCtorEq] at hval
    obtain ⟨x, hx⟩ := multi_head hr h hp hx rfl hl ho
    rw [hid] at hx
    exact ⟨x, List.append_cancel_left hx⟩
  · intro hl hsm
    obtain ⟨x, hx'⟩ := multi_head hr h hp hx hsm hl ho
    have htext := at_text hr h hx
    refine ⟨?_, [' '], (opn k.val), x, ?_, .inr rfl, ?_, List.append_cancel_left hx'⟩
    · obtain ⟨id, v⟩ := k
      cases v <;> first | exact hsm | rfl
    · obtain ⟨id, v⟩ := k
      intro i hi
      cases v with
      | seq l => exact ⟨htext.1 i hi, htext.2 i hi⟩
      | map l => exact ⟨htext.1 i hi, htext.2.1 i hi⟩
      | _ => cases hsm
    · cases k.val <;> (simp only [opn]; decide)

end

/-! ## Beginnings -/

theorem drop_nls (m : Nat) (x : Str) : (nls m ++ x).dropWhile isMultiWs = x.dropWhile isMultiWs :=
  List.dropWhile_append_of_pos (by intro a ha; rw [List.eq_of_mem_replicate ha]; decide)

theorem drop_ind (d : Nat) (x : Str) : (ind d ++ x).dropWhile isMultiWs = x.dropWhile isMultiWs :=
  List.dropWhile_append_of_pos (by intro a ha; rw [List.eq_of_mem_replicate ha]; decide)

theorem pv_line (m d : Nat) {c : Char} (x : Str) (hc : isMultiWs c = false) : patternVerbose (nls m ++ (ind d ++ c :: x)) = patternVerbose (c :: x) := by
  rw [patternVerbose, patternVerbose, drop_nls, drop_ind]

theorem pv_entry (m d : Nat) (x : Str) : patternVerbose (nls m ++ (ind d ++ (str "[[" ++ x))) = true := by
  have e : str "[[" ++ x = '[' :: '[' :: x := rfl
  rw [e, pv_line _ _ _ (by decide), patternVerbose, dropWs _ (by decide)]
  have : startsWith (str "[[") ('[' :: '[' :: x) = true := by rw [startsWith_iff]; exact ⟨x, rfl⟩
  simp [this]

theorem pv_nested (m d : Nat) {n : Str} (hn : ValidName n) (x : Str) : patternVerbose (nls m ++ (ind d ++ '[' :: (n ++ ']' :: x))) = true := by
  rw [pv_line _ _ _ (by decide), patternVerbose, dropWs _ (by decide)]
  have h1 : encasedName ('[' :: (n ++ ']' :: x)) = true := by
    have h1 : tag ['['] ('[' :: (n ++ ']' :: x)) = .ok (n ++ ']' :: x) ['['] := rfl
    have h2 : ignoreWs (tag [']']) (']' :: x) = .ok x [']'] := by rw [ignoreWs_none _ _ (by decide)]; rfl
    have h3 := validName_ok (rest := ']' :: x) hn (by intro a b e; cases e; decide)
    obtain ⟨c, n', rfl, hc, -⟩ := name_head_ws hn
    rw [List.cons_append] at h1 h3 ⊢
    simp only [encasedName, preceded, terminated, h1, bind_ok, ignoreWs_none _ _ (inline_multi hc), h3, h2, PRes.isOk]
  simp [h1]

theorem pv_direct (m d : Nat) {n : Str} (hn : ∀ c ∈ n, NameChar c) (hne : n ≠ []) (x : Str) :
    patternVerbose (nls m ++ (ind d ++ (n ++ (str " = " ++ x)))) = true := by
  have h1 : recogniseFieldAssign (n ++ (str " = " ++ x)) = true := by
    have hall : ∀ c ∈ n ++ [' '], isMaybeName c = true := by
      intro c hc
      rcases List.mem_append.mp hc with hc | hc
      · have := (PG.isNameChar_iff c).mpr (hn c hc)
        rw [isNameChar] at this
        rw [isMaybeName]
        by_cases ha : isAlnum c = true
        · simp [ha]
        · simp only [ha, Bool.false_or, Bool.or_eq_true, beq_iff_eq] at this
          rcases this with rfl | rfl <;> decide
      · rw [List.mem_singleton] at hc; subst hc; decide
    have h2 := takeWhile_ends (rest := '=' :: ' ' :: x) hall (by intro c r e; cases e; decide)
    have e : n ++ (str " = " ++ x) = (n ++ [' ']) ++ '=' :: ' ' :: x := by simp; rfl
    rw [e, recogniseFieldAssign, terminated, takeWhile, h2.1, h2.2]
    rfl
  obtain ⟨c, r, rfl, hc⟩ := name_cons hn hne
  rw [List.cons_append] at h1 ⊢
  rw [pv_line _ _ _ hc, patternVerbose, dropWs _ hc]
  simp [h1]

theorem noOpen_direct (m d : Nat) {n : Str} (hn : ∀ c ∈ n, NameChar c) (hne : n ≠ []) (x : Str) : NoOpen (nls m ++ (ind d ++ (n ++ x))) := by
  obtain ⟨c, r, rfl, hc⟩ := name_cons hn hne
  intro c' r' e
  rw [drop_nls, drop_ind, List.cons_append, dropWs _ hc] at e
  cases e
  have := (PG.isNameChar_iff c).mpr (hn c (by simp))
  refine ⟨?_, ?_, ?_⟩ <;> (rintro rfl; revert this; decide)

theorem noOpen_nls (m : Nat) : NoOpen (nls m) := by
  intro c r e
  have := drop_nls m []
  rw [List.append_nil] at this
  rw [this] at e; cases e

/-- How the text of a field under a heading begins. -/
def HeadTxt (d m : Nat) (n : Str) (id : Option Str) (v : Value) (B : Str) : Prop :=
  (∃ z, B = nls (m + 1) ++ (ind d ++ (str "[[" ++ z))) ∨ ((∃ fs, v = .cntr fs) ∧ ∃ z, B = nls (m + 1) ++ (ind d ++ '[' :: (n ++ (hid id ++ ']' :: z))))

theorem names_shown (on : Nat → Bool) : ∀ (i : Nat) (fs : List (Str × Kserd)), (shownF on i fs).map (·.1) = fs.map (·.1)
  | _, [] => rfl
  | i, (n, k) :: r => by rw [shownF, List.map_cons, names_shown on _ r]; rfl

theorem names_of {on : Nat → Bool} {i : Nat} {fs : List (Str × Kserd)} (h : ∀ p ∈ shownF on i fs, ∀ c ∈ p.1, NameChar c) : ∀ p ∈ fs, ∀ c ∈ p.1, NameChar c := by
  intro p hp
  have : p.1 ∈ (shownF on i fs).map (·.1) := by rw [names_shown]; exact List.mem_map_of_mem hp
  obtain ⟨q, hq, e⟩ := List.mem_map.mp this
  rw [← e]; exact h q hq

end KS.RT
