import Verif.Lemmas.LaidComplete
/-!
# What the writers write without verbose containers, as layouts
-/

namespace KS.Cc
open KS.Spec KS.RT KS.Inl KS.Nav KS.Wr

variable {fmts : List Fmt}

/-- What is needed of a node and its format. -/
structure Laying (fmts : List Fmt) (i : Nat) (x : Kserd) : Prop where
  fm : ∃ fm, fmts[i]? = some fm
  max : ∀ fm, fmts[i]? = some fm → fm.line ≤ maxRepr x.val
  noV : ∀ fm, fmts[i]? = some fm → ∀ f, x.val = .cntr f → fm.line ≠ .verbose
  ids : ∀ fm, fmts[i]? = some fm → IdsOk x fm
  down : ∀ fm, fmts[i]? = some fm → fm.line = .inline → ∀ m < x.size, ∀ fm', fmts[i + m]? = some fm' → fm'.line = .inline
  unit : x.val = .unit → x.id ≠ some []

/-- What is laid out over several lines is `Separable`. -/
def SepAt (fmts : List Fmt) (i : Nat) (x : Kserd) : Prop :=
  ∀ fm, fmts[i]? = some fm → fm.line ≠ .inline → Separable (shownV (flag fmts) (i + 1) x.val)

theorem nonempty_of {r : Repr'} {v : Value} (h : r ≤ maxRepr v) (hr : r ≠ .inline) :
    (∀ l, v = .tuple l → l ≠ []) ∧ (∀ l, v = .seq l → l ≠ []) ∧ (∀ l, v = .cntr l → l ≠ []) ∧ (∀ l, v = .map l → l ≠ []) := by
  have := not_inline_of hr h
  refine ⟨?_, ?_, ?_, ?_⟩ <;> rintro l rfl rfl <;> exact this rfl

theorem shownL_ne {on : Nat → Bool} {i : Nat} {l : List Kserd} (h : l ≠ []) : shownL on i l ≠ [] := by
  cases l with
  | nil => exact absurd rfl h
  | cons k r => rw [shownL]; simp

theorem shownF_ne {on : Nat → Bool} {i : Nat} {l : List (Str × Kserd)} (h : l ≠ []) : shownF on i l ≠ [] := by
  cases l with
  | nil => exact absurd rfl h
  | cons p r => obtain ⟨n, k⟩ := p; rw [shownF]; simp

theorem shownM_ne {on : Nat → Bool} {i : Nat} {l : List (Kserd × Kserd)} (h : l ≠ []) : shownM on i l ≠ [] := by
  cases l with
  | nil => exact absurd rfl h
  | cons p r => obtain ⟨n, k⟩ := p; rw [shownM]; simp

/-- What a node on one line writes. -/
theorem inline_laid {k : Kserd} {idx col : Nat} {buf out : Str} (h : AtN (Laying fmts) idx (preorder k)) {fm : Fmt} (hfm : fmts[idx]? = some fm)
    (hl : fm.line = .inline) (ho : W.node fmts k idx col buf = some out) :
    out = buf ++ (Laid.line (shown (flag fmts) idx k)).text ∧ AtN (SepAt fmts) idx (preorder k) := by
  have hd : ∀ j, j < (preorder k).length → ∀ fm, fmts[idx + j]? = some fm → fm.line = .inline := by
    intro j hj fm' hfm'
    have h0 := h 0 k (by obtain ⟨id, v⟩ := k; rw [preorder]; rfl)
    rw [Nat.add_zero] at h0
    exact h0.down fm hfm hl j (by rw [← size_preorder]; exact hj) fm' hfm'
  have hj : ∀ {j x}, (preorder k)[j]? = some x → j < (preorder k).length := fun hx => (List.getElem?_eq_some_iff.mp hx).1
  refine ⟨node_ln k idx col buf out ?_ ho, ?_⟩
  · intro j x hx
    have := h j x hx
    obtain ⟨fm', hfm'⟩ := this.fm
    exact ⟨⟨fm', hfm', hd j (hj hx) fm' hfm'⟩, this.ids, this.unit⟩
  · intro j x hx fm' hfm' hne
    exact absurd (hd j (hj hx) fm' hfm') hne

/-- What is known of the layout that was written at a node. -/
structure Wrote (fmts : List Fmt) (idx : Nat) (k : Kserd) (t : Laid) : Prop where
  same : t.kserd = shown (flag fmts) idx k
  wf : t.WF
  sep : t.Sep ↔ AtN (SepAt fmts) idx (preorder k)
  one : (fmts[idx]?).map (·.line) = some .inline ↔ ∃ k', t = .line k'

mutual
theorem node_laying (k : Kserd) (idx col : Nat) (buf out : Str) (h : AtN (Laying fmts) idx (preorder k)) (ho : W.node fmts k idx col buf = some out) :
    ∃ t : Laid, out = buf ++ t.text ∧ Wrote fmts idx k t := by
  obtain ⟨fm, hfm⟩ := (h 0 k (by obtain ⟨id, v⟩ := k; rw [preorder]; rfl)).fm
  rw [Nat.add_zero] at hfm
  by_cases hl : fm.line = .inline
  · obtain ⟨h1, h2⟩ := inline_laid h hfm hl ho
    refine ⟨_, h1, rfl, by rw [Laid.WF]; trivial, ⟨fun _ => h2, fun _ => by rw [Laid.Sep]; trivial⟩, ⟨fun _ => ⟨_, rfl⟩, fun _ => by rw [hfm, Option.map_some, hl]⟩⟩
  obtain ⟨id, v⟩ := k
  rw [preorder, atN_cons] at h
  obtain ⟨hp, h⟩ := h
  have hmax := hp.max fm hfm
  have hnv := hp.noV fm hfm
  have hids := hp.ids fm hfm
  obtain ⟨ne1, ne2, ne3, ne4⟩ := nonempty_of hmax hl
  have hmi := not_inline_of hl hmax
  have hsa : SepAt fmts idx (.mk id v) ↔ Separable (shownV (flag fmts) (idx + 1) v) :=
    ⟨fun h => h fm hfm hl, fun h fm' hfm' _ => h⟩
  have hone : ¬ (fmts[idx]?).map (·.line) = some .inline := by rw [hfm, Option.map_some]; exact fun h => hl (Option.some.inj h)
  obtain ⟨on, ln⟩ := fm
  have hf : flag fmts idx = on := flag_of hfm
  cases v with
  | tuple l =>
    have hid : on = false → id = none := fun e => hids e ⟨l, rfl⟩
    simp only [preorderV] at h
    cases ln with
    | inline => exact absurd rfl hl
    | concise =>
      simp only [W.node, hfm, Option.map_eq_some_iff, tuplePrefix_txt hid] at ho
      obtain ⟨b, hb, rfl⟩ := ho
      obtain ⟨L, rfl, h1, h2, h3⟩ := list_laying l _ _ _ _ h hb
      refine ⟨.tuple (if on = true then id else none) L ('\n' :: List.replicate col ' '), ?_, ?_, ?_, ?_, ⟨fun h => absurd h hone, fun ⟨_, h⟩ => by cases h⟩⟩
      · rw [indent_nl, Laid.text]; simp
      · rw [Laid.kserd, h1, shown, hf]; rfl
      · rw [Laid.WF, h1]; exact ⟨isNl col, shownL_ne (ne1 l rfl), h2⟩
      · rw [Laid.Sep, preorder, preorderV, atN_cons, hsa, h1, h3]; rfl
    | verbose => simp only [W.node, hfm] at ho; cases ho
  | seq l =>
    simp only [preorderV] at h
    have conc : (W.listConcise fmts l (idx + 1) (col + W.indentW) (W.nonprimIdent buf on id ++ ['[', '\n'])).map (fun b =>
            W.indent b col ++ [']']) = some out → ∃ t : Laid, out = buf ++ t.text ∧ Wrote fmts idx (.mk id (.seq l)) t := by
      intro ho
      simp only [Option.map_eq_some_iff] at ho
      obtain ⟨b, hb, rfl⟩ := ho
      rw [nonprim_txt, show ∀ x : Str, x ++ ['[', '\n'] = (x ++ ['[']) ++ ['\n'] by simp] at hb
      obtain ⟨L, rfl, h1, h2, h3⟩ := list_laying l _ _ _ _ h hb
      refine ⟨.seq (if on = true then id else none) L ('\n' :: List.replicate col ' '), ?_, ?_, ?_, ?_, ⟨fun h => absurd h hone, fun ⟨_, h⟩ => by cases h⟩⟩
      · rw [indent_nl, Laid.text]; simp
      · rw [Laid.kserd, h1, shown, hf]; rfl
      · rw [Laid.WF, h1]; exact ⟨isNl col, shownL_ne (ne2 l rfl), h2⟩
      · rw [Laid.Sep, preorder, preorderV, atN_cons, hsa, h1, h3]; rfl
    cases ln with
    | inline => exact absurd rfl hl
    | concise => exact conc (by simpa only [W.node, hfm] using ho)
    | verbose => exact conc (by simpa only [W.node, hfm] using ho)
  | cntr l =>
    simp only [preorderV] at h
    cases ln with
    | inline => exact absurd rfl hl
    | concise =>
      simp only [W.node, hfm, Option.map_eq_some_iff] at ho
      obtain ⟨b, hb, rfl⟩ := ho
      rw [nonprim_txt, show ∀ x : Str, x ++ ['(', '\n'] = (x ++ ['(']) ++ ['\n'] by simp] at hb
      obtain ⟨L, rfl, h1, h2, h3⟩ := fields_laying l _ _ _ _ h hb
      refine ⟨.cntr (if on = true then id else none) L ('\n' :: List.replicate col ' '), ?_, ?_, ?_, ?_, ⟨fun h => absurd h hone, fun ⟨_, h⟩ => by cases h⟩⟩
      · rw [indent_nl, Laid.text]; simp
      · rw [Laid.kserd, h1, shown, hf]; rfl
      · rw [Laid.WF, h1]; exact ⟨isNl col, shownF_ne (ne3 l rfl), h2⟩
      · rw [Laid.Sep, preorder, preorderV, atN_cons, hsa, h1, h3]; rfl
    | verbose => exact absurd rfl (hnv l rfl)
  | map l =>
    simp only [preorderV] at h
    have conc : (W.mapConcise fmts l (idx + 1) (col + W.indentW) (W.nonprimIdent buf on id ++ ['{', '\n'])).map (fun b =>
            W.indent b col ++ ['}']) = some out → ∃ t : Laid, out = buf ++ t.text ∧ Wrote fmts idx (.mk id (.map l)) t := by
      intro ho
      simp only [Option.map_eq_some_iff] at ho
      obtain ⟨b, hb, rfl⟩ := ho
      rw [nonprim_txt, show ∀ x : Str, x ++ ['{', '\n'] = (x ++ ['{']) ++ ['\n'] by simp] at hb
      obtain ⟨L, rfl, h1, h2, h3⟩ := pairs_laying l _ _ _ _ h hb
      refine ⟨.map (if on = true then id else none) L ('\n' :: List.replicate col ' '), ?_, ?_, ?_, ?_, ⟨fun h => absurd h hone, fun ⟨_, h⟩ => by cases h⟩⟩
      · rw [indent_nl, Laid.text]; simp
      · rw [Laid.kserd, h1, shown, hf]; rfl
      · rw [Laid.WF, h1]; exact ⟨isNl col, shownM_ne (ne4 l rfl), h2⟩
      · rw [Laid.Sep, preorder, preorderV, atN_cons, hsa, h1, h3]; rfl
    cases ln with
    | inline => exact absurd rfl hl
    | concise => exact conc (by simpa only [W.node, hfm] using ho)
    | verbose => exact conc (by simpa only [W.node, hfm] using ho)
  | unit => exact absurd rfl hmi
  | bool b => exact absurd rfl hmi
  | num b => exact absurd rfl hmi
  | barr b => exact absurd rfl hmi
  | str s => exact absurd rfl hmi
termination_by structural k
theorem list_laying (l : List Kserd) (idx c : Nat) (buf out : Str) (h : AtN (Laying fmts) idx (preorderL l))
    (ho : W.listConcise fmts l idx c (buf ++ ['\n']) = some out) :
    ∃ L : LaidL, out = buf ++ L.text ++ ['\n'] ∧ L.kserds = shownL (flag fmts) idx l ∧ L.WF ∧ (L.Sep ↔ AtN (SepAt fmts) idx (preorderL l)) := by
  match l with
  | [] =>
    simp only [W.listConcise, Option.some.injEq] at ho
    refine ⟨.nil, by rw [LaidL.text]; simp [← ho], rfl, by rw [LaidL.WF]; trivial, ⟨fun _ j x hx => ?_, fun _ => by rw [LaidL.Sep]; trivial⟩⟩
    rw [preorderL] at hx; cases hx
  | k :: r =>
    rw [preorderL, atN_append, size_preorder] at h
    rw [W.listConcise, indent_nl] at ho
    split at ho
    · cases ho
    · rename_i b hb
      obtain ⟨t, rfl, ht⟩ := node_laying k _ _ _ _ h.1 hb
      obtain ⟨L, rfl, h1, h2, h3⟩ := list_laying r _ _ _ _ h.2 ho
      refine ⟨.cons ('\n' :: List.replicate c ' ') t L, ?_, ?_, ?_, ?_⟩
      · rw [LaidL.text]; simp
      · rw [LaidL.kserds, h1, ht.same, shownL]
      · rw [LaidL.WF]; exact ⟨isNl c, ht.wf, h2⟩
      · rw [LaidL.Sep, preorderL, atN_append, size_preorder, ht.sep, h3]
termination_by structural l
theorem fields_laying (l : List (Str × Kserd)) (idx c : Nat) (buf out : Str) (h : AtN (Laying fmts) idx (preorderF l))
    (ho : W.cntrConcise fmts l idx c (buf ++ ['\n']) = some out) :
    ∃ L : LaidF, out = buf ++ L.text ++ ['\n'] ∧ L.fields = shownF (flag fmts) idx l ∧ L.WF ∧ (L.Sep ↔ AtN (SepAt fmts) idx (preorderF l)) := by
  match l with
  | [] =>
    simp only [W.cntrConcise, Option.some.injEq] at ho
    refine ⟨.nil, by rw [LaidF.text]; simp [← ho], rfl, by rw [LaidF.WF]; trivial, ⟨fun _ j x hx => ?_, fun _ => by rw [LaidF.Sep]; trivial⟩⟩
    rw [preorderF] at hx; cases hx
  | (n, k) :: r =>
    rw [preorderF, atN_append, size_preorder] at h
    simp only [W.cntrConcise, indent_nl] at ho
    split at ho
    · cases ho
    · rename_i b hb
      obtain ⟨t, rfl, ht⟩ := node_laying k _ _ _ _ h.1 hb
      obtain ⟨L, rfl, h1, h2, h3⟩ := fields_laying r _ _ _ _ h.2 ho
      refine ⟨.cons ('\n' :: List.replicate c ' ') n t L, ?_, ?_, ?_, ?_⟩
      · have : W.assigner = [' ', '='] := rfl
        rw [LaidF.text, this]; simp
      · rw [LaidF.fields, h1, ht.same, shownF]
      · rw [LaidF.WF]; exact ⟨isNl c, ht.wf, h2⟩
      · rw [LaidF.Sep, preorderF, atN_append, size_preorder, ht.sep, h3]
termination_by structural l
theorem pairs_laying (l : List (Kserd × Kserd)) (idx c : Nat) (buf out : Str) (h : AtN (Laying fmts) idx (preorderM l))
    (ho : W.mapConcise fmts l idx c (buf ++ ['\n']) = some out) :
    ∃ L : LaidM, out = buf ++ L.text ++ ['\n'] ∧ L.pairs = shownM (flag fmts) idx l ∧ L.WF ∧ (L.Sep ↔ AtN (SepAt fmts) idx (preorderM l)) := by
  match l with
  | [] =>
    simp only [W.mapConcise, Option.some.injEq] at ho
    refine ⟨.nil, by rw [LaidM.text]; simp [← ho], rfl, by rw [LaidM.WF]; trivial, ⟨fun _ j x hx => ?_, fun _ => by rw [LaidM.Sep]; trivial⟩⟩
    rw [preorderM] at hx; cases hx
  | (k, v) :: r =>
    rw [preorderM, atN_append, atN_append, size_preorder, size_preorder] at h
    simp only [W.mapConcise, indent_nl] at ho
    split at ho
    · cases ho
    · split at ho
      · cases ho
      · rename_i b hb
        split at ho
        · cases ho
        · rename_i b2 hb2
          obtain ⟨t, rfl, ht⟩ := node_laying k _ _ _ _ h.1 hb
          obtain ⟨u, rfl, hu⟩ := node_laying v _ _ _ _ h.2.1 hb2
          obtain ⟨L, rfl, h1, h2, h3⟩ := pairs_laying r _ _ _ _ h.2.2 ho
          refine ⟨.cons ('\n' :: List.replicate c ' ') t u L, ?_, ?_, ?_, ?_⟩
          · have : W.keysAssigner = [':'] := rfl
            rw [LaidM.text, this]; simp
          · rw [LaidM.pairs, h1, ht.same, hu.same, shownM]
          · rw [LaidM.WF]; exact ⟨isNl c, ht.wf, hu.wf, h2⟩
          · rw [LaidM.Sep, preorderM, atN_append, atN_append, size_preorder, size_preorder, ht.sep, hu.sep, h3]
termination_by structural l
end

/-! ## The whole text -/

theorem laid_means {t : Laid} {k' : Kserd} (hw : t.WF) (h : All Ordinary t.kserd) (hsp : All Whole t.kserd) (hk : parse t.text = .ok k') :
    All Legible t.kserd ∧ t.Sep ∧ (∀ k, t = .line k → NoHeading k) ∧ ReadAs t.kserd k' := by
  have hs := laid_starts (all_self h)
  have hnl : LinesAhead t.text → ∃ k, t = .line k ∧ ¬ NoHeading k := (laid_ahead hw h).mp
  by_cases hline : ∃ k, t = .line k
  · obtain ⟨k, rfl⟩ := hline
    obtain ⟨h1, h2, h3⟩ := line_means (k := k) h hk
    exact ⟨h1, by rw [Laid.Sep]; trivial, fun _ e => by cases e; exact h2, h3⟩
  obtain ⟨D, w, e, hww, hr, hm⟩ := Props.C59_sound hk
  cases D with
  | value wb T =>
    rw [Doc.Reads] at hr
    rw [Doc.Means] at hm
    obtain ⟨h1, h2, h3⟩ := hr
    rw [Doc.text] at e
    have e : t.text = wb ++ (T.text ++ w) := by rw [e]; simp
    obtain rfl := white_none (GR.white_of_blanks h1) hs e
    rw [List.nil_append] at e
    have hst : Stopped w := ⟨w, [], by simp, hww.1, by intro c z e; cases e⟩
    obtain ⟨-, g1, g2, g3⟩ := node_laid t hw h hsp h2 hst.head stopped_nil.cut (by rw [List.append_nil, ← e])
    exact ⟨g1, g2, fun k ek => absurd ⟨k, ek⟩ hline, g3 k' hm⟩
  | lines l =>
    exfalso
    rw [Doc.Reads] at hr
    have : LinesAhead t.text := by rw [e]; exact hr.1
    obtain ⟨k, rfl, -⟩ := hnl this
    exact hline ⟨k, rfl⟩

theorem laid_accepted {t : Laid} (hw : t.WF) (h : All Ordinary t.kserd) (h1 : All Legible t.kserd) (h2 : t.Sep) (h3 : ∀ k, t = .line k → NoHeading k) :
    ∃ k', parse t.text = .ok k' := by
  obtain ⟨T, hT, hr⟩ := laid_tree t hw h h1 h2
  obtain ⟨k', hk, -⟩ := Props.C60_complete (D := .value [] T) (w := []) ⟨(by intro c hc; cases hc), fun h => by cases h⟩ (by
    rw [Doc.Reads]
    refine ⟨blanks_nil, hr _ (stopped_nil.follows _), ?_⟩
    rw [List.nil_append, List.append_nil, hT, laid_ahead hw h]
    rintro ⟨k, e, hn⟩
    exact hn (h3 k e))
  rw [Doc.text, List.nil_append, List.append_nil, hT] at hk
  exact ⟨k', hk⟩

/-! ## Formatter states -/

/-- The layout a formatter state without verbose containers writes. -/
theorem state_laid {f : Formatter} (hr : Rules f) (hv : NoVerboseCntr f) (ho : All Ordinary (displayed f))
    (hid : ∀ i k l, (preorder f.root)[i]? = some k → flags f i = false → k.val = .tuple l → k.id = none) {out : Str} (hout : f.writeString [] = some out) :
    ∃ t : Laid, out = t.text ∧ t.kserd = displayed f ∧ t.WF ∧
      (t.Sep ↔ ∀ i k, (preorder f.root)[i]? = some k → line f i ≠ some .inline → Separable (shown (flags f) i k).val) ∧
      (line f 0 = some .inline ↔ ∃ k', t = .line k') := by
  have hs : Fm.Shape f := ⟨hr.nav, hr.len⟩
  have hline : ∀ j fm, f.fmts[j]? = some fm → line f j = some fm.line := fun j fm hfm => by rw [line, hfm]; rfl
  have hp : AtN (Laying f.fmts) 0 (preorder f.root) := by
    intro j x hx
    rw [Nat.zero_add]
    obtain ⟨n, hn, rfl⟩ := nav_get hr hx
    refine ⟨hs.fmt hn, ?_, ?_, ?_, ?_, ?_⟩
    · intro fm hfm; exact hr.max j n fm.line hn (hline j fm hfm)
    · intro fm hfm fs hfs e
      exact hv j _ fs hx hfs (by rw [hline j fm hfm, e])
    · intro fm hfm e ⟨l, hl⟩
      refine hid j _ l hx ?_ hl
      rw [← flag_eq, flag_of hfm, e]
    · intro fm hfm e m hm fm' hfm'
      have := inline_range hr hn (by rw [hline j fm hfm, e]) (j + m) (by omega) (by omega)
      rw [line, hfm'] at this
      exact Option.some.inj this
    · intro hu he
      have := (all_mem _).mp ho _ (List.mem_of_getElem? (shown_get f hx))
      rcases hk : n.kserd with ⟨id, v⟩
      rw [hk] at hu he this
      cases hu
      obtain ⟨c, r, e, -⟩ := this.1 [] (by rw [shown]; cases flags f j <;> exact he)
      cases e
  rw [Formatter.writeString] at hout
  obtain ⟨t, rfl, h1, h2, h3, h4⟩ := node_laying f.root 0 0 [] out hp hout
  refine ⟨t, rfl, by rw [h1, flag_eq, displayed], h2, h3.trans ?_, h4⟩
  constructor
  · intro h i k hk hl
    obtain ⟨fm, hfm⟩ := (hp i k hk).fm
    rw [Nat.zero_add] at hfm
    have := h i k hk
    rw [Nat.zero_add] at this
    have := this fm hfm (fun e => hl (by rw [hline i fm hfm, e]))
    rw [flag_eq] at this
    obtain ⟨id, v⟩ := k
    rw [shown]; exact this
  · intro h j x hx fm hfm hne
    rw [Nat.zero_add] at hfm ⊢
    have := h j x hx (by rw [hline j fm hfm]; exact fun e => hne (Option.some.inj e))
    obtain ⟨id, v⟩ := x
    rw [shown] at this
    rw [flag_eq]; exact this

end KS.Cc
