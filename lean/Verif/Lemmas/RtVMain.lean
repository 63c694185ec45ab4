import Verif.Lemmas.RtVWrite
/-!
# What the writers write for verbose containers: the induction
-/

namespace KS.RT
open KS.Spec KS.P KS.Nom KS.Nav KS.Wr KS.Props

theorem indent_ind (buf : Str) (d : Nat) : W.indent buf (4 * d) = buf ++ ind d := rfl

theorem nests_iff (v : Value) : W.nests v = isComposite v := by cases v <;> rfl

theorem verbose_ne {v : Value} (h : Repr'.verbose ≤ maxRepr v) : maxRepr v = .verbose := Fm.rle_antisymm (Fm.rle_verbose _) h

theorem shownF_ne {on : Nat → Bool} {i : Nat} {fs : List (Str × Kserd)} (h : fs ≠ []) : shownF on i fs ≠ [] := by
  obtain ⟨⟨n, k⟩, r, rfl⟩ := List.exists_cons_of_ne_nil h
  simp [shownF]

theorem shownL_ne {on : Nat → Bool} {i : Nat} {fs : List Kserd} (h : fs ≠ []) : shownL on i fs ≠ [] := by
  obtain ⟨k, r, rfl⟩ := List.exists_cons_of_ne_nil h
  simp [shownL]

theorem shownM_ne {on : Nat → Bool} {i : Nat} {fs : List (Kserd × Kserd)} (h : fs ≠ []) : shownM on i fs ≠ [] := by
  obtain ⟨⟨n, k⟩, r, rfl⟩ := List.exists_cons_of_ne_nil h
  simp [shownM]

theorem vss_nl {d : Nat} {fol n b : Str} {l : List Kserd} (hl : l ≠ []) (h : VSs d fol n l b) : VSs d fol n l ('\n' :: b) := by
  obtain ⟨k, r, rfl⟩ := List.exists_cons_of_ne_nil hl
  rw [VSs] at h ⊢
  obtain ⟨m, t, b2, rfl, h⟩ := h
  exact ⟨m + 1, t, b2, rfl, h⟩

variable {f : Formatter} (hr : Rules f) (h : Readable f)
include hr h

mutual
theorem w_fields (fs : List (Str × Kserd)) (idx d m : Nat) (A buf out : Str) (top q : Bool) (hsub : AtN (At f) idx (preorderF fs))
    (hok : FieldsOk f fs top q idx) (htop : top = true → d = 0) (hn : ∀ p ∈ fs, ∀ c ∈ p.1, NameChar c)
    (hb : '\n' :: buf = A ++ nls m) (ho : W.cntrVerbose f.fmts fs idx (4 * d) buf = some out) :
    ∃ B m', '\n' :: out = A ++ (B ++ nls m') ∧ ∀ fol, (m' ≠ 0 → Eol fol) → (q = false → NoOpen fol) →
      VFs d fol (shownF (flags f) idx fs) B ∧ (m ≠ 0 → Eol (B ++ fol)) ∧ (headingNext f q idx fs = false → NoOpen (B ++ fol)) ∧
      (fs ≠ [] → FirstOk f idx fs → patternVerbose (B ++ fol) = true) ∧
      (fs ≠ [] → m ≠ 0 → ∃ x, B = '\n' :: x ∧ (NoStr f idx fs → NoKey (x ++ fol))) := by
  match fs with
  | [] =>
    rw [W.cntrVerbose, Option.some.injEq] at ho
    subst ho
    refine ⟨[], m, hb, fun fol he hq => ⟨by rw [shownF, VFs], he, hq, by simp, by simp⟩⟩
  | (n, k) :: r =>
    rw [FieldsOk] at hok
    obtain ⟨hne, hok1, hok2⟩ := hok
    rw [preorderF, atN_append, size_preorder] at hsub
    have hx : At f idx k := hsub.1 0 k (by cases k; rfl)
    obtain ⟨fm, hfm, hl, hmax⟩ := at_fmt hr hx
    have hn1 := hn (n, k) (by simp)
    rw [W.cntrVerbose] at ho
    simp only [hfm] at ho
    split at ho
    · cases ho
    · rename_i out1 ho1
      by_cases hd : fm.line = .verbose ∧ W.nests k.val = true
      · -- under a heading
        rw [if_pos hd] at ho1
        have hh : headed f idx k = true := by rw [headed, hl, hd.1, ← nests_iff, hd.2]; rfl
        obtain ⟨B1, m1, hB1, hhead, hV1⟩ := w_nested k n idx d m A buf out1 top (headingNext f q (idx + k.size) r) fm hsub.1 hfm hd.1 hd.2
          (by obtain ⟨id, v⟩ := k; rw [FieldOk] at hok1; exact hok1.1 hh) htop hn1 hne hb ho1
        obtain ⟨B2, m', hB2, hV2⟩ := w_fields r (idx + k.size) d m1 (A ++ B1) out1 out top q hsub.2 hok2 htop
          (fun p hp => hn p (List.mem_cons_of_mem _ hp)) (by rw [hB1]; simp) ho
        refine ⟨B1 ++ B2, m', by rw [hB2]; simp, fun fol he hq => ?_⟩
        obtain ⟨g1, g2, g3, g4, g5⟩ := hV2 fol he hq
        have hsh := hhead
        refine ⟨?_, ?_, ?_, ?_, ?_⟩
        · rw [shownF, VFs]
          refine ⟨B1, B2, rfl, hne, ?_, g1⟩
          have := hV1 (B2 ++ fol) g2 g3
          obtain ⟨id, v⟩ := k
          rw [shown, VF]
          exact .inr this
        · intro _; rcases hsh with ⟨z, rfl⟩ | ⟨-, z, rfl⟩ <;> exact .inr ⟨_, rfl⟩
        · intro hq'; rw [headingNext, hh] at hq'; cases hq'
        · intro _ hfirst
          rcases hsh with ⟨z, rfl⟩ | ⟨hc, z, rfl⟩
          · have := pv_entry (m + 1) d (z ++ B2 ++ fol)
            simpa using this
          · obtain ⟨hid0, hvn⟩ := hfirst hh hc
            rw [hid0]
            have := pv_nested (m + 1) d hvn (z ++ B2 ++ fol)
            simpa [hid] using this
        · intro _ hm
          obtain ⟨m, rfl⟩ := Nat.exists_eq_succ_of_ne_zero hm
          rcases hsh with ⟨z, rfl⟩ | ⟨-, z, rfl⟩ <;> exact ⟨_, rfl, fun _ => noKey_nl _⟩
      · -- on a line of its own
        rw [if_neg hd, Option.map_eq_some_iff] at ho1
        obtain ⟨b, hb1, rfl⟩ := ho1
        have hh : headed f idx k = false := by
          rw [headed, hl, ← nests_iff]
          by_contra hc
          rw [Bool.not_eq_false, Bool.and_eq_true, decide_eq_true_eq, Option.some.injEq] at hc
          exact hd hc
        have hlv : line f idx ≠ some .verbose := by
          intro e
          rw [hl, Option.some.injEq] at e
          rw [e] at hmax
          have := verbose_ne hmax
          apply hd
          refine ⟨e, ?_⟩
          cases hv : k.val with
          | tuple l => rw [hv, maxRepr] at this; split at this <;> cases this
          | cntr _ => rfl
          | seq _ => rfl
          | map _ => rfl
          | _ => rw [hv] at this; cases this
        obtain ⟨T, rfl, hT, -, -, -⟩ := direct_txt hr h hsub.1 (flat_of hr hx hlv) hb1
        have hB1 : '\n' :: (W.indent buf (4 * d) ++ (n ++ W.assigner ++ [' ']) ++ T ++ ['\n']) =
            A ++ (nls m ++ (ind d ++ (n ++ (str " = " ++ T)))) ++ nls 1 := by
          have e : '\n' :: (W.indent buf (4 * d) ++ (n ++ W.assigner ++ [' ']) ++ T ++ ['\n']) =
            ('\n' :: buf) ++ (ind d ++ (n ++ (str " = " ++ T))) ++ nls 1 := by
            rw [indent_ind]
            have : str " = " = W.assigner ++ [' '] := rfl
            rw [this]
            simp [nls]
          rw [e, hb]; simp
        obtain ⟨B2, m', hB2, hV2⟩ := w_fields r (idx + k.size) d 1 _ _ out top q hsub.2 hok2 htop
          (fun p hp => hn p (List.mem_cons_of_mem _ hp)) hB1 ho
        refine ⟨(nls m ++ (ind d ++ (n ++ (str " = " ++ T)))) ++ B2, m', by rw [hB2]; simp, fun fol he hq => ?_⟩
        obtain ⟨g1, g2, g3, g4, g5⟩ := hV2 fol he hq
        have e2 : (nls m ++ (ind d ++ (n ++ (str " = " ++ T)))) ++ B2 ++ fol = nls m ++ (ind d ++ (n ++ (str " = " ++ (T ++ (B2 ++ fol))))) := by simp
        refine ⟨?_, ?_, ?_, ?_, ?_⟩
        · rw [shownF, VFs]
          refine ⟨_, B2, rfl, hne, ?_, g1⟩
          obtain ⟨id, v⟩ := k
          rw [shown, VF]
          rw [shown, Txt] at hT
          refine .inl ⟨m, T, rfl, hT, g2 (by simp), fun hbare => g3 ?_⟩
          rw [FieldOk] at hok1
          exact hok1.2 hh (by rw [shown]; exact hbare)
        · intro hm
          obtain ⟨m, rfl⟩ := Nat.exists_eq_succ_of_ne_zero hm
          exact .inr ⟨_, rfl⟩
        · intro _; rw [e2]; exact noOpen_direct _ _ hn1 hne _
        · intro _ _; rw [e2]; exact pv_direct _ _ hn1 hne _
        · intro _ hm
          obtain ⟨m, rfl⟩ := Nat.exists_eq_succ_of_ne_zero hm
          refine ⟨_, rfl, fun hns => ?_⟩
          have hstr := hns hh
          cases m with
          | zero =>
            have e3 : ∀ y : Str, y = (ind d ++ (n ++ (str " = " ++ T))) ++ B2 → y ++ fol = List.replicate (4 * d) ' ' ++ (n ++ (str " = " ++ (T ++ (B2 ++ fol)))) := by
              rintro _ rfl
              simp [ind]
            refine (congrArg NoKey (e3 _ rfl)).mpr ?_
            exact noKey_name (4 * d) hn1 hne hstr
          | succ m => exact noKey_nl _
theorem w_nested (k : Kserd) (n : Str) (idx d m : Nat) (A buf out : Str) (top q : Bool) (fm : Fmt) (hsub : AtN (At f) idx (preorder k))
    (hfm : f.fmts[idx]? = some fm) (hlv : fm.line = .verbose) (hc : W.nests k.val = true)
    (hok : HeadedOk f k.val (shownId (flags f idx) k.val k.id) top q idx) (htop : top = true → d = 0)
    (hn : ∀ c ∈ n, NameChar c) (hne : n ≠ [])
    (hb : '\n' :: buf = A ++ nls m) (ho : W.nested f.fmts fm.id n k idx (4 * d) buf = some out) :
    ∃ B m', '\n' :: out = A ++ (B ++ nls m') ∧ HeadTxt d m n (shown (flags f) idx k).id k.val B ∧
      ∀ fol, (m' ≠ 0 → Eol fol) → (q = false → NoOpen fol) → VV d fol n (shown (flags f) idx k).id (shown (flags f) idx k).val B := by
  obtain ⟨id, v⟩ := k
  have hx : At f idx (.mk id v) := hsub 0 _ rfl
  obtain ⟨fm', hfm', hl, hmax⟩ := at_fmt hr hx
  rw [hfm] at hfm'
  cases hfm'
  rw [hlv] at hmax
  have hmaxv := verbose_ne hmax
  have hflag : flags f idx = fm.id := by rw [← flag_eq, flag_of hfm]
  rw [preorder, atN_cons] at hsub
  simp only [Kserd.val, Kserd.id] at hok hmaxv hc
  simp only [shown, Kserd.val, Kserd.id, hflag] at hok ⊢
  match v with
  | .cntr f' =>
    have hf' : f' ≠ [] := by rintro rfl; rw [maxRepr] at hmaxv; simp at hmaxv
    rw [HeadedOk] at hok
    have htext := at_text hr h hx
    rw [shown] at htext
    have hnames : ∀ p ∈ f', ∀ c ∈ p.1, NameChar c := names_of htext.2.2.2.1
    obtain ⟨buf1, hbuf, ho'⟩ : ∃ buf1, '\n' :: buf1 =
        (A ++ (nls (m + 1) ++ (ind d ++ '[' :: (n ++ (hid (shownId fm.id (.cntr f') id) ++ [']']))))) ++ nls 1 ∧
        W.cntrVerbose f.fmts f' (idx + 1) (4 * (d + 1)) buf1 = some out := by
      have e : ∀ y : Str, '\n' :: (W.indent (buf ++ ['\n']) (4 * d) ++ y) = A ++ (nls (m + 1) ++ (ind d ++ y)) := by
        intro y
        rw [indent_ind, show '\n' :: (buf ++ ['\n'] ++ ind d ++ y) = ('\n' :: buf) ++ ['\n'] ++ (ind d ++ y) by simp, hb, ← nls_snoc m]
        simp
      have e2 : str "]\n" = [']'] ++ nls 1 := rfl
      simp only [W.nested] at ho
      refine ⟨_, ?_, ho⟩
      generalize fm.id = b
      clear ho hsub hx hmax htext hok hflag
      cases b <;> cases id <;> simp only [shownId, if_true, if_false, Bool.false_eq_true, hid, e2, List.append_assoc, e] <;> simp
    obtain ⟨B', m', hB', hV'⟩ := w_fields f' (idx + 1) (d + 1) 1 _ _ out false q hsub.2 hok.2 (by simp) hnames hbuf ho'
    refine ⟨nls (m + 1) ++ (ind d ++ '[' :: (n ++ (hid (shownId fm.id (.cntr f') id) ++ ']' :: B'))), m', by rw [hB']; simp, .inr ⟨⟨f', rfl⟩, B', rfl⟩, ?_⟩
    intro fol he hq
    obtain ⟨g1, -, -, g4, g5⟩ := hV' fol he hq
    obtain ⟨x, rfl, -⟩ := g5 hf' (by simp)
    rw [shownV, VV]
    have hpv := g4 hf' hok.1
    exact ⟨shownF_ne hf', m, x, rfl, g1, hpv⟩
  | .seq l =>
    have hl' : l ≠ [] := by rintro rfl; rw [maxRepr] at hmaxv; simp at hmaxv
    rw [HeadedOk] at hok
    simp only [W.nested, Option.map_eq_some_iff] at ho
    obtain ⟨b, hb1, rfl⟩ := ho
    obtain ⟨B, m', hB, hsh, hV⟩ := w_seq l n (idx + 1) d m A _ b q hsub.2 hok.2 hn hne
      (by rw [show '\n' :: (buf ++ ['\n']) = ('\n' :: buf) ++ ['\n'] by simp, hb, ← nls_snoc m, List.append_assoc]) hb1
    refine ⟨B, m', ?_, ?_, ?_⟩
    · have e1 : ('\n' :: b) = (A ++ (B ++ nls m')) ++ ['\n'] := by rw [hB, ← nls_snoc m']; simp
      have hbne : b ≠ [] := by
        obtain ⟨y, rfl⟩ := hsh hl'
        rintro rfl
        have := congrArg List.length e1
        simp [nls, show (str "[[").length = 2 from rfl] at this
        omega
      have e2 : ('\n' :: b).dropLast = A ++ (B ++ nls m') := by rw [e1, List.dropLast_concat]
      rw [List.dropLast_cons_of_ne_nil hbne] at e2
      exact e2
    · obtain ⟨y, rfl⟩ := hsh hl'
      exact .inl ⟨y, rfl⟩
    · intro fol he hq
      rw [shownV, VV]
      refine ⟨hok.1, shownL_ne hl', hV fol he hq⟩
  | .map l =>
    have hl' : l ≠ [] := by rintro rfl; rw [maxRepr] at hmaxv; simp at hmaxv
    rw [HeadedOk] at hok
    have hd := htop hok.2.1
    subst hd
    simp only [W.nested] at ho
    obtain ⟨B, m', hB, hsh, hV⟩ := w_map l n (idx + 1) m A _ out q hsub.2 hok.2.2 hn hne
      (by rw [show '\n' :: (buf ++ ['\n']) = ('\n' :: buf) ++ ['\n'] by simp, hb, ← nls_snoc m, List.append_assoc]) ho
    refine ⟨B, m' + 1, hB, ?_, ?_⟩
    · obtain ⟨y, rfl⟩ := hsh hl'
      exact .inl ⟨y, rfl⟩
    · intro fol he hq
      rw [shownV, VV]
      exact ⟨hok.1, rfl, shownM_ne hl', hV fol (he (by simp)) hq⟩
  | .unit => cases hc
  | .bool _ => cases hc
  | .num _ => cases hc
  | .str _ => cases hc
  | .barr _ => cases hc
  | .tuple _ => cases hc
theorem w_seq (l : List Kserd) (n : Str) (idx d m : Nat) (A buf out : Str) (q : Bool) (hsub : AtN (At f) idx (preorderL l))
    (hok : ElemsOk f l q idx) (hn : ∀ c ∈ n, NameChar c) (hne : n ≠ [])
    (hb : '\n' :: buf = A ++ nls (m + 1)) (ho : W.seqVerbose f.fmts n l idx (4 * d) buf = some out) :
    ∃ B m', '\n' :: out = A ++ (B ++ nls (m' + 1)) ∧ (l ≠ [] → ∃ y, B = nls (m + 1) ++ (ind d ++ (str "[[" ++ y))) ∧
      ∀ fol, (m' ≠ 0 → Eol fol) → (q = false → NoOpen fol) → VSs d fol n (shownL (flags f) idx l) B := by
  match l with
  | [] =>
    rw [W.seqVerbose, Option.some.injEq] at ho
    subst ho
    exact ⟨[], m, hb, by simp, fun fol he hq => by rw [shownL, VSs]⟩
  | k :: r =>
    rw [ElemsOk] at hok
    obtain ⟨o1, o4, o5, o6⟩ := hok
    rw [preorderL, atN_append, size_preorder] at hsub
    have hx : At f idx k := hsub.1 0 k (by cases k; rfl)
    obtain ⟨fm, hfm, hl, hmax⟩ := at_fmt hr hx
    rw [W.seqVerbose] at ho
    simp only [hfm] at ho
    split at ho
    · cases ho
    · rename_i out1 ho1
      have hbuf : '\n' :: (W.indent buf (4 * d) ++ str "[[" ++ n ++ str "]]\n") = (A ++ (nls (m + 1) ++ (ind d ++ (str "[[" ++ (n ++ str "]]"))))) ++ nls 1 := by
        rw [indent_ind, show '\n' :: (buf ++ ind d ++ str "[[" ++ n ++ str "]]\n") = ('\n' :: buf) ++ (ind d ++ (str "[[" ++ (n ++ str "]]"))) ++ nls 1 by
          have : str "]]\n" = str "]]" ++ nls 1 := rfl
          rw [this]; simp, hb]
        simp
      -- the element
      have helem : ∃ t m1, '\n' :: (out1 ++ ['\n']) = (A ++ (nls (m + 1) ++ (ind d ++ (str "[[" ++ (n ++ str "]]"))))) ++ (t ++ nls (m1 + 1)) ∧
          ∀ fol, (m1 ≠ 0 → Eol fol) → ((q || !r.isEmpty) = false → NoOpen fol) → VE d fol (shown (flags f) idx k) t := by
        by_cases hv : fm.line = .verbose
        · rw [if_pos hv] at ho1
          have hlv : line f idx = some .verbose := by rw [hl, hv]
          by_cases hcn : ∃ fs, k.val = .cntr fs
          · have ho1' : W.node f.fmts k idx (4 * (d + 1)) (W.indent buf (4 * d) ++ str "[[" ++ n ++ str "]]\n") = some out1 := ho1
            obtain ⟨t, m1, ht, hV⟩ := w_body k idx (d + 1) _ _ out1 false (q || !r.isEmpty) hsub.1 hlv hcn
              (by obtain ⟨id, v⟩ := k; rw [ValueOk] at o5; exact (o5.1 hlv).1) (by simp) hbuf ho1'
            refine ⟨t, m1, ?_, ?_⟩
            · rw [← List.cons_append, ht, ← nls_snoc m1]; simp
            · intro fol he hq
              obtain ⟨g1, g2⟩ := hV fol he hq
              have hns := o4 hlv
              obtain ⟨id, v⟩ := k
              rw [shown, VE]
              exact .inr ⟨g1, g2 hns⟩
          · have hsm : isSeqMap k.val = true := by
              rw [hv] at hmax
              have hm := verbose_ne hmax
              cases hkv : k.val with
              | cntr fs => exact absurd ⟨fs, hkv⟩ hcn
              | seq l => rfl
              | map l => rfl
              | tuple l => rw [hkv, maxRepr] at hm; split at hm <;> cases hm
              | _ => rw [hkv] at hm; cases hm
            have hflat : Flat f idx k := by
              obtain ⟨id, v⟩ := k
              rw [ValueOk] at o5
              exact (o5.1 hlv).2 hsm
            obtain ⟨T, rfl, hT, -, hnh, hmulti⟩ := direct_txt hr h hsub.1 hflat ho1
            have hmulti := hmulti (by rw [hlv]; simp) hsm
            have hnh' := hnh (by rw [hlv]; simp)
            have hnb : ¬ Bare (shown (flags f) idx k) := by
              rintro ⟨-, x, hx, -⟩
              obtain ⟨id, v⟩ := k
              cases v <;> simp only [shown, shownV, Kserd.val, reduceCtorEq, isSeqMap, Bool.false_eq_true] at hx hsm
            refine ⟨'\n' :: T, 0, ?_, ?_⟩
            · rw [← List.cons_append, ← List.cons_append, hbuf]
              simp [nls]
            · intro fol he hq
              obtain ⟨id, v⟩ := k
              rw [shown] at hnb hnh' hmulti ⊢
              rw [shown, Txt] at hT
              rw [VE]
              exact .inl ⟨0, T, by simp, hT, .inr hmulti, fun hb => absurd hb hnb, hnh'⟩
        · rw [if_neg hv, Option.map_eq_some_iff] at ho1
          obtain ⟨b, hb1, rfl⟩ := ho1
          have hlv : line f idx ≠ some .verbose := by rw [hl]; intro e; exact hv (Option.some.inj e)
          obtain ⟨T, rfl, hT, -, hnh, -⟩ := direct_txt hr h hsub.1 (flat_of hr hx hlv) hb1
          refine ⟨'\n' :: (List.replicate (4 * d) ' ' ++ T), 1, ?_, ?_⟩
          · rw [show '\n' :: (W.indent (W.indent buf (4 * d) ++ str "[[" ++ n ++ str "]]\n") (4 * d) ++ T ++ ['\n'] ++ ['\n']) =
              ('\n' :: (W.indent buf (4 * d) ++ str "[[" ++ n ++ str "]]\n")) ++ (List.replicate (4 * d) ' ' ++ (T ++ nls 2)) by
                rw [W.indent]; simp [nls], hbuf]
            simp [nls]
          · intro fol he hq
            have key : Bare (shown (flags f) idx k) → NoOpen fol := by
              intro hbare
              apply hq
              obtain ⟨id, v⟩ := k
              rw [ValueOk] at o5
              exact o5.2 hlv hbare
            have key2 : (¬ ∃ x, T = '[' :: '\n' :: x) → NoHeading (shown (flags f) idx k) := by
              intro hno
              by_cases hi : line f idx = some .inline
              · exact o1 hi
              · exact hnh hi hno
            obtain ⟨id, v⟩ := k
            rw [shown] at key key2 ⊢
            rw [shown, Txt] at hT
            rw [VE]
            exact .inl ⟨4 * d, T, rfl, hT, .inl (he (by simp)), key, key2⟩
      obtain ⟨t, m1, ht, hVE⟩ := helem
      obtain ⟨B2, m', hB2, hsh2, hV2⟩ := w_seq r n (idx + k.size) d m1 ((A ++ (nls (m + 1) ++ (ind d ++ (str "[[" ++ (n ++ str "]]"))))) ++ t) (out1 ++ ['\n']) out q hsub.2 o6 hn hne
        (by rw [ht]; simp) ho
      refine ⟨nls (m + 1) ++ (ind d ++ (str "[[" ++ (n ++ (str "]]" ++ (t ++ B2))))), m', by rw [hB2]; simp, fun _ => ⟨_, rfl⟩, ?_⟩
      intro fol he hq
      have hrest := hV2 fol he hq
      rw [shownL, VSs]
      refine ⟨m, t, B2, rfl, hVE (B2 ++ fol) ?_ ?_, hrest⟩
      · intro hm1
        cases r with
        | nil =>
          rw [shownL, VSs] at hrest; subst hrest
          refine he ?_
          rintro rfl
          apply hm1
          rw [W.seqVerbose, Option.some.injEq] at ho
          rw [← ho, ht] at hB2
          have := congrArg List.length hB2
          simp [nls] at this
          omega
        | cons k' r' =>
          obtain ⟨y, rfl⟩ := hsh2 (by simp)
          exact .inr ⟨_, rfl⟩
      · intro hqq
        rw [Bool.or_eq_false_iff] at hqq
        cases r with
        | nil => rw [shownL, VSs] at hrest; subst hrest; exact hq hqq.1
        | cons k' r' => simp at hqq
theorem w_body (k : Kserd) (idx d : Nat) (A buf out : Str) (top q : Bool) (hsub : AtN (At f) idx (preorder k)) (hlv : line f idx = some .verbose)
    (hc : ∃ fs, k.val = .cntr fs) (hok : VerboseOk f k.val (shownId (flags f idx) k.val k.id) top q idx) (htop : top = true → d = 0)
    (hb : '\n' :: buf = A ++ nls 1) (ho : W.node f.fmts k idx (4 * d) buf = some out) :
    ∃ t m', '\n' :: out = A ++ (t ++ nls m') ∧ ∀ fol, (m' ≠ 0 → Eol fol) → (q = false → NoOpen fol) →
      VEV d fol (shown (flags f) idx k).id (shown (flags f) idx k).val t ∧
      (((shown (flags f) idx k).id = none → ∀ fs, k.val = .cntr fs → NoStr f (idx + 1) fs) → NoKey (t.tail ++ fol)) := by
  obtain ⟨id, v⟩ := k
  have hx : At f idx (.mk id v) := hsub 0 _ rfl
  obtain ⟨fm, hfm, hl, hmax⟩ := at_fmt hr hx
  have hfv : fm.line = .verbose := by rw [hl] at hlv; exact Option.some.inj hlv
  rw [hfv] at hmax
  have hmaxv := verbose_ne hmax
  have hflag : flags f idx = fm.id := by rw [← flag_eq, flag_of hfm]
  rw [preorder, atN_cons] at hsub
  simp only [Kserd.val, Kserd.id] at hok hmaxv hc
  simp only [shown, Kserd.val, Kserd.id, hflag] at hok ⊢
  match v with
  | .cntr f' =>
    have hf' : f' ≠ [] := by rintro rfl; rw [maxRepr] at hmaxv; simp at hmaxv
    rw [VerboseOk] at hok
    have htext := at_text hr h hx
    rw [shown] at htext
    have hnames : ∀ p ∈ f', ∀ c ∈ p.1, NameChar c := names_of htext.2.2.2.1
    simp only [W.node, hfm, hfv] at ho
    have noId : shownId fm.id (.cntr f') id = none → W.cntrVerbose f.fmts f' (idx + 1) (4 * d) buf = some out →
        ∃ t m', '\n' :: out = A ++ (t ++ nls m') ∧ ∀ fol, (m' ≠ 0 → Eol fol) → (q = false → NoOpen fol) →
          VEV d fol (shownId fm.id (.cntr f') id) (shownV (flags f) (idx + 1) (.cntr f')) t ∧
          ((shownId fm.id (.cntr f') id = none → ∀ fs, Value.cntr f' = .cntr fs → NoStr f (idx + 1) fs) → NoKey (t.tail ++ fol)) := by
      intro hn0 ho
      obtain ⟨B, m', hB, hV⟩ := w_fields f' (idx + 1) d 1 A buf out top q hsub.2 hok.2 htop hnames hb ho
      refine ⟨B, m', hB, fun fol he hq => ?_⟩
      obtain ⟨g1, -, -, g4, g5⟩ := hV fol he hq
      obtain ⟨x, rfl, g6⟩ := g5 hf' (by simp)
      have hpv := g4 hf' (hok.1 hn0)
      rw [shownV, VEV]
      exact ⟨⟨shownF_ne hf', x, g1, .inl ⟨hn0, rfl, hpv⟩⟩, fun hns => g6 (hns hn0 f' rfl)⟩
    cases hfi : fm.id with
    | false =>
      rw [hfi] at ho noId
      exact noId rfl (by simpa using ho)
    | true =>
      rw [hfi] at ho noId
      cases id with
      | none => exact noId rfl (by simpa using ho)
      | some i =>
        have hbuf : '\n' :: (W.indent buf (4 * d) ++ ':' :: i ++ ['\n']) = (A ++ ('\n' :: (ind d ++ ':' :: i))) ++ nls 1 := by
          rw [indent_ind, show '\n' :: (buf ++ ind d ++ ':' :: i ++ ['\n']) = ('\n' :: buf) ++ (ind d ++ ':' :: i) ++ nls 1 by simp [nls], hb]
          simp [nls]
        obtain ⟨B, m', hB, hV⟩ := w_fields f' (idx + 1) d 1 _ _ out top q hsub.2 hok.2 htop hnames hbuf (by simpa using ho)
        refine ⟨'\n' :: (ind d ++ ':' :: (i ++ B)), m', by rw [hB]; simp, fun fol he hq => ?_⟩
        obtain ⟨g1, -, -, g4, g5⟩ := hV fol he hq
        obtain ⟨x, rfl, -⟩ := g5 hf' (by simp)
        rw [shownV, VEV]
        refine ⟨⟨shownF_ne hf', x, g1, .inr ⟨i, rfl, rfl⟩⟩, fun _ => ?_⟩
        have := noKey_colon (4 * d) (i ++ '\n' :: x ++ fol)
        simpa [ind] using this
  | .seq _ => obtain ⟨fs, hfs⟩ := hc; cases hfs
  | .map _ => obtain ⟨fs, hfs⟩ := hc; cases hfs
  | .unit => obtain ⟨fs, hfs⟩ := hc; cases hfs
  | .bool _ => obtain ⟨fs, hfs⟩ := hc; cases hfs
  | .num _ => obtain ⟨fs, hfs⟩ := hc; cases hfs
  | .str _ => obtain ⟨fs, hfs⟩ := hc; cases hfs
  | .barr _ => obtain ⟨fs, hfs⟩ := hc; cases hfs
  | .tuple _ => obtain ⟨fs, hfs⟩ := hc; cases hfs
theorem w_map (l : List (Kserd × Kserd)) (n : Str) (idx m : Nat) (A buf out : Str) (q : Bool) (hsub : AtN (At f) idx (preorderM l))
    (hok : EntriesOk f l q idx) (hn : ∀ c ∈ n, NameChar c) (hne : n ≠ [])
    (hb : '\n' :: buf = A ++ nls (m + 1)) (ho : W.mapVerbose f.fmts n l idx (4 * 0) buf = some out) :
    ∃ B m', '\n' :: out = A ++ (B ++ nls (m' + 1)) ∧ (l ≠ [] → ∃ y, B = nls (m + 1) ++ (ind 0 ++ (str "[[" ++ y))) ∧
      ∀ fol, Eol fol → (q = false → NoOpen fol) → VMs fol n (shownM (flags f) idx l) B := by
  match l with
  | [] =>
    rw [W.mapVerbose, Option.some.injEq] at ho
    subst ho
    exact ⟨[], m, hb, by simp, fun fol he hq => by rw [shownM, VMs]⟩
  | (k, v) :: r =>
    rw [EntriesOk] at hok
    obtain ⟨o1, o2, o3⟩ := hok
    rw [preorderM, atN_append, atN_append, size_preorder, size_preorder] at hsub
    have hxk : At f idx k := hsub.1 0 k (by cases k; rfl)
    have hxv : At f (idx + k.size) v := hsub.2.1 0 v (by cases v; rfl)
    obtain ⟨fk, hfk, hlk, hmaxk⟩ := at_fmt hr hxk
    obtain ⟨fm, hfm, hl, hmax⟩ := at_fmt hr hxv
    rw [W.mapVerbose] at ho
    simp only [hfk, hfm] at ho
    split at ho
    · cases ho
    · rename_i kbuf hkb
      obtain ⟨K, rfl, -, hK, -, -⟩ := direct_txt hr h hsub.1 (flat_of hr hxk (by rw [o1]; simp)) hkb
      have hK := hK o1
      have hbuf : ∀ y : Str, '\n' :: (buf ++ str "[[" ++ n ++ str "]]\n" ++ K ++ W.keysAssigner ++ y) =
          (A ++ (nls (m + 1) ++ (str "[[" ++ (n ++ (str "]]" ++ '\n' :: (K ++ [':'])))))) ++ y := by
        intro y
        rw [show '\n' :: (buf ++ str "[[" ++ n ++ str "]]\n" ++ K ++ W.keysAssigner ++ y) =
          ('\n' :: buf) ++ (str "[[" ++ (n ++ (str "]]" ++ '\n' :: (K ++ [':'])))) ++ y by
            have : str "]]\n" = str "]]" ++ ['\n'] := rfl
            rw [this, W.keysAssigner]; simp; rfl, hb]
        simp
      split at ho
      · cases ho
      · rename_i out1 ho1
        have hval : ∃ t m1, '\n' :: out1 = (A ++ (nls (m + 1) ++ (str "[[" ++ (n ++ (str "]]" ++ '\n' :: (K ++ [':'])))))) ++ (t ++ nls (m1 + 1)) ∧
            ∀ fol, Eol fol → ((q || !r.isEmpty) = false → NoOpen fol) → VMV fol (shown (flags f) (idx + k.size) v) t := by
          have hbare : line f (idx + k.size) ≠ some .verbose → ∀ fol, ((q || !r.isEmpty) = false → NoOpen fol) →
              Bare (shown (flags f) (idx + k.size) v) → NoOpen fol := by
            intro hlv fol hq hbare
            apply hq
            obtain ⟨id, v⟩ := v
            rw [ValueOk] at o2
            exact o2.2 hlv hbare
          by_cases hv : fm.line = .verbose
          · rw [if_pos hv, Option.map_eq_some_iff] at ho1
            obtain ⟨b, hb1, rfl⟩ := ho1
            have hlv : line f (idx + k.size) = some .verbose := by rw [hl, hv]
            by_cases hcn : ∃ fs, v.val = .cntr fs
            · obtain ⟨t, m1, ht, hV⟩ := w_body v (idx + k.size) 1 _ _ b false (q || !r.isEmpty) hsub.2.1 hlv hcn
                (by obtain ⟨id, v⟩ := v; rw [ValueOk] at o2; exact (o2.1 hlv).1) (by simp) (hbuf ['\n']) hb1
              refine ⟨t, m1, ?_, ?_⟩
              · rw [← List.cons_append, ht, ← nls_snoc m1]; simp
              · intro fol he hq
                obtain ⟨g1, -⟩ := hV fol (fun _ => he) hq
                obtain ⟨id, v⟩ := v
                rw [shown, VMV]
                exact .inr (.inr g1)
            · have hsm : isSeqMap v.val = true := by
                rw [hv] at hmax
                have hm := verbose_ne hmax
                cases hkv : v.val with
                | cntr fs => exact absurd ⟨fs, hkv⟩ hcn
                | seq l => rfl
                | map l => rfl
                | tuple l => rw [hkv, maxRepr] at hm; split at hm <;> cases hm
                | _ => rw [hkv] at hm; cases hm
              have hflat : Flat f (idx + k.size) v := by
                obtain ⟨id, v⟩ := v
                rw [ValueOk] at o2
                exact (o2.1 hlv).2 hsm
              obtain ⟨T, rfl, hT, -, hnh, -⟩ := direct_txt hr h hsub.2.1 hflat hb1
              have hnb : ¬ Bare (shown (flags f) (idx + k.size) v) := by
                rintro ⟨-, x, hx, -⟩
                obtain ⟨id, v⟩ := v
                cases v <;> simp only [shown, shownV, Kserd.val, reduceCtorEq, isSeqMap, Bool.false_eq_true] at hx hsm
              refine ⟨'\n' :: T, 0, ?_, ?_⟩
              · rw [List.append_assoc (_ ++ _ ++ _ ++ _ ++ _ ++ _ ) ['\n'] T, List.append_assoc _ (['\n'] ++ T) ['\n'], hbuf]
                simp [nls]
              · intro fol he hq
                have hnh' := hnh (by rw [hlv]; simp)
                obtain ⟨id, v⟩ := v
                rw [shown] at hnb hnh' ⊢
                rw [shown, Txt] at hT
                rw [VMV]
                exact .inr (.inl ⟨0, T, by simp, hT, he, fun hb => absurd hb hnb, hnh'⟩)
          · rw [if_neg hv, Option.map_eq_some_iff] at ho1
            obtain ⟨b, hb1, rfl⟩ := ho1
            have hlv : line f (idx + k.size) ≠ some .verbose := by rw [hl]; intro e; exact hv (Option.some.inj e)
            obtain ⟨T, rfl, hT, -, -, -⟩ := direct_txt hr h hsub.2.1 (flat_of hr hxv hlv) hb1
            refine ⟨' ' :: T, 0, ?_, ?_⟩
            · rw [List.append_assoc (_ ++ _ ++ _ ++ _ ++ _ ++ _ ) [' '] T, List.append_assoc _ ([' '] ++ T) ['\n'], hbuf]
              simp [nls]
            · intro fol he hq
              have hb' := hbare hlv fol hq
              obtain ⟨id, v⟩ := v
              rw [shown] at hb' ⊢
              rw [shown, Txt] at hT
              rw [VMV]
              exact .inl ⟨T, rfl, hT, he, hb'⟩
        obtain ⟨t, m1, ht, hVV⟩ := hval
        obtain ⟨B2, m', hB2, -, hV2⟩ := w_map r n (idx + k.size + v.size) m1
          ((A ++ (nls (m + 1) ++ (str "[[" ++ (n ++ (str "]]" ++ '\n' :: (K ++ [':'])))))) ++ t) out1 out q hsub.2.2 o3 hn hne (by rw [ht]; simp) ho
        refine ⟨nls (m + 1) ++ (str "[[" ++ (n ++ (str "]]" ++ '\n' :: (K ++ ':' :: (t ++ B2))))), m', by rw [hB2]; simp, fun _ => ⟨_, by rw [ind_zero, List.nil_append]⟩, ?_⟩
        intro fol he hq
        have hrest := hV2 fol he hq
        rw [shownM, VMs]
        refine ⟨m, K, t, B2, rfl, hK, hVV (B2 ++ fol) ?_ ?_, hrest⟩
        · cases r with
          | nil => rw [shownM, VMs] at hrest; subst hrest; exact he
          | cons k' r' =>
            obtain ⟨k1, v1⟩ := k'
            rw [shownM, VMs] at hrest
            obtain ⟨m2, K2, t2, b2, rfl, -⟩ := hrest
            exact .inr ⟨_, rfl⟩
        · intro hqq
          rw [Bool.or_eq_false_iff] at hqq
          cases r with
          | nil => rw [shownM, VMs] at hrest; subst hrest; exact hq hqq.1
          | cons k' r' => simp at hqq
end

end KS.RT
