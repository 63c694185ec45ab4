import Verif.Lemmas.RtWrite
import Verif.Lemmas.ParseFuel
/-!
# Reading a whole text back
-/

namespace KS.RT
open KS.Spec KS.P KS.Nom

/-- The part of `encasedName` after the bracket. -/
def Enc (x : Str) : Bool := (terminated (ignoreWs validName) (ignoreWs (tag [']'])) x).isOk

theorem enc_err {c : Char} (r : Str) (hw : isMultiWs c = false) (h1 : isAlpha c = false) (h2 : c ≠ '_') : Enc (c :: r) = false := by
  obtain ⟨e, he⟩ := validName_err r h1 h2
  simp only [Enc, terminated, ignoreWs_none _ _ (inline_multi hw), he, PRes.bind, PRes.isOk]

theorem tag_err {c d : Char} (r : Str) (h : d ≠ c) : tag [c] (d :: r) = .err [(d :: r, .tag)] := by
  simp [tag, stripPrefix, Ne.symm h]

theorem enc_name {i s : Str} {d : Char} (r : Str) (h : ValidName i) (hs : Blank s) (h1 : d ≠ ']') (h2 : isInlineWs d = false)
    (h3 : isNameChar d = false) : Enc (i ++ (s ++ d :: r)) = false := by
  have hv := validName_ok (rest := s ++ d :: r) h (by
    intro c x e
    rcases hs with rfl | rfl
    · cases e; exact h3
    · cases e; decide)
  obtain ⟨c, i', rfl, hc, -⟩ := name_head_ws h
  have ht : (ignoreWs (tag [']']) (s ++ d :: r)).isOk = false := by
    rcases hs with rfl | rfl
    · rw [List.nil_append, ignoreWs_none _ _ h2, tag_err r h1]; rfl
    · rw [List.singleton_append, ignoreWs_one _ _ h2, tag_err r h1]; rfl
  rw [List.cons_append] at hv ⊢
  simp only [Enc, terminated, ignoreWs_none _ _ (inline_multi hc), hv, PRes.bind]
  cases hx : ignoreWs (tag [']']) (s ++ d :: r) with
  | ok _ _ => rw [hx] at ht; cases ht
  | _ => rfl

/-- Such a text is not a name in brackets. -/
theorem txt_enc {k : Kserd} {inl : Bool} {t : Str} (hk : TextOk k) (h : Txt inl k t) (rest : Str) (hw : Wordy k → ∃ r, rest = ',' :: r) :
    Enc (t ++ rest) = false := by
  obtain ⟨id, v⟩ := k
  rw [Txt] at h
  have comp : ∀ {sp : Str} {o : Char} {x : Str}, (∀ i, id = some i → NotBool i) → (o = '(' ∨ o = '[' ∨ o = '{') → Blank sp → t = nid sp id ++ o :: x →
      Enc (t ++ rest) = false := by
    intro sp o x hnb ho hs e
    subst e
    have hf : isMultiWs o = false ∧ isAlpha o = false ∧ o ≠ '_' ∧ o ≠ ']' ∧ isInlineWs o = false ∧ isNameChar o = false := by
      rcases ho with rfl | rfl | rfl <;> decide
    cases id with
    | none => exact enc_err _ hf.1 hf.2.1 hf.2.2.1
    | some i =>
      rw [nid, List.append_assoc, List.append_assoc, List.cons_append]
      exact enc_name _ (hk.1 i rfl) hs hf.2.2.2.1 hf.2.2.2.2.1 hf.2.2.2.2.2
  have prm : ∀ {l : Str}, t = pid id ++ l → (id = none → Enc (l ++ rest) = false) → Enc (t ++ rest) = false := by
    intro l e hl
    subst e
    cases id with
    | none => exact hl rfl
    | some i => rw [pid_eq]; exact enc_err _ (by decide) (by decide) (by decide)
  have word : ∀ {w : Str}, ValidName w → Wordy (.mk id v) → Enc (w ++ rest) = false := by
    intro w hv hwd
    obtain ⟨r, rfl⟩ := hw hwd
    exact enc_name (s := []) r hv (.inl rfl) (by decide) (by decide) (by decide)
  cases v with
  | unit => rw [TxtV] at h; subst h; exact enc_err _ (by decide) (by decide) (by decide)
  | bool b =>
    rw [TxtV] at h
    refine prm h fun hid => word ?_ ⟨hid, .inl ⟨b, rfl⟩⟩
    cases b
    · exact validName_of (c := 'f') (r := str "alse") rfl (by decide) (by decide)
    · exact validName_of (c := 't') (r := str "rue") rfl (by decide) (by decide)
  | num n =>
    rw [TxtV] at h
    refine prm h fun hid => ?_
    rcases disp_head n with ⟨c, r, h1, h2⟩ | h1 | h1
    · have := digit_facts h2
      rw [h1]; exact enc_err _ this.1 this.2.1 this.2.2.1
    · rw [h1]; exact word (validName_of (c := 'i') (r := str "nf") rfl (by decide) (by decide)) ⟨hid, .inr ⟨hid, n, rfl, .inl h1⟩⟩
    · rw [h1]; exact word (validName_of (c := 'N') (r := str "aN") rfl (by decide) (by decide)) ⟨hid, .inr ⟨hid, n, rfl, .inr h1⟩⟩
  | str s =>
    rw [TxtV] at h; obtain ⟨l, hl, e⟩ := h
    refine prm e fun hid => ?_
    rcases strLit_quoted hl (hk.2.2 hid) with rfl | ⟨d, hd, rfl, -⟩
    · exact enc_err _ (by decide) (by decide) (by decide)
    · have : str "str" ++ d :: (s ++ [d]) ++ rest = str "str" ++ ([] ++ d :: (s ++ d :: rest)) := by simp
      have f := plain_facts hd
      rw [this]
      exact enc_name _ (validName_of (c := 's') (r := str "tr") rfl (by decide) (by decide)) (.inl rfl) f.2.2.2.1 f.2.2.1 f.1
  | barr b =>
    rw [TxtV] at h
    refine prm h fun hid => ?_
    have : W.barrLit b ++ rest = str "b91" ++ ([] ++ '\'' :: (Base91.encode b ++ '\'' :: rest)) := by simp [W.barrLit]; rfl
    rw [this]
    exact enc_name _ (validName_of (c := 'b') (r := str "91") rfl (by decide) (by decide)) (.inl rfl) (by decide) (by decide) (by decide)
  | tuple l => rw [TxtV] at h; obtain ⟨sp, b, hs, e, -⟩ := h; exact comp hk.2.1 (.inl rfl) hs e
  | seq l => rw [TxtV] at h; obtain ⟨sp, b, hs, e, -⟩ := h; exact comp hk.2 (.inr (.inl rfl)) hs e
  | cntr l => rw [TxtV] at h; obtain ⟨sp, b, hs, e, -⟩ := h; exact comp hk.2.1 (.inl rfl) hs e
  | map l => rw [TxtV] at h; obtain ⟨sp, b, hs, e, -⟩ := h; exact comp hk.2.1 (.inr (.inr rfl)) hs e

/-- The first character of a text. -/
theorem txt_first {k : Kserd} {inl : Bool} {t : Str} (hk : TextOk k) (h : Txt inl k t) :
    ∃ c r, t = c :: r ∧ c ≠ ':' ∧ (c = '[' → k.id = none ∧ ∃ l, k.val = .seq l) := by
  obtain ⟨id, v⟩ := k
  rw [Txt] at h
  have comp : ∀ {sp : Str} {o : Char} {x : Str}, (o = '(' ∨ o = '[' ∨ o = '{') → t = nid sp id ++ o :: x →
      (o = '[' → ∃ l, v = .seq l) → ∃ c r, t = c :: r ∧ c ≠ ':' ∧ (c = '[' → id = none ∧ ∃ l, v = .seq l) := by
    intro sp o x ho e hv
    subst e
    cases id with
    | none => exact ⟨o, x, rfl, by rcases ho with rfl | rfl | rfl <;> decide, fun h => ⟨rfl, hv h⟩⟩
    | some i =>
      obtain ⟨c, r, rfl, -⟩ := name_head (hk.1 i rfl)
      have hc := name_chars (hk.1 _ rfl) c (by simp)
      refine ⟨c, r ++ sp ++ o :: x, by simp [nid], ?_, ?_⟩
      · rintro rfl; exact absurd hc (by decide)
      · rintro rfl; exact absurd hc (by decide)
  have prm : ∀ {l : Str}, t = pid id ++ l → (∃ c r, l = c :: r ∧ c ≠ ':' ∧ c ≠ '[') →
      ∃ c r, t = c :: r ∧ c ≠ ':' ∧ (c = '[' → id = none ∧ ∃ l, v = .seq l) := by
    intro l e hl
    subst e
    cases id with
    | none => obtain ⟨c, r, h1, h2, h3⟩ := hl; exact ⟨c, r, h1, h2, fun h => absurd h h3⟩
    | some i => exact ⟨'<', _, pid_eq i l, by decide, fun h => absurd h (by decide)⟩
  cases v with
  | unit => rw [TxtV] at h; subst h; exact ⟨'(', [')'], rfl, by decide, fun h => absurd h (by decide)⟩
  | bool b => rw [TxtV] at h; exact prm h (by cases b <;> exact ⟨_, _, rfl, by decide⟩)
  | num n =>
    rw [TxtV] at h
    refine prm h ?_
    rcases disp_head n with ⟨c, r, h1, h2⟩ | h1 | h1
    · have := digit_facts h2
      refine ⟨c, r, h1, ?_, this.2.2.2.2.2.1⟩
      rintro rfl
      revert h2; decide
    · exact ⟨'i', str "nf", h1, by decide⟩
    · exact ⟨'N', str "aN", h1, by decide⟩
  | str s =>
    rw [TxtV] at h; obtain ⟨l, hl, e⟩ := h
    obtain ⟨c, r, h1, h2⟩ := strLit_head hl
    exact prm e ⟨c, r, h1, by rcases h2 with rfl | rfl <;> decide⟩
  | barr b => rw [TxtV] at h; exact prm h ⟨'b', '9' :: '1' :: '\'' :: (Base91.encode b ++ ['\'']), by simp [W.barrLit]; rfl, by decide⟩
  | tuple l => rw [TxtV] at h; obtain ⟨sp, b, hs, e, -⟩ := h; exact comp (.inl rfl) e (by simp)
  | seq l => rw [TxtV] at h; obtain ⟨sp, b, hs, e, -⟩ := h; exact comp (.inr (.inl rfl)) e (fun _ => ⟨l, rfl⟩)
  | cntr l => rw [TxtV] at h; obtain ⟨sp, b, hs, e, -⟩ := h; exact comp (.inl rfl) e (by simp)
  | map l => rw [TxtV] at h; obtain ⟨sp, b, hs, e, -⟩ := h; exact comp (.inr (.inr rfl)) e (by simp)

/-- End of the input or of the line. -/
def Eol (rest : Str) : Prop := rest = [] ∨ ∃ x, rest = '\n' :: x

/-- The text of a sequence or map over several lines. -/
def Multi (k : Kserd) (t : Str) : Prop :=
  isSeqMap k.val = true ∧ ∃ sp o x, CId k.id ∧ Blank sp ∧ o ∈ openers ∧ t = nid sp k.id ++ o :: '\n' :: x

/-- The text is followed by the end of the line, or it shows itself where it ends. -/
def Ended (k : Kserd) (t rest : Str) : Prop := Eol rest ∨ Multi k t

theorem multi_rfa {k : Kserd} {t : Str} (h : Multi k t) (rest : Str) : recogniseFieldAssign (t ++ rest) = false := by
  obtain ⟨-, sp, o, x, hid, hs, ho, rfl⟩ := h
  have hm := nid_maybe hs (fun i hi => (hid i hi).1)
  by_cases hmo : isMaybeName o = true
  · have e : nid sp k.id ++ o :: '\n' :: x ++ rest = (nid sp k.id ++ [o]) ++ '\n' :: (x ++ rest) := by simp
    rw [e]
    refine rfa_stop _ ?_ (by decide) (by decide)
    intro c hc
    rcases List.mem_append.mp hc with hc | hc
    · exact hm c hc
    · rw [List.mem_singleton] at hc; rw [hc]; exact hmo
  · have e : nid sp k.id ++ o :: '\n' :: x ++ rest = nid sp k.id ++ o :: ('\n' :: (x ++ rest)) := by simp
    rw [e]
    refine rfa_stop _ hm (by simpa using hmo) ?_
    rintro rfl
    revert ho; decide

theorem notVerbose_rfa {k : Kserd} {inl : Bool} {t : Str} (hk : All TextOk k) (h : Txt inl k t) (hh : (¬ ∃ x, t = '[' :: '\n' :: x) → NoHeading k)
    {rest : Str} (hrfa : recogniseFieldAssign (t ++ rest) = false) : patternVerbose (t ++ rest) = false := by
  have hs := all_self hk
  obtain ⟨c, r, ht, hws, -⟩ := txt_head hs h
  obtain ⟨c', r', ht', hcol, hbr⟩ := txt_first hs h
  obtain ⟨rfl, rfl⟩ : c = c' ∧ r = r' := by rw [ht] at ht'; cases ht'; exact ⟨rfl, rfl⟩
  have hd : (t ++ rest).dropWhile isMultiWs = t ++ rest := by rw [ht, List.cons_append, dropWs _ hws]
  have h0 : startsWith [':'] (t ++ rest) = false := by rw [ht]; exact startsWith_head [] _ hcol
  simp only [patternVerbose, hd, h0, hrfa, Bool.false_or, Bool.or_false]
  by_cases hc : c = '['
  · subst hc
    obtain ⟨hid, l, hv⟩ := hbr rfl
    obtain ⟨id, v⟩ := k
    have hid : id = none := hid
    have hv : v = .seq l := hv
    subst hid; subst hv
    rw [Txt, TxtV] at h
    obtain ⟨sp, b, -, e, hb⟩ := h
    have hall : AllL TextOk l := by rw [All] at hk; rw [AllV] at hk; exact hk.2
    -- what follows the bracket
    have key : (∀ x, b ++ ']' :: rest ≠ '[' :: x) → Enc (b ++ ']' :: rest) = false →
        (startsWith (str "[[") (t ++ rest) || encasedName (t ++ rest)) = false := by
      intro h1 h2
      have et : t ++ rest = '[' :: (b ++ ']' :: rest) := by rw [e]; simp [nid]
      have e1 : startsWith (str "[[") (t ++ rest) = false := by
        rw [← Bool.not_eq_true, startsWith_iff, et]
        rintro ⟨y, hy⟩
        injection hy with _ hy
        exact h1 y hy.symm
      have e2 : encasedName (t ++ rest) = Enc (b ++ ']' :: rest) := by
        rw [et, encasedName, Enc]
        rfl
      rw [e1, e2, h2]; rfl
    rcases hb with hb | ⟨-, hb⟩
    · cases l with
      | nil =>
        rw [TxtI] at hb; subst hb
        exact key (fun x => by simp) (enc_err _ (by decide) (by decide) (by decide))
      | cons y q =>
        rw [TxtI] at hb
        obtain ⟨ty, b', rfl, hty, hb'⟩ := hb
        have hsy := all_self (allL_cons hall).1
        obtain ⟨c1, r1, e1, hw1, -⟩ := txt_head hsy hty
        obtain ⟨c2, r2, e2, -, h2⟩ := txt_first hsy hty
        obtain ⟨rfl, rfl⟩ : c1 = c2 ∧ r1 = r2 := by rw [e1] at e2; cases e2; exact ⟨rfl, rfl⟩
        have hnh := hh (by
          rintro ⟨x, hx⟩
          rw [e, e1] at hx
          simp only [nid, List.nil_append, List.cons_append, List.cons.injEq, true_and] at hx
          rw [hx.1] at hw1; revert hw1; decide) rfl _ rfl
        have e' : [] ++ (ty ++ b') ++ ']' :: rest = ty ++ (b' ++ ']' :: rest) := by simp
        rw [e'] at key
        apply key
        · intro x hx
          rw [e1] at hx
          injection hx with hx _
          exact hnh.1 y q rfl (h2 hx)
        · refine txt_enc hsy hty _ fun hwd => ?_
          cases q with
          | nil => exact absurd hwd (hnh.2 y rfl)
          | cons z q => rw [TxtI] at hb'; obtain ⟨tz, b'', rfl, -⟩ := hb'; exact ⟨_, rfl⟩
    · obtain ⟨x, rfl⟩ := txtC_cons hb
      exact key (fun x => by simp) (by
        obtain ⟨er, he⟩ := validName_err (c := '\n') (x ++ ']' :: rest) (by decide) (by decide)
        simp only [List.cons_append, Enc, terminated, ignoreWs_none _ _ (show isInlineWs '\n' = false by decide), he, PRes.bind, PRes.isOk])
  · have e1 : startsWith (str "[[") (t ++ rest) = false := by rw [ht]; exact startsWith_head ['['] _ hc
    have e2 : encasedName (t ++ rest) = false := by
      rw [ht, List.cons_append, encasedName]
      simp only [preceded, tag_err _ hc, PRes.bind, PRes.isOk]
    rw [e1, e2]; rfl

theorem notVerbose {k : Kserd} {inl : Bool} {t : Str} (hk : All TextOk k) (h : Txt inl k t) (hh : (¬ ∃ x, t = '[' :: '\n' :: x) → NoHeading k)
    {rest : Str} (hr : Ended k t rest) : patternVerbose (t ++ rest) = false := by
  refine notVerbose_rfa hk h hh ?_
  have h1 := txt_rfa k inl t hk h
  rcases hr with (rfl | ⟨x, rfl⟩) | hr
  rotate_left 2
  · exact multi_rfa hr rest
  · rwa [List.append_nil]
  · exact rfa_append h1 (rfa_stop (a := []) x (by simp) (by decide) (by decide))

theorem eol_sep {rest : Str} (h : Eol rest) : Sep rest := by
  rcases h with rfl | ⟨x, rfl⟩
  · intro c r e; cases e
  · exact sep_cons (by decide) x

/-- A whole text without verbose parts reads back. -/
theorem parse_txt {k : Kserd} {inl : Bool} {t : Str} (hk : All TextOk k) (h : Txt inl k t) (hh : (¬ ∃ x, t = '[' :: '\n' :: x) → NoHeading k) :
    parse t = .ok (rereadK k) := by
  obtain ⟨c, r, ht, hws, -⟩ := txt_head (all_self hk) h
  have hv := notVerbose hk h hh (rest := []) (.inl (.inl rfl))
  have hp := txt_rt k inl t hk h (t.length + 1) false [] (by simp) (by simp) (eol_sep (.inl rfl)) (fun _ c r e => by cases e)
  rw [List.append_nil] at hv hp
  have hc : ignoreWs kserdConcise t = .ok [] (rereadK k) := by
    rw [ht, ignoreWs_none _ _ (inline_multi hws), ← ht]; exact hp
  have hn : kserdNested (t.length + 1) 0 t = .ok [] (rereadK k) := by
    rw [kserdNested, if_neg (by rw [hv]; decide), hc]
  have hr : kserdRoot t = .ok [] (rereadK k) := by
    rw [kserdRoot, if_neg (by rw [ht]; simp)]
    simp only [allConsuming, terminated, hn, PRes.bind]
    rfl
  rw [parse, hr]

end KS.RT
