import Verif.Lemmas.RtRead
/-!
# Reading back text without verbose parts: the induction
-/

namespace KS.RT
open KS.Spec KS.P KS.Nom

theorem kd_prim {id : Option Str} (hid : ∀ i, id = some i → ValidName i) {l rest : Str} {v : Value}
    (hpat : id = none → patternDelimited (l ++ rest) = .ok (l ++ rest) .none) (h : primValue (l ++ rest) = .ok rest v)
    (hl : ∃ c r, l = c :: r ∧ isMultiWs c = false ∧ c ≠ '<') (f : Nat) (force : Bool) :
    kserdDelimited (f + 1) force (pid id ++ l ++ rest) = .ok rest (.mk id v) := by
  have hp : patternDelimited (pid id ++ l ++ rest) = .ok (pid id ++ l ++ rest) .none := by
    cases id with
    | none => exact hpat rfl
    | some i => rw [List.append_assoc, pid_eq]; exact pat_prim (hid i rfl) _
  simp only [kserdDelimited, hp, PRes.bind]
  exact prim_ok hid h hl

/-- What follows is a comma or a closing delimiter, perhaps after one blank. -/
theorem follow {c : Char} (hc : c = ',' ∨ c = ':' ∨ c ∈ closers) (x : Str) : Sep (c :: x) ∧ NoOpen (c :: x) := by
  have h : c ∈ seps ∧ isMultiWs c = false ∧ c ≠ '(' ∧ c ≠ '[' ∧ c ≠ '{' := by
    rcases hc with rfl | rfl | hc
    · decide
    · decide
    · revert c; decide
  refine ⟨sep_cons h.1 x, ?_⟩
  intro y r e
  rw [dropWs x h.2.1] at e
  cases e; exact h.2.2

theorem follow_sp {c : Char} (hc : c ∈ closers) (x : Str) : Sep (' ' :: c :: x) ∧ NoOpen (' ' :: c :: x) := by
  have h := closer_facts hc
  refine ⟨sep_cons (by decide) _, ?_⟩
  intro y r e
  have : isMultiWs ' ' = true := by decide
  simp only [List.dropWhile_cons, this, if_true, h.1, Bool.false_eq_true, if_false] at e
  cases e; exact ⟨h.2.1, h.2.2.1, h.2.2.2.1⟩

theorem followI {l : List Kserd} {b : Str} (h : TxtI l (str ", ") b) {c : Char} (hc : c ∈ closers) (rest : Str) :
    Sep (b ++ c :: rest) ∧ NoOpen (b ++ c :: rest) := by
  cases l with
  | nil => rw [TxtI] at h; rw [h]; exact follow (.inr (.inr hc)) rest
  | cons k r => rw [TxtI] at h; obtain ⟨t, b', rfl, -⟩ := h; exact follow (.inl rfl) _

theorem followFI {l : List (Str × Kserd)} {b : Str} (h : TxtFI l (str ", ") b) {c : Char} (hc : c ∈ closers) (rest : Str) :
    Sep (b ++ c :: rest) ∧ NoOpen (b ++ c :: rest) := by
  cases l with
  | nil => rw [TxtFI] at h; rw [h]; exact follow (.inr (.inr hc)) rest
  | cons p r => obtain ⟨n, k⟩ := p; rw [TxtFI] at h; obtain ⟨t, b', rfl, -⟩ := h; exact follow (.inl rfl) _

theorem followMI {l : List (Kserd × Kserd)} {b : Str} (h : TxtMI l (str ", ") [' '] b) {c : Char} (hc : c ∈ closers) (rest : Str) :
    Sep (b ++ c :: rest) ∧ NoOpen (b ++ c :: rest) := by
  cases l with
  | nil => rw [TxtMI] at h; rw [h]; exact follow_sp hc rest
  | cons p r => obtain ⟨n, k⟩ := p; rw [TxtMI] at h; obtain ⟨t, u, b', rfl, -⟩ := h; exact follow (.inl rfl) _

theorem sep_nl {b : Str} (h : ∃ r, b = '\n' :: r) (x : Str) : Sep (b ++ x) := by
  obtain ⟨r, rfl⟩ := h
  exact sep_cons (by decide) _

theorem txtFC_noOpen {l : List (Str × Kserd)} {b : Str} (hn : ∀ p ∈ l, ∀ c ∈ p.1, NameChar c) (h : TxtFC l b)
    (rest : Str) : NoOpen (b ++ ')' :: rest) := by
  cases l with
  | nil =>
    intro x r e
    rw [drop_nl h (by decide)] at e
    cases e; decide
  | cons p r =>
    obtain ⟨n, k⟩ := p
    rw [TxtFC] at h
    obtain ⟨w, t, b', rfl, hw, -⟩ := h
    have hn' := hn (n, k) (by simp)
    intro x y e
    simp only [List.append_assoc] at e
    rw [List.dropWhile_append_of_pos (nl_ws hw)] at e
    obtain ⟨s, hs, hd⟩ := field_drop hn' (t ++ (b' ++ ')' :: rest))
    rw [hd] at e
    cases n with
    | nil =>
      rcases hs with rfl | rfl
      · cases e; decide
      · cases e; decide
    | cons c n =>
      injection e with e _
      subst e
      have hc := (PG.isNameChar_iff c).mpr (hn' c (by simp))
      refine ⟨?_, ?_, ?_⟩ <;> (rintro rfl; exact absurd hc (by decide))

@[simp] theorem len_comma : List.length (str ", ") = 2 := rfl
@[simp] theorem len_colon : List.length (str ": ") = 2 := rfl
@[simp] theorem len_assign : List.length (str " = ") = 3 := rfl

theorem sepLoop_comma {α : Type} {p : Parser α} {x r : Str} {a : α} (h : p (' ' :: x) = .ok r a) (n : Nat) (acc : List α) :
    sepLoop (ignoreWs (Nom.char ',')) p (n + 1) (str ", " ++ x) acc = sepLoop (ignoreWs (Nom.char ',')) p n r (a :: acc) :=
  sepLoop_next (comma_ok x) (by rw [List.length_append, len_comma, List.length_cons]; omega) h n acc

theorem inl_nil {c : Char} (hc : c ∈ closers) (f : Nat) (rest : Str) : inlineList (kserdDelimited (f + 1)) (c :: rest) = .ok (c :: rest) [] :=
  ctx_ok (sep0_nil (ignore_err (inline_multi (closer_facts hc).1) (kd_closer hc f true rest)))

theorem rfa_true {n s : Str} (hn : ∀ c ∈ n, NameChar c) (hs : Blank s) (x : Str) : recogniseFieldAssign (n ++ (s ++ (str "= " ++ x))) = true := by
  rw [rfa_iff]
  refine ⟨' ' :: x, ?_⟩
  have e : n ++ (s ++ (str "= " ++ x)) = (n ++ s) ++ '=' :: ' ' :: x := by simp; rfl
  rw [e]
  refine (takeWhile_all ?_ (by decide) _).2
  intro c hc
  rcases List.mem_append.mp hc with hc | hc
  · exact maybe_of_name ((PG.isNameChar_iff c).mpr (hn c hc))
  · rcases hs with rfl | rfl
    · cases hc
    · simp at hc; subst hc; decide

theorem fields_inline {K : Bool → Parser Kserd} {sp n t X : Str} {v : Kserd} (hsp : Blank sp) (hn : ∀ c ∈ n, NameChar c)
    (ht : ∃ c r, t = c :: r ∧ isMultiWs c = false) (h : K true (t ++ X) = .ok X v) :
    ignoreWs (kvpField K true) (sp ++ (n ++ (str " = " ++ (t ++ X)))) = .ok X (n, v) := by
  obtain ⟨s, hs, hd⟩ := field_drop_inline hn (t ++ X)
  have : ∀ i : Str, (sp ++ i).dropWhile isInlineWs = i.dropWhile isInlineWs := by
    intro i
    rcases hsp with rfl | rfl
    · rfl
    · have : isInlineWs ' ' = true := by decide
      simp [this]
  simp only [ignoreWs, opt, inlineWs, takeWhile, PRes.bind, this, hd]
  exact kvp_ok hn hs ht h

mutual
theorem txt_rtG : ∀ (k : Kserd) (inl : Bool) (t : Str), All TextOk k → Txt inl k t → ∀ (f : Nat) (force : Bool) (rest : Str),
    (force = true → inl = true) → (t ++ rest).length < f → (∀ n, k.val = .num n → Sep rest) → (Bare k → NoOpen rest) →
    kserdDelimited f force (t ++ rest) = .ok rest (rereadK k)
  | .mk id v, inl, t, hk, h, 0, force, rest, hf, hlen, hsep, hbare => by omega
  | .mk id v, inl, t, hk, h, f + 1, force, rest, hf, hlen, hsep, hbare => by
    have hs := all_self hk
    rw [All] at hk
    replace hk := hk.2
    rw [Txt] at h
    rw [rereadK]
    cases v with
    | unit =>
      rw [TxtV] at h
      have hid : id = none := hs.2
      subst hid; subst h
      exact kd_prim hs.1 (fun _ => pat_unit rest) (primValue_unit rest) ⟨'(', [')'], rfl, by decide⟩ f force
    | bool b =>
      rw [TxtV] at h; subst h
      exact kd_prim hs.1 (fun _ => pat_bool b rest) (primValue_bool b rest) (by cases b <;> exact ⟨_, _, rfl, by decide⟩) f force
    | num n =>
      rw [TxtV] at h; subst h
      obtain ⟨c, r, hd, hc⟩ := disp_facts n
      have hsep := hsep n rfl
      exact kd_prim hs.1 (fun hid => pat_num hsep fun hb => hbare ⟨hid, n, rfl, hb⟩) (primValue_num hs.2 (sep_num hsep))
        ⟨c, r, hd, hc.1, hc.2.1⟩ f force
    | str s =>
      rw [TxtV] at h; obtain ⟨l, hl, rfl⟩ := h
      refine kd_prim hs.1 (fun hid => pat_str hl (hs.2.2 hid) rest) (primValue_str hl rest) ?_ f force
      obtain ⟨c, r, h1, h2⟩ := strLit_head hl
      exact ⟨c, r, h1, by rcases h2 with rfl | rfl <;> decide⟩
    | barr b =>
      rw [TxtV] at h; subst h
      exact kd_prim hs.1 (fun _ => pat_barr b rest) (primValue_barr b rest)
        ⟨'b', '9' :: '1' :: '\'' :: (Base91.encode b ++ ['\'']), by simp [W.barrLit]; rfl, by decide⟩ f force
    | tuple l =>
      rw [TxtV] at h; obtain ⟨sp, b, hb, rfl, hd⟩ := h
      rw [AllV] at hk
      have hid : CId id := fun i hi => ⟨hs.1 i hi, hs.2.1 i hi⟩
      have e : nid sp id ++ '(' :: (b ++ [')']) ++ rest = nid sp id ++ '(' :: (b ++ ')' :: rest) := by simp
      have hl' : (b ++ ')' :: rest).length < f := by rw [e] at hlen; simp at hlen ⊢; omega
      have hnu : NotUnit id (b ++ ')' :: rest) := by
        intro hi c r hx
        rcases hd with hd | ⟨-, hd⟩
        · cases l with
          | nil => exact absurd rfl (hs.2.2 hi)
          | cons k r' =>
            rw [TxtI] at hd
            obtain ⟨t, b', rfl, ht, -⟩ := hd
            obtain ⟨c', r'', rfl, h1, -⟩ := txt_head (all_self (allL_cons hk).1) ht
            have hne := txt_notclose (all_self (allL_cons hk).1) ht
            simp [inline_multi h1] at hx
            rw [← hx.1]; intro h; exact hne _ _ rfl (by rw [h]; decide)
        · obtain ⟨x, rfl⟩ := txtC_cons hd
          have : isInlineWs '\n' = false := by decide
          simp [this] at hx
          rw [← hx.1]; decide
      have hrfa : recogniseFieldAssign ((b ++ ')' :: rest).dropWhile isMultiWs) = false := by
        have hcl : ∀ x, recogniseFieldAssign (')' :: x) = false := fun x => rfa_stop (a := []) x (by simp) (by decide) (by decide)
        rcases hd with hd | ⟨-, hd⟩
        · have h1 := rfa_append (txtI_rfa l [] b hk rfl hd) (hcl rest)
          cases l with
          | nil => rw [TxtI] at hd; subst hd; exact hcl rest
          | cons k r' =>
            rw [TxtI] at hd
            obtain ⟨t, b', rfl, ht, -⟩ := hd
            obtain ⟨c', r'', rfl, h2, -⟩ := txt_head (all_self (allL_cons hk).1) ht
            simp only [List.nil_append, List.cons_append] at h1 ⊢
            rw [dropWs _ h2]; exact h1
        · cases l with
          | nil => rw [drop_nl hd (by decide)]; exact hcl rest
          | cons k r' =>
            rw [TxtC] at hd
            obtain ⟨w, t, b', rfl, hw, ht, hb', -⟩ := hd
            have h3 := txt_rfa k false t (allL_cons hk).1 ht
            obtain ⟨c', r'', rfl, h2, -⟩ := txt_head (all_self (allL_cons hk).1) ht
            obtain ⟨x, rfl⟩ := txtC_cons hb'
            simp only [List.append_assoc, List.cons_append]
            rw [drop_nl hw h2, ← List.cons_append]
            exact rfa_append h3 (rfa_stop (a := []) _ (by simp) (by decide) (by decide))
      rw [e]
      simp only [kserdDelimited, comp_pat hid hb (o := '(') (by decide) _, PRes.bind, next_paren hnu, hrfa, Bool.false_eq_true, if_false]
      rw [tuple, opened_eq hid hb (by decide)]
      rw [rereadV]
      rcases hd with hd | ⟨hi, hd⟩
      · have hrc : recogniseConcise (b ++ ')' :: rest) = false := txtI_concise hk hd (by decide) rest
        have hin := inl_rt l b hk hd f ')' rest (by decide) hl'
        simp only [hrc, Bool.false_and, Bool.false_eq_true, if_false]
        rw [ctx_ok (cut_ok (show terminated _ _ _ = .ok rest (rereadL l) by simp only [terminated, hin, PRes.bind, close_ok (c := ')') (by decide)]))]
        exact ctor_ok hs.1 _ rest
      · have hfo : force = false := by
          cases force with
          | false => rfl
          | true => rw [hf rfl] at hi; cases hi
        have hin := conc_rt l b hk hd f ')' rest (by decide) hl'
        have hrc : recogniseConcise (b ++ ')' :: rest) = true := by obtain ⟨x, rfl⟩ := txtC_cons hd; rfl
        simp only [hrc, hfo, Bool.not_false, Bool.and_self, if_true]
        rw [ctx_ok (cut_ok (show terminated _ _ _ = .ok rest (rereadL l) by simp only [terminated, hin, PRes.bind, close_ok (c := ')') (by decide)]))]
        exact ctor_ok hs.1 _ rest
    | seq l =>
      rw [TxtV] at h; obtain ⟨sp, b, hb, rfl, hd⟩ := h
      rw [AllV] at hk
      have hid : CId id := fun i hi => ⟨hs.1 i hi, hs.2 i hi⟩
      have e : nid sp id ++ '[' :: (b ++ [']']) ++ rest = nid sp id ++ '[' :: (b ++ ']' :: rest) := by simp
      have hl' : (b ++ ']' :: rest).length < f := by rw [e] at hlen; simp at hlen ⊢; omega
      rw [e]
      simp only [kserdDelimited, comp_pat hid hb (o := '[') (by decide) _, PRes.bind, next_seq]
      rw [seqDelimited, opened_eq hid hb (by decide)]
      rw [rereadV]
      rcases hd with hd | ⟨hi, hd⟩
      · have hrc : recogniseConcise (b ++ ']' :: rest) = false := txtI_concise hk hd (by decide) rest
        have hin := inl_rt l b hk hd f ']' rest (by decide) hl'
        simp only [hrc, Bool.false_and, Bool.false_eq_true, if_false]
        rw [ctx_ok (cut_ok (show terminated _ _ _ = .ok rest (rereadL l) by simp only [terminated, hin, PRes.bind, close_ok (c := ']') (by decide)]))]
        exact ctor_ok hs.1 _ rest
      · have hfo : force = false := by
          cases force with
          | false => rfl
          | true => rw [hf rfl] at hi; cases hi
        have hin := conc_rt l b hk hd f ']' rest (by decide) hl'
        have hrc : recogniseConcise (b ++ ']' :: rest) = true := by obtain ⟨x, rfl⟩ := txtC_cons hd; rfl
        simp only [hrc, hfo, Bool.not_false, Bool.and_self, if_true]
        rw [ctx_ok (cut_ok (show terminated _ _ _ = .ok rest (rereadL l) by simp only [terminated, hin, PRes.bind, close_ok (c := ']') (by decide)]))]
        exact ctor_ok hs.1 _ rest
    | cntr l =>
      rw [TxtV] at h; obtain ⟨sp, b, hb, rfl, hd⟩ := h
      rw [AllV] at hk
      have hid : CId id := fun i hi => ⟨hs.1 i hi, hs.2.1 i hi⟩
      have e : nid sp id ++ '(' :: (b ++ [')']) ++ rest = nid sp id ++ '(' :: (b ++ ')' :: rest) := by simp
      have hl' : (b ++ ')' :: rest).length < f := by rw [e] at hlen; simp at hlen ⊢; omega
      rw [e]
      cases l with
      | nil =>
        have hb0 : b = [] := by
          rcases hd with hd | ⟨-, hd, -⟩
          · rwa [TxtFI] at hd
          · exact absurd rfl hd
        subst hb0
        have hidn : id ≠ none := fun h => hs.2.2.1 h rfl
        have hnu : NotUnit id ([] ++ ')' :: rest) := fun h => absurd h hidn
        have hrfa : recogniseFieldAssign (([] ++ ')' :: rest).dropWhile isMultiWs) = false :=
          rfa_stop (a := []) rest (by simp) (by decide) (by decide)
        simp only [kserdDelimited, comp_pat hid hb (o := '(') (by decide) _, PRes.bind, next_paren hnu, hrfa, Bool.false_eq_true, if_false]
        rw [tuple, opened_eq hid hb (by decide)]
        have hrc : recogniseConcise ([] ++ ')' :: rest) = false := rfl
        cases f with
        | zero => omega
        | succ f =>
          have hin := inl_nil (c := ')') (by decide) f rest
          simp only [hrc, Bool.false_and, Bool.false_eq_true, if_false]
          rw [ctx_ok (cut_ok (show terminated _ _ _ = .ok rest [] by simp only [terminated, List.nil_append, hin, PRes.bind, close_ok (c := ')') (by decide)]))]
          exact ctor_ok hs.1 _ rest
      | cons p r =>
        obtain ⟨n, k⟩ := p
        have hn := hs.2.2.2.1
        have hn1 : ∀ c ∈ n, NameChar c := hn (n, k) (by simp)
        have hfirst : ∃ X, (∃ w, IsNl w ∧ b ++ ')' :: rest = w ++ (n ++ (str " = " ++ X)) ∧ TxtFC ((n, k) :: r) b ∧ inl = false) ∨
            (b ++ ')' :: rest = n ++ (str " = " ++ X) ∧ TxtFI ((n, k) :: r) [] b) := by
          rcases hd with hd | ⟨hi, -, hd⟩
          · have hd' := hd
            rw [TxtFI] at hd; obtain ⟨t, b', rfl, -⟩ := hd
            exact ⟨t ++ (b' ++ ')' :: rest), .inr ⟨by simp, hd'⟩⟩
          · have hd' := hd
            rw [TxtFC] at hd; obtain ⟨w, t, b', rfl, hw, -⟩ := hd
            exact ⟨t ++ (b' ++ ')' :: rest), .inl ⟨w, hw, by simp, hd', hi⟩⟩
        obtain ⟨X, hX⟩ := hfirst
        have hnu : NotUnit id (b ++ ')' :: rest) := by
          intro _ c x hx
          rcases hX with ⟨w, hw, eX, -⟩ | ⟨eX, -⟩
          · obtain ⟨w', rfl⟩ := nl_cons hw
            rw [eX] at hx
            have : isInlineWs '\n' = false := by decide
            simp [this] at hx
            rw [← hx.1]; decide
          · obtain ⟨s, hsb, hdr⟩ := field_drop_inline hn1 X
            rw [eX, hdr] at hx
            cases n with
            | nil =>
              rcases hsb with rfl | rfl
              · cases hx; decide
              · cases hx; decide
            | cons c' n' =>
              injection hx with hx _
              subst hx
              rintro rfl
              exact absurd ((PG.isNameChar_iff _).mpr (hn1 ')' (by simp))) (by decide)
        have hrfa : recogniseFieldAssign ((b ++ ')' :: rest).dropWhile isMultiWs) = true := by
          obtain ⟨s, hsb, hdr⟩ := field_drop hn1 X
          rcases hX with ⟨w, hw, eX, -⟩ | ⟨eX, -⟩
          · rw [eX, List.dropWhile_append_of_pos (nl_ws hw), hdr]; exact rfa_true hn1 hsb X
          · rw [eX, hdr]; exact rfa_true hn1 hsb X
        simp only [kserdDelimited, comp_pat hid hb (o := '(') (by decide) _, PRes.bind, next_paren hnu, hrfa, if_true]
        rw [cntrDelimited, opened_eq hid hb (by decide)]
        have hval : rereadV (.cntr ((n, k) :: r)) = .cntr (rereadF ((n, k) :: r)) := by rw [rereadV]; rfl
        rw [hval]
        rcases hX with ⟨w, hw, eX, hd, hi⟩ | ⟨eX, hd⟩
        · have hfo : force = false := by
            cases force with
            | false => rfl
            | true => rw [hf rfl] at hi; cases hi
          have hin := fconc_rt ((n, k) :: r) b hk hn hd f rest hl'
          have hrc : recogniseConcise (b ++ ')' :: rest) = true := by obtain ⟨x, rfl⟩ := txtFC_cons hd; rfl
          simp only [hrc, hfo, Bool.not_false, Bool.and_self, if_true]
          rw [ctx_ok (show terminated _ _ _ = .ok rest (rereadF ((n, k) :: r)) by simp only [terminated, hin, PRes.bind, close_ok (c := ')') (by decide)])]
          simp only [PRes.bind, fields_asc hs.2.2.2.2]
          exact ctor_ok hs.1 _ rest
        · have hin := finl_rt ((n, k) :: r) b hk hn hd f rest hl'
          have hrc : recogniseConcise (b ++ ')' :: rest) = false := by
            rw [eX]
            cases n with
            | nil =>
              show recogniseConcise (' ' :: '=' :: _) = false
              rw [concise_sp]; exact concise_head (by decide) _
            | cons c' n' =>
              refine concise_head ?_ _
              have hc := (PG.isNameChar_iff c').mpr (hn1 c' (by simp))
              rw [isMultiWs, ← Bool.not_eq_true, List.contains_iff_mem]
              intro hm
              have : ∀ x ∈ str " \t\r\n", isNameChar x = false := by decide
              rw [this c' hm] at hc; cases hc
          simp only [hrc, Bool.false_and, Bool.false_eq_true, if_false]
          rw [ctx_ok (show terminated _ _ _ = .ok rest (rereadF ((n, k) :: r)) by simp only [terminated, hin, PRes.bind, close_ok (c := ')') (by decide)])]
          simp only [PRes.bind, fields_asc hs.2.2.2.2]
          exact ctor_ok hs.1 _ rest
    | map m =>
      rw [TxtV] at h; obtain ⟨sp, b, hb, rfl, hd⟩ := h
      rw [AllV] at hk
      have hid : CId id := fun i hi => ⟨hs.1 i hi, hs.2.1 i hi⟩
      have e : nid sp id ++ '{' :: (b ++ ['}']) ++ rest = nid sp id ++ '{' :: (b ++ '}' :: rest) := by simp
      have hl' : (b ++ '}' :: rest).length < f := by rw [e] at hlen; simp at hlen ⊢; omega
      rw [e]
      simp only [kserdDelimited, comp_pat hid hb (o := '{') (by decide) _, PRes.bind, next_map]
      rw [mapDelimited, opened_eq hid hb (by decide)]
      rw [rereadV]
      have hasc := fromIter_asc cmp_swap (rereadM m) hs.2.2
      rcases hd with hd | ⟨hi, hd⟩
      · have hrc : recogniseConcise (b ++ '}' :: rest) = false := txtMI_concise hk hd rest
        obtain ⟨tail, htail, hin⟩ := minl_rt m b hk hd f rest hl'
        simp only [hrc, Bool.false_and, Bool.false_eq_true, if_false]
        rw [ctx_ok (show terminated _ _ _ = .ok rest (rereadM m) by
          simp only [terminated, hin, PRes.bind]
          rcases htail with rfl | rfl
          · rw [List.nil_append, close_ok (c := '}') (by decide)]
          · rw [List.singleton_append, close_ok_sp (c := '}') (by decide)])]
        simp only [PRes.bind, hasc]
        exact ctor_ok hs.1 _ rest
      · have hfo : force = false := by
          cases force with
          | false => rfl
          | true => rw [hf rfl] at hi; cases hi
        have hin := mconc_rt m b hk hd f rest hl'
        have hrc : recogniseConcise (b ++ '}' :: rest) = true := by obtain ⟨x, rfl⟩ := txtMC_cons hd; rfl
        simp only [hrc, hfo, Bool.not_false, Bool.and_self, if_true]
        rw [ctx_ok (show terminated _ _ _ = .ok rest (rereadM m) by simp only [terminated, hin, PRes.bind, close_ok (c := '}') (by decide)])]
        simp only [PRes.bind, hasc]
        exact ctor_ok hs.1 _ rest
termination_by structural a => a
theorem inl_rt : ∀ (l : List Kserd) (b : Str), AllL TextOk l → TxtI l [] b → ∀ (f : Nat) (c : Char) (rest : Str), c ∈ closers →
    (b ++ c :: rest).length < f → inlineList (kserdDelimited f) (b ++ c :: rest) = .ok (c :: rest) (rereadL l)
  | [], b, hl, h, f, c, rest, hc, hlen => by
    rw [TxtI] at h; subst h
    cases f with
    | zero => omega
    | succ f =>
      exact ctx_ok (sep0_nil (ignore_err (inline_multi (closer_facts hc).1) (kd_closer hc f true rest)))
  | k :: r, b, hl, h, f, c, rest, hc, hlen => by
    rw [TxtI] at h
    obtain ⟨t, b', rfl, ht, hb⟩ := h
    have ha := allL_cons hl
    have hfo := followI hb hc rest
    have e : [] ++ (t ++ b') ++ c :: rest = t ++ (b' ++ c :: rest) := by simp
    rw [e] at hlen ⊢
    have h1 := txt_rtG k true t ha.1 ht f true (b' ++ c :: rest) (fun _ => rfl) hlen (fun _ _ => hfo.1) (fun _ => hfo.2)
    have h2 := tail_rt r b' ha.2 hb f ((b' ++ c :: rest).length + 1) c rest [rereadK k] hc (by simp at hlen ⊢; omega) (by omega)
    apply ctx_ok
    rw [sep0_cons (r := b' ++ c :: rest) (a := rereadK k) (by
      obtain ⟨c', r', rfl, h2, -⟩ := txt_head (all_self ha.1) ht
      rw [List.cons_append, ignoreWs_none _ _ (inline_multi h2)]; exact h1), h2, rereadL]
    rfl
termination_by structural a => a
theorem tail_rt : ∀ (l : List Kserd) (b : Str), AllL TextOk l → TxtI l (str ", ") b → ∀ (f n : Nat) (c : Char) (rest : Str) (acc : List Kserd), c ∈ closers →
    (b ++ c :: rest).length < f → (b ++ c :: rest).length < n →
    sepLoop (ignoreWs (Nom.char ',')) (ignoreWs (kserdDelimited f true)) n (b ++ c :: rest) acc = .ok (c :: rest) (acc.reverse ++ rereadL l)
  | [], b, hl, h, f, 0, c, rest, acc, hc, hlen, hn => by omega
  | _ :: _, b, hl, h, f, 0, c, rest, acc, hc, hlen, hn => by omega
  | [], b, hl, h, f, n + 1, c, rest, acc, hc, hlen, hn => by
    rw [TxtI] at h; subst h
    rw [rereadL, List.append_nil]
    exact sepLoop_stop (comma_err hc rest) n acc
  | k :: r, b, hl, h, f, n + 1, c, rest, acc, hc, hlen, hn => by
    rw [TxtI] at h
    obtain ⟨t, b', rfl, ht, hb⟩ := h
    have ha := allL_cons hl
    have hfo := followI hb hc rest
    have e : str ", " ++ (t ++ b') ++ c :: rest = str ", " ++ (t ++ (b' ++ c :: rest)) := by simp
    rw [e] at hlen hn ⊢
    have hl2 : (t ++ (b' ++ c :: rest)).length + 2 = (str ", " ++ (t ++ (b' ++ c :: rest))).length := by simp; omega
    have h1 := txt_rtG k true t ha.1 ht f true (b' ++ c :: rest) (fun _ => rfl) (by omega) (fun _ _ => hfo.1) (fun _ => hfo.2)
    have h2 := tail_rt r b' ha.2 hb f n c rest (rereadK k :: acc) hc (by simp at hlen ⊢; omega) (by simp at hn ⊢; omega)
    rw [sepLoop_comma (r := b' ++ c :: rest) (a := rereadK k) (by
      obtain ⟨c', r', rfl, h2, -⟩ := txt_head (all_self ha.1) ht
      rw [List.cons_append, ignoreWs_one _ _ (inline_multi h2)]; exact h1), h2, rereadL]
    simp
termination_by structural a => a
theorem conc_rt : ∀ (l : List Kserd) (b : Str), AllL TextOk l → TxtC l b → ∀ (f : Nat) (c : Char) (rest : Str), c ∈ closers →
    (b ++ c :: rest).length < f → conciseList (kserdDelimited f) (b ++ c :: rest) = .ok (c :: rest) (rereadL l)
  | [], b, hl, h, f, c, rest, hc, hlen => by
    rw [TxtC] at h
    cases f with
    | zero => omega
    | succ f =>
      have hw := (closer_facts hc).1
      simp only [conciseList, preceded, multiWs_nl h hw, PRes.bind, cut, terminated,
        sep0_nil (sep := multiWs) (kd_closer hc f false rest), multiWs_none hw]
      rfl
  | k :: r, b, hl, h, f, c, rest, hc, hlen => by
    rw [TxtC] at h
    obtain ⟨w, t, b', rfl, hw, ht, hb, hbare⟩ := h
    have ha := allL_cons hl
    have e : w ++ (t ++ b') ++ c :: rest = w ++ (t ++ (b' ++ c :: rest)) := by simp
    rw [e] at hlen ⊢
    have h1 := txt_rtG k false t ha.1 ht f false (b' ++ c :: rest) (by simp) (by simp at hlen ⊢; omega) (fun _ _ => sep_nl (txtC_cons hb) _)
      (fun hB => txtC_noOpen ha.2 hb (hbare hB) hc rest)
    obtain ⟨w', hw', h2⟩ := ctail_rt r b' ha.2 hb f ((b' ++ c :: rest).length + 1) c rest [rereadK k] hc (by simp at hlen ⊢; omega) (by omega)
    have hws := (closer_facts hc).1
    have hm : multiWs (w ++ (t ++ (b' ++ c :: rest))) = .ok (t ++ (b' ++ c :: rest)) w := by
      obtain ⟨c', r', rfl, h2, -⟩ := txt_head (all_self ha.1) ht
      exact multiWs_nl hw h2 _
    simp only [conciseList, preceded, hm, PRes.bind, cut, terminated, sep0_cons (sep := multiWs) h1, h2, multiWs_nl hw' hws]
    rw [rereadL]; rfl
termination_by structural a => a
theorem ctail_rt : ∀ (l : List Kserd) (b : Str), AllL TextOk l → TxtC l b → ∀ (f n : Nat) (c : Char) (rest : Str) (acc : List Kserd), c ∈ closers →
    (b ++ c :: rest).length < f → (b ++ c :: rest).length < n →
    ∃ w, IsNl w ∧ sepLoop multiWs (kserdDelimited f false) n (b ++ c :: rest) acc = .ok (w ++ c :: rest) (acc.reverse ++ rereadL l)
  | [], b, hl, h, f, 0, c, rest, acc, hc, hlen, hn => by omega
  | _ :: _, b, hl, h, f, 0, c, rest, acc, hc, hlen, hn => by omega
  | [], b, hl, h, f, n + 1, c, rest, acc, hc, hlen, hn => by
    rw [TxtC] at h
    cases f with
    | zero => omega
    | succ f =>
      refine ⟨b, h, ?_⟩
      have hp := nl_pos h
      rw [rereadL, List.append_nil]
      exact sepLoop_stop2 (multiWs_nl h (closer_facts hc).1 rest) (by simp; exact List.ne_nil_of_length_pos hp) (kd_closer hc f false rest) n acc
  | k :: r, b, hl, h, f, n + 1, c, rest, acc, hc, hlen, hn => by
    rw [TxtC] at h
    obtain ⟨w, t, b', rfl, hw, ht, hb, hbare⟩ := h
    have ha := allL_cons hl
    have hp := nl_pos hw
    have e : w ++ (t ++ b') ++ c :: rest = w ++ (t ++ (b' ++ c :: rest)) := by simp
    rw [e] at hlen hn ⊢
    have h1 := txt_rtG k false t ha.1 ht f false (b' ++ c :: rest) (by simp) (by simp at hlen ⊢; omega) (fun _ _ => sep_nl (txtC_cons hb) _)
      (fun hB => txtC_noOpen ha.2 hb (hbare hB) hc rest)
    obtain ⟨w', hw', h2⟩ := ctail_rt r b' ha.2 hb f n c rest (rereadK k :: acc) hc (by simp at hlen ⊢; omega) (by simp at hn ⊢; omega)
    have hm : multiWs (w ++ (t ++ (b' ++ c :: rest))) = .ok (t ++ (b' ++ c :: rest)) w := by
      obtain ⟨c', r', rfl, h2, -⟩ := txt_head (all_self ha.1) ht
      exact multiWs_nl hw h2 _
    refine ⟨w', hw', ?_⟩
    rw [sepLoop_next hm (by simp; exact List.ne_nil_of_length_pos hp) h1, h2, rereadL]
    simp
termination_by structural a => a
theorem finl_rt : ∀ (l : List (Str × Kserd)) (b : Str), AllF TextOk l → (∀ p ∈ l, ∀ c ∈ p.1, NameChar c) → TxtFI l [] b → ∀ (f : Nat) (rest : Str),
    (b ++ ')' :: rest).length < f → inlineCntr (kserdDelimited f) (b ++ ')' :: rest) = .ok (')' :: rest) (rereadF l)
  | [], b, hl, hn, h, f, rest, hlen => by
    rw [TxtFI] at h; subst h
    exact ctx_ok (sep0_nil (ignore_err (by decide) (kvp_end rest)))
  | (n, k) :: r, b, hl, hn, h, f, rest, hlen => by
    rw [TxtFI] at h
    obtain ⟨t, b', rfl, ht, hb⟩ := h
    have ha := allF_cons hl
    have hfo := followFI hb (c := ')') (by decide) rest
    have e : [] ++ (n ++ (str " = " ++ (t ++ b'))) ++ ')' :: rest = [] ++ (n ++ (str " = " ++ (t ++ (b' ++ ')' :: rest)))) := by simp
    rw [e] at hlen ⊢
    have h1 := txt_rtG k true t ha.1 ht f true (b' ++ ')' :: rest) (fun _ => rfl) (by simp at hlen ⊢; omega) (fun _ _ => hfo.1) (fun _ => hfo.2)
    have h2 := ftail_rt r b' ha.2 (fun p hp => hn p (by simp [hp])) hb f ((b' ++ ')' :: rest).length + 1) rest [(n, rereadK k)]
      (by simp at hlen ⊢; omega) (by omega)
    obtain ⟨c', r', hd, hw, -⟩ := txt_head (all_self ha.1) ht
    apply ctx_ok
    rw [sep0_cons (fields_inline (.inl rfl) (hn (n, k) (by simp)) ⟨c', r', hd, hw⟩ h1), h2, rereadF]
    rfl
termination_by structural a => a
theorem ftail_rt : ∀ (l : List (Str × Kserd)) (b : Str), AllF TextOk l → (∀ p ∈ l, ∀ c ∈ p.1, NameChar c) → TxtFI l (str ", ") b →
    ∀ (f n : Nat) (rest : Str) (acc : List (Str × Kserd)),
    (b ++ ')' :: rest).length < f → (b ++ ')' :: rest).length < n →
    sepLoop (ignoreWs (Nom.char ',')) (ignoreWs (kvpField (kserdDelimited f) true)) n (b ++ ')' :: rest) acc = .ok (')' :: rest) (acc.reverse ++ rereadF l)
  | [], b, hl, hn, h, f, 0, rest, acc, hlen, hm => by omega
  | _ :: _, b, hl, hn, h, f, 0, rest, acc, hlen, hm => by omega
  | [], b, hl, hn, h, f, m + 1, rest, acc, hlen, hm => by
    rw [TxtFI] at h; subst h
    rw [rereadF, List.append_nil]
    exact sepLoop_stop (comma_err (by decide) rest) m acc
  | (n, k) :: r, b, hl, hn, h, f, m + 1, rest, acc, hlen, hm => by
    rw [TxtFI] at h
    obtain ⟨t, b', rfl, ht, hb⟩ := h
    have ha := allF_cons hl
    have hfo := followFI hb (c := ')') (by decide) rest
    have e : str ", " ++ (n ++ (str " = " ++ (t ++ b'))) ++ ')' :: rest = str ", " ++ (n ++ (str " = " ++ (t ++ (b' ++ ')' :: rest)))) := by simp
    rw [e] at hlen hm ⊢
    have h1 := txt_rtG k true t ha.1 ht f true (b' ++ ')' :: rest) (fun _ => rfl) (by simp at hlen ⊢; omega) (fun _ _ => hfo.1) (fun _ => hfo.2)
    have h2 := ftail_rt r b' ha.2 (fun p hp => hn p (by simp [hp])) hb f m rest ((n, rereadK k) :: acc) (by simp at hlen ⊢; omega) (by simp at hm ⊢; omega)
    obtain ⟨c', r', hd, hw, -⟩ := txt_head (all_self ha.1) ht
    have h3 := fields_inline (K := kserdDelimited f) (sp := [' ']) (.inr rfl) (hn (n, k) (by simp)) ⟨c', r', hd, hw⟩ h1
    rw [sepLoop_comma (x := n ++ (str " = " ++ (t ++ (b' ++ ')' :: rest)))) h3, h2, rereadF]
    simp
termination_by structural a => a
theorem fconc_rt : ∀ (l : List (Str × Kserd)) (b : Str), AllF TextOk l → (∀ p ∈ l, ∀ c ∈ p.1, NameChar c) → TxtFC l b → ∀ (f : Nat) (rest : Str),
    (b ++ ')' :: rest).length < f → conciseCntr (kserdDelimited f) (b ++ ')' :: rest) = .ok (')' :: rest) (rereadF l)
  | [], b, hl, hn, h, f, rest, hlen => by
    rw [TxtFC] at h
    apply ctx_ok
    simp only [preceded, multiWs_nl h (c := ')') (by decide), PRes.bind, cut, terminated,
      sep0_nil (sep := multiWs) (kvp_end rest), multiWs_none (c := ')') (by decide)]
    rfl
  | (n, k) :: r, b, hl, hn, h, f, rest, hlen => by
    rw [TxtFC] at h
    obtain ⟨w, t, b', rfl, hw, ht, hb⟩ := h
    have ha := allF_cons hl
    have hnr : ∀ p ∈ r, ∀ c ∈ p.1, NameChar c := fun p hp => hn p (by simp [hp])
    have e : w ++ (n ++ (str " = " ++ (t ++ b'))) ++ ')' :: rest = w ++ (n ++ (str " = " ++ (t ++ (b' ++ ')' :: rest)))) := by simp
    rw [e] at hlen ⊢
    have h1 := txt_rtG k false t ha.1 ht f false (b' ++ ')' :: rest) (by simp) (by simp at hlen ⊢; omega) (fun _ _ => sep_nl (txtFC_cons hb) _)
      (fun _ => txtFC_noOpen hnr hb rest)
    obtain ⟨w', hw', h2⟩ := fctail_rt r b' ha.2 hnr hb f ((b' ++ ')' :: rest).length + 1) rest [(n, rereadK k)] (by simp at hlen ⊢; omega) (by omega)
    obtain ⟨s, hs, hd⟩ := field_drop (hn (n, k) (by simp)) (t ++ (b' ++ ')' :: rest))
    obtain ⟨c', r', hd', hws, -⟩ := txt_head (all_self ha.1) ht
    have h3 := kvp_ok (K := kserdDelimited f) (hn (n, k) (by simp)) hs ⟨c', r', hd', hws⟩ h1
    have hm : ∃ u, multiWs (w ++ (n ++ (str " = " ++ (t ++ (b' ++ ')' :: rest))))) = .ok (n ++ (s ++ (str "= " ++ (t ++ (b' ++ ')' :: rest))))) u := by
      refine ⟨List.takeWhile isMultiWs (w ++ (n ++ (str " = " ++ (t ++ (b' ++ ')' :: rest))))), ?_⟩
      rw [multiWs, takeWhile, List.dropWhile_append_of_pos (nl_ws hw), hd]
    obtain ⟨u, hm⟩ := hm
    apply ctx_ok
    simp only [preceded, hm, PRes.bind, cut, terminated, sep0_cons (sep := multiWs) h3, h2, multiWs_nl hw' (c := ')') (by decide)]
    rw [rereadF]; rfl
termination_by structural a => a
theorem fctail_rt : ∀ (l : List (Str × Kserd)) (b : Str), AllF TextOk l → (∀ p ∈ l, ∀ c ∈ p.1, NameChar c) → TxtFC l b →
    ∀ (f n : Nat) (rest : Str) (acc : List (Str × Kserd)),
    (b ++ ')' :: rest).length < f → (b ++ ')' :: rest).length < n →
    ∃ w, IsNl w ∧ sepLoop multiWs (kvpField (kserdDelimited f) false) n (b ++ ')' :: rest) acc = .ok (w ++ ')' :: rest) (acc.reverse ++ rereadF l)
  | [], b, hl, hn, h, f, 0, rest, acc, hlen, hm => by omega
  | _ :: _, b, hl, hn, h, f, 0, rest, acc, hlen, hm => by omega
  | [], b, hl, hn, h, f, m + 1, rest, acc, hlen, hm => by
    rw [TxtFC] at h
    refine ⟨b, h, ?_⟩
    have hp := nl_pos h
    rw [rereadF, List.append_nil]
    exact sepLoop_stop2 (multiWs_nl h (by decide) rest) (by simp; exact List.ne_nil_of_length_pos hp) (kvp_end rest) m acc
  | (n, k) :: r, b, hl, hn, h, f, m + 1, rest, acc, hlen, hm => by
    rw [TxtFC] at h
    obtain ⟨w, t, b', rfl, hw, ht, hb⟩ := h
    have ha := allF_cons hl
    have hp := nl_pos hw
    have hnr : ∀ p ∈ r, ∀ c ∈ p.1, NameChar c := fun p hp => hn p (by simp [hp])
    have e : w ++ (n ++ (str " = " ++ (t ++ b'))) ++ ')' :: rest = w ++ (n ++ (str " = " ++ (t ++ (b' ++ ')' :: rest)))) := by simp
    rw [e] at hlen hm ⊢
    have h1 := txt_rtG k false t ha.1 ht f false (b' ++ ')' :: rest) (by simp) (by simp at hlen ⊢; omega) (fun _ _ => sep_nl (txtFC_cons hb) _)
      (fun _ => txtFC_noOpen hnr hb rest)
    obtain ⟨w', hw', h2⟩ := fctail_rt r b' ha.2 hnr hb f m rest ((n, rereadK k) :: acc) (by simp at hlen ⊢; omega) (by simp at hm ⊢; omega)
    obtain ⟨s, hs, hd⟩ := field_drop (hn (n, k) (by simp)) (t ++ (b' ++ ')' :: rest))
    obtain ⟨c', r', hd', hws, -⟩ := txt_head (all_self ha.1) ht
    have h3 := kvp_ok (K := kserdDelimited f) (hn (n, k) (by simp)) hs ⟨c', r', hd', hws⟩ h1
    have hm : ∃ u, multiWs (w ++ (n ++ (str " = " ++ (t ++ (b' ++ ')' :: rest))))) = .ok (n ++ (s ++ (str "= " ++ (t ++ (b' ++ ')' :: rest))))) u := by
      refine ⟨List.takeWhile isMultiWs (w ++ (n ++ (str " = " ++ (t ++ (b' ++ ')' :: rest))))), ?_⟩
      rw [multiWs, takeWhile, List.dropWhile_append_of_pos (nl_ws hw), hd]
    obtain ⟨u, hm⟩ := hm
    refine ⟨w', hw', ?_⟩
    have hle : (n ++ (s ++ (str "= " ++ (t ++ (b' ++ ')' :: rest))))).length ≠ (w ++ (n ++ (str " = " ++ (t ++ (b' ++ ')' :: rest))))).length := by
      have : s.length ≤ 1 := by rcases hs with rfl | rfl <;> simp
      have e2 : List.length (str "= ") = 2 := rfl
      simp [e2]; omega
    rw [sepLoop_next hm hle h3, h2, rereadF]
    simp
termination_by structural a => a
theorem minl_rt : ∀ (l : List (Kserd × Kserd)) (b : Str), AllM TextOk l → TxtMI l [' '] [] b → ∀ (f : Nat) (rest : Str),
    (b ++ '}' :: rest).length < f → ∃ tail, Blank tail ∧ inlineMap (kserdDelimited f) (b ++ '}' :: rest) = .ok (tail ++ '}' :: rest) (rereadM l)
  | [], b, hl, h, f, rest, hlen => by
    rw [TxtMI] at h; subst h
    cases f with
    | zero => omega
    | succ f => exact ⟨[], .inl rfl, ctx_ok (sep0_nil (ignore_err (by decide) (kvpK_end f true rest)))⟩
  | (k, v) :: r, b, hl, h, f, rest, hlen => by
    rw [TxtMI] at h
    obtain ⟨t, u, b', rfl, ht, hu, hb⟩ := h
    have ha := allM_cons hl
    have hfo := followMI hb (c := '}') (by decide) rest
    have e : [' '] ++ (t ++ (str ": " ++ (u ++ b'))) ++ '}' :: rest = ' ' :: (t ++ (str ": " ++ (u ++ (b' ++ '}' :: rest)))) := by simp
    rw [e] at hlen ⊢
    have hfk := follow (c := ':') (.inr (.inl rfl)) (' ' :: (u ++ (b' ++ '}' :: rest)))
    have h0 := txt_rtG k true t ha.1 ht f false (str ": " ++ (u ++ (b' ++ '}' :: rest))) (by simp) (by simp at hlen ⊢; omega) (fun _ _ => hfk.1) (fun _ => hfk.2)
    have h1 := txt_rtG v true u ha.2.1 hu f true (b' ++ '}' :: rest) (fun _ => rfl) (by simp at hlen ⊢; omega) (fun _ _ => hfo.1) (fun _ => hfo.2)
    have h2 := mtail_rt r b' ha.2.2 hb f ((b' ++ '}' :: rest).length + 1) rest [(rereadK k, rereadK v)] (by simp at hlen ⊢; omega) (by omega)
    obtain ⟨c', r', hd', hws, -⟩ := txt_head (all_self ha.2.1) hu
    have h3 := kvpK_ok (K := kserdDelimited f) ⟨c', r', hd', hws⟩ h0 h1
    refine ⟨[' '], .inr rfl, ctx_ok ?_⟩
    rw [sep0_cons (r := b' ++ '}' :: rest) (a := (rereadK k, rereadK v)) (by
      obtain ⟨c', r', rfl, h2, -⟩ := txt_head (all_self ha.1) ht
      rw [List.cons_append, ignoreWs_one _ _ (inline_multi h2)]; exact h3), h2, rereadM]
    rfl
termination_by structural a => a
theorem mtail_rt : ∀ (l : List (Kserd × Kserd)) (b : Str), AllM TextOk l → TxtMI l (str ", ") [' '] b → ∀ (f n : Nat) (rest : Str) (acc : List (Kserd × Kserd)),
    (b ++ '}' :: rest).length < f → (b ++ '}' :: rest).length < n →
    sepLoop (ignoreWs (Nom.char ',')) (ignoreWs (kvpKserd (kserdDelimited f) true)) n (b ++ '}' :: rest) acc =
      .ok (' ' :: '}' :: rest) (acc.reverse ++ rereadM l)
  | [], b, hl, h, f, 0, rest, acc, hlen, hm => by omega
  | _ :: _, b, hl, h, f, 0, rest, acc, hlen, hm => by omega
  | [], b, hl, h, f, m + 1, rest, acc, hlen, hm => by
    rw [TxtMI] at h; subst h
    rw [rereadM, List.append_nil]
    exact sepLoop_stop (comma_err_sp (by decide) rest) m acc
  | (k, v) :: r, b, hl, h, f, m + 1, rest, acc, hlen, hm => by
    rw [TxtMI] at h
    obtain ⟨t, u, b', rfl, ht, hu, hb⟩ := h
    have ha := allM_cons hl
    have hfo := followMI hb (c := '}') (by decide) rest
    have e : str ", " ++ (t ++ (str ": " ++ (u ++ b'))) ++ '}' :: rest = str ", " ++ (t ++ (str ": " ++ (u ++ (b' ++ '}' :: rest)))) := by simp
    rw [e] at hlen hm ⊢
    have hfk := follow (c := ':') (.inr (.inl rfl)) (' ' :: (u ++ (b' ++ '}' :: rest)))
    have h0 := txt_rtG k true t ha.1 ht f false (str ": " ++ (u ++ (b' ++ '}' :: rest))) (by simp) (by simp at hlen ⊢; omega) (fun _ _ => hfk.1) (fun _ => hfk.2)
    have h1 := txt_rtG v true u ha.2.1 hu f true (b' ++ '}' :: rest) (fun _ => rfl) (by simp at hlen ⊢; omega) (fun _ _ => hfo.1) (fun _ => hfo.2)
    have h2 := mtail_rt r b' ha.2.2 hb f m rest ((rereadK k, rereadK v) :: acc) (by simp at hlen ⊢; omega) (by simp at hm ⊢; omega)
    obtain ⟨c', r', hd', hws, -⟩ := txt_head (all_self ha.2.1) hu
    have h3 := kvpK_ok (K := kserdDelimited f) ⟨c', r', hd', hws⟩ h0 h1
    rw [sepLoop_comma (r := b' ++ '}' :: rest) (a := (rereadK k, rereadK v)) (by
      obtain ⟨c', r', rfl, h2, -⟩ := txt_head (all_self ha.1) ht
      rw [List.cons_append, ignoreWs_one _ _ (inline_multi h2)]; exact h3), h2, rereadM]
    simp
termination_by structural a => a
theorem mconc_rt : ∀ (l : List (Kserd × Kserd)) (b : Str), AllM TextOk l → TxtMC l b → ∀ (f : Nat) (rest : Str),
    (b ++ '}' :: rest).length < f → conciseMap (kserdDelimited f) (b ++ '}' :: rest) = .ok ('}' :: rest) (rereadM l)
  | [], b, hl, h, f, rest, hlen => by
    rw [TxtMC] at h
    cases f with
    | zero => omega
    | succ f =>
      apply ctx_ok
      simp only [preceded, multiWs_nl h (c := '}') (by decide), PRes.bind, terminated,
        sep0_nil (sep := multiWs) (kvpK_end f false rest), multiWs_none (c := '}') (by decide)]
      rfl
  | (k, v) :: r, b, hl, h, f, rest, hlen => by
    rw [TxtMC] at h
    obtain ⟨w, t, u, b', rfl, hw, ht, hu, hb, hbare⟩ := h
    have ha := allM_cons hl
    have e : w ++ (t ++ (str ": " ++ (u ++ b'))) ++ '}' :: rest = w ++ (t ++ (str ": " ++ (u ++ (b' ++ '}' :: rest)))) := by simp
    rw [e] at hlen ⊢
    have hfk := follow (c := ':') (.inr (.inl rfl)) (' ' :: (u ++ (b' ++ '}' :: rest)))
    have h0 := txt_rtG k false t ha.1 ht f false (str ": " ++ (u ++ (b' ++ '}' :: rest))) (by simp) (by simp at hlen ⊢; omega) (fun _ _ => hfk.1) (fun _ => hfk.2)
    have h1 := txt_rtG v false u ha.2.1 hu f false (b' ++ '}' :: rest) (by simp) (by simp at hlen ⊢; omega) (fun _ _ => sep_nl (txtMC_cons hb) _)
      (fun hB => txtMC_noOpen ha.2.2 hb (hbare hB) rest)
    obtain ⟨w', hw', h2⟩ := mctail_rt r b' ha.2.2 hb f ((b' ++ '}' :: rest).length + 1) rest [(rereadK k, rereadK v)] (by simp at hlen ⊢; omega) (by omega)
    obtain ⟨c', r', hd', hws, -⟩ := txt_head (all_self ha.2.1) hu
    have h3 := kvpK_ok (K := kserdDelimited f) ⟨c', r', hd', hws⟩ h0 h1
    have hm : multiWs (w ++ (t ++ (str ": " ++ (u ++ (b' ++ '}' :: rest))))) = .ok (t ++ (str ": " ++ (u ++ (b' ++ '}' :: rest)))) w := by
      obtain ⟨c', r', rfl, h2, -⟩ := txt_head (all_self ha.1) ht
      exact multiWs_nl hw h2 _
    apply ctx_ok
    simp only [preceded, hm, PRes.bind, terminated, sep0_cons (sep := multiWs) h3, h2, multiWs_nl hw' (c := '}') (by decide)]
    rw [rereadM]; rfl
termination_by structural a => a
theorem mctail_rt : ∀ (l : List (Kserd × Kserd)) (b : Str), AllM TextOk l → TxtMC l b → ∀ (f n : Nat) (rest : Str) (acc : List (Kserd × Kserd)),
    (b ++ '}' :: rest).length < f → (b ++ '}' :: rest).length < n →
    ∃ w, IsNl w ∧ sepLoop multiWs (kvpKserd (kserdDelimited f) false) n (b ++ '}' :: rest) acc = .ok (w ++ '}' :: rest) (acc.reverse ++ rereadM l)
  | [], b, hl, h, f, 0, rest, acc, hlen, hm => by omega
  | _ :: _, b, hl, h, f, 0, rest, acc, hlen, hm => by omega
  | [], b, hl, h, f, m + 1, rest, acc, hlen, hm => by
    rw [TxtMC] at h
    cases f with
    | zero => omega
    | succ f =>
      refine ⟨b, h, ?_⟩
      have hp := nl_pos h
      rw [rereadM, List.append_nil]
      exact sepLoop_stop2 (multiWs_nl h (by decide) rest) (by simp; exact List.ne_nil_of_length_pos hp) (kvpK_end f false rest) m acc
  | (k, v) :: r, b, hl, h, f, m + 1, rest, acc, hlen, hm => by
    rw [TxtMC] at h
    obtain ⟨w, t, u, b', rfl, hw, ht, hu, hb, hbare⟩ := h
    have ha := allM_cons hl
    have hp := nl_pos hw
    have e : w ++ (t ++ (str ": " ++ (u ++ b'))) ++ '}' :: rest = w ++ (t ++ (str ": " ++ (u ++ (b' ++ '}' :: rest)))) := by simp
    rw [e] at hlen hm ⊢
    have hfk := follow (c := ':') (.inr (.inl rfl)) (' ' :: (u ++ (b' ++ '}' :: rest)))
    have h0 := txt_rtG k false t ha.1 ht f false (str ": " ++ (u ++ (b' ++ '}' :: rest))) (by simp) (by simp at hlen ⊢; omega) (fun _ _ => hfk.1) (fun _ => hfk.2)
    have h1 := txt_rtG v false u ha.2.1 hu f false (b' ++ '}' :: rest) (by simp) (by simp at hlen ⊢; omega) (fun _ _ => sep_nl (txtMC_cons hb) _)
      (fun hB => txtMC_noOpen ha.2.2 hb (hbare hB) rest)
    obtain ⟨w', hw', h2⟩ := mctail_rt r b' ha.2.2 hb f m rest ((rereadK k, rereadK v) :: acc) (by simp at hlen ⊢; omega) (by simp at hm ⊢; omega)
    obtain ⟨c', r', hd', hws, -⟩ := txt_head (all_self ha.2.1) hu
    have h3 := kvpK_ok (K := kserdDelimited f) ⟨c', r', hd', hws⟩ h0 h1
    have hmw : multiWs (w ++ (t ++ (str ": " ++ (u ++ (b' ++ '}' :: rest))))) = .ok (t ++ (str ": " ++ (u ++ (b' ++ '}' :: rest)))) w := by
      obtain ⟨c', r', rfl, h2, -⟩ := txt_head (all_self ha.1) ht
      exact multiWs_nl hw h2 _
    refine ⟨w', hw', ?_⟩
    rw [sepLoop_next hmw (by simp; exact List.ne_nil_of_length_pos hp) h3, h2, rereadM]
    simp
termination_by structural a => a
end

/-- Before a separator every text reads back. -/
theorem txt_rt (k : Kserd) (inl : Bool) (t : Str) (hk : All TextOk k) (h : Txt inl k t) (f : Nat) (force : Bool) (rest : Str)
    (hf : force = true → inl = true) (hlen : (t ++ rest).length < f) (hs : Sep rest) (hb : Bare k → NoOpen rest) :
    kserdDelimited f force (t ++ rest) = .ok rest (rereadK k) := txt_rtG k inl t hk h f force rest hf hlen (fun _ _ => hs) hb

end KS.RT
