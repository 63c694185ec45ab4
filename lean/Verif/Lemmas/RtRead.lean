import Verif.Lemmas.RtTxt
import Verif.Lemmas.KserdOrd
/-!
# Reading back text without verbose parts
-/

namespace KS.RT
open KS.Spec KS.P KS.Nom

/-! ## Composite values -/

/-- Kind of identity in front of a composite. -/
def kind : Option Str → IdentKind
  | none => .none
  | some _ => .nonprim

theorem blank_open {sp : Str} (hs : Blank sp) {o : Char} (ho : isMultiWs o = false) (hn : isNameChar o = false) (x : Str) :
    Ends isNameChar (sp ++ o :: x) ∧ (sp ++ o :: x).dropWhile isMultiWs = o :: x ∧
    ∀ {α : Type} (p : Parser α), ignoreWs p (sp ++ o :: x) = p (o :: x) := by
  rcases hs with rfl | rfl
  · refine ⟨?_, dropWs x ho, fun p => ignoreWs_none p x (inline_multi ho)⟩
    intro c r e; cases e; exact hn
  · refine ⟨?_, ?_, fun p => ignoreWs_one p x (inline_multi ho)⟩
    · intro c r e; cases e; decide
    · show (' ' :: o :: x).dropWhile isMultiWs = _
      have : isMultiWs ' ' = true := by decide
      simp [this, ho]

/-- Opening delimiters. -/
def openers : List Char := ['(', '[', '{']

theorem opener_facts {o : Char} (h : o ∈ openers) :
    isMultiWs o = false ∧ isNameChar o = false ∧ o ≠ 't' ∧ o ≠ 'f' ∧ o ≠ '<' ∧ isAlpha o = false ∧ o ≠ '_' := by
  revert o; decide

theorem comp_pat {id : Option Str} (hid : CId id) {sp : Str} (hs : Blank sp) {o : Char} (ho : o ∈ openers) (x : Str) :
    patternDelimited (nid sp id ++ o :: x) = .ok (nid sp id ++ o :: x) (nextDelim (kind id) (o :: x)) := by
  have hf := opener_facts ho
  cases id with
  | none => exact pat_sym x ⟨hf.2.2.1, hf.2.2.2.1, hf.2.2.2.2.1, hf.2.2.2.2.2.1, hf.2.2.2.2.2.2, hf.1⟩
  | some i =>
    have hb := blank_open hs hf.1 hf.2.1 x
    have := pat_name (hid i rfl).1 (hid i rfl).2 hb.1
    rw [nid, List.append_assoc, this, hb.2.1]; rfl

theorem opened_eq {α : Type} {id : Option Str} (hid : CId id) {sp : Str} (hs : Blank sp) {o : Char} (ho : o ∈ openers) (x : Str)
    (force : Bool) (body : Bool → Option Str → Parser α) :
    opened force o body (nid sp id ++ o :: x) = body (recogniseConcise x && !force) id x := by
  have hf := opener_facts ho
  have hch : Nom.char o (o :: x) = .ok x o := by simp [Nom.char]
  cases id with
  | none =>
    have h1 := opt_err (ident_err x hf.2.2.2.2.2.1 hf.2.2.2.2.2.2)
    simp only [opened, nid, List.nil_append, h1, PRes.bind, ignoreWs_none _ x (inline_multi hf.1), hch]
  | some i =>
    have hb := blank_open hs hf.1 hf.2.1 x
    have h1 := opt_ok (ident_ok (hid i rfl).1 hb.1)
    rw [nid, List.append_assoc]
    simp only [opened, h1, PRes.bind, hb.2.2, hch]

theorem next_seq (id : Option Str) (x : Str) : nextDelim (kind id) ('[' :: x) = .seq := by cases id <;> rfl
theorem next_map (id : Option Str) (x : Str) : nextDelim (kind id) ('{' :: x) = .map := by cases id <;> rfl

/-- The parenthesis does not close at once. -/
def NotUnit (id : Option Str) (x : Str) : Prop := id = none → ∀ c r, x.dropWhile isInlineWs = c :: r → c ≠ ')'

theorem unit_not_ok {x : Str} (h : ∀ c r, x.dropWhile isInlineWs = c :: r → c ≠ ')') : (unitValue ('(' :: x)).isOk = false := by
  have : ∃ e, terminated inlineWs (Nom.char ')') x = .err e := by
    simp only [terminated, inlineWs, takeWhile, PRes.bind]
    cases hd : x.dropWhile isInlineWs with
    | nil => exact ⟨_, rfl⟩
    | cons c r => exact ⟨[(c :: r, .char ')')], by simp only [Nom.char, if_neg (h c r hd)]⟩
  obtain ⟨e, he⟩ := this
  simp only [unitValue, context, Nom.map, preceded, Nom.char, if_true, PRes.bind, cut, he, PRes.isOk]

theorem next_paren {id : Option Str} {x : Str} (h : NotUnit id x) :
    nextDelim (kind id) ('(' :: x) = if recogniseFieldAssign (x.dropWhile isMultiWs) then .cntr else .tuple := by
  cases hr : recogniseFieldAssign (x.dropWhile isMultiWs) <;> cases id with
  | none => simp [nextDelim, kind, hr, unit_not_ok (h rfl)]
  | some i => simp [nextDelim, kind, hr]

/-! ## Ends of lists -/

theorem primValue_err {c : Char} (h : c ≠ '(' ∧ c ≠ 't' ∧ c ≠ 'f' ∧ isNumChar c = false ∧ c ≠ 's' ∧ c ≠ '"' ∧ c ≠ 'b') (r : Str) :
    ∃ e, primValue (c :: r) = .err e := by
  apply ctx_err
  have hs : ∃ e, string (c :: r) = .err e := by
    have : stripPrefix (str "str") (c :: r) = none := by
      show (if 's' = c then _ else none) = none
      rw [if_neg (Ne.symm h.2.2.2.2.1)]
    simp only [string, this]
    apply ctx_err
    obtain ⟨e, he⟩ := char_err (c := '"') r h.2.2.2.2.2.1
    exact ⟨e, by simp only [parseStr, preceded, he, PRes.bind]⟩
  have hb : ∃ e, barr (c :: r) = .err e := by
    apply ctx_err
    have : tag (str "b91'") (c :: r) = .err [(c :: r, .tag)] := by
      show (match (if 'b' = c then stripPrefix (str "91'") r else none) with | some r => _ | none => _) = _
      rw [if_neg (Ne.symm h.2.2.2.2.2.2)]
    exact ⟨_, by simp only [preceded, this, PRes.bind]; rfl⟩
  rw [alt_skip _ (map_err _ (unitValue_err _ h.1)), alt_skip _ (map_err _ (boolean_err _ h.2.1 h.2.2.1)),
    alt_skip _ (map_err _ (num_err (by simp only [List.takeWhile_cons, h.2.2.2.1, Bool.false_eq_true, if_false]; exact fromStr_nil))),
    alt_skip _ (map_err _ hs)]
  exact alt_last (map_err _ hb)

theorem kd_closer {c : Char} (hc : c ∈ closers) (f : Nat) (force : Bool) (r : Str) : ∃ e, kserdDelimited (f + 1) force (c :: r) = .err e := by
  have hf : c ≠ 't' ∧ c ≠ 'f' ∧ c ≠ '<' ∧ isAlpha c = false ∧ c ≠ '_' ∧ isMultiWs c = false := by revert c; decide
  have hg : c ≠ '(' ∧ c ≠ '[' ∧ c ≠ '{' := by revert c; decide
  have hp : c ≠ '(' ∧ c ≠ 't' ∧ c ≠ 'f' ∧ isNumChar c = false ∧ c ≠ 's' ∧ c ≠ '"' ∧ c ≠ 'b' := by revert c; decide
  obtain ⟨e, he⟩ := primValue_err hp r
  have : ∃ e, context "primitive" (separatedPair (opt (ident true)) inlineWs primValue) (c :: r) = .err e := by
    apply ctx_err
    exact ⟨e, by simp only [separatedPair, opt_err (identA_err r hf.2.2.1), PRes.bind, inlineWs_none r (inline_multi hf.2.2.2.2.2), he]⟩
  obtain ⟨e', he'⟩ := this
  exact ⟨e', by simp only [kserdDelimited, pat_sym r hf, PRes.bind, nextDelim_other _ _ hg, prim, he']⟩

theorem ignore_err {α : Type} {p : Parser α} {c : Char} {r : Str} (hc : isInlineWs c = false) (h : ∃ e, p (c :: r) = .err e) :
    ∃ e, ignoreWs p (c :: r) = .err e := by
  obtain ⟨e, he⟩ := h
  exact ⟨e, by rw [ignoreWs_none _ _ hc, he]⟩

theorem ignore_err_sp {α : Type} {p : Parser α} {c : Char} {r : Str} (hc : isInlineWs c = false) (h : ∃ e, p (c :: r) = .err e) :
    ∃ e, ignoreWs p (' ' :: c :: r) = .err e := by
  obtain ⟨e, he⟩ := h
  exact ⟨e, by rw [ignoreWs_one _ _ hc, he]⟩

theorem sepLoop_stop {α β : Type} {sep : Parser β} {p : Parser α} {i : Str} (h : ∃ e, sep i = .err e) (n : Nat) (acc : List α) :
    sepLoop sep p (n + 1) i acc = .ok i acc.reverse := by
  obtain ⟨e, he⟩ := h
  simp only [sepLoop, he]

theorem sepLoop_stop2 {α β : Type} {sep : Parser β} {p : Parser α} {i j : Str} {s : β} (hs : sep i = .ok j s) (hl : j.length ≠ i.length)
    (h : ∃ e, p j = .err e) (n : Nat) (acc : List α) : sepLoop sep p (n + 1) i acc = .ok i acc.reverse := by
  obtain ⟨e, he⟩ := h
  simp only [sepLoop, hs, if_neg hl, he]

theorem sepLoop_next {α β : Type} {sep : Parser β} {p : Parser α} {i j r : Str} {s : β} {a : α} (hs : sep i = .ok j s) (hl : j.length ≠ i.length)
    (h : p j = .ok r a) (n : Nat) (acc : List α) : sepLoop sep p (n + 1) i acc = sepLoop sep p n r (a :: acc) := by
  simp only [sepLoop, hs, if_neg hl, h]

theorem sep0_nil {α β : Type} {sep : Parser β} {p : Parser α} {i : Str} (h : ∃ e, p i = .err e) : separatedList0 sep p i = .ok i [] := by
  obtain ⟨e, he⟩ := h
  simp only [separatedList0, he]

theorem sep0_cons {α β : Type} {sep : Parser β} {p : Parser α} {i r : Str} {a : α} (h : p i = .ok r a) :
    separatedList0 sep p i = sepLoop sep p (r.length + 1) r [a] := by
  simp only [separatedList0, h]

theorem comma_ok (x : Str) : ignoreWs (Nom.char ',') (str ", " ++ x) = .ok (' ' :: x) ',' := by
  show ignoreWs (Nom.char ',') (',' :: ' ' :: x) = _
  rw [ignoreWs_none _ _ (by decide)]; rfl

theorem comma_err {c : Char} (hc : c ∈ closers) (r : Str) : ∃ e, ignoreWs (Nom.char ',') (c :: r) = .err e :=
  ignore_err (inline_multi (closer_facts hc).1) (char_err r (by revert c; decide))

theorem comma_err_sp {c : Char} (hc : c ∈ closers) (r : Str) : ∃ e, ignoreWs (Nom.char ',') (' ' :: c :: r) = .err e :=
  ignore_err_sp (inline_multi (closer_facts hc).1) (char_err r (by revert c; decide))

theorem close_ok {c : Char} (hc : c ∈ closers) (r : Str) : ignoreWs (Nom.char c) (c :: r) = .ok r c := by
  rw [ignoreWs_none _ _ (inline_multi (closer_facts hc).1)]; simp [Nom.char]

theorem close_ok_sp {c : Char} (hc : c ∈ closers) (r : Str) : ignoreWs (Nom.char c) (' ' :: c :: r) = .ok r c := by
  rw [ignoreWs_one _ _ (inline_multi (closer_facts hc).1)]; simp [Nom.char]

/-! ## Layouts -/

theorem concise_nl (x : Str) : recogniseConcise ('\n' :: x) = true := rfl

theorem concise_head {c : Char} (hc : isMultiWs c = false) (x : Str) : recogniseConcise (c :: x) = false := by
  have h1 : ¬ c ∈ str " \t\r\n" := by
    rwa [isMultiWs, ← Bool.not_eq_true, List.contains_iff_mem] at hc
  have h2 : (!(str " \t\r").contains c) = true := by
    rw [Props.contains_false]; intro h; exact h1 ((by decide : ∀ x ∈ str " \t\r", x ∈ str " \t\r\n") c h)
  have h3 : c ≠ '\n' := by rintro rfl; exact h1 (by decide)
  rw [recogniseConcise, List.find?_cons, h2]
  simp [h3]

theorem concise_sp (x : Str) : recogniseConcise (' ' :: x) = recogniseConcise x := by
  rw [recogniseConcise, recogniseConcise, List.find?_cons]
  have : (!(str " \t\r").contains ' ') = false := by decide
  simp only [this]

theorem txtI_concise {l : List Kserd} {b : Str} (hl : AllL TextOk l) (h : TxtI l [] b) {c : Char} (hc : c ∈ closers) (rest : Str) :
    recogniseConcise (b ++ c :: rest) = false := by
  cases l with
  | nil => rw [TxtI] at h; subst h; exact concise_head (closer_facts hc).1 rest
  | cons k r =>
    rw [TxtI] at h
    obtain ⟨t, b', rfl, ht, -⟩ := h
    obtain ⟨c', r', rfl, h1, -⟩ := txt_head (all_self (allL_cons hl).1) ht
    exact concise_head h1 _

theorem txtMI_concise {l : List (Kserd × Kserd)} {b : Str} (hl : AllM TextOk l) (h : TxtMI l [' '] [] b) (rest : Str) :
    recogniseConcise (b ++ '}' :: rest) = false := by
  cases l with
  | nil => rw [TxtMI] at h; subst h; exact concise_head (by decide) rest
  | cons p r =>
    obtain ⟨k, v⟩ := p
    rw [TxtMI] at h
    obtain ⟨t, u, b', rfl, ht, -⟩ := h
    obtain ⟨c', r', rfl, h1, -⟩ := txt_head (all_self (allM_cons hl).1) ht
    simp only [List.cons_append, List.nil_append]
    rw [concise_sp]
    exact concise_head h1 _

/-! ## Fields -/

theorem kvp_ok {K : Bool → Parser Kserd} {force : Bool} {n s t X : Str} {v : Kserd} (hn : ∀ c ∈ n, NameChar c) (hs : Blank s)
    (ht : ∃ c r, t = c :: r ∧ isMultiWs c = false) (h : K force (t ++ X) = .ok X v) :
    kvpField K force (n ++ (s ++ (str "= " ++ (t ++ X)))) = .ok X (n, v) := by
  obtain ⟨c, r, rfl, hc⟩ := ht
  have hn' : ∀ c ∈ n, isNameChar c = true := fun c hc => (PG.isNameChar_iff c).mpr (hn c hc)
  have hb := blank_open hs (o := '=') (by decide) (by decide) (' ' :: (c :: r ++ X))
  have e : str "= " ++ (c :: r ++ X) = '=' :: ' ' :: (c :: r ++ X) := rfl
  have hf := takeWhile_ends hn' hb.1
  apply ctx_ok
  rw [e]
  simp only [separatedPair, fieldName, takeWhile, hf.1, hf.2, PRes.bind, hb.2.2, Nom.char, if_true]
  rw [List.cons_append, ignoreWs_one _ _ (inline_multi hc), ← List.cons_append, cut_ok h]

theorem kvp_end {K : Bool → Parser Kserd} {force : Bool} (r : Str) : ∃ e, kvpField K force (')' :: r) = .err e := by
  apply ctx_err
  have h1 : fieldName (')' :: r) = .ok (')' :: r) [] := by
    have : isNameChar ')' = false := by decide
    simp [fieldName, takeWhile, this]
  obtain ⟨e, he⟩ := ignore_err (p := Nom.char '=') (c := ')') (r := r) (by decide) (char_err r (by decide))
  exact ⟨e, by simp only [separatedPair, h1, PRes.bind, he]⟩

/-! ## Entries -/

theorem kvpK_ok {K : Bool → Parser Kserd} {force : Bool} {t u X : Str} {k v : Kserd}
    (hu : ∃ c r, u = c :: r ∧ isMultiWs c = false) (h : K false (t ++ (str ": " ++ (u ++ X))) = .ok (str ": " ++ (u ++ X)) k)
    (h' : K force (u ++ X) = .ok X v) : kvpKserd K force (t ++ (str ": " ++ (u ++ X))) = .ok X (k, v) := by
  obtain ⟨c, r, rfl, hc⟩ := hu
  have e : str ": " ++ (c :: r ++ X) = ':' :: ' ' :: (c :: r ++ X) := rfl
  apply ctx_ok
  rw [e] at h ⊢
  simp only [separatedPair, alt_ok _ h, PRes.bind]
  rw [ignoreWs_none _ _ (by decide)]
  simp only [Nom.char, if_true]
  rw [List.cons_append, ignoreWs_one _ _ (inline_multi hc), ← List.cons_append, h']

theorem kvpK_end (f : Nat) (force : Bool) (r : Str) : ∃ e, kvpKserd (kserdDelimited (f + 1)) force ('}' :: r) = .err e := by
  apply ctx_err
  obtain ⟨e, he⟩ : ∃ e, alt [kserdDelimited (f + 1) false, kserdDelimited (f + 1) true] ('}' :: r) = .err e := by
    rw [alt_skip _ (kd_closer (by decide) f false r)]
    exact alt_last (kd_closer (by decide) f true r)
  exact ⟨e, by simp only [separatedPair, he, PRes.bind]⟩

/-! ## Sorted input stays as it is -/

theorem sortInsert_last {κ β : Type} {cmp : κ → κ → Ordering} (k : κ) (v : β) : ∀ (L : List (κ × β)), (∀ p ∈ L, cmp k p.1 = .gt) →
    BTree.sortInsert cmp k v L = L ++ [(k, v)]
  | [], _ => rfl
  | (k', v') :: r, h => by
    rw [BTree.sortInsert]
    have := h (k', v') (by simp)
    simp only [this]
    rw [sortInsert_last k v r (fun p hp => h p (by simp [hp]))]
    rfl

theorem fromIter_asc {κ β : Type} {cmp : κ → κ → Ordering} {eq : κ → κ → Bool} (hsw : ∀ a b, cmp b a = (cmp a b).swap) (l : List (κ × β))
    (h : l.Pairwise (fun a b => cmp a.1 b.1 = .lt ∧ eq a.1 b.1 = false)) : BTree.fromIter cmp eq l = l := by
  have hs : ∀ (l acc : List (κ × β)), (acc ++ l).Pairwise (fun a b => cmp a.1 b.1 = .lt ∧ eq a.1 b.1 = false) →
      l.foldl (fun acc kv => BTree.sortInsert cmp kv.1 kv.2 acc) acc = acc ++ l := by
    intro l
    induction l with
    | nil => intro acc _; simp
    | cons p r ih =>
      intro acc hp
      rw [List.foldl_cons, sortInsert_last]
      · rw [ih]
        · simp
        · simpa using hp
      · intro q hq
        rw [hsw]
        have := (List.pairwise_append.mp hp).2.2 q hq p (by simp)
        rw [this.1]; rfl
  have hd : ∀ l : List (κ × β), l.Pairwise (fun a b => cmp a.1 b.1 = .lt ∧ eq a.1 b.1 = false) → BTree.dedupLast eq l = l := by
    intro l
    induction l with
    | nil => intro _; rfl
    | cons p r ih =>
      intro hp
      rw [List.pairwise_cons] at hp
      cases r with
      | nil => rfl
      | cons q r =>
        rw [BTree.dedupLast, (hp.1 q (by simp)).2, ih hp.2]
        rfl
  rw [BTree.fromIter, BTree.stableSort, hs l [] h]
  exact hd l h

theorem rereadF_keys : ∀ f : List (Str × Kserd), (rereadF f).map (·.1) = f.map (·.1)
  | [] => rfl
  | (n, k) :: r => by rw [rereadF, List.map_cons, rereadF_keys r]; rfl

theorem fields_asc {f : List (Str × Kserd)} (h : Ascending cmpStr f) :
    BTree.fromIter cmpStr (fun a b => a == b) (rereadF f) = rereadF f := by
  apply fromIter_asc lawStr.swap
  have h1 : ((rereadF f).map (·.1)).Pairwise (fun a b => cmpStr a b = .lt) := by
    rw [rereadF_keys, List.pairwise_map]; exact h
  rw [List.pairwise_map] at h1
  refine h1.imp ?_
  intro a b hab
  refine ⟨hab, ?_⟩
  rw [beq_eq_false_iff_ne]
  intro e
  rw [e, lawStr.refl] at hab
  cases hab

end KS.RT
