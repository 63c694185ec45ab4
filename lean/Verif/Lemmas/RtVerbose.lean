import Verif.Lemmas.RtAsm
import Verif.Lemmas.RtRoot
import Verif.Lemmas.ParseTotal
/-!
# Reading verbose text back
-/

namespace KS.RT
open KS.Spec KS.P KS.Nom

/-! ## Blank lines and indentation -/

theorem bind_ok {α β : Type} (r : Str) (a : α) (f : Str → α → PRes β) : (PRes.ok r a).bind f = f r a := rfl

def nls (m : Nat) : Str := List.replicate m '\n'
def ind (d : Nat) : Str := List.replicate (4 * d) ' '

theorem nls_succ (m : Nat) : nls (m + 1) = '\n' :: nls m := rfl
theorem nls_snoc (m : Nat) : nls m ++ ['\n'] = nls (m + 1) := by rw [nls, nls, ← List.replicate_succ']
theorem ind_zero : ind 0 = [] := rfl
theorem ind_succ (d : Nat) : ind (d + 1) = str "    " ++ ind d := by
  rw [ind, ind, show 4 * (d + 1) = 4 + 4 * d by omega, List.replicate_add]; rfl

theorem ignoreWs_sp {α : Type} (p : Parser α) (j : Nat) {c : Char} (r : Str) (h : isInlineWs c = false) :
    ignoreWs p (List.replicate j ' ' ++ c :: r) = p (c :: r) := by
  have h1 : (List.replicate j ' ' ++ c :: r).dropWhile isInlineWs = c :: r := by
    rw [List.dropWhile_append_of_pos (by intro a ha; rw [List.eq_of_mem_replicate ha]; decide)]
    simp [h]
  simp only [ignoreWs, opt, inlineWs, takeWhile, PRes.bind, h1]

theorem inlineWs_none' {c : Char} (r : Str) (h : isInlineWs c = false) : inlineWs (c :: r) = .ok (c :: r) [] := inlineWs_none r h

theorem lineEnding_err {c : Char} (r : Str) (h : isMultiWs c = false) : ∃ e, lineEnding (c :: r) = .err e := by
  have h1 : c ≠ '\n' := by rintro rfl; revert h; decide
  have h2 : c ≠ '\r' := by rintro rfl; revert h; decide
  refine ⟨[(c :: r, .crlf)], ?_⟩
  unfold lineEnding
  split
  · rename_i e; injection e with e _; exact absurd e h1
  · rename_i e; injection e with e _; exact absurd e h2
  · rfl

/-- The text begins with a line that is not blank. -/
theorem wsLine_err (j : Nat) {c : Char} (r : Str) (h : isMultiWs c = false) :
    ∃ e, ignoreWs lineEnding (List.replicate j ' ' ++ c :: r) = .err e := by
  rw [ignoreWs_sp _ j r (inline_multi h)]
  exact lineEnding_err r h

theorem wsLine_nl (x : Str) : ignoreWs lineEnding ('\n' :: x) = .ok x ['\n'] := by
  rw [ignoreWs_none _ _ (by decide)]; rfl

theorem skip_nls {x : Str} (hx : ∃ e, ignoreWs lineEnding x = .err e) : ∀ (m n : Nat), m < n → skipBlank n (nls m ++ x) = .ok x ()
  | _, 0, h => by omega
  | 0, n + 1, _ => by
    have : opt (ignoreWs lineEnding) x = .ok x none := opt_err hx
    simp only [nls, List.replicate_zero, List.nil_append, skipBlank, this, PRes.bind, Option.isSome, Bool.false_eq_true, if_false]
  | m + 1, n + 1, h => by
    have : opt (ignoreWs lineEnding) (nls (m + 1) ++ x) = .ok (nls m ++ x) (some ['\n']) := opt_ok (wsLine_nl _)
    simp only [skipBlank, this, PRes.bind, Option.isSome, if_true]
    exact skip_nls hx m n (by omega)

theorem skip' {x : Str} (hx : ∃ e, ignoreWs lineEnding x = .err e) (m : Nat) : verboseField.skipBlank' (nls m ++ x) = .ok x () :=
  skip_nls hx m _ (by simp [nls]; omega)

theorem expect_ind : ∀ (d : Nat) (x : Str), expectIndents d (ind d ++ x) = .ok x ()
  | 0, x => rfl
  | d + 1, x => by
    rw [ind_succ, List.append_assoc]
    have : alt [tag (str "    "), tag ['\t']] (str "    " ++ (ind d ++ x)) = .ok (ind d ++ x) (str "    ") := alt_ok _ rfl
    simp only [expectIndents, this, PRes.bind]
    exact expect_ind d x

theorem expect_err {c : Char} (y : Str) (hc : isMultiWs c = false) : ∀ (d j : Nat), j < d → ∃ e, expectIndents d (ind j ++ c :: y) = .err e
  | 0, _, h => by omega
  | d + 1, 0, _ => by
    have h1 : c ≠ ' ' := by rintro rfl; revert hc; decide
    have h2 : c ≠ '\t' := by rintro rfl; revert hc; decide
    have e1 : tag (str "    ") (c :: y) = .err [(c :: y, .tag)] := by
      have : stripPrefix (str "    ") (c :: y) = none := if_neg (Ne.symm h1)
      rw [tag, this]
    obtain ⟨e, he⟩ : ∃ e, alt [tag (str "    "), tag ['\t']] (c :: y) = .err e := by
      rw [alt_skip _ ⟨_, e1⟩]
      exact alt_last ⟨_, tag_err y h2⟩
    exact ⟨e, by simp only [ind_zero, List.nil_append, expectIndents, he, PRes.bind]⟩
  | d + 1, j + 1, h => by
    rw [ind_succ, List.append_assoc]
    have : alt [tag (str "    "), tag ['\t']] (str "    " ++ (ind j ++ c :: y)) = .ok (ind j ++ c :: y) (str "    ") := alt_ok _ rfl
    simp only [expectIndents, this, PRes.bind]
    exact expect_err y hc d j (by omega)

theorem expect_nil (d : Nat) : ∃ e, expectIndents (d + 1) [] = .err e := by
  obtain ⟨e, he⟩ : ∃ e, alt [tag (str "    "), tag ['\t']] [] = .err e := ⟨_, rfl⟩
  exact ⟨e, by simp only [expectIndents, he, PRes.bind]⟩

theorem vf_line {nested : Parser Kserd} (d m : Nat) {c : Char} (y : Str) (hc : isMultiWs c = false) :
    verboseField nested d (nls m ++ (ind d ++ c :: y)) = fieldBody nested (c :: y) := by
  have h1 := skip' (wsLine_err (4 * d) y hc) m
  rw [verboseField]
  rw [show ind d ++ c :: y = List.replicate (4 * d) ' ' ++ c :: y from rfl, h1]
  simp only [PRes.bind]
  rw [show List.replicate (4 * d) ' ' ++ c :: y = ind d ++ c :: y from rfl, expect_ind]
  simp only [PRes.bind, inlineWs_none y (inline_multi hc)]

/-- What ends the lines of a container at depth `d`: the end of the text or something that is indented less. -/
def Stop (d : Nat) (x : Str) : Prop :=
  ∃ m, x = nls m ∨ ∃ j c y, j < d ∧ isMultiWs c = false ∧ x = nls m ++ (ind j ++ c :: y)

theorem Stop.mono {d e : Nat} {x : Str} (h : Stop d x) (he : d ≤ e) : Stop e x := by
  obtain ⟨m, h | ⟨j, c, y, hj, h⟩⟩ := h
  · exact ⟨m, .inl h⟩
  · exact ⟨m, .inr ⟨j, c, y, by omega, h⟩⟩

theorem ws_nil : ∃ e, ignoreWs lineEnding [] = .err e := ⟨_, ignoreWs_nil _⟩

theorem vf_stop {nested : Parser Kserd} {d : Nat} {x : Str} (h : Stop d x) : ∃ e, verboseField nested d x = .err e := by
  obtain ⟨m, rfl | ⟨j, c, y, hj, hc, rfl⟩⟩ := h
  · have h1 := skip' ws_nil m
    rw [List.append_nil] at h1
    cases d with
    | zero =>
      refine ⟨[([], .eof)], ?_⟩
      rw [verboseField, h1]
      rfl
    | succ d =>
      obtain ⟨e, he⟩ := expect_nil d
      refine ⟨e, ?_⟩
      rw [verboseField, h1]
      simp only [PRes.bind, he]
  · have h1 := skip' (wsLine_err (4 * j) y hc) m
    obtain ⟨e, he⟩ := expect_err y hc d j hj
    refine ⟨e, ?_⟩
    rw [verboseField]
    rw [show ind j ++ c :: y = List.replicate (4 * j) ' ' ++ c :: y from rfl, h1]
    simp only [PRes.bind]
    rw [show List.replicate (4 * j) ' ' ++ c :: y = ind j ++ c :: y from rfl, he]

/-! ## The lines -/

theorem body_cond {c : Char} (y : Str) (hc : isMultiWs c = false) : ¬ (((c :: y).isEmpty || (ignoreWs lineEnding (c :: y)).isOk) = true) := by
  obtain ⟨e, he⟩ := lineEnding_err y hc
  have h1 : (ignoreWs lineEnding (c :: y)).isOk = false := by rw [ignoreWs_none _ _ (inline_multi hc), he]; rfl
  simp [h1]

theorem body_id {nested : Parser Kserd} {i rest : Str} (hi : ValidName i) (hr : Eol rest) :
    fieldBody nested (':' :: (i ++ rest)) = .ok rest (.id i) := by
  unfold fieldBody
  rw [if_neg (body_cond _ (by decide))]
  obtain ⟨c, i', rfl, hc, -⟩ := name_head_ws hi
  have h1 := ident_ok (rest := rest) hi (sep_name (eol_sep hr))
  simp only [List.cons_append] at h1 ⊢
  rw [ignoreWs_none _ _ (inline_multi hc), h1]; rfl

theorem nameChar_facts {c : Char} (h : NameChar c) : isMultiWs c = false ∧ c ≠ ':' ∧ c ≠ '[' ∧ c ≠ '=' ∧ c ≠ ']' := by
  have h' := (PG.isNameChar_iff c).mpr h
  have hm : isMultiWs c = false := by
    by_contra hh
    rw [Bool.not_eq_false, isMultiWs, List.contains_iff_mem] at hh
    have : ∀ x ∈ str " \t\r\n", isNameChar x = false := by decide
    rw [this c hh] at h'; cases h'
  refine ⟨hm, ?_, ?_, ?_, ?_⟩ <;> (rintro rfl; revert h'; decide)

theorem body_direct {nested : Parser Kserd} {n t rest : Str} {k : Kserd} (hn : ∀ c ∈ n, NameChar c) (hne : n ≠ [])
    (hk : All TextOk k) (ht : Txt false k t) (hr : Eol rest) (hb : Bare k → NoOpen rest) :
    fieldBody nested (n ++ (str " = " ++ (t ++ rest))) = .ok rest (.direct n (rereadK k)) := by
  obtain ⟨c, n', rfl⟩ := List.exists_cons_of_ne_nil hne
  have hc := nameChar_facts (hn c (by simp))
  obtain ⟨c', r', ht', hws, -⟩ := txt_head (all_self hk) ht
  have h1 := txt_rt k false t hk ht ((t ++ rest).length + 1) false rest (by simp) (by omega) (eol_sep hr) hb
  have h2 : kserdConcise (t ++ rest) = .ok rest (rereadK k) := h1
  have h3 := kvp_ok (K := fun force => if force then kserdInline else kserdConcise) (force := false) (n := c :: n') (s := [' ']) (X := rest) (t := t)
    (v := rereadK k) hn (.inr rfl) ⟨c', r', ht', hws⟩ (by simpa using h2)
  have e : str " = " ++ (t ++ rest) = [' '] ++ (str "= " ++ (t ++ rest)) := rfl
  rw [← e] at h3
  rw [List.cons_append] at h3 ⊢
  unfold fieldBody
  rw [if_neg (body_cond _ hc.1)]
  have h4 := cut_ok h3
  split
  · rename_i heq; injection heq with heq _; exact absurd heq hc.2.1
  · rename_i heq; injection heq with heq _; exact absurd heq hc.2.2.1
  · rename_i heq; injection heq with heq _; exact absurd heq hc.2.2.1
  · rw [h4]; rfl

/-- The identity in a heading. -/
def hid : Option Str → Str
  | none => []
  | some i => ':' :: i

theorem name_id {n : Str} {id : Option Str} (hn : ∀ c ∈ n, NameChar c) (hne : n ≠ []) (hi : IdOk id) (r : Str) :
    nameAndIdentity (n ++ (hid id ++ ']' :: r)) = .ok (']' :: r) (n, id) := by
  apply ctx_ok
  obtain ⟨c, n', rfl⟩ := List.exists_cons_of_ne_nil hne
  have hc := nameChar_facts (hn c (by simp))
  have hch : ∀ x ∈ c :: n', isNameChar x = true := fun x hx => (PG.isNameChar_iff x).mpr (hn x hx)
  have hf : fieldName (c :: n' ++ (hid id ++ ']' :: r)) = .ok (hid id ++ ']' :: r) (c :: n') := by
    have := takeWhile_ends (rest := hid id ++ ']' :: r) hch (by
      intro x y e
      cases id with
      | none => cases e; decide
      | some i => cases e; decide)
    rw [fieldName, takeWhile, this.1, this.2]
  rw [List.cons_append] at hf ⊢
  simp only [ignoreWs_none _ _ (inline_multi hc.1), hf, PRes.bind]
  cases id with
  | none =>
    obtain ⟨e, he⟩ := char_err (c := ':') (d := ']') r (by decide)
    simp only [hid, List.nil_append, ignoreWs_none _ _ (show isInlineWs ']' = false by decide), he]
  | some i =>
    have hv := hi i rfl
    have h1 := ident_ok (rest := ']' :: r) hv (by intro x y e; cases e; decide)
    obtain ⟨c', i', rfl, hc', -⟩ := name_head_ws hv
    have h2 : ignoreWs (Nom.char ':') (':' :: (c' :: i' ++ ']' :: r)) = .ok (c' :: i' ++ ']' :: r) ':' := by
      rw [ignoreWs_none _ _ (by decide)]; rfl
    simp only [hid, List.cons_append] at h1 h2 ⊢
    simp only [h2, ignoreWs_none _ _ (inline_multi hc'), h1]

theorem body_nested {nested : Parser Kserd} {n x rest : Str} {id : Option Str} {v : Value} (hn : ∀ c ∈ n, NameChar c) (hne : n ≠ [])
    (hi : IdOk id) (h : nested (x ++ rest) = .ok rest (.mk none v)) :
    fieldBody nested ('[' :: (n ++ (hid id ++ ']' :: ('\n' :: (x ++ rest))))) = .ok rest (.nested n (.mk id v)) := by
  have hname := name_id hn hne hi ('\n' :: (x ++ rest))
  have hb : fieldBody nested ('[' :: (n ++ (hid id ++ ']' :: ('\n' :: (x ++ rest))))) = nestedField nested ('[' :: (n ++ (hid id ++ ']' :: ('\n' :: (x ++ rest))))) := by
    unfold fieldBody
    rw [if_neg (body_cond _ (by decide))]
    obtain ⟨c, n', rfl⟩ := List.exists_cons_of_ne_nil hne
    have hc := nameChar_facts (hn c (by simp))
    rw [List.cons_append]
    split
    · rename_i heq; injection heq with heq _; exact absurd heq (by decide)
    · rename_i heq; injection heq with _ heq; injection heq with heq _; exact absurd heq hc.2.2.1
    · rfl
    · rename_i heq; exact absurd rfl (heq _)
  rw [hb, nestedField]
  have h1 : tag ['['] ('[' :: (n ++ (hid id ++ ']' :: ('\n' :: (x ++ rest))))) = .ok (n ++ (hid id ++ ']' :: ('\n' :: (x ++ rest)))) ['['] := rfl
  have h2 : ignoreWs (tag [']']) (']' :: ('\n' :: (x ++ rest))) = .ok ('\n' :: (x ++ rest)) [']'] := by
    rw [ignoreWs_none _ _ (by decide)]; rfl
  simp only [preceded, terminated, h1, PRes.bind, hname, h2, wsLine_nl, context, h]
  rfl

/-- The text is not the key of a map entry. -/
def NoKey (x : Str) : Prop := ∃ e, terminated (ignoreWs (uncut kserdInline)) (ignoreWs (Nom.char ':')) x = .err e

theorem entry_head {nested : Parser Kserd} {n x : Str} (hn : ∀ c ∈ n, NameChar c) (hne : n ≠ []) :
    (opt (terminated (ignoreWs (uncut kserdInline)) (ignoreWs (Nom.char ':'))) x = .ok x none →
      fieldBody nested (str "[[" ++ (n ++ (str "]]" ++ '\n' :: x))) =
        (context "verbose sequence entry" nested x).bind fun i v => .ok i (.seqEntry none n v)) ∧
    ∀ i key, opt (terminated (ignoreWs (uncut kserdInline)) (ignoreWs (Nom.char ':'))) x = .ok i (some key) →
      fieldBody nested (str "[[" ++ (n ++ (str "]]" ++ '\n' :: x))) =
        (mapEntryValue nested i).bind fun i v => .ok i (.mapEntry none n key v) := by
  have hname := name_id (id := none) hn hne (fun i h => by cases h) (']' :: ('\n' :: x))
  simp only [hid, List.nil_append] at hname
  have e : str "[[" ++ (n ++ (str "]]" ++ '\n' :: x)) = '[' :: '[' :: (n ++ (']' :: ']' :: '\n' :: x)) := rfl
  have hf : fieldBody nested ('[' :: '[' :: (n ++ (']' :: ']' :: '\n' :: x))) = entryField nested ('[' :: '[' :: (n ++ (']' :: ']' :: '\n' :: x))) := by
    unfold fieldBody
    rw [if_neg (body_cond _ (by decide))]
    rfl
  rw [e, hf, entryField]
  have h1 : tag (str "[[") ('[' :: '[' :: (n ++ (']' :: ']' :: '\n' :: x))) = .ok (n ++ (']' :: ']' :: '\n' :: x)) (str "[[") := rfl
  have h2 : ignoreWs (tag (str "]]")) (']' :: ']' :: '\n' :: x) = .ok ('\n' :: x) (str "]]") := by
    rw [ignoreWs_none _ _ (by decide)]; rfl
  have h3 : context "field name. expecting 'field_name[:identity]'"
      (cut (preceded (tag (str "[[")) (terminated nameAndIdentity (ignoreWs (tag (str "]]")))))) ('[' :: '[' :: (n ++ (']' :: ']' :: '\n' :: x))) =
      .ok ('\n' :: x) (n, none) := by
    apply ctx_ok
    apply cut_ok
    simp only [preceded, terminated, h1, PRes.bind, hname, h2]
  rw [h3, bind_ok, wsLine_nl, bind_ok]
  constructor
  · intro h; rw [h, bind_ok]
  · intro i key h; rw [h, bind_ok]

theorem body_seq {nested : Parser Kserd} {n x rest : Str} {k : Kserd} (hn : ∀ c ∈ n, NameChar c) (hne : n ≠ [])
    (hk : NoKey (x ++ rest)) (h : nested (x ++ rest) = .ok rest k) :
    fieldBody nested (str "[[" ++ (n ++ (str "]]" ++ '\n' :: (x ++ rest)))) = .ok rest (.seqEntry none n k) := by
  rw [(entry_head hn hne).1 (opt_err hk)]
  simp only [PRes.bind, ctx_ok h]

theorem body_map {nested : Parser Kserd} {n t x rest : Str} {k v : Kserd} (hn : ∀ c ∈ n, NameChar c) (hne : n ≠ [])
    (hk : All TextOk k) (ht : Txt true k t) (h : mapEntryValue nested (x ++ rest) = .ok rest v) :
    fieldBody nested (str "[[" ++ (n ++ (str "]]" ++ '\n' :: (t ++ ':' :: (x ++ rest))))) = .ok rest (.mapEntry none n (rereadK k) v) := by
  have hf := follow (c := ':') (.inr (.inl rfl)) (x ++ rest)
  have h1 := txt_rt k true t hk ht ((t ++ ':' :: (x ++ rest)).length + 1) true (':' :: (x ++ rest)) (by simp) (by omega) hf.1 (fun _ => hf.2)
  have h2 : uncut kserdInline (t ++ ':' :: (x ++ rest)) = .ok (':' :: (x ++ rest)) (rereadK k) := by
    have : kserdInline (t ++ ':' :: (x ++ rest)) = .ok (':' :: (x ++ rest)) (rereadK k) := h1
    rw [uncut, this]
  have h3 : opt (terminated (ignoreWs (uncut kserdInline)) (ignoreWs (Nom.char ':'))) (t ++ ':' :: (x ++ rest)) = .ok (x ++ rest) (some (rereadK k)) := by
    apply opt_ok
    obtain ⟨c', r', rfl, hws, -⟩ := txt_head (all_self hk) ht
    rw [List.cons_append] at h2 ⊢
    have h4 : ignoreWs (Nom.char ':') (':' :: (x ++ rest)) = .ok (x ++ rest) ':' := by
      rw [ignoreWs_none _ _ (by decide)]; rfl
    simp only [terminated, ignoreWs_none _ _ (inline_multi hws), h2, PRes.bind, h4]
  rw [(entry_head hn hne).2 _ _ h3]
  simp only [PRes.bind, h]

/-! ## Texts that are not keys -/

theorem kd_nl (f : Nat) (force : Bool) (x : Str) : ∃ e, kserdDelimited (f + 1) force ('\n' :: x) = .err e := by
  have h1 : opt (ident true) ('\n' :: x) = .ok ('\n' :: x) none := opt_err (identA_err x (by decide))
  have h2 : opt (ident false) ('\n' :: x) = .ok ('\n' :: x) none := opt_err (ident_err x (by decide) (by decide))
  have h3 : (startsWith (str "true") ('\n' :: x) || startsWith (str "false") ('\n' :: x)) = false := not_word x (by decide) (by decide)
  have hp : patternDelimited ('\n' :: x) = .ok ('\n' :: x) (nextDelim .none (('\n' :: x).dropWhile isMultiWs)) := by
    simp only [patternDelimited, h3, h1, h2, PRes.bind, Bool.false_eq_true, if_false]
  have ho : ∀ {α : Type} (o : Char) (body : Bool → Option Str → Parser α), o ≠ '\n' → ∃ e, opened force o body ('\n' :: x) = .err e := by
    intro α o body ho
    obtain ⟨e, he⟩ := char_err (c := o) (d := '\n') x (Ne.symm ho)
    exact ⟨e, by simp only [opened, h2, PRes.bind, ignoreWs_none _ _ (show isInlineWs '\n' = false by decide), he]⟩
  simp only [kserdDelimited, hp, PRes.bind]
  cases nextDelim .none (('\n' :: x).dropWhile isMultiWs) with
  | tuple => exact ho '(' _ (by decide)
  | cntr => exact ho '(' _ (by decide)
  | seq => exact ho '[' _ (by decide)
  | map => exact ho '{' _ (by decide)
  | none =>
    obtain ⟨e, he⟩ := primValue_err (c := '\n') (by decide) x
    obtain ⟨e', he'⟩ : ∃ e, context "primitive" (separatedPair (opt (ident true)) inlineWs primValue) ('\n' :: x) = .err e :=
      ctx_err ⟨e, by simp only [separatedPair, h1, PRes.bind, inlineWs_none x (show isInlineWs '\n' = false by decide), he]⟩
    exact ⟨e', by simp only [prim, he', PRes.bind]⟩

theorem noKey_of {j : Nat} {c : Char} {y : Str} (hc : isInlineWs c = false)
    (h : ∀ r k, kserdInline (c :: y) = .ok r k → ∃ e, ignoreWs (Nom.char ':') r = .err e) : NoKey (List.replicate j ' ' ++ c :: y) := by
  have hr := PG.inline_res (c :: y)
  rw [NoKey]
  simp only [terminated, ignoreWs_sp _ j y hc]
  cases hk : kserdInline (c :: y) with
  | ok r k =>
    obtain ⟨e, he⟩ := h r k hk
    exact ⟨e, by simp only [uncut, hk, PRes.bind, he]⟩
  | err e => exact ⟨e, by simp only [uncut, hk, PRes.bind]⟩
  | fail e => exact ⟨e, by simp only [uncut, hk, PRes.bind]⟩
  | panic => rw [hk] at hr; exact hr.elim
  | oof => rw [hk] at hr; exact hr.elim

theorem noKey_nl (x : Str) : NoKey ('\n' :: x) := by
  have := noKey_of (j := 0) (c := '\n') (y := x) (by decide) (by
    intro r k h
    obtain ⟨e, he⟩ := kd_nl ('\n' :: x).length true x
    have : kserdInline ('\n' :: x) = .err e := he
    rw [this] at h; cases h)
  simpa using this

theorem noKey_colon (j : Nat) (x : Str) : NoKey (List.replicate j ' ' ++ ':' :: x) := by
  refine noKey_of (by decide) ?_
  intro r k h
  have h1 : kserdInline (':' :: x) = _ := rfl
  have hf : ':' ≠ 't' ∧ ':' ≠ 'f' ∧ ':' ≠ '<' ∧ isAlpha ':' = false ∧ ':' ≠ '_' ∧ isMultiWs ':' = false := by decide
  have hg : ':' ≠ '(' ∧ ':' ≠ '[' ∧ ':' ≠ '{' := by decide
  obtain ⟨e, he⟩ := primValue_err (c := ':') (by decide) x
  obtain ⟨e', he'⟩ : ∃ e, context "primitive" (separatedPair (opt (ident true)) inlineWs primValue) (':' :: x) = .err e :=
    ctx_err ⟨e, by simp only [separatedPair, opt_err (identA_err x hf.2.2.1), PRes.bind, inlineWs_none x (inline_multi hf.2.2.2.2.2), he]⟩
  simp only [kserdInline, kserdDelimited, pat_sym x hf, PRes.bind, nextDelim_other _ _ hg, prim, he'] at h
  cases h

end KS.RT
