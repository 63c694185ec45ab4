import Verif.Lemmas.RtVerbose
/-!
# Elements that are not taken for map keys
-/

namespace KS.RT
open KS.Spec KS.P KS.Nom

theorem alt_inv {α : Type} {i r : Str} {a : α} : ∀ (ps : List (Parser α)), alt ps i = .ok r a → ∃ p ∈ ps, p i = .ok r a
  | [], h => by simp [alt] at h
  | [p], h => by
    refine ⟨p, by simp, ?_⟩
    rw [alt] at h
    cases hp : p i <;> rw [hp] at h <;> first | exact h | cases h
  | p :: q :: ps, h => by
    rw [alt] at h
    · cases hp : p i with
      | ok r' a' => rw [hp] at h; exact ⟨p, by simp, by rw [hp]; exact h⟩
      | err e =>
        rw [hp] at h
        obtain ⟨p', hp', h'⟩ := alt_inv (q :: ps) h
        exact ⟨p', List.mem_cons_of_mem _ hp', h'⟩
      | fail e => rw [hp] at h; cases h
      | panic => rw [hp] at h; cases h
      | oof => rw [hp] at h; cases h
    · simp

theorem ctx_inv {α : Type} {s : String} {p : Parser α} {i r : Str} {a : α} (h : context s p i = .ok r a) : p i = .ok r a := by
  rw [context] at h
  cases hp : p i <;> rw [hp] at h <;> first | exact h | cases h

theorem map_inv {α β : Type} {p : Parser α} {f : α → β} {i r : Str} {b : β} (h : Nom.map p f i = .ok r b) : ∃ a, p i = .ok r a := by
  rw [Nom.map] at h
  cases hp : p i with
  | ok r' a =>
    rw [hp] at h
    injection h with h1 h2
    exact ⟨a, by rw [h1]⟩
  | _ => rw [hp] at h; cases h

theorem bind_inv {α β : Type} {x : PRes α} {f : Str → α → PRes β} {r : Str} {b : β} (h : x.bind f = .ok r b) : ∃ r' a, x = .ok r' a ∧ f r' a = .ok r b := by
  cases x with
  | ok r' a => exact ⟨r', a, rfl, h⟩
  | _ => cases h

theorem tag_inv {t i r a : Str} (h : tag t i = .ok r a) : i = t ++ r := by
  have := PG.tag_res t i
  rw [h] at this
  exact this.2

/-- What a primitive at the start of `name = ..`, `name]..` or `name:..` can leave. -/
theorem prim_name {n z r : Str} {d : Char} {v : Value} (hd : d = ' ' ∨ d = ']' ∨ d = ':') (hn : ∀ c ∈ n, NameChar c) (hne : n ≠ []) (hs : ¬ str "str" <+: n)
    (h : primValue (n ++ d :: z) = .ok r v) : ∃ n', n' <:+ n ∧ r = n' ++ d :: z := by
  have hch : ∀ c ∈ n, isNameChar c = true := fun c hc => (PG.isNameChar_iff c).mpr (hn c hc)
  have hend : Ends isNameChar (d :: z) := by rintro c r ⟨⟩; rcases hd with rfl | rfl | rfl <;> decide
  obtain ⟨c, n1, hcn⟩ := List.exists_cons_of_ne_nil hne
  have hc : isNameChar c = true := hch c (by rw [hcn]; simp)
  have hcx : c ≠ '(' ∧ c ≠ '"' ∧ c ≠ '\'' := by
    refine ⟨?_, ?_, ?_⟩ <;> (rintro rfl; revert hc; decide)
  have hi : n ++ d :: z = c :: (n1 ++ d :: z) := by rw [hcn]; rfl
  obtain ⟨p, hp, hpi⟩ := alt_inv _ (ctx_inv h)
  have pre : ∀ t r' : Str, (∀ c ∈ t, isNameChar c = true) → n ++ d :: z = t ++ r' → ∃ n', n' <:+ n ∧ r' = n' ++ d :: z := by
    intro t r' ht e
    have h1 : t <+: n := prefix_ends ht hend ⟨r', e.symm⟩
    obtain ⟨n', rfl⟩ := h1
    refine ⟨n', ⟨t, rfl⟩, ?_⟩
    rw [List.append_assoc] at e
    exact (List.append_cancel_left e).symm
  simp only [List.mem_cons, List.not_mem_nil, or_false] at hp
  rcases hp with rfl | rfl | rfl | rfl | rfl
  · obtain ⟨a, ha⟩ := map_inv hpi
    obtain ⟨e, he⟩ := unitValue_err (n1 ++ d :: z) hcx.1
    rw [hi, he] at ha; cases ha
  · obtain ⟨a, ha⟩ := map_inv hpi
    obtain ⟨p, hp, hpi⟩ := alt_inv _ (ctx_inv ha)
    simp only [List.mem_cons, List.not_mem_nil, or_false] at hp
    rcases hp with rfl | rfl
    · obtain ⟨a, ha⟩ := map_inv hpi
      exact pre _ _ (by decide) (tag_inv ha)
    · obtain ⟨a, ha⟩ := map_inv hpi
      exact pre _ _ (by decide) (tag_inv ha)
  · obtain ⟨a, ha⟩ := map_inv hpi
    have ha := ctx_inv ha
    obtain ⟨r', o, h1, h2⟩ := bind_inv ha
    have hr : r' = r := by
      cases hf : Number.fromStr o <;> rw [hf] at h2 <;> cases h2
      rfl
    rw [takeWhile] at h1
    injection h1 with h1 _
    refine ⟨n.dropWhile isNumChar, List.dropWhile_suffix _, ?_⟩
    rw [← hr, ← h1]
    have hsp : isNumChar d = false := by rcases hd with rfl | rfl | rfl <;> decide
    rw [List.dropWhile_append]
    split
    · rename_i he
      rw [List.isEmpty_iff] at he
      rw [he]; simp [hsp]
    · rfl
  · obtain ⟨a, ha⟩ := map_inv hpi
    rw [string] at ha
    have hno : stripPrefix (str "str") (n ++ d :: z) = none := by
      by_contra hh
      have h1 : startsWith (str "str") (n ++ d :: z) = true := by
        rw [startsWith]; exact Option.isSome_iff_ne_none.mpr hh
      rw [startsWith_iff] at h1
      exact hs (prefix_ends (by decide) hend h1)
    rw [hno] at ha
    have ha := ctx_inv ha
    rw [parseStr, preceded] at ha
    obtain ⟨r', o, h1, h2⟩ := bind_inv ha
    obtain ⟨e, he⟩ := char_err (c := '"') (d := c) (n1 ++ d :: z) hcx.2.1
    rw [hi, he] at h1; cases h1
  · obtain ⟨a, ha⟩ := map_inv hpi
    have ha := ctx_inv ha
    rw [preceded] at ha
    obtain ⟨r', o, h1, h2⟩ := bind_inv ha
    have h3 := tag_inv h1
    exfalso
    have h4 : '\'' ∉ n := by
      intro hm
      have := hch _ hm
      revert this; decide
    have h5 : str "b91'" ++ r' = ['b', '9', '1', '\''] ++ r' := rfl
    rw [h5] at h3
    match n, h3, h4, hne with
    | [a], h3, h4, _ => injection h3 with _ h3; injection h3 with h3 _; rcases hd with rfl | rfl | rfl <;> exact absurd h3 (by decide)
    | [a, b], h3, h4, _ =>
      injection h3 with _ h3; injection h3 with _ h3; injection h3 with h3 _; rcases hd with rfl | rfl | rfl <;> exact absurd h3 (by decide)
    | [a, b, c], h3, h4, _ =>
      injection h3 with _ h3; injection h3 with _ h3; injection h3 with _ h3; injection h3 with h3 _
      rcases hd with rfl | rfl | rfl <;> exact absurd h3 (by decide)
    | a :: b :: c :: d' :: n, h3, h4, _ =>
      injection h3 with _ h3; injection h3 with _ h3; injection h3 with _ h3; injection h3 with h3 _
      exact h4 (by simp [h3])

theorem pat_assign {n z : Str} {d : Char} (hd : d = ' ' ∨ d = ']' ∨ d = ':') (hp : nextDelim .nonprim ((d :: z).dropWhile isMultiWs) = .none)
    (hn : ∀ c ∈ n, NameChar c) (hne : n ≠ []) :
    patternDelimited (n ++ d :: z) = .ok (n ++ d :: z) .none := by
  have hch : ∀ c ∈ n, isNameChar c = true := fun c hc => (PG.isNameChar_iff c).mpr (hn c hc)
  have hend : Ends isNameChar (d :: z) := by rintro c r ⟨⟩; rcases hd with rfl | rfl | rfl <;> decide
  obtain ⟨c, n1, rfl⟩ := List.exists_cons_of_ne_nil hne
  have hc : isNameChar c = true := hch c (by simp)
  have hf := nameChar_facts (hn c (by simp))
  have hlt : c ≠ '<' ∧ c ≠ '(' ∧ c ≠ '{' := by
    refine ⟨?_, ?_, ?_⟩ <;> (rintro rfl; revert hc; decide)
  rw [patternDelimited]
  split
  · rfl
  · have h1 : opt (ident true) (c :: n1 ++ d :: z) = .ok (c :: n1 ++ d :: z) none := opt_err (identA_err _ hlt.1)
    rw [h1, bind_ok]
    by_cases hv : isAlpha c = true ∨ c = '_'
    · have hvn : ValidName (c :: n1) := by
        refine ⟨c, n1, rfl, ?_, fun x hx => hn x (List.mem_cons_of_mem _ hx)⟩
        rwa [← PG.isAlpha_iff]
      have h2 := opt_ok (ident_ok hvn hend)
      simp only [h2, bind_ok, hp]
    · have hv1 : isAlpha c = false ∧ c ≠ '_' := by
        constructor
        · cases h : isAlpha c
          · rfl
          · exact absurd (.inl h) hv
        · exact fun h => hv (.inr h)
      have h2 : opt (ident false) (c :: n1 ++ d :: z) = .ok (c :: n1 ++ d :: z) none := opt_err (ident_err _ hv1.1 hv1.2)
      simp only [h2, bind_ok]
      rw [List.cons_append, dropWs _ hf.1, nextDelim_other _ _ ⟨hlt.2.1, hf.2.2.1, hlt.2.2⟩]

/-- What a Kserd at the start of `name = ..`, `name]..` or `name:..` can leave. -/
theorem kd_name {n z r : Str} {d : Char} {k : Kserd} {f : Nat} {b : Bool} (hd : d = ' ' ∨ d = ']' ∨ d = ':')
    (hp : nextDelim .nonprim ((d :: z).dropWhile isMultiWs) = .none) (hn : ∀ c ∈ n, NameChar c) (hne : n ≠ []) (hs : ¬ str "str" <+: n)
    (h : kserdDelimited (f + 1) b (n ++ d :: z) = .ok r k) : ∃ n', n' <:+ n ∧ r = n' ++ d :: z := by
  obtain ⟨c, n1, hcn⟩ := List.exists_cons_of_ne_nil hne
  have hf := nameChar_facts (hn c (by rw [hcn]; simp))
  have hi : n ++ d :: z = c :: (n1 ++ d :: z) := by rw [hcn]; rfl
  have hlt : c ≠ '<' := by
    rintro rfl
    have := (PG.isNameChar_iff _).mpr (hn '<' (by rw [hcn]; simp)); revert this; decide
  have h1 : opt (ident true) (n ++ d :: z) = .ok (n ++ d :: z) none := by
    rw [hi]; exact opt_err (identA_err _ hlt)
  have h2 : inlineWs (n ++ d :: z) = .ok (n ++ d :: z) [] := by
    rw [hi]; exact inlineWs_none _ (inline_multi hf.1)
  have h3 : ∃ v, primValue (n ++ d :: z) = .ok r v := by
    simp only [kserdDelimited, pat_assign hd hp hn hne, bind_ok, prim] at h
    obtain ⟨r', a, ha, hb⟩ := bind_inv h
    have ha := ctx_inv ha
    simp only [separatedPair, h1, h2, bind_ok] at ha
    obtain ⟨r2, a2, hc, hd⟩ := bind_inv ha
    injection hd with hd1 hd2
    subst hd1 hd2
    simp only [kserdCtor] at hb
    injection hb with hb1 _
    subst hb1
    exact ⟨a2, hc⟩
  obtain ⟨v, h3⟩ := h3
  exact prim_name hd hn hne hs h3

/-- The first field of a verbose container is not a map key, unless its name begins with `str`. -/
theorem noKey_name (j : Nat) {n z : Str} (hn : ∀ c ∈ n, NameChar c) (hne : n ≠ []) (hs : ¬ str "str" <+: n) :
    NoKey (List.replicate j ' ' ++ (n ++ (str " = " ++ z))) := by
  obtain ⟨c, n1, hcn⟩ := List.exists_cons_of_ne_nil hne
  have hf := nameChar_facts (hn c (by rw [hcn]; simp))
  have e : n ++ (str " = " ++ z) = n ++ ' ' :: '=' :: ' ' :: z := rfl
  have hi : n ++ ' ' :: '=' :: ' ' :: z = c :: (n1 ++ ' ' :: '=' :: ' ' :: z) := by rw [hcn]; rfl
  rw [e, hi]
  refine noKey_of (inline_multi hf.1) ?_
  rw [← hi]
  intro r k h
  obtain ⟨n', hn', rfl⟩ := kd_name (.inl rfl) rfl hn hne hs h
  cases n' with
  | nil =>
    rw [List.nil_append, ignoreWs_one _ _ (by decide)]
    exact char_err _ (by decide)
  | cons d n' =>
    have hd := nameChar_facts (hn d (hn'.subset (by simp)))
    rw [List.cons_append, ignoreWs_none _ _ (inline_multi hd.1)]
    exact char_err _ hd.2.1

/-- A text over several lines is not read as an inline Kserd. -/
theorem forced_not_ok {id : Option Str} (hid : CId id) {sp : Str} (hs : Blank sp) {o : Char} (ho : o ∈ openers) (x : Str) (f : Nat) :
    (kserdDelimited (f + 2) true (nid sp id ++ o :: '\n' :: x)).isOk = false := by
  have hp := comp_pat hid hs ho ('\n' :: x)
  have hie : ∀ c : Char, c ≠ '\n' → ∃ e, ignoreWs (Nom.char c) ('\n' :: x) = .err e := fun c hc => ignore_err (by decide) (char_err _ (Ne.symm hc))
  have hlist : inlineList (kserdDelimited (f + 1)) ('\n' :: x) = .ok ('\n' :: x) [] := ctx_ok (sep0_nil (ignore_err (by decide) (kd_nl f true x)))
  have hcntr : inlineCntr (kserdDelimited (f + 1)) ('\n' :: x) = .ok ('\n' :: x) [] := by
    refine ctx_ok (sep0_nil (ignore_err (by decide) (ctx_err ?_)))
    obtain ⟨e, he⟩ := hie '=' (by decide)
    have h1 : fieldName ('\n' :: x) = .ok ('\n' :: x) [] := by
      have : isNameChar '\n' = false := by decide
      simp [fieldName, takeWhile, this]
    exact ⟨e, by simp only [separatedPair, h1, he, PRes.bind]⟩
  have hmap : inlineMap (kserdDelimited (f + 1)) ('\n' :: x) = .ok ('\n' :: x) [] := by
    refine ctx_ok (sep0_nil (ignore_err (by decide) (ctx_err ?_)))
    obtain ⟨e, he⟩ : ∃ e, alt [kserdDelimited (f + 1) false, kserdDelimited (f + 1) true] ('\n' :: x) = .err e := by
      rw [alt_skip _ (kd_nl f false x)]
      exact alt_last (kd_nl f true x)
    exact ⟨e, by simp only [separatedPair, he, PRes.bind]⟩
  simp only [kserdDelimited, hp, bind_ok]
  have tup : (tuple (kserdDelimited (f + 1)) true (nid sp id ++ '(' :: '\n' :: x)).isOk = false := by
    obtain ⟨e, he⟩ := hie ')' (by decide)
    rw [tuple, opened_eq hid hs (by decide), Bool.not_true, Bool.and_false]
    simp only [Bool.false_eq_true, if_false, context, cut, terminated, hlist, bind_ok, he, PRes.bind, PRes.isOk]
  have cnt : (cntrDelimited (kserdDelimited (f + 1)) true (nid sp id ++ '(' :: '\n' :: x)).isOk = false := by
    obtain ⟨e, he⟩ := hie ')' (by decide)
    rw [cntrDelimited, opened_eq hid hs (by decide), Bool.not_true, Bool.and_false]
    simp only [Bool.false_eq_true, if_false, context, terminated, hcntr, bind_ok, he, PRes.bind, PRes.isOk]
  have sq : (seqDelimited (kserdDelimited (f + 1)) true (nid sp id ++ '[' :: '\n' :: x)).isOk = false := by
    obtain ⟨e, he⟩ := hie ']' (by decide)
    rw [seqDelimited, opened_eq hid hs (by decide), Bool.not_true, Bool.and_false]
    simp only [Bool.false_eq_true, if_false, context, cut, terminated, hlist, bind_ok, he, PRes.bind, PRes.isOk]
  have mp : (mapDelimited (kserdDelimited (f + 1)) true (nid sp id ++ '{' :: '\n' :: x)).isOk = false := by
    obtain ⟨e, he⟩ := hie '}' (by decide)
    rw [mapDelimited, opened_eq hid hs (by decide), Bool.not_true, Bool.and_false]
    simp only [Bool.false_eq_true, if_false, context, terminated, hmap, bind_ok, he, PRes.bind, PRes.isOk]
  simp only [openers, List.mem_cons, List.not_mem_nil, or_false] at ho
  rcases ho with rfl | rfl | rfl
  · have hnu : NotUnit id ('\n' :: x) := by
      intro _ c r e
      have : ('\n' :: x).dropWhile isInlineWs = '\n' :: x := by simp [show isInlineWs '\n' = false by decide]
      rw [this] at e
      cases e; decide
    rw [next_paren hnu]
    split
    · rename_i heq; split at heq
      · cases heq
      · exact tup
    · exact cnt
    · rename_i heq; split at heq <;> cases heq
    · rename_i heq; split at heq <;> cases heq
    · rename_i heq; split at heq <;> cases heq
  · rw [next_seq]; exact sq
  · rw [next_map]; exact mp

/-- A text is inline or its first delimiter ends a line. -/
theorem txt_inline_or {k : Kserd} {t : Str} (hk : TextOk k) (h : Txt false k t) :
    Txt true k t ∨ ∃ sp o x, CId k.id ∧ Blank sp ∧ o ∈ openers ∧ t = nid sp k.id ++ o :: '\n' :: x := by
  obtain ⟨id, v⟩ := k
  rw [Txt] at h ⊢
  cases v with
  | tuple l =>
    rw [TxtV] at h ⊢
    obtain ⟨sp, b, hs, e, h | ⟨-, h⟩⟩ := h
    · exact .inl ⟨sp, b, hs, e, .inl h⟩
    · obtain ⟨r, rfl⟩ := txtC_cons h
      exact .inr ⟨sp, '(', r ++ [')'], fun i hi => ⟨hk.1 i hi, hk.2.1 i hi⟩, hs, by decide, e⟩
  | seq l =>
    rw [TxtV] at h ⊢
    obtain ⟨sp, b, hs, e, h | ⟨-, h⟩⟩ := h
    · exact .inl ⟨sp, b, hs, e, .inl h⟩
    · obtain ⟨r, rfl⟩ := txtC_cons h
      exact .inr ⟨sp, '[', r ++ [']'], fun i hi => ⟨hk.1 i hi, hk.2 i hi⟩, hs, by decide, e⟩
  | cntr l =>
    rw [TxtV] at h ⊢
    obtain ⟨sp, b, hs, e, h | ⟨-, -, h⟩⟩ := h
    · exact .inl ⟨sp, b, hs, e, .inl h⟩
    · obtain ⟨r, rfl⟩ := txtFC_cons h
      exact .inr ⟨sp, '(', r ++ [')'], fun i hi => ⟨hk.1 i hi, hk.2.1 i hi⟩, hs, by decide, e⟩
  | map l =>
    rw [TxtV] at h ⊢
    obtain ⟨sp, b, hs, e, h | ⟨-, h⟩⟩ := h
    · exact .inl ⟨sp, b, hs, e, .inl h⟩
    · obtain ⟨r, rfl⟩ := txtMC_cons h
      exact .inr ⟨sp, '{', r ++ ['}'], fun i hi => ⟨hk.1 i hi, hk.2.1 i hi⟩, hs, by decide, e⟩
  | _ => rw [TxtV] at h ⊢; exact .inl h

theorem colon_eol {rest : Str} (h : Eol rest) : ∃ e, ignoreWs (Nom.char ':') rest = .err e := by
  rcases h with rfl | ⟨x, rfl⟩
  · exact ⟨_, by rw [ignoreWs_nil]; rfl⟩
  · exact ignore_err (by decide) (char_err x (by decide))

theorem noKey_txt (j : Nat) {k : Kserd} {t rest : Str} (hk : All TextOk k) (h : Txt false k t) (hr : Ended k t rest) (hb : Bare k → NoOpen rest) :
    NoKey (List.replicate j ' ' ++ (t ++ rest)) := by
  obtain ⟨c, r, ht, hws, -⟩ := txt_head (all_self hk) h
  have e : t ++ rest = c :: (r ++ rest) := by rw [ht]; rfl
  rw [e]
  refine noKey_of (inline_multi hws) ?_
  rw [← e]
  intro r' k' h1
  have h1' : kserdDelimited ((t ++ rest).length + 1) true (t ++ rest) = .ok r' k' := h1
  have hr' : (Eol rest ∧ Txt true k t) ∨ ∃ sp o x, CId k.id ∧ Blank sp ∧ o ∈ openers ∧ t = nid sp k.id ++ o :: '\n' :: x := by
    rcases txt_inline_or (all_self hk) h with h2 | h2
    · rcases hr with hr | hr
      · exact .inl ⟨hr, h2⟩
      · exact .inr hr.2
    · exact .inr h2
  rcases hr' with ⟨hr, h2⟩ | ⟨sp, o, x, hid, hs, ho, rfl⟩
  · rw [txt_rt k true t hk h2 _ true rest (by simp) (by omega) (eol_sep hr) hb] at h1'
    injection h1' with h1' _
    rw [← h1']; exact colon_eol hr
  · have := forced_not_ok hid hs ho (x ++ rest) ((nid sp k.id).length + x.length + rest.length + 1)
    rw [delimited_fuel_eq (f := (nid sp k.id).length + x.length + rest.length + 1 + 2)] at h1'
    · simp only [List.append_assoc, List.cons_append] at h1'
      rw [h1'] at this; cases this
    · exact Nat.lt_succ_self _
    · simp; omega
where
  delimited_fuel_eq {i : Str} {g f : Nat} (hg : i.length < g) (hf : i.length < f) : kserdDelimited g true i = kserdDelimited f true i :=
    PG.delimited_fuel g f true i hg hf

end KS.RT
