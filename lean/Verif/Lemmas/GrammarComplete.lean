import Verif.Lemmas.GrammarSound
import Verif.Lemmas.ExtList
/-!
# Text of the grammar is accepted by the parser: delimited values
-/

namespace KS.GR
open KS.Spec KS.P KS.Nom KS.RT KS.Ext

variable {α β γ : Type}

/-! ## White space -/

theorem drop_ends {p : Char → Bool} {a r : Str} (ha : ∀ c ∈ a, p c = true) (hr : Ends p r) : (a ++ r).dropWhile p = r := (takeWhile_ends ha hr).2

theorem inlineWs_ok {w r : Str} (hw : Blanks w) (hr : Ends isInlineWs r) : inlineWs (w ++ r) = .ok r w :=
  tw_ends (fun c hc => (inline_iff c).mpr (hw c hc)) hr

theorem multiWs_ok {w r : Str} (hw : White w) (hr : Ends isMultiWs r) : multiWs (w ++ r) = .ok r w :=
  tw_ends (fun c hc => (multi_iff c).mpr (hw c hc)) hr

/-- Blanks are ignored, whatever follows. -/
theorem ignoreWs_blanks {p : Parser α} {w : Str} (hw : Blanks w) (i : Str) : ignoreWs p (w ++ i) = ignoreWs p i := by
  rw [ignoreWs_eq, ignoreWs_eq, List.dropWhile_append_of_pos (fun c hc => (inline_iff c).mpr (hw c hc))]

theorem ignoreWs_ends {p : Parser α} {i : Str} (hi : Ends isInlineWs i) : ignoreWs p i = p i := by
  rw [ignoreWs_eq]
  have := drop_ends (a := []) (by intro c hc; cases hc) hi
  rw [List.nil_append] at this
  rw [this]

theorem ignoreWs_ok {p : Parser α} {w i : Str} (hw : Blanks w) (hi : Ends isInlineWs i) : ignoreWs p (w ++ i) = p i := by
  rw [ignoreWs_blanks hw, ignoreWs_ends hi]

theorem ends_cons {p : Char → Bool} {c : Char} (h : p c = false) (r : Str) : Ends p (c :: r) := by intro x t e; cases e; exact h

theorem char_ok (c : Char) (r : Str) : Nom.char c (c :: r) = .ok r c := by rw [Nom.char, if_pos rfl]

theorem ign_char {c : Char} (hc : isInlineWs c = false) {w : Str} (hw : Blanks w) (r : Str) : ignoreWs (Nom.char c) (w ++ c :: r) = .ok r c := by
  rw [ignoreWs_ok hw (ends_cons hc r), char_ok]

theorem blanks_append {a b : Str} (ha : Blanks a) (hb : Blanks b) : Blanks (a ++ b) := fun c hc => by
  rcases List.mem_append.mp hc with h | h
  · exact ha c h
  · exact hb c h

theorem blanks_empty : Blanks [] := by intro c hc; cases hc

/-! ## Literals -/

theorem parseStr_ok {d : Char} {s : Str} (h : d ∉ s) (r : Str) : parseStr d (d :: (s ++ d :: r)) = .ok r s := by
  have h1 : takeTill (· == d) (s ++ d :: r) = .ok (d :: r) s :=
    takeWhile_stop (fun c hc => by simp only [Bool.not_eq_true', beq_eq_false_iff_ne]; rintro rfl; exact h hc) (by simp) r
  rw [parseStr, preceded, char_ok, bind_ok]
  exact cut_ok (by rw [terminated, h1, bind_ok, char_ok, bind_ok])

theorem unitValue_ok {w : Str} (hw : Blanks w) (r : Str) : unitValue ('(' :: (w ++ ')' :: r)) = .ok r () := by
  have h2 : terminated inlineWs (char ')') (w ++ ')' :: r) = .ok r w := by rw [terminated, inlineWs_ok hw (ends_cons (by decide) r)]; rfl
  rw [unitValue]
  refine ctx_ok (map_ok _ (a := w) ?_)
  rw [preceded]
  exact cut_ok h2

theorem num_none {c : Char} (h : isNumChar c = false) (r : Str) : ∃ e, num (c :: r) = .err e :=
  num_err (by simp only [List.takeWhile_cons, h, Bool.false_eq_true, if_false]; exact fromStr_nil)

theorem lit_complete {l : Literal} {rest : Str} (h : l.Ok) (hc : l.Complete rest) : primValue (l.text ++ rest) = .ok rest l.value := by
  cases l with
  | unit w =>
    apply ctx_ok
    have := unitValue_ok h rest
    rw [show (Literal.unit w).text ++ rest = '(' :: (w ++ ')' :: rest) by simp [Literal.text]]
    exact alt_ok _ (map_ok _ this)
  | bool b =>
    have := primValue_bool b rest
    cases b <;> exact this
  | num t n =>
    obtain ⟨c, r, e, -, -, -, hb⟩ := lit_head (l := .num t n) h
    have hb := hb rfl
    have e : t = c :: r := e
    have hp : c ≠ '(' := by
      rintro rfl
      have := h.1 '(' (by rw [e]; simp)
      rw [← numChar_iff] at this; revert this; decide
    apply ctx_ok
    show alt _ (t ++ rest) = _
    have hn : num (t ++ rest) = .ok rest n := by
      apply ctx_ok
      rw [tw_ends (fun c hc => (numChar_iff c).mpr (h.1 c hc)) (ends_of numChar_iff hc), bind_ok]
      simp only [h.2]
    rw [e] at hn ⊢
    rw [List.cons_append] at hn ⊢
    rw [alt_skip _ (map_err _ (unitValue_err _ hp)), alt_skip _ (map_err _ (boolean_err _ hb.1 hb.2))]
    exact alt_ok _ (map_ok _ hn)
  | quoted s =>
    apply ctx_ok
    rw [show (Literal.quoted s).text ++ rest = '"' :: (s ++ '"' :: rest) by simp [Literal.text]]
    rw [alt_skip _ (map_err _ (unitValue_err _ (by decide))), alt_skip _ (map_err _ (boolean_err _ (by decide) (by decide))),
      alt_skip _ (map_err _ (num_none (by decide) _))]
    refine alt_ok _ (map_ok _ ?_)
    have : ∀ i, stripPrefix (str "str") ('"' :: i) = none := fun _ => rfl
    simp only [string, this]
    exact ctx_ok (parseStr_ok h rest)
  | delimited d s =>
    apply ctx_ok
    rw [show (Literal.delimited d s).text ++ rest = 's' :: 't' :: 'r' :: (d :: (s ++ d :: rest)) by simp [Literal.text]; rfl]
    rw [alt_skip _ (map_err _ (unitValue_err _ (by decide))), alt_skip _ (map_err _ (boolean_err _ (by decide) (by decide))),
      alt_skip _ (map_err _ (num_none (by decide) _))]
    refine alt_ok _ (map_ok _ ?_)
    have : ∀ i, stripPrefix (str "str") ('s' :: 't' :: 'r' :: i) = some i := fun _ => rfl
    simp only [string, this, List.head?_cons, Option.getD_some]
    exact ctx_ok (parseStr_ok h rest)
  | bytes t =>
    apply ctx_ok
    rw [show (Literal.bytes t).text ++ rest = 'b' :: '9' :: '1' :: '\'' :: (t ++ '\'' :: rest) by simp [Literal.text]; rfl]
    have hstr : ∀ i, ∃ e, string ('b' :: i) = .err e := by
      intro i
      have : stripPrefix (str "str") ('b' :: i) = none := rfl
      simp only [string, this]
      apply ctx_err
      exact ⟨[('b' :: i, .char '"')], rfl⟩
    rw [alt_skip _ (map_err _ (unitValue_err _ (by decide))), alt_skip _ (map_err _ (boolean_err _ (by decide) (by decide))),
      alt_skip _ (map_err _ (num_none (by decide) _)), alt_skip _ (map_err _ (hstr _))]
    refine alt_ok _ (map_ok _ ?_)
    have h1 : takeTill (· == '\'') (t ++ '\'' :: rest) = .ok ('\'' :: rest) t :=
      takeWhile_stop (fun c hc => by simp only [Bool.not_eq_true', beq_eq_false_iff_ne]; rintro rfl; exact h hc) (by simp) rest
    refine ctx_ok ?_
    rw [preceded, show tag (str "b91'") ('b' :: '9' :: '1' :: '\'' :: (t ++ '\'' :: rest)) = .ok (t ++ '\'' :: rest) (str "b91'") from rfl, bind_ok]
    exact cut_ok (by rw [terminated, map_ok _ h1, bind_ok, char_ok, bind_ok])

/-! ## Where values begin -/

theorem tree_head {T : Tree} {inl : Bool} {rest : Str} (h : T.Reads inl rest) : ∃ c r, T.text = c :: r ∧ isMultiWs c = false ∧ c ∉ closers := by
  have comp : ∀ (id : Option Str) (w : Str) (o : Char) (x : Str), NameOk id → (id = none → w = []) → isMultiWs o = false → o ∉ closers →
      ∃ c r, plainId id ++ (w ++ o :: x) = c :: r ∧ isMultiWs c = false ∧ c ∉ closers := by
    intro id w o x h1 h2 h3 h4
    cases id with
    | none => rw [h2 rfl]; exact ⟨o, x, rfl, h3, h4⟩
    | some i =>
      obtain ⟨c, t, rfl, -, hm, -, hc⟩ := name_start (h1 i rfl)
      exact ⟨c, t ++ (w ++ o :: x), rfl, hm, hc⟩
  cases T with
  | prim id w l =>
    obtain ⟨h1, -, h2, h3, -⟩ := h
    rw [Tree.text]
    cases id with
    | none =>
      obtain ⟨c, r, e, hm, -, hc, -⟩ := lit_head h3
      rw [h2 rfl, e]
      exact ⟨c, r, rfl, hm, hc⟩
    | some i => exact ⟨'<', i ++ ['>'] ++ (w ++ l.text), rfl, by decide, by decide⟩
  | tuple id w c lead b => rw [Tree.text]; exact comp _ _ _ _ h.1 h.2.2.1 (by decide) (by decide)
  | seq id w c lead b => rw [Tree.text]; exact comp _ _ _ _ h.1 h.2.2.1 (by decide) (by decide)
  | cntr id w c lead b => rw [Tree.text]; exact comp _ _ _ _ h.1 h.2.2.1 (by decide) (by decide)
  | map id w c lead b => rw [Tree.text]; exact comp _ _ _ _ h.1 h.2.2.1 (by decide) (by decide)

theorem tree_ends {T : Tree} {inl : Bool} {rest : Str} (h : T.Reads inl rest) (x : Str) : Ends isInlineWs (T.text ++ x) := by
  obtain ⟨c, r, e, hm, -⟩ := tree_head h
  rw [e]
  exact inline_of_multi (ends_cons hm _)

/-- The tree is read in front of everything it fits in front of. -/
def Good (T : Tree) : Prop := ∀ inl rest, T.Reads inl rest → ∃ k, K inl (T.text ++ rest) = .ok rest k ∧ T.Val k

/-- Reading a name never fails for good. -/
theorem ident_total (i : Str) : (∃ e, ident false i = .err e) ∨ ∃ j n, ident false i = .ok j n := by
  cases i with
  | nil => exact .inl ⟨_, rfl⟩
  | cons c r =>
    by_cases hc : isAlpha c = true ∨ c = '_'
    · right
      have hv : ValidName (c :: r.takeWhile isNameChar) :=
        ⟨c, _, rfl, hc.imp (PG.isAlpha_iff c).mp id, fun x hx => (PG.isNameChar_iff x).mp (List.mem_takeWhile_imp hx)⟩
      have he : Ends isNameChar (r.dropWhile isNameChar) := (takeWhile_inv (i := r) (a := r.takeWhile isNameChar) rfl).2.2
      have := ident_ok hv he
      rw [List.cons_append, List.takeWhile_append_dropWhile] at this
      exact ⟨_, _, this⟩
    · left
      rw [not_or] at hc
      exact ident_err r (by simpa using hc.1) hc.2

theorem nextDelim_none {c : Char} (r : Str) (h : c ≠ '(' ∧ c ≠ '[' ∧ c ≠ '{') (id : IdentKind) : nextDelim id (c :: r) = .none := by
  rw [nextDelim]
  simp only [List.head?_cons, Option.getD_some]
  split <;> simp_all

theorem prim_good (id : Option Str) (w : Str) (l : Literal) : Good (.prim id w l) := by
  intro inl rest h
  obtain ⟨h1, h2, h3, h4, h5, h6⟩ := h
  refine ⟨.mk id l.value, ?_, rfl⟩
  obtain ⟨c, r, e, hm, hlt, hcl, hbool⟩ := lit_head h4
  have hl := lit_complete h4 h5
  have hp : patternDelimited ((Tree.prim id w l).text ++ rest) = .ok ((Tree.prim id w l).text ++ rest) .none := by
    cases id with
    | some i =>
      have := pat_prim (h1 i rfl) (w ++ l.text ++ rest)
      rw [show (Tree.prim (some i) w l).text ++ rest = '<' :: (i ++ '>' :: (w ++ l.text ++ rest)) by simp [Tree.text, angled]]
      exact this
    | none =>
      have et : (Tree.prim none w l).text ++ rest = l.text ++ rest := by rw [h3 rfl]; simp [Tree.text, angled]
      rw [et]
      have hA : opt (ident true) (l.text ++ rest) = .ok (l.text ++ rest) none := by
        apply opt_err; rw [e]; exact identA_err _ hlt
      rcases pattern_cases (l.text ++ rest) with ⟨-, hp⟩ | ⟨hb, ⟨j, n, ho, hp⟩ | ⟨-, j, n, ho, hp⟩ | ⟨-, ho, hp⟩ | hp⟩
      · exact hp
      · exact hp
      · rw [hp]
        rcases opt_inv ho with ⟨x, hx, hi⟩ | ⟨hx, -⟩
        · cases hx
          obtain ⟨ej, hv, -⟩ := ident_inv hi
          by_cases hbr : ∃ w c z, j = w ++ c :: z ∧ White w ∧ (c = '(' ∨ c = '[' ∨ c = '{')
          · obtain ⟨w', c', z, rfl, hw', hc'⟩ := hbr
            have hlb : l.isBool = false := by
              rw [← Bool.not_eq_true]
              intro hlb
              apply hb
              cases l with
              | bool b => cases b; exact .inr (List.prefix_append _ _); exact .inl (List.prefix_append _ _)
              | _ => cases hlb
            exact absurd ⟨n, w', c', z, ej, hv, hw', hc'⟩ (h6 rfl hlb)
          · congr 1
            obtain ⟨u, eu, hu, hend⟩ := dropWhile_split isMultiWs j
            cases hd : j.dropWhile isMultiWs with
            | nil => simp [nextDelim]
            | cons c' z =>
              apply nextDelim_none
              refine ⟨?_, ?_, ?_⟩ <;> rintro rfl <;> exact hbr ⟨u, _, z, by rw [← hd]; exact eu, fun c hc => (multi_iff c).mp (hu c hc), by simp⟩
        · cases hx
      · rw [hp]
        congr 1
        rw [e, List.cons_append, List.dropWhile_cons, hm]
        simp only [Bool.false_eq_true, if_false]
        by_cases hu : ∃ u, l = .unit u
        · obtain ⟨u, rfl⟩ := hu
          have h0 := unitValue_ok (w := u) h4 rest
          have e' : c :: (r ++ rest) = '(' :: (u ++ ')' :: rest) := by
            rw [← List.cons_append, ← e]; simp [Literal.text]
          rw [e', nextDelim]
          simp only [List.head?_cons, Option.getD_some, h0]
          simp [PRes.isOk]
        · apply nextDelim_none
          cases l with
          | unit u => exact absurd ⟨u, rfl⟩ hu
          | bool b => cases b <;> (cases e; decide)
          | num t n =>
            have hc := h4.1 c (by have e : t = c :: r := e
                                  rw [e]; simp)
            rw [← numChar_iff] at hc
            refine ⟨?_, ?_, ?_⟩ <;> rintro rfl <;> revert hc <;> decide
          | quoted s => cases e; decide
          | delimited d s => cases e; decide
          | bytes t => cases e; decide
      · exfalso
        obtain ⟨p, hp'⟩ : ∃ p, patternDelimited (l.text ++ rest) = .ok (l.text ++ rest) p := by
          rw [patternDelimited, if_neg (fun h => hb ((bool_iff _).mp h)), hA, bind_ok]
          simp only
          rcases ident_total (l.text ++ rest) with ho | ⟨j, n, ho⟩
          · rw [opt_err ho]; exact ⟨_, rfl⟩
          · rw [opt_ok ho]; exact ⟨_, rfl⟩
        exact hp _ _ hp'
  rw [K_eq, hp, bind_ok]
  simp only
  rw [prim]
  have hends : Ends isInlineWs (l.text ++ rest) := by rw [e]; exact inline_of_multi (ends_cons hm _)
  cases id with
  | none =>
    have et : (Tree.prim none w l).text ++ rest = l.text ++ rest := by rw [h3 rfl]; simp [Tree.text, angled]
    have hA : opt (ident true) (l.text ++ rest) = .ok (l.text ++ rest) none := by
      apply opt_err; rw [e]; exact identA_err _ hlt
    have hw : inlineWs (l.text ++ rest) = .ok (l.text ++ rest) [] := inlineWs_ok (w := []) blanks_empty hends
    rw [et, ctx_ok (a := (none, l.value)) (by rw [separatedPair, hA, bind_ok, hw, bind_ok, hl, bind_ok]), bind_ok]
    exact ctor_ok h1 _ _
  | some i =>
    have et : (Tree.prim (some i) w l).text ++ rest = '<' :: (i ++ '>' :: (w ++ (l.text ++ rest))) := by simp [Tree.text, angled]
    rw [et, ctx_ok (a := (some i, l.value)) (by rw [separatedPair, opt_ok (identA_ok (h1 i rfl)), bind_ok, inlineWs_ok h2 hends, bind_ok, hl, bind_ok]), bind_ok]
    exact ctor_ok h1 _ _

/-! ## Lists -/

/-- The elements a loop over separated elements reads. -/
inductive Run (sep : Parser β) (f : Parser α) : Str → List α → Str → Prop
  | nil {i : Str} : ((∃ e, sep i = .err e) ∨ ∃ i1 b e, sep i = .ok i1 b ∧ i1.length ≠ i.length ∧ f i1 = .err e) → Run sep f i [] i
  | cons {i i1 i2 r : Str} {b : β} {a : α} {l : List α} : sep i = .ok i1 b → i1.length < i.length → f i1 = .ok i2 a → i2.length ≤ i1.length →
    Run sep f i2 l r → Run sep f i (a :: l) r

theorem sepLoop_run {sep : Parser β} {f : Parser α} {i r : Str} {l : List α} (h : Run sep f i l r) :
    ∀ (n : Nat) (acc : List α), i.length < n → sepLoop sep f n i acc = .ok r (acc.reverse ++ l) := by
  induction h with
  | nil hs =>
    intro n acc hn
    obtain ⟨n, rfl⟩ : ∃ m, n = m + 1 := ⟨n - 1, by omega⟩
    rw [sepLoop.eq_def]
    rcases hs with ⟨e, he⟩ | ⟨i1, b, e, h1, h2, h3⟩
    · simp only [he, List.append_nil]
    · simp only [h1, if_neg h2, h3, List.append_nil]
  | cons h1 h2 h3 h4 _ ih =>
    intro n acc hn
    obtain ⟨n, rfl⟩ : ∃ m, n = m + 1 := ⟨n - 1, by omega⟩
    rw [sepLoop.eq_def]
    simp only [h1, if_neg (Nat.ne_of_lt h2), h3]
    rw [ih n _ (by omega)]
    simp

theorem sepList_run {sep : Parser β} {f : Parser α} {i i1 r : Str} {a : α} {l : List α} (h0 : f i = .ok i1 a) (h : Run sep f i1 l r) :
    separatedList0 sep f i = .ok r (a :: l) := by
  rw [separatedList0, h0]
  simp only
  rw [sepLoop_run h _ _ (Nat.lt_succ_self _)]
  rfl

section Items

variable {X : Type} (S : Syn X α)

/-- The item is read by `f`. -/
def ItemGood (f : Parser α) (x : X) : Prop := ∀ rest, S.ok rest x → ∃ a, f (S.text x ++ rest) = .ok rest a ∧ S.mean x a

/-- What an item begins with. -/
def ItemHead (c : Bool) : Prop := ∀ x rest, S.ok rest x → ∃ u ch r, S.text x = u ++ ch :: r ∧ PreOk c u ∧ isMultiWs ch = false ∧ ch ∉ closers

theorem run_complete {c : Bool} {sep : Parser β} {f : Parser α} {close : Char} {rest : Str}
    (hsep : ∀ x z w, S.ok z x → PostOk c w → ∃ b, sep (w ++ (comma c false ++ (S.text x ++ z))) = .ok (S.text x ++ z) b)
    (hstop : ∀ w, PostOk c w → (∃ e, sep (w ++ close :: rest) = .err e) ∨
      ∃ i1 b e, sep (w ++ close :: rest) = .ok i1 b ∧ i1.length ≠ (w ++ close :: rest).length ∧ f i1 = .err e) :
    ∀ xs : List (X × Str), (∀ x ∈ xs, ItemGood S f x.1) → allOk S c (close :: rest) xs → ∀ w, PostOk c w →
      ∃ l w', allMean S xs l ∧ Run sep f (w ++ (comma c xs.isEmpty ++ (joined S c xs ++ close :: rest))) l (w' ++ close :: rest) ∧ PostOk c w'
  | [], _, _, w, hw => by
    refine ⟨[], w, rfl, ?_, hw⟩
    rw [show comma c ([] : List (X × Str)).isEmpty = [] by simp [comma], joined, List.nil_append, List.nil_append]
    exact .nil (hstop w hw)
  | (x, post) :: xs, hg, hok, w, hw => by
    obtain ⟨h1, h2, h3⟩ := hok
    obtain ⟨l, w', hl, hr, hw'⟩ := run_complete hsep hstop xs (fun y hy => hg y (by simp [hy])) h3 post h2
    obtain ⟨a, ha, hm⟩ := hg (x, post) (by simp) _ h1
    obtain ⟨b, hb⟩ := hsep x _ w h1 hw
    refine ⟨a :: l, w', ⟨a, l, hm, hl, rfl⟩, ?_, hw'⟩
    have e : joined S c ((x, post) :: xs) ++ close :: rest = S.text x ++ (post ++ (comma c xs.isEmpty ++ (joined S c xs ++ close :: rest))) := by
      simp [joined]
    rw [e]
    refine .cons hb ?_ ha (by simp) hr
    have : 0 < w.length + (comma c false).length := by
      cases c with
      | true => have := List.length_pos_iff.mpr hw.2; omega
      | false => simp [comma]
    simp only [List.length_append, List.isEmpty_cons] at this ⊢
    omega

theorem list_complete {c : Bool} {sep : Parser β} {f : Parser α} {close : Char} {rest : Str}
    (hsep : ∀ x z w, S.ok z x → PostOk c w → ∃ b, sep (w ++ (comma c false ++ (S.text x ++ z))) = .ok (S.text x ++ z) b)
    (hstop : ∀ w, PostOk c w → (∃ e, sep (w ++ close :: rest) = .err e) ∨
      ∃ i1 b e, sep (w ++ close :: rest) = .ok i1 b ∧ i1.length ≠ (w ++ close :: rest).length ∧ f i1 = .err e)
    {xs : List (X × Str)} (hne : xs ≠ []) (hg : ∀ x ∈ xs, ItemGood S f x.1) (hok : allOk S c (close :: rest) xs) :
    ∃ l w', allMean S xs l ∧ separatedList0 sep f (joined S c xs ++ close :: rest) = .ok (w' ++ close :: rest) l ∧ PostOk c w' := by
  cases xs with
  | nil => exact absurd rfl hne
  | cons p xs =>
    obtain ⟨x, post⟩ := p
    obtain ⟨h1, h2, h3⟩ := hok
    obtain ⟨l, w', hl, hr, hw'⟩ := run_complete S hsep hstop xs (fun y hy => hg y (by simp [hy])) h3 post h2
    obtain ⟨a, ha, hm⟩ := hg (x, post) (by simp) _ h1
    refine ⟨a :: l, w', ⟨a, l, hm, hl, rfl⟩, ?_, hw'⟩
    have e : joined S c ((x, post) :: xs) ++ close :: rest = S.text x ++ (post ++ (comma c xs.isEmpty ++ (joined S c xs ++ close :: rest))) := by
      simp [joined]
    rw [e]
    exact sepList_run ha hr

theorem closer_not {close : Char} (h : close ∈ closers) : isMultiWs close = false ∧ isInlineWs close = false ∧ close ≠ ',' := by
  revert close; decide

theorem inline_complete {f : Parser α} {close : Char} {rest lead : Str} (hcl : close ∈ closers)
    (hf : ∀ w i, Blanks w → f (w ++ i) = f i) (hend : ∃ e, f (close :: rest) = .err e) (hl : LeadOk false lead)
    {xs : List (X × Str)} (hg : ∀ x ∈ xs, ItemGood S f x.1) (hok : allOk S false (close :: rest) xs) :
    ∃ l w', allMean S xs l ∧ separatedList0 (ignoreWs (char ',')) f (lead ++ (joined S false xs ++ close :: rest)) = .ok (w' ++ close :: rest) l ∧ Blanks w' := by
  cases xs with
  | nil =>
    obtain ⟨e, he⟩ := hend
    refine ⟨[], lead, rfl, ?_, hl⟩
    rw [joined, List.nil_append, separatedList0, hf _ _ hl, he]
  | cons p xs =>
    have key : ∀ i, separatedList0 (ignoreWs (char ',')) f (lead ++ i) = match f i with
        | .err _ => .ok (lead ++ i) []
        | .fail e => .fail e
        | .panic => .panic
        | .oof => .oof
        | .ok i1 a => sepLoop (ignoreWs (char ',')) f (i1.length + 1) i1 [a] := by
      intro i; rw [separatedList0, hf _ _ hl]; cases f i <;> rfl
    obtain ⟨l, w', h1, h2, h3⟩ := list_complete S (c := false) (sep := ignoreWs (char ',')) (f := f) (close := close) (rest := rest)
      (fun x z w _ hw => ⟨',', ign_char (by decide) hw _⟩)
      (fun w hw => .inl (by
        rw [ignoreWs_ok hw (ends_cons (closer_not hcl).2.1 rest)]
        exact char_err rest (closer_not hcl).2.2))
      (xs := p :: xs) (by simp) hg hok
    refine ⟨l, w', h1, ?_, h3⟩
    rw [key]
    rw [separatedList0] at h2
    obtain ⟨a, ha, -⟩ := hg p (by simp) _ hok.1
    have e : joined S false (p :: xs) ++ close :: rest = S.text p.1 ++ (p.2 ++ (comma false xs.isEmpty ++ (joined S false xs ++ close :: rest))) := by
      simp [joined]
    rw [e] at h2 ⊢
    rw [ha] at h2 ⊢
    exact h2

theorem concise_complete {f : Parser α} {close : Char} {rest lead : Str} (hcl : close ∈ closers) (hhead : ItemHead S true)
    (hend : ∃ e, f (close :: rest) = .err e) (hl : LeadOk true lead)
    {xs : List (X × Str)} (hg : ∀ x ∈ xs, ItemGood S f x.1) (hok : allOk S true (close :: rest) xs) :
    ∃ l, allMean S xs l ∧ multiWs (lead ++ (joined S true xs ++ close :: rest)) = .ok (joined S true xs ++ close :: rest) lead ∧
      terminated (separatedList0 multiWs f) multiWs (joined S true xs ++ close :: rest) = .ok (close :: rest) l := by
  have hstart : ∀ x z, S.ok z x → Ends isMultiWs (S.text x ++ z) := by
    intro x z hx
    obtain ⟨u, ch, r, e, hu, hm, -⟩ := hhead x z hx
    have hu : u = [] := hu
    rw [e, hu]
    exact ends_cons hm _
  have hcw : Ends isMultiWs (close :: rest) := ends_cons (closer_not hcl).1 rest
  cases xs with
  | nil =>
    obtain ⟨e, he⟩ := hend
    refine ⟨[], rfl, multiWs_ok hl.1 hcw, ?_⟩
    rw [joined, List.nil_append, terminated, separatedList0, he]
    simp only
    rw [bind_ok, show multiWs (close :: rest) = .ok (close :: rest) [] from multiWs_ok (w := []) (by intro c hc; cases hc) hcw, bind_ok]
  | cons p xs =>
    obtain ⟨l, w', h1, h2, h3⟩ := list_complete S (c := true) (sep := multiWs) (f := f) (close := close) (rest := rest)
      (fun x z w hx hw => ⟨w, by rw [comma]; exact multiWs_ok hw.1 (hstart x z hx)⟩)
      (fun w hw => by
        obtain ⟨e, he⟩ := hend
        refine .inr ⟨close :: rest, w, e, multiWs_ok hw.1 hcw, ?_, he⟩
        have := List.length_pos_iff.mpr hw.2
        rw [List.length_append]; omega)
      (xs := p :: xs) (by simp) hg hok
    refine ⟨l, h1, multiWs_ok hl.1 ?_, ?_⟩
    · have e : joined S true (p :: xs) ++ close :: rest = S.text p.1 ++ (p.2 ++ (comma true xs.isEmpty ++ (joined S true xs ++ close :: rest))) := by
        simp [joined]
      rw [e]; exact hstart _ _ hok.1
    · rw [terminated, h2, bind_ok, multiWs_ok h3.1 hcw, bind_ok]

end Items

/-! ## Items -/

theorem item_elem (c : Bool) {x : ElemX} (h : Good x.2) : ItemGood (elemS c) (if c then K false else ignoreWs (K true)) x := by
  rintro rest ⟨hp, hr⟩
  obtain ⟨k, hk, hm⟩ := h _ _ hr
  refine ⟨k, ?_, hm⟩
  cases c with
  | true =>
    have hp : x.1 = [] := hp
    show K false ((x.1 ++ x.2.text) ++ rest) = _
    rw [hp]; exact hk
  | false =>
    show ignoreWs (K true) ((x.1 ++ x.2.text) ++ rest) = _
    rw [List.append_assoc, ignoreWs_ok hp (tree_ends hr rest)]
    exact hk

theorem nameChar_of {n : Str} (h : ∀ ch ∈ n, NameChar ch) : ∀ ch ∈ n, isNameChar ch = true := fun ch hch => (PG.isNameChar_iff ch).mpr (h ch hch)

theorem nameChar_not {c : Char} (h : NameChar c) : isMultiWs c = false ∧ c ∉ closers ∧ c ∉ str "<>(){}='\"\r\n" := by
  refine ⟨?_, ?_, ?_⟩
  · rw [← Bool.not_eq_true, multi_iff]
    rintro (rfl | rfl | rfl | rfl) <;> rw [← PG.isNameChar_iff] at h <;> revert h <;> decide
  · intro hc; rw [← PG.isNameChar_iff, (halt_char (.inl hc)).2.2.2.2.2.2.2.2.2.2] at h; cases h
  · intro hc
    rw [← PG.isNameChar_iff] at h
    have : c = '<' ∨ c = '>' ∨ c = '(' ∨ c = ')' ∨ c = '{' ∨ c = '}' ∨ c = '=' ∨ c = '\'' ∨ c = '"' ∨ c = '\r' ∨ c = '\n' := by
      have e : str "<>(){}='\"\r\n" = ['<', '>', '(', ')', '{', '}', '=', '\'', '"', '\r', '\n'] := rfl
      rw [e] at hc; simpa using hc
    rcases this with rfl | rfl | rfl | rfl | rfl | rfl | rfl | rfl | rfl | rfl | rfl <;> revert h <;> decide

theorem assign_head {name mid : Str} (hn : ∀ ch ∈ name, NameChar ch) (he : name = [] → mid = []) (r : Str) :
    ∃ ch t, name ++ (mid ++ '=' :: r) = ch :: t ∧ isMultiWs ch = false ∧ ch ∉ closers := by
  cases name with
  | nil => rw [he rfl]; exact ⟨'=', r, rfl, by decide, by decide⟩
  | cons ch t => exact ⟨ch, _, rfl, (nameChar_not (hn ch (by simp))).1, (nameChar_not (hn ch (by simp))).2.1⟩

theorem kvpField_ok {inl : Bool} {name mid gap rest : Str} {T : Tree} (hn : ∀ ch ∈ name, NameChar ch) (hm : Blanks mid) (hg : Blanks gap)
    (hT : Good T) (hr : T.Reads inl rest) :
    ∃ k, kvpField K inl (name ++ (mid ++ '=' :: (gap ++ (T.text ++ rest)))) = .ok rest (name, k) ∧ T.Val k := by
  obtain ⟨k, hk, hm'⟩ := hT _ _ hr
  refine ⟨k, ctx_ok ?_, hm'⟩
  rw [separatedPair, show fieldName (name ++ (mid ++ '=' :: (gap ++ (T.text ++ rest)))) = .ok (mid ++ '=' :: (gap ++ (T.text ++ rest))) name from
    tw_ends (nameChar_of hn) (ends_blank_bracket (white_of_blanks hm) (by decide)), bind_ok, ign_char (by decide) hm, bind_ok,
    ignoreWs_ok hg (tree_ends hr rest), cut_ok hk, bind_ok]

theorem item_assign (c : Bool) {x : AssignX} (h : Good x.2.2.2.2) :
    ItemGood (assignS c) (if c then kvpField K false else ignoreWs (kvpField K true)) x := by
  obtain ⟨pre, name, mid, gap, T⟩ := x
  rintro rest ⟨hp, hn, he, hm, hg, hr⟩
  obtain ⟨k, hk, hm'⟩ := kvpField_ok hn hm hg h hr
  refine ⟨(name, k), ?_, rfl, hm'⟩
  have e : (assignS c).text (pre, name, mid, gap, T) ++ rest = pre ++ (name ++ (mid ++ '=' :: (gap ++ (T.text ++ rest)))) := by simp [assignS]
  rw [e]
  cases c with
  | true =>
    have hp : pre = [] := hp
    rw [hp]; exact hk
  | false =>
    obtain ⟨ch, t, e, hch, -⟩ := assign_head hn he (gap ++ (T.text ++ rest))
    show ignoreWs (kvpField K true) _ = _
    have he : Ends isInlineWs (name ++ (mid ++ '=' :: (gap ++ (T.text ++ rest)))) := by
      show Ends isInlineWs ((name : Str) ++ ((mid : Str) ++ '=' :: ((gap : Str) ++ (T.text ++ rest))))
      have e : name ++ (mid ++ '=' :: (gap ++ (T.text ++ rest))) = ch :: t := e
      rw [e]; exact inline_of_multi (ends_cons hch t)
    rw [ignoreWs_ok hp he]
    exact hk

theorem kvpKserd_ok {inl : Bool} {mid gap rest : Str} {Y T : Tree} (hY : Good Y) (hy : Y.Reads false (mid ++ ':' :: (gap ++ (T.text ++ rest))))
    (hm : Blanks mid) (hg : Blanks gap) (hT : Good T) (hr : T.Reads inl rest) :
    ∃ a k, kvpKserd K inl (Y.text ++ (mid ++ ':' :: (gap ++ (T.text ++ rest)))) = .ok rest (a, k) ∧ Y.Val a ∧ T.Val k := by
  obtain ⟨k, hk, hm'⟩ := hT _ _ hr
  obtain ⟨a, ha, hma⟩ := hY _ _ hy
  refine ⟨a, k, ctx_ok ?_, hma, hm'⟩
  rw [separatedPair, alt_ok _ ha, bind_ok, ign_char (by decide) hm, bind_ok, ignoreWs_ok hg (tree_ends hr rest), hk, bind_ok]

theorem item_pair (c : Bool) {x : PairX} (hk : Good x.2.1) (hv : Good x.2.2.2.2) :
    ItemGood (pairS c) (if c then kvpKserd K false else ignoreWs (kvpKserd K true)) x := by
  obtain ⟨pre, Y, mid, gap, T⟩ := x
  rintro rest ⟨hp, hy, hm, hg, hr⟩
  obtain ⟨a, k, h, h1, h2⟩ := kvpKserd_ok hk hy hm hg hv hr
  refine ⟨(a, k), ?_, h1, h2⟩
  have e : (pairS c).text (pre, Y, mid, gap, T) ++ rest = pre ++ (Y.text ++ (mid ++ ':' :: (gap ++ (T.text ++ rest)))) := by simp [pairS]
  rw [e]
  cases c with
  | true =>
    have hp : pre = [] := hp
    rw [hp]; exact h
  | false =>
    show ignoreWs (kvpKserd K true) _ = _
    rw [ignoreWs_ok hp (tree_ends hy _)]
    exact h

theorem head_elem (c : Bool) : ItemHead (elemS c) c := by
  rintro ⟨pre, T⟩ rest ⟨hp, hr⟩
  obtain ⟨ch, t, e, h1, h2⟩ := tree_head hr
  exact ⟨pre, ch, t, by show pre ++ Tree.text T = _; rw [e], hp, h1, h2⟩

theorem head_assign (c : Bool) : ItemHead (assignS c) c := by
  rintro ⟨pre, name, mid, gap, T⟩ rest ⟨hp, hn, he, -⟩
  obtain ⟨ch, t, e, h1, h2⟩ := assign_head hn he (gap ++ T.text)
  exact ⟨pre, ch, t, congrArg (pre ++ ·) e, hp, h1, h2⟩

theorem head_pair (c : Bool) : ItemHead (pairS c) c := by
  rintro ⟨pre, Y, mid, gap, T⟩ rest ⟨hp, hr, -⟩
  obtain ⟨ch, t, e, h1, h2⟩ := tree_head hr
  exact ⟨pre, ch, t ++ (mid ++ ':' :: (gap ++ T.text)), by show pre ++ (Tree.text Y ++ _) = _; rw [e]; rfl, hp, h1, h2⟩

theorem halt_close {close : Char} (h : close ∈ closers) (rest : Str) : Halt (close :: rest) :=
  halt_of_multi (.inr ⟨close, rest, by rw [List.dropWhile_cons, (closer_not h).1]; rfl, h⟩)

/-! ## The layout -/

theorem concise_lead {lead : Str} (h : LeadOk true lead) (r : Str) : recogniseConcise (lead ++ r) = true := by
  have hf : ∃ c, lead.find? (fun c => !(str " \t\r").contains c) = some c := by
    cases hf : lead.find? (fun c => !(str " \t\r").contains c) with
    | some c => exact ⟨c, rfl⟩
    | none =>
      have := List.find?_eq_none.mp hf '\n' h.2
      exact absurd (by decide) this
  obtain ⟨c, hf⟩ := hf
  have hc := List.find?_some hf
  have hm := List.mem_of_find?_eq_some hf
  rw [recogniseConcise, List.find?_append, hf]
  show (c == '\n') = true
  rcases h.1 c hm with rfl | rfl | rfl | rfl
  · revert hc; decide
  · revert hc; decide
  · revert hc; decide
  · rfl

theorem inline_lead {w : Str} (h : Blanks w) {c : Char} (hc : isMultiWs c = false) (r : Str) : recogniseConcise (w ++ c :: r) = false := by
  have h1 : w.find? (fun c => !(str " \t\r").contains c) = none := by
    rw [List.find?_eq_none]
    intro x hx
    rcases h x hx with rfl | rfl <;> decide
  have h2 : (!(str " \t\r").contains c) = true := by
    rw [Bool.not_eq_true', ← Bool.not_eq_true, List.contains_iff_mem, show str " \t\r" = [' ', '\t', '\r'] from rfl]
    intro hm
    rw [← Bool.not_eq_true, multi_iff] at hc
    simp at hm; tauto
  rw [recogniseConcise, List.find?_append, h1, Option.none_or, List.find?_cons_of_pos (p := fun c => !(str " \t\r").contains c) h2]
  show (c == '\n') = false
  rw [beq_eq_false_iff_ne]; rintro rfl; cases hc

section Layout

variable {X : Type} (S : Syn X α)

/-- What a list begins with, if it is on one line. -/
theorem joined_head {close : Char} {rest lead : Str} (hcl : close ∈ closers) (hhead : ItemHead S false) (hl : LeadOk false lead)
    {xs : List (X × Str)} (hok : allOk S false (close :: rest) xs) :
    ∃ u ch r, lead ++ (joined S false xs ++ close :: rest) = u ++ ch :: r ∧ Blanks u ∧ isMultiWs ch = false ∧ (xs ≠ [] → ch ∉ closers) := by
  cases xs with
  | nil => exact ⟨lead, close, rest, rfl, hl, (closer_not hcl).1, fun h => absurd rfl h⟩
  | cons p xs =>
    obtain ⟨u, ch, r, e, hu, hm, hc⟩ := hhead _ _ hok.1
    refine ⟨lead ++ u, ch, r ++ (p.2 ++ (comma false xs.isEmpty ++ (joined S false xs ++ close :: rest))), ?_, blanks_append hl hu, hm, fun _ => hc⟩
    rw [joined, e]; simp

theorem layout {c inl : Bool} {close : Char} {rest lead : Str} (hcl : close ∈ closers) (hhead : ItemHead S c) (hl : LeadOk c lead)
    (hci : c = true → inl = false) {xs : List (X × Str)} (hok : allOk S c (close :: rest) xs) :
    (recogniseConcise (lead ++ (joined S c xs ++ close :: rest)) && !inl) = c := by
  cases c with
  | true => rw [concise_lead hl, hci rfl]; rfl
  | false =>
    obtain ⟨u, ch, r, e, hu, hm, -⟩ := joined_head S hcl hhead hl hok
    rw [e, inline_lead hu hm]; rfl

theorem unit_inv {j : Str} (h : (unitValue ('(' :: j)).isOk = true) : ∃ w r, j = w ++ ')' :: r ∧ Blanks w := by
  cases hu : unitValue ('(' :: j) with
  | ok r a =>
    obtain ⟨b, h1, -⟩ := map_inv' (ctx_inv hu)
    obtain ⟨j', a', h2, h3⟩ := preceded_inv h1
    have := char_inv h2
    cases this
    obtain ⟨j2, b2, h4, h5⟩ := terminated_inv (cut_inv h3)
    obtain ⟨e, hw, -⟩ := inlineWs_inv h4
    exact ⟨b, r, by rw [e, char_inv h5], hw⟩
  | _ => rw [hu] at h; cases h

/-- A list that is not empty, or concise, is not the unit. -/
theorem not_unit {c : Bool} {rest lead : Str} (hhead : ItemHead S c) (hl : LeadOk c lead)
    {xs : List (X × Str)} (hok : allOk S c (')' :: rest) xs) (hne : xs = [] → c = true) :
    (unitValue ('(' :: (lead ++ (joined S c xs ++ ')' :: rest)))).isOk = false := by
  rw [← Bool.not_eq_true]
  intro h
  obtain ⟨w, r, e, hw⟩ := unit_inv h
  cases c with
  | true =>
    have h1 := concise_lead hl (joined S true xs ++ ')' :: rest)
    rw [e, inline_lead hw (by decide)] at h1
    cases h1
  | false =>
    obtain ⟨u, ch, r', e', hu, hm, hc⟩ := joined_head S (close := ')') (by decide) hhead hl hok
    have hc := hc (by intro h; cases hne h)
    have h1 := drop_ends (p := isMultiWs) (a := w) (r := ')' :: r) (fun c hc => (multi_iff c).mpr (white_of_blanks hw c hc)) (ends_cons (by decide) _)
    have h2 := drop_ends (p := isMultiWs) (a := u) (r := ch :: r') (fun c hc => (multi_iff c).mpr (white_of_blanks hu c hc)) (ends_cons hm _)
    rw [← e, e', h2] at h1
    cases h1
    exact hc (by decide)

end Layout

/-! ## Opening -/

theorem opener_facts {o : Char} (h : o ∈ openers) : isNameChar o = false ∧ isMultiWs o = false ∧ isInlineWs o = false ∧
    o ≠ 't' ∧ o ≠ 'f' ∧ o ≠ '<' ∧ isAlpha o = false ∧ o ≠ '_' := by revert o; decide

theorem opened_ok {force : Bool} {o : Char} (ho : o ∈ openers) {body : Bool → Option Str → Parser α} {id : Option Str} {w : Str} (j : Str)
    (h1 : NameOk id) (h2 : Blanks w) (h3 : id = none → w = []) :
    opened force o body (plainId id ++ (w ++ o :: j)) = body (recogniseConcise j && !force) id j := by
  have hf := opener_facts ho
  have : opt (ident false) (plainId id ++ (w ++ o :: j)) = .ok (w ++ o :: j) id := by
    cases id with
    | none => rw [h3 rfl]; exact opt_err (ident_err j hf.2.2.2.2.2.2.1 hf.2.2.2.2.2.2.2)
    | some i => exact opt_ok (ident_ok (h1 i rfl) (ends_blank_bracket (white_of_blanks h2) hf.1))
  simp only [opened]
  rw [this, bind_ok, ign_char hf.2.2.1 h2, bind_ok]

theorem pattern_ok {o : Char} (ho : o ∈ openers) {id : Option Str} {w : Str} (j : Str) (h1 : NameOk id) (h2 : Blanks w) (h3 : id = none → w = [])
    (h4 : ∀ i, id = some i → NotBool i) :
    patternDelimited (plainId id ++ (w ++ o :: j)) = .ok (plainId id ++ (w ++ o :: j)) (nextDelim (if id = none then .none else .nonprim) (o :: j)) := by
  have hf := opener_facts ho
  cases id with
  | none =>
    rw [h3 rfl]
    exact pat_sym j ⟨hf.2.2.2.1, hf.2.2.2.2.1, hf.2.2.2.2.2.1, hf.2.2.2.2.2.2.1, hf.2.2.2.2.2.2.2, hf.2.1⟩
  | some i =>
    have := pat_name (h1 i rfl) (h4 i rfl) (ends_blank_bracket (c := o) (r := j) (white_of_blanks h2) hf.1)
    rw [dropWhile_blanks h2 hf.2.1] at this
    exact this

theorem delim_paren {id : IdentKind} (hid : id ≠ .prim) {j : Str} (hu : id = .none → (unitValue ('(' :: j)).isOk = false) :
    nextDelim id ('(' :: j) = if recogniseFieldAssign (j.dropWhile isMultiWs) then .cntr else .tuple := by
  have h1 : ¬ ((id = .none ∨ id = .prim) ∧ (unitValue ('(' :: j)).isOk = true) := by
    rintro ⟨rfl | rfl, h⟩
    · rw [hu rfl] at h; cases h
    · exact hid rfl
  rw [nextDelim]
  simp only [List.head?_cons, Option.getD_some, List.tail_cons, if_neg h1]
  rw [if_neg (fun h => hid h.2)]
  rfl

theorem delim_seq (id : IdentKind) (hid : id ≠ .prim) (j : Str) : nextDelim id ('[' :: j) = .seq := by
  rw [nextDelim]
  simp only [List.head?_cons, Option.getD_some]
  rw [if_neg (fun h => hid h.2)]

theorem delim_map (id : IdentKind) (hid : id ≠ .prim) (j : Str) : nextDelim id ('{' :: j) = .map := by
  rw [nextDelim]
  simp only [List.head?_cons, Option.getD_some]
  rw [if_neg (fun h => hid h.2)]

theorem kind_not (id : Option Str) : (if id = none then IdentKind.none else .nonprim) ≠ .prim := by split <;> decide

/-! ## Composite values -/

theorem terminated_ok {p : Parser α} {q : Parser β} {i j r : Str} {a : α} {b : β} (h1 : p i = .ok j a) (h2 : q j = .ok r b) :
    terminated p q i = .ok r a := by rw [terminated, h1, bind_ok, h2, bind_ok]

theorem preceded_ok {p : Parser α} {q : Parser β} {i j r : Str} {a : α} {b : β} (h1 : p i = .ok j a) (h2 : q j = .ok r b) :
    preceded p q i = .ok r b := by rw [preceded, h1, bind_ok, h2]

/-- The inside of a tuple or sequence. -/
theorem list_good {c : Bool} {close : Char} {rest lead : Str} (hcl : close ∈ closers) (hl : LeadOk c lead)
    {xs : List (ElemX × Str)} (hg : ∀ x ∈ xs, Good x.1.2) (hok : allOk (elemS c) c (close :: rest) xs) :
    ∃ l, allMean (elemS c) xs l ∧ cut (terminated (if c = true then conciseList K else inlineList K) (ignoreWs (char close)))
      (lead ++ (joined (elemS c) c xs ++ close :: rest)) = .ok rest l := by
  have hh := halt_close hcl rest
  cases c with
  | true =>
    obtain ⟨l, h1, h2, h3⟩ := concise_complete (elemS true) (f := K false) hcl (head_elem true) (halt_K hh false) hl
      (fun x hx => item_elem true (hg x hx)) hok
    exact ⟨l, h1, cut_ok (terminated_ok (preceded_ok h2 (cut_ok h3)) (ign_char (closer_not hcl).2.1 blanks_empty rest))⟩
  | false =>
    have hend : ∃ e, ignoreWs (K true) (close :: rest) = .err e := by
      rw [ignoreWs_ends (ends_cons (closer_not hcl).2.1 rest)]; exact halt_K hh true
    obtain ⟨l, w', h1, h2, h3⟩ := inline_complete (elemS false) (f := ignoreWs (K true)) hcl (fun w i hw => ignoreWs_blanks hw i) hend hl
      (fun x hx => item_elem false (hg x hx)) hok
    exact ⟨l, h1, cut_ok (terminated_ok (ctx_ok h2) (ign_char (closer_not hcl).2.1 h3 rest))⟩

theorem tuple_good {id : Option Str} {w : Str} {c : Bool} {lead : Str} {xs : List (ElemX × Str)} (hg : ∀ x ∈ xs, Good x.1.2) :
    Good (.tuple id w c lead (toElems xs)) := by
  rintro inl rest ⟨h1, h2, h3, h4, h5, h6, h7, h8, h9⟩
  rw [toElems_reads] at h9
  obtain ⟨l, hl, hb⟩ := list_good (close := ')') (by decide) h5 hg h9
  refine ⟨.mk id (.tuple l), ?_, l, toElems_means c xs l hl, rfl⟩
  have e : (Tree.tuple id w c lead (toElems xs)).text ++ rest = plainId id ++ (w ++ '(' :: (lead ++ (joined (elemS c) c xs ++ ')' :: rest))) := by
    rw [Tree.text, toElems_text]; simp
  rw [e, K_eq, pattern_ok (by decide) _ h1 h2 h3 h4, bind_ok]
  have hd : nextDelim (if id = none then .none else .nonprim) ('(' :: (lead ++ (joined (elemS c) c xs ++ ')' :: rest))) = .tuple := by
    rw [delim_paren (kind_not id)]
    · rw [toElems_text, ← List.append_assoc, ← assign_close _ rest, List.append_assoc, ← assign_iff] at h8
      rw [if_neg h8]
    · intro hid
      have hid : id = none := by by_contra hn; rw [if_neg hn] at hid; cases hid
      apply not_unit _ (head_elem c) h5 h9
      intro hx
      apply h7 hid
      rw [toElems_nil, hx]; rfl
  rw [hd]
  show tuple K inl _ = _
  rw [tuple, opened_ok (by decide) _ h1 h2 h3, layout _ (by decide) (head_elem c) h5 h6 h9, ctx_ok hb, bind_ok, ctor_ok h1]

theorem seq_good {id : Option Str} {w : Str} {c : Bool} {lead : Str} {xs : List (ElemX × Str)} (hg : ∀ x ∈ xs, Good x.1.2) :
    Good (.seq id w c lead (toElems xs)) := by
  rintro inl rest ⟨h1, h2, h3, h4, h5, h6, h9⟩
  rw [toElems_reads] at h9
  obtain ⟨l, hl, hb⟩ := list_good (close := ']') (by decide) h5 hg h9
  refine ⟨.mk id (.seq l), ?_, l, toElems_means c xs l hl, rfl⟩
  have e : (Tree.seq id w c lead (toElems xs)).text ++ rest = plainId id ++ (w ++ '[' :: (lead ++ (joined (elemS c) c xs ++ ']' :: rest))) := by
    rw [Tree.text, toElems_text]; simp
  rw [e, K_eq, pattern_ok (by decide) _ h1 h2 h3 h4, bind_ok, delim_seq _ (kind_not id)]
  show seqDelimited K inl _ = _
  rw [seqDelimited, opened_ok (by decide) _ h1 h2 h3, layout _ (by decide) (head_elem c) h5 h6 h9, ctx_ok hb, bind_ok, ctor_ok h1]

theorem map_good {id : Option Str} {w : Str} {c : Bool} {lead : Str} {xs : List (PairX × Str)} (hg : ∀ x ∈ xs, Good x.1.2.1 ∧ Good x.1.2.2.2.2) :
    Good (.map id w c lead (toPairs xs)) := by
  rintro inl rest ⟨h1, h2, h3, h4, h5, h6, h9⟩
  rw [toPairs_reads] at h9
  have hh := halt_close (close := '}') (by decide) rest
  have hb : ∃ l, allMean (pairS c) xs l ∧ terminated (if c = true then conciseMap K else inlineMap K) (ignoreWs (char '}'))
      (lead ++ (joined (pairS c) c xs ++ '}' :: rest)) = .ok rest l := by
    cases c with
    | true =>
      obtain ⟨l, h1, h2, h3⟩ := concise_complete (pairS true) (f := kvpKserd K false) (by decide) (head_pair true) (halt_kvpKserd hh false) h5
        (fun x hx => item_pair true (hg x hx).1 (hg x hx).2) h9
      exact ⟨l, h1, terminated_ok (ctx_ok (preceded_ok h2 h3)) (ign_char (by decide) blanks_empty rest)⟩
    | false =>
      have hend : ∃ e, ignoreWs (kvpKserd K true) ('}' :: rest) = .err e := by
        rw [ignoreWs_ends (ends_cons (by decide) rest)]; exact halt_kvpKserd hh true
      obtain ⟨l, w', h1, h2, h3⟩ := inline_complete (pairS false) (f := ignoreWs (kvpKserd K true)) (by decide) (fun w i hw => ignoreWs_blanks hw i) hend h5
        (fun x hx => item_pair false (hg x hx).1 (hg x hx).2) h9
      exact ⟨l, h1, terminated_ok (ctx_ok h2) (ign_char (by decide) h3 rest)⟩
  obtain ⟨l, hl, hb⟩ := hb
  refine ⟨.mk id (.map (BTree.fromIter Kserd.cmp Kserd.eq l)), ?_, l, _, toPairs_means c xs l hl, rfl, rfl⟩
  have e : (Spec.Tree.map id w c lead (toPairs xs)).text ++ rest = plainId id ++ (w ++ '{' :: (lead ++ (joined (pairS c) c xs ++ '}' :: rest))) := by
    rw [Spec.Tree.text, toPairs_text]; simp
  rw [e, K_eq, pattern_ok (by decide) _ h1 h2 h3 h4, bind_ok, delim_map _ (kind_not id)]
  show mapDelimited K inl _ = _
  rw [mapDelimited, opened_ok (by decide) _ h1 h2 h3, layout _ (by decide) (head_pair c) h5 h6 h9, ctx_ok hb, bind_ok, ctor_ok h1]

theorem cntr_good {id : Option Str} {w : Str} {c : Bool} {lead : Str} {xs : List (AssignX × Str)} (hg : ∀ x ∈ xs, Good x.1.2.2.2.2) :
    Good (.cntr id w c lead (toAssigns xs)) := by
  rintro inl rest ⟨h1, h2, h3, h4, h5, h6, h7, h9⟩
  rw [toAssigns_reads] at h9
  rw [toAssigns_nil] at h7
  have hne : xs ≠ [] := by rintro rfl; cases h7
  have hh := halt_close (close := ')') (by decide) rest
  have hb : ∃ l, allMean (assignS c) xs l ∧ terminated (if c = true then conciseCntr K else inlineCntr K) (ignoreWs (char ')'))
      (lead ++ (joined (assignS c) c xs ++ ')' :: rest)) = .ok rest l := by
    cases c with
    | true =>
      obtain ⟨l, h1, h2, h3⟩ := concise_complete (assignS true) (f := kvpField K false) (by decide) (head_assign true) (halt_kvpField hh K false) h5
        (fun x hx => item_assign true (hg x hx)) h9
      exact ⟨l, h1, terminated_ok (ctx_ok (preceded_ok h2 (cut_ok h3))) (ign_char (by decide) blanks_empty rest)⟩
    | false =>
      have hend : ∃ e, ignoreWs (kvpField K true) (')' :: rest) = .err e := by
        rw [ignoreWs_ends (ends_cons (by decide) rest)]; exact halt_kvpField hh K true
      obtain ⟨l, w', h1, h2, h3⟩ := inline_complete (assignS false) (f := ignoreWs (kvpField K true)) (by decide) (fun w i hw => ignoreWs_blanks hw i) hend h5
        (fun x hx => item_assign false (hg x hx)) h9
      exact ⟨l, h1, terminated_ok (ctx_ok h2) (ign_char (by decide) h3 rest)⟩
  obtain ⟨l, hl, hb⟩ := hb
  refine ⟨.mk id (.cntr (BTree.fromIter cmpStr (fun a b => a == b) l)), ?_, l, _, toAssigns_means c xs l hl, rfl, rfl⟩
  have e : (Tree.cntr id w c lead (toAssigns xs)).text ++ rest = plainId id ++ (w ++ '(' :: (lead ++ (joined (assignS c) c xs ++ ')' :: rest))) := by
    rw [Tree.text, toAssigns_text]; simp
  rw [e, K_eq, pattern_ok (by decide) _ h1 h2 h3 h4, bind_ok]
  have hd : nextDelim (if id = none then .none else .nonprim) ('(' :: (lead ++ (joined (assignS c) c xs ++ ')' :: rest))) = .cntr := by
    rw [delim_paren (kind_not id)]
    · rw [if_pos]
      rw [assign_iff]
      cases xs with
      | nil => exact absurd rfl hne
      | cons p xs =>
        obtain ⟨⟨pre, name, mid, gap, T⟩, post⟩ := p
        obtain ⟨⟨hp, hn, he, hm, hgap, hr⟩, -⟩ := h9
        refine ⟨lead ++ pre, name ++ mid, gap ++ (T.text ++ (post ++ (comma c xs.isEmpty ++ (joined (assignS c) c xs ++ ')' :: rest)))), ?_, ?_, ?_⟩
        · simp [joined, assignS]
        · refine white_append (white_lead h5) ?_
          cases c with
          | true => have hp : pre = [] := hp; rw [hp]; intro c hc; cases hc
          | false => exact white_of_blanks hp
        · intro ch hch
          rcases List.mem_append.mp hch with h | h
          · exact (nameChar_not (hn ch h)).2.2
          · rcases hm ch h with rfl | rfl <;> decide
    · intro _
      exact not_unit _ (head_assign c) h5 h9 (fun h => absurd h hne)
  rw [hd]
  show cntrDelimited K inl _ = _
  rw [cntrDelimited, opened_ok (by decide) _ h1 h2 h3, layout _ (by decide) (head_assign c) h5 h6 h9, ctx_ok hb, bind_ok, ctor_ok h1]

mutual
/-- Every tree is read in front of everything it fits in front of. -/
theorem tree_good : ∀ T : Tree, Good T
  | .prim id w l => prim_good id w l
  | .tuple _ _ _ _ b => by obtain ⟨xs, rfl, h⟩ := elems_good b; exact tuple_good h
  | .seq _ _ _ _ b => by obtain ⟨xs, rfl, h⟩ := elems_good b; exact seq_good h
  | .cntr _ _ _ _ b => by obtain ⟨xs, rfl, h⟩ := assigns_good b; exact cntr_good h
  | .map _ _ _ _ b => by obtain ⟨xs, rfl, h⟩ := pairs_good b; exact map_good h
termination_by structural t => t
theorem elems_good : ∀ b : Elems, ∃ xs, b = toElems xs ∧ ∀ x ∈ xs, Good x.1.2
  | .nil => ⟨[], rfl, by simp⟩
  | .cons pre t post r => by
    obtain ⟨xs, rfl, h⟩ := elems_good r
    refine ⟨((pre, t), post) :: xs, rfl, ?_⟩
    intro x hx
    rcases List.mem_cons.mp hx with rfl | hx
    · exact tree_good t
    · exact h x hx
termination_by structural t => t
theorem assigns_good : ∀ b : Assigns, ∃ xs, b = toAssigns xs ∧ ∀ x ∈ xs, Good x.1.2.2.2.2
  | .nil => ⟨[], rfl, by simp⟩
  | .cons pre name mid gap t post r => by
    obtain ⟨xs, rfl, h⟩ := assigns_good r
    refine ⟨((pre, name, mid, gap, t), post) :: xs, rfl, ?_⟩
    intro x hx
    rcases List.mem_cons.mp hx with rfl | hx
    · exact tree_good t
    · exact h x hx
termination_by structural t => t
theorem pairs_good : ∀ b : Pairs, ∃ xs, b = toPairs xs ∧ ∀ x ∈ xs, Good x.1.2.1 ∧ Good x.1.2.2.2.2
  | .nil => ⟨[], rfl, by simp⟩
  | .cons pre key mid gap t post r => by
    obtain ⟨xs, rfl, h⟩ := pairs_good r
    refine ⟨((pre, key, mid, gap, t), post) :: xs, rfl, ?_⟩
    intro x hx
    rcases List.mem_cons.mp hx with rfl | hx
    · exact ⟨tree_good key, tree_good t⟩
    · exact h x hx
termination_by structural t => t
end

end KS.GR
