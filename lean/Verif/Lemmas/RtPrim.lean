import Verif.Lemmas.ParseGood
import Verif.Lemmas.NumChars
import Verif.Props.Literals
import Verif.Spec.RoundTrip
/-!
# Reading back names, literals and primitives
-/

namespace KS.RT
open KS.Spec KS.P KS.Nom

attribute [local irreducible] F64.shortest F64.decText F64.decNorm F64.pow10 F64.decScale

/-! ## Whitespace -/

theorem inline_multi {c : Char} (h : isMultiWs c = false) : isInlineWs c = false := by
  rw [isInlineWs, ← Bool.not_eq_true, List.contains_iff_mem]
  rw [isMultiWs, ← Bool.not_eq_true, List.contains_iff_mem] at h
  intro hc; apply h
  have : ∀ x ∈ str " \t", x ∈ str " \t\r\n" := by decide
  exact this c hc

theorem dropWs {c : Char} (r : Str) (h : isMultiWs c = false) : (c :: r).dropWhile isMultiWs = c :: r := by simp [h]

theorem inlineWs_none {c : Char} (r : Str) (h : isInlineWs c = false) : inlineWs (c :: r) = .ok (c :: r) [] := by
  simp [inlineWs, takeWhile, h]

theorem inlineWs_one {c : Char} (r : Str) (h : isInlineWs c = false) : inlineWs (' ' :: c :: r) = .ok (c :: r) [' '] := by
  have : isInlineWs ' ' = true := by decide
  simp [inlineWs, takeWhile, h, this]

theorem ignoreWs_none {α : Type} (p : Parser α) {c : Char} (r : Str) (h : isInlineWs c = false) :
    ignoreWs p (c :: r) = p (c :: r) := by
  simp [ignoreWs, opt, inlineWs_none r h, PRes.bind]

theorem ignoreWs_one {α : Type} (p : Parser α) {c : Char} (r : Str) (h : isInlineWs c = false) :
    ignoreWs p (' ' :: c :: r) = p (c :: r) := by
  simp [ignoreWs, opt, inlineWs_one r h, PRes.bind]

theorem ignoreWs_nil {α : Type} (p : Parser α) : ignoreWs p [] = p [] := by
  simp [ignoreWs, opt, inlineWs, takeWhile, PRes.bind]

/-! ## Names -/

theorem name_chars {i : Str} (h : ValidName i) : ∀ c ∈ i, isNameChar c = true := by
  obtain ⟨c, r, rfl, h1, h2⟩ := h
  intro x hx
  rw [PG.isNameChar_iff]
  rcases List.mem_cons.mp hx with rfl | hx
  · rcases h1 with h1 | h1
    · exact .inl h1
    · exact .inr (.inr (.inr h1))
  · exact h2 x hx

theorem name_head {i : Str} (h : ValidName i) : ∃ c r, i = c :: r ∧ (isAlpha c = true ∨ c = '_') := by
  obtain ⟨c, r, rfl, h1, _⟩ := h
  refine ⟨c, r, rfl, ?_⟩
  rw [PG.isAlpha_iff]; exact h1

theorem takeWhile_all {p : Char → Bool} {i : Str} (h : ∀ c ∈ i, p c = true) {c : Char} (hc : p c = false) (r : Str) :
    (i ++ c :: r).takeWhile p = i ∧ (i ++ c :: r).dropWhile p = c :: r := by
  rw [List.takeWhile_append_of_pos h, List.dropWhile_append_of_pos h]
  simp [hc]

theorem takeWhile_all_nil {p : Char → Bool} {i : Str} (h : ∀ c ∈ i, p c = true) :
    i.takeWhile p = i ∧ i.dropWhile p = [] := by
  exact ⟨List.takeWhile_eq_self_iff.mpr h, List.dropWhile_eq_nil_iff.mpr h⟩

/-- The rest does not continue a word of characters `p`. -/
def Ends (p : Char → Bool) (rest : Str) : Prop := ∀ c r, rest = c :: r → p c = false

theorem takeWhile_ends {p : Char → Bool} {i rest : Str} (h : ∀ c ∈ i, p c = true) (hr : Ends p rest) :
    (i ++ rest).takeWhile p = i ∧ (i ++ rest).dropWhile p = rest := by
  cases rest with
  | nil => simpa using takeWhile_all_nil h
  | cons c r => exact takeWhile_all h (hr c r rfl) r

theorem alt_ok {α : Type} {p : Parser α} (ps : List (Parser α)) {i r : Str} {a : α} (h : p i = .ok r a) :
    alt (p :: ps) i = .ok r a := by
  cases ps with
  | nil => simp only [alt, h]
  | cons q qs => rw [alt]; simp only [h]; simp

theorem alt_skip {α : Type} {p q : Parser α} (ps : List (Parser α)) {i : Str} (h : ∃ e, p i = .err e) :
    alt (p :: q :: ps) i = alt (q :: ps) i := by
  obtain ⟨e, he⟩ := h
  rw [alt]
  · simp only [he]
  · simp

theorem alt_last {α : Type} {p : Parser α} {i : Str} (h : ∃ e, p i = .err e) : ∃ e, alt [p] i = .err e := by
  obtain ⟨e, he⟩ := h
  exact ⟨e ++ [(i, .alt)], by simp only [alt, he]⟩

theorem alt_head {c : Char} (hc : isAlpha c = true ∨ c = '_') (r : Str) :
    ∃ r' a, alt [alpha1, tag ['_']] (c :: r) = .ok r' a := by
  by_cases ha : isAlpha c = true
  · exact ⟨r.dropWhile isAlpha, c :: r.takeWhile isAlpha, alt_ok _ (by simp [alpha1, ha])⟩
  · obtain rfl : c = '_' := hc.resolve_left ha
    exact ⟨r, ['_'], rfl⟩

theorem validName_ok {i rest : Str} (h : ValidName i) (hr : Ends isNameChar rest) : validName (i ++ rest) = .ok rest i := by
  obtain ⟨c, r, hi, hc⟩ := name_head h
  obtain ⟨r', a, ha⟩ := alt_head hc (r ++ rest)
  have ht := takeWhile_ends (name_chars h) hr
  have e : i ++ rest = c :: (r ++ rest) := by rw [hi]; rfl
  have hne : i ≠ [] := by rw [hi]; simp
  rw [validName]
  conv => lhs; arg 1; rw [e, ha]
  simp only [PRes.bind, context, cut, takeWhile1, ht.1, ht.2]

theorem validName_err {c : Char} (r : Str) (h1 : isAlpha c = false) (h2 : c ≠ '_') : ∃ e, validName (c :: r) = .err e := by
  have : ∃ e, alt [alpha1, tag ['_']] (c :: r) = .err e := by
    have e1 : alpha1 (c :: r) = .err [(c :: r, .alpha)] := by simp [alpha1, h1]
    have e2 : tag ['_'] (c :: r) = .err [(c :: r, .tag)] := by
      simp [tag, stripPrefix, Ne.symm h2]
    rw [alt_skip _ ⟨_, e1⟩]
    exact alt_last ⟨_, e2⟩
  obtain ⟨e, he⟩ := this
  exact ⟨e, by simp only [validName, he, PRes.bind]⟩

theorem validName_nil : ∃ e, validName [] = .err e := ⟨_, rfl⟩

theorem ident_ok {i rest : Str} (h : ValidName i) (hr : Ends isNameChar rest) : ident false (i ++ rest) = .ok rest i := by
  simp [ident, context, validName_ok h hr]

theorem ident_err {c : Char} (r : Str) (h1 : isAlpha c = false) (h2 : c ≠ '_') : ∃ e, ident false (c :: r) = .err e := by
  obtain ⟨e, he⟩ := validName_err r h1 h2
  exact ⟨e ++ [(c :: r, .ctx "identity")], by simp only [ident, context, he, Bool.false_eq_true, if_false]⟩

theorem identA_ok {i rest : Str} (h : ValidName i) : ident true ('<' :: (i ++ '>' :: rest)) = .ok rest i := by
  have hv := validName_ok (rest := '>' :: rest) h (by intro c r e; cases e; decide)
  simp only [ident, if_true, context, preceded, Nom.char, PRes.bind, cut, terminated, hv]

theorem identA_err {c : Char} (r : Str) (h : c ≠ '<') : ∃ e, ident true (c :: r) = .err e := by
  exact ⟨[(c :: r, .char '<')] ++ [(c :: r, .ctx "identity")], by
    simp only [ident, if_true, context, preceded, Nom.char, if_neg h, PRes.bind]⟩

theorem identA_nil : ∃ e, ident true [] = .err e := ⟨_, rfl⟩

theorem opt_err {α : Type} {p : Parser α} {i : Str} (h : ∃ e, p i = .err e) : opt p i = .ok i none := by
  obtain ⟨e, he⟩ := h
  simp [opt, he]

theorem opt_ok {α : Type} {p : Parser α} {i r : Str} {a : α} (h : p i = .ok r a) : opt p i = .ok r (some a) := by
  simp [opt, h]

/-! ## What may follow a value -/

/-- The characters that follow a value in written text. -/
def seps : List Char := [',', ')', ']', '}', ':', '\n', ' ']

/-- Nothing follows or one of `seps` does. -/
def Sep (rest : Str) : Prop := ∀ c r, rest = c :: r → c ∈ seps

theorem sep_num {rest : Str} (h : Sep rest) : Ends isNumChar rest := by
  intro c r e
  have : ∀ x ∈ seps, isNumChar x = false := by decide
  exact this c (h c r e)

theorem sep_name {rest : Str} (h : Sep rest) : Ends isNameChar rest := by
  intro c r e
  have : ∀ x ∈ seps, isNameChar x = false := by decide
  exact this c (h c r e)

theorem sep_cons {c : Char} (h : c ∈ seps) (r : Str) : Sep (c :: r) := by
  intro x y e; cases e; exact h

/-! ## Heads of number texts -/

theorem natDigits_head (n : Nat) : ∃ c r, natDigits n = c :: r ∧ isDigit c = true := by
  cases h : natDigits n with
  | nil => exact absurd h (natDigits_ne_nil n)
  | cons c r => exact ⟨c, r, rfl, digit_mem_natDigits n c (by rw [h]; simp)⟩

theorem decText_head (n w : Nat) : ∃ c r, F64.decText n w = c :: r ∧ isDigit c = true := by
  rcases decText_spec false n w with ⟨d, h1, _⟩ | ⟨a, b, h1, h2, h3, _⟩
  · obtain ⟨c, r, h2, h3⟩ := natDigits_head d
    exact ⟨c, r, by rw [h1, h2], h3⟩
  · cases a with
    | nil => exact absurd rfl h2
    | cons c r => exact ⟨c, r ++ '.' :: b, by rw [h1]; rfl, List.all_eq_true.mp h3 c (by simp)⟩

/-- A number's text begins with a digit or `-`, or it is `inf` or `NaN`. -/
theorem disp_head (n : Number) :
    (∃ c r, n.disp = c :: r ∧ (isDigit c = true ∨ c = '-')) ∨ n.disp = str "inf" ∨ n.disp = str "NaN" := by
  cases n with
  | uint x => obtain ⟨c, r, h1, h2⟩ := natDigits_head x; exact .inl ⟨c, r, h1, .inl h2⟩
  | int x =>
    obtain ⟨c, r, h1, h2⟩ := natDigits_head x.natAbs
    left
    by_cases hx : x < 0
    · exact ⟨'-', natDigits x.natAbs, by simp [Number.disp, hx], .inr rfl⟩
    · exact ⟨c, r, by simp [Number.disp, hx, h1], .inl h2⟩
  | float f =>
    match f with
    | .nan _ _ => exact .inr (.inr rfl)
    | .inf false => exact .inr (.inl rfl)
    | .inf true => exact .inl ⟨'-', str "inf", rfl, .inr rfl⟩
    | .fin s m =>
      left
      obtain ⟨W, _, hd⟩ := disp_fin_eq s m
      obtain ⟨c, r, h1, h2⟩ := decText_head (F64.shortest m) W
      cases s
      · exact ⟨c, r, by rw [Number.disp, hd]; exact h1, .inl h2⟩
      · exact ⟨'-', c :: r, by rw [Number.disp, hd, ← h1]; rfl, .inr rfl⟩

/-- Characters no value begins with by itself: a value's first character tells which parser applies. -/
theorem digit_facts {c : Char} (h : isDigit c = true ∨ c = '-') :
    isMultiWs c = false ∧ isAlpha c = false ∧ c ≠ '_' ∧ c ≠ '<' ∧ c ≠ '(' ∧ c ≠ '[' ∧ c ≠ '{' ∧ c ≠ 't' ∧ c ≠ 'f' ∧ c ≠ '"' ∧ c ≠ 's' := by
  rcases h with h | rfl
  · have hn : 48 ≤ c.toNat ∧ c.toNat ≤ 57 := by simpa [isDigit] using h
    have ne : ∀ d : Char, (d.toNat < 48 ∨ 57 < d.toNat) → c ≠ d := by
      intro d hd e; subst e; omega
    refine ⟨?_, ?_, ne _ ?_, ne _ ?_, ne _ ?_, ne _ ?_, ne _ ?_, ne _ ?_, ne _ ?_, ne _ ?_, ne _ ?_⟩
    · rw [isMultiWs, ← Bool.not_eq_true, List.contains_iff_mem]
      intro hc
      have : ∀ x ∈ str " \t\r\n", x.toNat < 48 := by decide
      have := this c hc
      omega
    · rw [← Bool.not_eq_true]
      simp [isAlpha]
      omega
    all_goals decide
  · decide

/-! ## Primitive values -/

theorem ctx_ok {α : Type} {s : String} {p : Parser α} {i r : Str} {a : α} (h : p i = .ok r a) :
    context s p i = .ok r a := by simp only [context, h]

theorem ctx_err {α : Type} {s : String} {p : Parser α} {i : Str} (h : ∃ e, p i = .err e) :
    ∃ e, context s p i = .err e := by
  obtain ⟨e, he⟩ := h
  exact ⟨e ++ [(i, .ctx s)], by simp only [context, he]⟩

theorem cut_ok {α : Type} {p : Parser α} {i r : Str} {a : α} (h : p i = .ok r a) : cut p i = .ok r a := by
  simp only [cut, h]

theorem map_ok {α β : Type} {p : Parser α} (f : α → β) {i r : Str} {a : α} (h : p i = .ok r a) :
    Nom.map p f i = .ok r (f a) := by simp only [Nom.map, h, PRes.bind]

theorem map_err {α β : Type} {p : Parser α} (f : α → β) {i : Str} (h : ∃ e, p i = .err e) :
    ∃ e, Nom.map p f i = .err e := by
  obtain ⟨e, he⟩ := h
  exact ⟨e, by simp only [Nom.map, he, PRes.bind]⟩

theorem char_err {c d : Char} (r : Str) (h : d ≠ c) : ∃ e, Nom.char c (d :: r) = .err e :=
  ⟨[(d :: r, .char c)], by simp only [Nom.char, if_neg h]⟩

theorem unitValue_err {c : Char} (r : Str) (h : c ≠ '(') : ∃ e, unitValue (c :: r) = .err e := by
  apply ctx_err
  apply map_err
  obtain ⟨e, he⟩ := char_err (c := '(') r h
  exact ⟨e, by simp only [preceded, he, PRes.bind]⟩

theorem boolean_err {c : Char} (r : Str) (h : c ≠ 't') (h' : c ≠ 'f') : ∃ e, boolean (c :: r) = .err e := by
  apply ctx_err
  have e1 : tag (str "true") (c :: r) = .err [(c :: r, .tag)] := by
    show (match (if 't' = c then stripPrefix (str "rue") r else none) with | some r => _ | none => _) = _
    rw [if_neg (Ne.symm h)]
  have e2 : tag (str "false") (c :: r) = .err [(c :: r, .tag)] := by
    show (match (if 'f' = c then stripPrefix (str "alse") r else none) with | some r => _ | none => _) = _
    rw [if_neg (Ne.symm h')]
  rw [alt_skip _ (map_err _ ⟨_, e1⟩)]
  exact alt_last (map_err _ ⟨_, e2⟩)

/-- A text that is read as no number: the longest prefix of number characters is no number. -/
theorem num_err {i : Str} (h : Number.fromStr (i.takeWhile isNumChar) = none) : ∃ e, num i = .err e := by
  apply ctx_err
  exact ⟨[(i, .fail)], by simp only [takeWhile, PRes.bind, h]⟩

theorem num_ok {n : Number} (h : Number.fromStr n.disp ≠ none) {rest : Str} (hr : Ends isNumChar rest) :
    num (n.disp ++ rest) = .ok rest (reread n) := by
  have ht := takeWhile_ends (disp_chars n) hr
  apply ctx_ok
  simp only [takeWhile, PRes.bind, ht.1, ht.2, reread]
  cases hf : Number.fromStr n.disp with
  | none => exact absurd hf h
  | some m => rfl

/-- Head and text of a number. -/
theorem disp_facts (n : Number) : ∃ c r, n.disp = c :: r ∧ isMultiWs c = false ∧ c ≠ '<' ∧ c ≠ '(' ∧ c ≠ '[' ∧ c ≠ '{' ∧ c ≠ 't' ∧ c ≠ 'f' := by
  rcases disp_head n with ⟨c, r, h1, h2⟩ | h | h
  · have := digit_facts h2
    exact ⟨c, r, h1, this.1, this.2.2.2.1, this.2.2.2.2.1, this.2.2.2.2.2.1, this.2.2.2.2.2.2.1, this.2.2.2.2.2.2.2.1, this.2.2.2.2.2.2.2.2.1⟩
  · exact ⟨'i', str "nf", h, by decide⟩
  · exact ⟨'N', str "aN", h, by decide⟩

theorem primValue_num {n : Number} (h : Number.fromStr n.disp ≠ none) {rest : Str} (hr : Ends isNumChar rest) :
    primValue (n.disp ++ rest) = .ok rest (.num (reread n)) := by
  have hn := num_ok h hr
  obtain ⟨c, r, hd, hc⟩ := disp_facts n
  rw [hd] at hn ⊢
  apply ctx_ok
  rw [List.cons_append, alt_skip _ (map_err _ (unitValue_err _ hc.2.2.1)),
    alt_skip _ (map_err _ (boolean_err _ hc.2.2.2.2.2.1 hc.2.2.2.2.2.2))]
  exact alt_ok _ (map_ok _ hn)

theorem primValue_bool (b : Bool) (rest : Str) : primValue (W.boolLit b ++ rest) = .ok rest (.bool b) := by
  have hb : boolean (W.boolLit b ++ rest) = .ok rest b := by cases b <;> rfl
  have hu : ∃ e, unitValue (W.boolLit b ++ rest) = .err e := by
    cases b
    · exact unitValue_err (c := 'f') _ (by decide)
    · exact unitValue_err (c := 't') _ (by decide)
  apply ctx_ok
  rw [alt_skip _ (map_err _ hu)]
  exact alt_ok _ (map_ok _ hb)

theorem primValue_unit (rest : Str) : primValue (str "()" ++ rest) = .ok rest .unit := by
  apply ctx_ok
  exact alt_ok _ (map_ok _ (a := ()) rfl)

theorem fromStr_nil : Number.fromStr [] = none := by decide +kernel

/-- The literal of a string begins with `"` or with `str`. -/
theorem strLit_head {s l : Str} (h : W.strLit s = some l) : ∃ c r, l = c :: r ∧ (c = '"' ∨ c = 's') := by
  obtain ⟨_, d, _, _, _, _, rfl⟩ := Props.C29_shape s l h
  by_cases hd : d = '"'
  · subst hd; exact ⟨'"', s ++ ['"'], by simp, .inl rfl⟩
  · exact ⟨'s', 't' :: 'r' :: d :: s ++ [d], by simp [hd]; rfl, .inr rfl⟩

theorem primValue_str {s l : Str} (h : W.strLit s = some l) (rest : Str) : primValue (l ++ rest) = .ok rest (.str s) := by
  have hs := Props.C29_reads s l h rest
  obtain ⟨c, r, hl, hc⟩ := strLit_head h
  rw [hl, List.cons_append] at hs ⊢
  have hn : isNumChar c = false := by rcases hc with rfl | rfl <;> decide
  have hne : c ≠ '(' ∧ c ≠ 't' ∧ c ≠ 'f' := by rcases hc with rfl | rfl <;> decide
  apply ctx_ok
  rw [alt_skip _ (map_err _ (unitValue_err _ hne.1)), alt_skip _ (map_err _ (boolean_err _ hne.2.1 hne.2.2)),
    alt_skip _ (map_err _ (num_err (by simp only [List.takeWhile_cons, hn, Bool.false_eq_true, if_false]; exact fromStr_nil)))]
  exact alt_ok _ (map_ok _ hs)

theorem primValue_barr (b : Bytes) (rest : Str) : primValue (W.barrLit b ++ rest) = .ok rest (.barr b) := by
  have hs := Props.C30_reads b rest
  have e : W.barrLit b ++ rest = 'b' :: '9' :: '1' :: '\'' :: (Base91.encode b ++ '\'' :: rest) := by
    simp [W.barrLit]; rfl
  rw [e] at hs ⊢
  have hstr : ∀ i, ∃ e, string ('b' :: i) = .err e := by
    intro i
    have : stripPrefix (str "str") ('b' :: i) = none := rfl
    simp only [string, this]
    apply ctx_err
    exact ⟨[('b' :: i, .char '"')], rfl⟩
  apply ctx_ok
  rw [alt_skip _ (map_err _ (unitValue_err _ (by decide))), alt_skip _ (map_err _ (boolean_err _ (by decide) (by decide))),
    alt_skip _ (map_err _ (num_err (i := 'b' :: _) fromStr_nil)), alt_skip _ (map_err _ (hstr _))]
  exact alt_ok _ (map_ok _ hs)

/-! ## Primitives with identities -/

/-- The identity in front of a primitive. -/
def pid : Option Str → Str
  | none => []
  | some i => '<' :: i ++ str "> "

theorem pid_eq (i x : Str) : pid (some i) ++ x = '<' :: (i ++ '>' :: (' ' :: x)) := by simp [pid]; rfl

/-- Identities that can be read. -/
def IdOk (id : Option Str) : Prop := ∀ i, id = some i → ValidName i

theorem withId_ok {i : Str} (h : ValidName i) (v : Value) : Kserd.withId i v = .ok (.mk (some i) v) := PG.withId_valid h v

theorem ctor_ok {id : Option Str} (h : IdOk id) (v : Value) (rest : Str) : kserdCtor id v rest = .ok rest (.mk id v) := by
  cases id with
  | none => rfl
  | some i => simp only [kserdCtor, withId_ok (h i rfl)]

theorem prim_ok {id : Option Str} (hid : IdOk id) {l rest : Str} {v : Value} (h : primValue (l ++ rest) = .ok rest v)
    (hl : ∃ c r, l = c :: r ∧ isMultiWs c = false ∧ c ≠ '<') : prim (pid id ++ l ++ rest) = .ok rest (.mk id v) := by
  obtain ⟨c, r, rfl, hw, hlt⟩ := hl
  cases id with
  | none =>
    have h1 := opt_err (identA_err (r ++ rest) hlt)
    have h2 := inlineWs_none (r ++ rest) (inline_multi hw)
    rw [List.cons_append] at h
    simp only [prim, pid, List.nil_append, List.cons_append, context, separatedPair, h1, PRes.bind, h2, h]
    exact ctor_ok hid v rest
  | some i =>
    have h1 := opt_ok (identA_ok (hid i rfl) (rest := ' ' :: c :: (r ++ rest)))
    have h2 := inlineWs_one (r ++ rest) (inline_multi hw)
    rw [List.cons_append] at h
    rw [List.append_assoc, pid_eq]
    simp only [prim, List.cons_append, context, separatedPair, h1, PRes.bind, h2, h]
    exact ctor_ok hid v rest

/-! ## Which parser applies -/

theorem startsWith_head {a c : Char} (t r : Str) (h : c ≠ a) : startsWith (a :: t) (c :: r) = false := by
  simp [startsWith, stripPrefix, Ne.symm h]

theorem not_word {c : Char} (r : Str) (h : c ≠ 't') (h' : c ≠ 'f') :
    (startsWith (str "true") (c :: r) || startsWith (str "false") (c :: r)) = false := by
  have h1 : startsWith (str "true") (c :: r) = false := startsWith_head (a := 't') (str "rue") r h
  have h2 : startsWith (str "false") (c :: r) = false := startsWith_head (a := 'f') (str "alse") r h'
  rw [h1, h2]; rfl

theorem pat_prim {i : Str} (h : ValidName i) (rest : Str) :
    patternDelimited ('<' :: (i ++ '>' :: rest)) = .ok ('<' :: (i ++ '>' :: rest)) .none := by
  have h1 := opt_ok (identA_ok h (rest := rest))
  simp only [patternDelimited, not_word (c := '<') _ (by decide) (by decide), Bool.false_eq_true, if_false, h1, PRes.bind]
  congr 1
  simp [nextDelim]

theorem startsWith_iff : ∀ (t i : Str), startsWith t i = true ↔ t <+: i
  | [], i => by simp [startsWith, stripPrefix]
  | a :: t, [] => by simp [startsWith, stripPrefix]
  | a :: t, b :: i => by
    have ih := startsWith_iff t i
    by_cases h : a = b
    · subst h
      simp only [startsWith, stripPrefix, if_true, List.cons_prefix_cons, true_and]
      exact ih
    · simp [startsWith, stripPrefix, h, List.cons_prefix_cons]

theorem prefix_ends {t i rest : Str} (ht : ∀ c ∈ t, isNameChar c = true) (hr : Ends isNameChar rest) (h : t <+: i ++ rest) : t <+: i := by
  induction t generalizing i with
  | nil => simp
  | cons a t ih =>
    cases i with
    | nil =>
      obtain ⟨s, hs⟩ := h
      have := hr a (t ++ s) hs.symm
      rw [ht a (by simp)] at this
      cases this
    | cons b i =>
      rw [List.cons_append, List.cons_prefix_cons] at h
      rw [List.cons_prefix_cons]
      exact ⟨h.1, ih (fun c hc => ht c (by simp [hc])) h.2⟩

theorem pat_name {i : Str} (h : ValidName i) (hw : NotBool i) {rest : Str} (hr : Ends isNameChar rest) :
    patternDelimited (i ++ rest) = .ok (i ++ rest) (nextDelim .nonprim (rest.dropWhile isMultiWs)) := by
  have n1 : startsWith (str "true") (i ++ rest) = false := by
    rw [← Bool.not_eq_true, startsWith_iff]
    exact fun h => hw.1 (prefix_ends (by decide) hr h)
  have n2 : startsWith (str "false") (i ++ rest) = false := by
    rw [← Bool.not_eq_true, startsWith_iff]
    exact fun h => hw.2 (prefix_ends (by decide) hr h)
  obtain ⟨c, r, hi, hc⟩ := name_head h
  have h1 : opt (ident true) (i ++ rest) = .ok (i ++ rest) none := by
    apply opt_err
    rw [hi]
    apply identA_err
    rintro rfl
    rcases hc with hc | hc
    · exact absurd hc (by decide)
    · exact absurd hc (by decide)
  have h2 := opt_ok (ident_ok h hr)
  simp only [patternDelimited, n1, n2, Bool.or_self, Bool.false_eq_true, if_false, h1, PRes.bind, h2]

theorem pat_sym {c : Char} (r : Str) (h : c ≠ 't' ∧ c ≠ 'f' ∧ c ≠ '<' ∧ isAlpha c = false ∧ c ≠ '_' ∧ isMultiWs c = false) :
    patternDelimited (c :: r) = .ok (c :: r) (nextDelim .none (c :: r)) := by
  have h1 := opt_err (identA_err r h.2.2.1)
  have h2 := opt_err (ident_err r h.2.2.2.1 h.2.2.2.2.1)
  simp only [patternDelimited, not_word r h.1 h.2.1, Bool.false_eq_true, if_false, h1, PRes.bind, h2, dropWs r h.2.2.2.2.2]

theorem pat_bool (b : Bool) (rest : Str) : patternDelimited (W.boolLit b ++ rest) = .ok (W.boolLit b ++ rest) .none := by
  cases b <;> rfl

theorem nextDelim_other (id : IdentKind) {c : Char} (r : Str) (h : c ≠ '(' ∧ c ≠ '[' ∧ c ≠ '{') : nextDelim id (c :: r) = .none := by
  rw [nextDelim]
  simp only [List.head?_cons, Option.getD_some]
  split
  · exact absurd rfl h.2.1
  · exact absurd rfl h.2.2
  · exact absurd rfl h.1
  · simp

theorem nextDelim_nil (id : IdentKind) : nextDelim id [] = .none := by cases id <;> rfl

/-- The next visible character opens nothing. -/
def NoOpen (rest : Str) : Prop := ∀ c r, rest.dropWhile isMultiWs = c :: r → c ≠ '(' ∧ c ≠ '[' ∧ c ≠ '{'

theorem nextDelim_noOpen (id : IdentKind) {rest : Str} (h : NoOpen rest) : nextDelim id (rest.dropWhile isMultiWs) = .none := by
  cases hr : rest.dropWhile isMultiWs with
  | nil => exact nextDelim_nil id
  | cons c r => exact nextDelim_other id r (h c r hr)

theorem pat_num {n : Number} {rest : Str} (hr : Sep rest) (hb : (n.disp = str "inf" ∨ n.disp = str "NaN") → NoOpen rest) :
    patternDelimited (n.disp ++ rest) = .ok (n.disp ++ rest) .none := by
  have hw : ∀ w : Str, (w = str "inf" ∨ w = str "NaN") → ValidName w ∧ NotBool w := by
    intro w hw
    rcases hw with rfl | rfl
    · refine ⟨⟨'i', str "nf", rfl, .inl (.inl (by decide)), ?_⟩, ?_, ?_⟩
      · intro x hx; rw [← PG.isNameChar_iff]; revert x; decide
      · decide
      · decide
    · refine ⟨⟨'N', str "aN", rfl, .inl (.inr (by decide)), ?_⟩, ?_, ?_⟩
      · intro x hx; rw [← PG.isNameChar_iff]; revert x; decide
      · decide
      · decide
  rcases disp_head n with ⟨c, r, h1, h2⟩ | h | h
  · have hf := digit_facts h2
    rw [h1, List.cons_append, pat_sym _ ⟨hf.2.2.2.2.2.2.2.1, hf.2.2.2.2.2.2.2.2.1, hf.2.2.2.1, hf.2.1, hf.2.2.1, hf.1⟩,
      nextDelim_other _ _ ⟨hf.2.2.2.2.1, hf.2.2.2.2.2.1, hf.2.2.2.2.2.2.1⟩]
  · have := hw _ (.inl h)
    rw [pat_name this.1 this.2 (sep_name hr), nextDelim_noOpen _ (hb (.inl h))]
  · have := hw _ (.inr h)
    rw [pat_name this.1 this.2 (sep_name hr), nextDelim_noOpen _ (hb (.inr h))]

/-- The delimiters a string without identity may have besides the double quote. -/
def plainDelims : Str := str "'#`|*^!%~&"

theorem plain_facts {d : Char} (h : d ∈ plainDelims) : isNameChar d = false ∧ isMultiWs d = false ∧ isInlineWs d = false ∧ d ≠ ']' ∧ d ≠ '=' ∧
    (d ≠ '(' ∧ d ≠ '[' ∧ d ≠ '{') := by
  revert d; decide

/-- The first character that is missing, if one of the first ones is. -/
theorem first_missing {s : Str} : ∀ {l before : Str} {d : Char} {after m n : Str}, l = m ++ n → l = before ++ d :: after → (∀ x ∈ before, x ∈ s) →
    (∃ x ∈ m, x ∉ s) → d ∈ m
  | _, [], d, after, [], n, _, _, _, ⟨x, h, _⟩ => by cases h
  | _, [], d, after, y :: m, n, h1, h2, _, _ => by
    subst h1
    simp only [List.cons_append, List.nil_append, List.cons.injEq] at h2
    exact h2.1 ▸ List.mem_cons_self
  | _, b :: before, d, after, [], n, _, _, _, ⟨x, h, _⟩ => by cases h
  | _, b :: before, d, after, y :: m, n, h1, h2, h3, ⟨x, hx, hn⟩ => by
    subst h1
    simp only [List.cons_append, List.cons.injEq] at h2
    obtain ⟨rfl, h2⟩ := h2
    refine List.mem_cons_of_mem _ (first_missing (s := s) rfl h2 (fun x h => h3 x (List.mem_cons_of_mem _ h)) ⟨x, ?_, hn⟩)
    rcases List.mem_cons.mp hx with rfl | hx
    · exact absurd (h3 x List.mem_cons_self) hn
    · exact hx

theorem strLit_quoted {s l : Str} (h : W.strLit s = some l) (hq : Quotable s) :
    l = '"' :: s ++ ['"'] ∨ ∃ d ∈ plainDelims, l = str "str" ++ d :: (s ++ [d]) ∧ (d = '\'' ∨ Unassigned s) := by
  obtain ⟨before, d, after, h1, h2, h3, rfl⟩ := Props.C29_shape s l h
  by_cases hd : d = '"'
  · left; subst hd; simp
  right
  have key : d ∈ plainDelims ∧ (d = '\'' ∨ Unassigned s) := by
    by_cases hd1 : d = '\''
    · subst hd1; exact ⟨by decide, .inl rfl⟩
    have two : ¬ ('"' ∉ s ∨ '\'' ∉ s) := fun hh => by
      have := first_missing (s := s) (m := str "\"'") (n := str "#`=|*^!%~&_\\/:<>()") (l := delimiters) rfl h1 h2 (by
        rcases hh with hh | hh
        · exact ⟨_, by decide, hh⟩
        · exact ⟨_, by decide, hh⟩)
      rcases List.mem_cons.mp this with rfl | this
      · exact hd rfl
      · exact hd1 (List.mem_singleton.mp this)
    push Not at two
    rcases hq with hq | hq | ⟨hu, hq⟩
    · exact absurd two.1 hq
    · exact absurd two.2 hq
    · refine ⟨?_, .inr hu⟩
      have hm : d ∈ str "\"'#`=|*^!%~&" :=
        first_missing (s := s) (n := str "_\\/:<>()") (l := delimiters) rfl h1 h2 (by
          rcases hq with hq | hq | ⟨-, x, hx, hq⟩
          · exact ⟨_, by decide, hq⟩
          · exact ⟨_, by decide, hq⟩
          · exact ⟨x, by clear hq; revert x; decide, hq⟩)
      have he : d ≠ '=' := by
        rintro rfl
        rcases hq with hq | hq | ⟨hq, -⟩
        · have := first_missing (s := s) (m := str "\"'#") (n := str "`=|*^!%~&_\\/:<>()") (l := delimiters) rfl h1 h2 ⟨_, by decide, hq⟩
          exact absurd this (by decide)
        · have := first_missing (s := s) (m := str "\"'#`") (n := str "=|*^!%~&_\\/:<>()") (l := delimiters) rfl h1 h2 ⟨_, by decide, hq⟩
          exact absurd this (by decide)
        · exact h3 hq
      have all : ∀ x ∈ str "\"'#`=|*^!%~&", x ≠ '"' → x ≠ '=' → x ∈ plainDelims := by decide
      exact all d hm hd he
  exact ⟨d, key.1, by rw [if_neg hd]; simp, key.2⟩

theorem validName_of {w : Str} {c : Char} {r : Str} (e : w = c :: r) (h1 : isAlpha c = true) (h2 : r.all isNameChar = true) : ValidName w := by
  refine ⟨c, r, e, .inl ?_, ?_⟩
  · exact (PG.isAlpha_iff c).mp h1
  · intro x hx; rw [← PG.isNameChar_iff]; exact List.all_eq_true.mp h2 x hx

theorem pat_str {s l : Str} (h : W.strLit s = some l) (hq : Quotable s) (rest : Str) :
    patternDelimited (l ++ rest) = .ok (l ++ rest) .none := by
  rcases strLit_quoted h hq with rfl | ⟨d, hd, rfl, -⟩
  · simp only [List.cons_append]
    rw [pat_sym _ (by decide), nextDelim_other _ _ (by decide)]
  · have e : str "str" ++ d :: (s ++ [d]) ++ rest = str "str" ++ (d :: (s ++ d :: rest)) := by simp
    have f := plain_facts hd
    rw [e, pat_name (i := str "str") (validName_of (c := 's') (r := str "tr") rfl (by decide) (by decide)) (by constructor <;> decide)
      (by intro c r e; cases e; exact f.1), dropWs _ f.2.1, nextDelim_other _ _ f.2.2.2.2.2]

theorem pat_barr (b : Bytes) (rest : Str) : patternDelimited (W.barrLit b ++ rest) = .ok (W.barrLit b ++ rest) .none := by
  have e : W.barrLit b ++ rest = str "b91" ++ ('\'' :: (Base91.encode b ++ '\'' :: rest)) := by
    simp [W.barrLit]; rfl
  rw [e, pat_name (i := str "b91") (validName_of (c := 'b') (r := str "91") rfl (by decide) (by decide)) (by constructor <;> decide)
      (by intro c r e; cases e; decide), dropWs _ (by decide), nextDelim_other _ _ (by decide)]

theorem pat_unit (rest : Str) : patternDelimited (str "()" ++ rest) = .ok (str "()" ++ rest) .none := by
  show patternDelimited ('(' :: (')' :: rest)) = _
  rw [pat_sym _ (by decide)]
  rfl

end KS.RT
