import Verif.Lemmas.InlineRead
/-!
# Reading a single line: literals and the shape of values
-/

namespace KS.Inl
open KS.Spec KS.RT

/-- No opening bracket follows, not even after white space. -/
def NoneOpen (r : Str) : Prop := ∀ w b z, White w → (b = '(' ∨ b = '[' ∨ b = '{') → r ≠ w ++ b :: z

/-- What may follow the text of a Kserd: behind `inf` and `NaN` no opening bracket. -/
def Follows (k : Kserd) (r : Str) : Prop := Ends r ∧ (Bare k → NoneOpen r)

theorem Stopped.noOpen {r : Str} (h : Stopped r) : NoneOpen r := fun _ _ _ hw hb => h.noBracket hw hb

theorem Stopped.follows {r : Str} (h : Stopped r) (k : Kserd) : Follows k r := ⟨h.head, fun _ => h.noOpen⟩

/-- No name and bracket at the beginning. -/
theorem word_noBracket' {n r : Str} (hn : ∀ c ∈ n, NameChar c) (hr : Ends r) (h : NoneOpen r) : ¬ BracketAhead (n ++ r) := by
  rintro ⟨m, w, b, z, e, hm, hw, hb⟩
  have hb' : b ∈ str " \t\r\n([{" := by rcases hb with rfl | rfl | rfl <;> decide
  obtain ⟨h1, h2⟩ := span hn (EX.name_chars hm) hr.noName (by
    intro c t e hc
    refine (EX.name_not hc).2.2 ?_
    cases w with
    | nil => cases e; exact hb'
    | cons d w =>
      cases e
      rcases hw c List.mem_cons_self with rfl | rfl | rfl | rfl <;> decide) e
  exact h w b z hw hb h2

theorem word_noBracket {n r : Str} (hn : ∀ c ∈ n, NameChar c) (h : Stopped r) : ¬ BracketAhead (n ++ r) := word_noBracket' hn h.head h.noOpen

theorem disp_noBracket' (n : Number) {r : Str} (h : Follows (.mk none (.num n)) r) : ¬ BracketAhead (n.disp ++ r) := by
  rcases disp_head n with ⟨c, t, e, hc⟩ | e | e
  · rw [e]
    have := digit_facts hc
    refine EX.not_bracket ⟨c, t, rfl, fun hl => ?_, this.2.2.1⟩ r
    rw [← PG.isAlpha_iff, this.2.1] at hl; cases hl
  · have := h.2 ⟨rfl, n, rfl, .inl e⟩
    rw [e]; exact word_noBracket' (fun c hc => (PG.isNameChar_iff c).mp (by revert c; decide)) h.1 this
  · have := h.2 ⟨rfl, n, rfl, .inr e⟩
    rw [e]; exact word_noBracket' (fun c hc => (PG.isNameChar_iff c).mp (by revert c; decide)) h.1 this

theorem disp_noBracket (n : Number) {r : Str} (h : Stopped r) : ¬ BracketAhead (n.disp ++ r) := disp_noBracket' n (h.follows _)

theorem open_notName {o : Char} (ho : o ∈ str "([{") : ¬ NameChar o := by
  rw [← PG.isNameChar_iff]
  have : ∀ o ∈ str "([{", P.isNameChar o = false := by decide
  rw [this o ho]; simp

theorem blanks_open {w : Str} (hw : Blanks w) {o : Char} (ho : o ∈ str "([{") (x : Str) : NotContinued NameChar (w ++ o :: x) := by
  intro c r e hc
  cases w with
  | nil => cases e; exact open_notName ho hc
  | cons d w =>
    cases e
    rw [← PG.isNameChar_iff] at hc
    rcases hw c List.mem_cons_self with rfl | rfl <;> revert hc <;> decide

/-- No name and, perhaps after blanks, bracket at the beginning, when what follows is on the next line. -/
theorem disp_noName (n : Number) {r i w z : Str} {o : Char} (h : Cut r) (hi : ValidName i) (hw : Blanks w) (ho : o ∈ str "([{")
    (e : n.disp ++ r = i ++ (w ++ o :: z)) : False := by
  have ho' : o = '(' ∨ o = '[' ∨ o = '{' := by
    have : ∀ o ∈ str "([{", o = '(' ∨ o = '[' ∨ o = '{' := by decide
    exact this o ho
  rcases h with h | ⟨y, rfl⟩
  · exact disp_noBracket n h ⟨i, w, o, z, e, hi, GR.white_of_blanks hw, ho'⟩
  · have word : ∀ {t : Str}, (∀ c ∈ t, NameChar c) → t ++ '\n' :: y = i ++ (w ++ o :: z) → False := by
      intro t ht e
      obtain ⟨-, e2⟩ := span ht (EX.name_chars hi) (Cut.ends (.inr ⟨y, rfl⟩)).noName (blanks_open hw ho _) e
      cases w with
      | nil => cases e2; rcases ho' with h | h | h <;> cases h
      | cons c w => cases e2; rcases hw '\n' List.mem_cons_self with h | h <;> cases h
    rcases disp_head n with ⟨c, t, e1, hc⟩ | e1 | e1
    · have := digit_facts hc
      refine EX.not_bracket (t := n.disp) ⟨c, t, e1, fun hl => ?_, this.2.2.1⟩ ('\n' :: y) ⟨i, w, o, z, e, hi, GR.white_of_blanks hw, ho'⟩
      rw [← PG.isAlpha_iff, this.2.1] at hl; cases hl
    · rw [e1] at e; exact word (fun c hc => (PG.isNameChar_iff c).mp (by revert c; decide)) e
    · rw [e1] at e; exact word (fun c hc => (PG.isNameChar_iff c).mp (by revert c; decide)) e

theorem str_noBracket {s l : Str} (h : W.strLit s = some l) (hq : Quotable s) (r : Str) : ¬ BracketAhead (l ++ r) := by
  rcases strLit_quoted h hq with rfl | ⟨d, hd, rfl, -⟩
  · refine EX.not_bracket ⟨'"', s ++ ['"'], by simp, fun hl => ?_, by decide⟩ r
    rw [← PG.isAlpha_iff] at hl; revert hl; decide
  · have e : str "str" ++ d :: (s ++ [d]) ++ r = str "str" ++ d :: (s ++ [d] ++ r) := by simp
    have f := plain_facts hd
    rw [e]
    refine EX.not_bracket_name (fun c hc => (PG.isNameChar_iff c).mp (by revert c; decide)) (by rw [← PG.isNameChar_iff, f.1]; decide) ?_
    clear h e f; revert d; decide

theorem barr_noBracket (b : Bytes) (r : Str) : ¬ BracketAhead (W.barrLit b ++ r) := by
  have e : W.barrLit b ++ r = str "b91" ++ '\'' :: (Base91.encode b ++ ['\''] ++ r) := by simp [W.barrLit]; rfl
  rw [e]
  exact EX.not_bracket_name (fun c hc => (PG.isNameChar_iff c).mp (by revert c; decide)) (by rw [← PG.isNameChar_iff]; decide) (by decide)

/-! ## Literals are read as what was written -/

theorem num_head_ne {t : Str} {n : Number} (h : (Literal.num t n).Ok) {c : Char} {r x : Str} (hc : P.isNumChar c = false) : t ++ x ≠ c :: r := by
  intro e
  cases t with
  | nil => have := h.2; rw [fromStr_nil] at this; cases this
  | cons d t => cases e; have := (GR.numChar_iff c).mpr (h.1 c List.mem_cons_self); rw [hc] at this; cases this

theorem bool_read {l : Literal} {b : Bool} {rest rest' : Str} (hl : l.Ok) (hc : l.Complete rest) (e : l.text ++ rest = W.boolLit b ++ rest') :
    l.value = .bool b ∧ rest = rest' := by
  have hd : ∃ c r, W.boolLit b ++ rest' = c :: r ∧ (c = 't' ∨ c = 'f') := by
    cases b
    · exact ⟨'f', _, rfl, .inr rfl⟩
    · exact ⟨'t', _, rfl, .inl rfl⟩
  have hno : ∀ {d : Char} {x : Str}, d ≠ 't' → d ≠ 'f' → d :: x ≠ W.boolLit b ++ rest' := by
    intro d x h1 h2 e
    obtain ⟨c, r, e', hc⟩ := hd
    rw [e'] at e; cases e
    rcases hc with h | h
    · exact h1 h
    · exact h2 h
  cases l with
  | unit w => exact absurd e (hno (by decide) (by decide))
  | quoted w => exact absurd e (hno (by decide) (by decide))
  | delimited d s => exact absurd e (hno (by decide) (by decide))
  | bytes t => exact absurd e (hno (by decide) (by decide))
  | bool b' =>
    cases b <;> cases b'
    · exact ⟨rfl, List.append_cancel_left e⟩
    · exact absurd (show some 't' = some 'f' from congrArg List.head? e) (by decide)
    · exact absurd (show some 'f' = some 't' from congrArg List.head? e) (by decide)
    · exact ⟨rfl, List.append_cancel_left e⟩
  | num t n =>
    cases b with
    | true => exact absurd e (num_head_ne hl (by decide))
    | false =>
      have e : t ++ rest = str "fa" ++ (str "lse" ++ rest') := e
      have := span (P := NumChar) hl.1 (fun c hc => (GR.numChar_iff c).mp (by revert c; decide)) hc (by
        intro c r e; cases e; rw [← GR.numChar_iff]; decide) e
      have h2 := hl.2
      rw [this.1] at h2
      exact absurd h2 (by rw [show Number.fromStr (str "fa") = none by decide +kernel]; simp)

theorem num_read {l : Literal} {n : Number} {rest rest' : Str} (hl : l.Ok) (hc : l.Complete rest) (hr : Cut rest')
    (e : l.text ++ rest = n.disp ++ rest') : Number.fromStr n.disp ≠ none ∧ l.value = .num (reread n) ∧ rest = rest' := by
  have hd : ∃ c r, n.disp ++ rest' = c :: r ∧ (isDigit c = true ∨ c = '-' ∨ c = 'i' ∨ c = 'N') := by
    rcases disp_head n with ⟨c, t, e, hc⟩ | e | e
    · exact ⟨c, t ++ rest', by rw [e]; rfl, by tauto⟩
    · exact ⟨'i', str "nf" ++ rest', by rw [e]; rfl, by decide⟩
    · exact ⟨'N', str "aN" ++ rest', by rw [e]; rfl, by decide⟩
  have hno : ∀ {d : Char} {x : Str}, isDigit d = false → d ≠ '-' → d ≠ 'i' → d ≠ 'N' → d :: x ≠ n.disp ++ rest' := by
    intro d x h1 h2 h3 h4 e
    obtain ⟨c, r, e', hc⟩ := hd
    rw [e'] at e; cases e
    rcases hc with h | h | h | h
    · rw [h1] at h; cases h
    · exact h2 h
    · exact h3 h
    · exact h4 h
  cases l with
  | unit w => exact absurd e (hno (by decide) (by decide) (by decide) (by decide))
  | quoted w => exact absurd e (hno (by decide) (by decide) (by decide) (by decide))
  | delimited d s => exact absurd e (hno (by decide) (by decide) (by decide) (by decide))
  | bytes t => exact absurd e (hno (by decide) (by decide) (by decide) (by decide))
  | bool b =>
    cases b
    · exact absurd e (hno (by decide) (by decide) (by decide) (by decide))
    · exact absurd e (hno (by decide) (by decide) (by decide) (by decide))
  | num t m =>
    have := span (P := NumChar) hl.1 (fun c hc => (GR.numChar_iff c).mp (disp_chars n c hc)) hc hr.ends.noNum e
    have h2 := hl.2
    rw [this.1] at h2
    refine ⟨by rw [h2]; simp, ?_, this.2⟩
    rw [Literal.value, reread, h2, Option.getD_some]

theorem quote_read {l : Literal} {s rest rest' : Str} (hl : l.Ok) (hs : '"' ∉ s)
    (e : l.text ++ rest = '"' :: (s ++ '"' :: rest')) : l.value = .str s ∧ rest = rest' := by
  cases l with
  | unit w => exact absurd (show some '(' = some '"' from congrArg List.head? e) (by decide)
  | bool b =>
    cases b
    · exact absurd (show some 'f' = some '"' from congrArg List.head? e) (by decide)
    · exact absurd (show some 't' = some '"' from congrArg List.head? e) (by decide)
  | num t n => exact absurd e (num_head_ne hl (by decide))
  | quoted w =>
    simp only [Literal.text, List.cons_append, List.append_assoc, List.cons.injEq, List.nil_append, true_and] at e
    have := Dbg.split_at hl hs e
    exact ⟨by rw [Literal.value, this.1], this.2⟩
  | delimited d w => exact absurd (show some 's' = some '"' from congrArg List.head? e) (by decide)
  | bytes w => exact absurd (show some 'b' = some '"' from congrArg List.head? e) (by decide)

theorem delim_read {l : Literal} {d : Char} {s rest rest' : Str} (hl : l.Ok) (hs : d ∉ s)
    (e : l.text ++ rest = str "str" ++ d :: (s ++ d :: rest')) : l.value = .str s ∧ rest = rest' := by
  cases l with
  | unit w => exact absurd (show some '(' = some 's' from congrArg List.head? e) (by decide)
  | bool b =>
    cases b
    · exact absurd (show some 'f' = some 's' from congrArg List.head? e) (by decide)
    · exact absurd (show some 't' = some 's' from congrArg List.head? e) (by decide)
  | num t n => exact absurd e (num_head_ne hl (by decide))
  | quoted w => exact absurd (show some '"' = some 's' from congrArg List.head? e) (by decide)
  | delimited d' w =>
    simp only [Literal.text, List.append_assoc] at e
    have e := List.append_cancel_left e
    simp only [List.cons_append, List.append_assoc, List.cons.injEq, List.nil_append] at e
    obtain ⟨rfl, e⟩ := e
    have := Dbg.split_at hl hs e
    exact ⟨by rw [Literal.value, this.1], this.2⟩
  | bytes w => exact absurd (show some 'b' = some 's' from congrArg List.head? e) (by decide)

theorem str_read {l : Literal} {s t rest rest' : Str} (hl : l.Ok) (h : W.strLit s = some t)
    (e : l.text ++ rest = t ++ rest') : l.value = .str s ∧ rest = rest' := by
  obtain ⟨before, d, after, h1, h2, h3, rfl⟩ := Props.C29_shape s t h
  by_cases hd : d = '"'
  · subst hd
    exact quote_read hl h3 (by rw [e]; simp)
  · exact delim_read hl h3 (by rw [e, if_neg hd]; simp)

theorem barr_read {l : Literal} {b : Bytes} {rest rest' : Str} (hl : l.Ok) (e : l.text ++ rest = W.barrLit b ++ rest') :
    l.value = .barr b ∧ rest = rest' := by
  cases l with
  | unit w => exact absurd (show some '(' = some 'b' from congrArg List.head? e) (by decide)
  | bool b =>
    cases b
    · exact absurd (show some 'f' = some 'b' from congrArg List.head? e) (by decide)
    · exact absurd (show some 't' = some 'b' from congrArg List.head? e) (by decide)
  | num t n =>
    have e : t ++ rest = 'b' :: (str "91'" ++ Base91.encode b ++ ['\''] ++ rest') := e
    exact absurd e (num_head_ne hl (by decide))
  | quoted w => exact absurd (show some '"' = some 'b' from congrArg List.head? e) (by decide)
  | delimited d w => exact absurd (show some 's' = some 'b' from congrArg List.head? e) (by decide)
  | bytes w =>
    have e : str "b91'" ++ (w ++ ['\'']) ++ rest = str "b91'" ++ Base91.encode b ++ ['\''] ++ rest' := e
    simp only [List.append_assoc] at e
    have e := List.append_cancel_left e
    have := Dbg.split_at hl (Base91.encode_no_quote b) e
    refine ⟨?_, this.2⟩
    rw [Literal.value, this.1, Base91.decode_encode]

/-! ## The shape of what is read -/

/-- Text `lit` of a primitive, with the identity before it. -/
theorem prim_read {T : Tree} {inl : Bool} {rest rest' lit : Str} {id : Option Str} (hid : NameOk id) (hT : T.Reads inl rest)
    (hlit : ∃ c r, lit = c :: r ∧ Start c ∧ c ∉ str "<([{")
    (hb : id = none → ∀ i w o z, lit ++ rest' = i ++ (w ++ o :: z) → ValidName i → NotBool i → Blanks w → o ∈ str "([{" → False)
    (e : T.text ++ rest = pid id ++ (lit ++ rest')) :
    ∃ w l, T = .prim id w l ∧ l.Ok ∧ l.Complete rest ∧ l.text ++ rest = lit ++ rest' := by
  have comp : ∀ {id' : Option Str} {w : Str} {o : Char} {x : Str}, NameOk id' → Blanks w → (id' = none → w = []) → (∀ i, id' = some i → NotBool i) →
      o ∈ str "([{" → plainId id' ++ (w ++ o :: x) = pid id ++ (lit ++ rest') → False := by
    intro id' w o x h1 h2 h3 h4 ho e
    cases id' with
    | none =>
      rw [h3 rfl] at e
      have e : o :: x = pid id ++ (lit ++ rest') := e
      cases id with
      | none =>
        obtain ⟨c, r, rfl, -, hc⟩ := hlit
        cases e
        have : ∀ o ∈ str "([{", o ∈ str "<([{" := by decide
        exact hc (this o ho)
      | some i =>
        rw [pid_eq] at e
        cases e
        revert ho; decide
    | some i' =>
      cases id with
      | none => exact hb rfl i' w o x e.symm (h1 i' rfl) (h4 i' rfl) h2 ho
      | some i =>
        rw [pid_eq] at e
        obtain ⟨c, r, rfl, hc⟩ := name_starts (h1 i' rfl)
        have := (EX.name_chars (h1 _ rfl)) c List.mem_cons_self
        have e : some c = some '<' := congrArg List.head? e
        cases e
        rw [← PG.isNameChar_iff] at this
        revert this; decide
  cases T with
  | prim id' w l =>
    obtain ⟨h1, h2, h3, h4, h5, h6⟩ := hT
    rw [Tree.text, List.append_assoc, List.append_assoc] at e
    cases id with
    | none =>
      cases id' with
      | none => rw [h3 rfl] at e; exact ⟨w, l, rfl, h4, h5, e⟩
      | some i' =>
        obtain ⟨c, r, rfl, -, hc⟩ := hlit
        have := congrArg List.head? e
        simp only [angled, pid, List.cons_append, List.nil_append, List.head?_cons, Option.some.injEq] at this
        subst this
        exact absurd (by decide) hc
    | some i =>
      rw [pid_eq] at e
      cases id' with
      | none =>
        rw [h3 rfl] at e
        cases l with
        | unit w => exact absurd (show some '(' = some '<' from congrArg List.head? e) (by decide)
        | bool b =>
          cases b
          · exact absurd (show some 'f' = some '<' from congrArg List.head? e) (by decide)
          · exact absurd (show some 't' = some '<' from congrArg List.head? e) (by decide)
        | num t n => exact absurd e (num_head_ne h4 (by decide))
        | quoted w => exact absurd (show some '"' = some '<' from congrArg List.head? e) (by decide)
        | delimited d w => exact absurd (show some 's' = some '<' from congrArg List.head? e) (by decide)
        | bytes w => exact absurd (show some 'b' = some '<' from congrArg List.head? e) (by decide)
      | some i' =>
        simp only [angled, List.cons_append, List.append_assoc, List.cons.injEq, List.nil_append, true_and] at e
        have no : ∀ {i : Str}, ValidName i → '>' ∉ i := by
          intro i hi hm
          have := EX.name_chars hi _ hm
          rw [← PG.isNameChar_iff] at this
          revert this; decide
        obtain ⟨rfl, e2⟩ := Dbg.split_at (no (h1 _ rfl)) (no (hid _ rfl)) e
        have hs : Starts lit := by obtain ⟨c, r, rfl, hc, -⟩ := hlit; exact ⟨c, r, rfl, hc⟩
        have := span (P := BlankC) (b := [' ']) h2 (by intro c hc; rw [List.mem_singleton.mp hc]; exact .inl rfl) ((lit_starts h4).append _).noBlank
          (hs.append _).noBlank e2
        exact ⟨w, l, rfl, h4, h5, this.2⟩
  | tuple id' w c lead b =>
    rw [Tree.text] at e
    exact absurd (by simpa using e) (comp hT.1 hT.2.1 hT.2.2.1 hT.2.2.2.1 (by decide) (x := lead ++ (b.text c ++ ')' :: rest)))
  | seq id' w c lead b =>
    rw [Tree.text] at e
    exact absurd (by simpa using e) (comp hT.1 hT.2.1 hT.2.2.1 hT.2.2.2.1 (by decide) (x := lead ++ (b.text c ++ ']' :: rest)))
  | cntr id' w c lead b =>
    rw [Tree.text] at e
    exact absurd (by simpa using e) (comp hT.1 hT.2.1 hT.2.2.1 hT.2.2.2.1 (by decide) (x := lead ++ (b.text c ++ ')' :: rest)))
  | map id' w c lead b =>
    rw [Tree.text] at e
    exact absurd (by simpa using e) (comp hT.1 hT.2.1 hT.2.2.1 hT.2.2.2.1 (by decide) (x := lead ++ (b.text c ++ '}' :: rest)))

/-- What the tree of a bracket `o` is, when `x` follows the bracket. -/
def Shape (T : Tree) (id : Option Str) (o : Char) (x rest : Str) : Prop :=
  (o = '(' ∧ id = none ∧ ∃ w, T = .prim none [] (.unit w) ∧ w ++ ')' :: rest = x) ∨
  (o = '(' ∧ ∃ w c lead b, T = .tuple id w c lead b ∧ lead ++ (b.text c ++ ')' :: rest) = x) ∨
  (o = '(' ∧ ∃ w c lead b, T = .cntr id w c lead b ∧ lead ++ (b.text c ++ ')' :: rest) = x) ∨
  (o = '[' ∧ ∃ w c lead b, T = .seq id w c lead b ∧ lead ++ (b.text c ++ ']' :: rest) = x) ∨
  (o = '{' ∧ ∃ w c lead b, T = .map id w c lead b ∧ lead ++ (b.text c ++ '}' :: rest) = x)

theorem open_blank {o : Char} (ho : o ∈ str "([{") (x : Str) : NotContinued BlankC (o :: x) := by
  intro c r e hc
  cases e
  rcases hc with rfl | rfl <;> revert ho <;> decide

theorem shape {T : Tree} {inl : Bool} {rest x sp : Str} {id : Option Str} {o : Char} (hid : NameOk id) (hT : T.Reads inl rest)
    (hs : Stopped rest ∨ Ends rest ∧ (sp = [] ∨ ∀ i, id = some i → i ≠ str "true" ∧ i ≠ str "false"))
    (hsp : Blanks sp) (ho : o ∈ str "([{") (e : T.text ++ rest = nid sp id ++ o :: x) : (∀ i, id = some i → NotBool i) ∧ Shape T id o x rest := by
  have comp : ∀ {id' : Option Str} {w : Str} {o' : Char} {x' : Str}, NameOk id' → Blanks w → (id' = none → w = []) →
      o' ∈ str "([{" → plainId id' ++ (w ++ o' :: x') = nid sp id ++ o :: x → id = id' ∧ o = o' ∧ x' = x := by
    intro id' w o' x' h1 h2 h3 ho' e
    cases id' with
    | none =>
      rw [h3 rfl] at e
      cases id with
      | none => cases e; exact ⟨rfl, rfl, rfl⟩
      | some i =>
        obtain ⟨c, r, hi, hc⟩ := name_starts (hid i rfl)
        have hn := (EX.name_chars (hid i rfl))
        subst hi
        have e : some o' = some c := congrArg List.head? e
        cases e
        exact absurd (hn _ List.mem_cons_self) (open_notName ho')
    | some i' =>
      cases id with
      | none =>
        obtain ⟨c, r, hi, hc⟩ := name_starts (h1 i' rfl)
        have hn := (EX.name_chars (h1 i' rfl))
        subst hi
        have e : some c = some o := congrArg List.head? e
        cases e
        exact absurd (hn _ List.mem_cons_self) (open_notName ho)
      | some i =>
        rw [nid, List.append_assoc] at e
        obtain ⟨rfl, e2⟩ := span (EX.name_chars (h1 i' rfl)) (EX.name_chars (hid i rfl)) (blanks_open h2 ho' _) (blanks_open hsp ho _) e
        obtain ⟨-, e3⟩ := span (P := BlankC) h2 hsp (open_blank ho' _) (open_blank ho _) e2
        cases e3
        exact ⟨rfl, rfl, rfl⟩
  cases T with
  | prim id' w l =>
    obtain ⟨h1, h2, h3, h4, h5, h6⟩ := hT
    rw [Tree.text, List.append_assoc, List.append_assoc] at e
    cases id' with
    | some i' =>
      exfalso
      cases id with
      | none =>
        have := congrArg List.head? e
        simp only [angled, nid, List.cons_append, List.nil_append, List.head?_cons, Option.some.injEq] at this
        subst this
        revert ho; decide
      | some i =>
        obtain ⟨c, r, hi, hc⟩ := name_starts (hid i rfl)
        have hn := (EX.name_chars (hid i rfl))
        subst hi
        have := congrArg List.head? e
        simp only [angled, nid, List.cons_append, List.head?_cons, Option.some.injEq] at this
        subst this
        have := hn _ List.mem_cons_self
        rw [← PG.isNameChar_iff] at this
        revert this; decide
    | none =>
      rw [h3 rfl] at e
      have e : l.text ++ rest = nid sp id ++ o :: x := e
      cases id with
      | none =>
        refine ⟨by simp, ?_⟩
        have e : l.text ++ rest = o :: x := e
        have no : ∀ {c : Char} {r : Str}, c ∉ str "([{" → c :: r ≠ o :: x := by
          intro c r hc e; cases e; exact hc ho
        cases l with
        | unit v =>
          refine .inl ?_
          simp only [Literal.text, List.cons_append, List.append_assoc, List.cons.injEq, List.nil_append] at e
          exact ⟨e.1.symm, rfl, v, by rw [h3 rfl], e.2⟩
        | bool b =>
          cases b
          · exact absurd e (no (by decide))
          · exact absurd e (no (by decide))
        | num t n =>
          refine absurd e (num_head_ne h4 ?_)
          have : ∀ o ∈ str "([{", P.isNumChar o = false := by decide
          exact this o ho
        | quoted s => exact absurd e (no (by decide))
        | delimited d s => exact absurd e (no (by decide))
        | bytes t => exact absurd e (no (by decide))
      | some i =>
        exfalso
        have hv := hid i rfl
        rw [nid, List.append_assoc] at e
        have hbr : BracketAhead (l.text ++ rest) := ⟨i, sp, o, x, e, hv, GR.white_of_blanks hsp, by
          have : ∀ o ∈ str "([{", o = '(' ∨ o = '[' ∨ o = '{' := by decide
          exact this o ho⟩
        cases hl : l.isBool with
        | false => exact h6 rfl hl hbr
        | true =>
          obtain ⟨b, rfl⟩ : ∃ b, l = .bool b := by cases l <;> first | exact ⟨_, rfl⟩ | cases hl
          have hch : ∀ c ∈ (Literal.bool b).text, NameChar c := fun c hc => (PG.isNameChar_iff c).mp (by cases b <;> revert c <;> decide)
          rcases hs with hs | ⟨hs, hsp'⟩
          · exact word_noBracket hch hs hbr
          · obtain ⟨h7, h8⟩ := span hch (EX.name_chars hv) hs.noName (blanks_open hsp ho _) e
            rcases hsp' with rfl | hne
            · have := hs o x h8
              have h9 : ∀ o ∈ str "([{", o ∉ str " \t\r\n,:)]}" := by decide
              exact h9 o ho this
            · have := hne i rfl
              rw [← h7] at this
              cases b
              · exact this.2 rfl
              · exact this.1 rfl
  | tuple id' w c lead b =>
    rw [Tree.text] at e
    obtain ⟨rfl, rfl, h⟩ := comp (o' := '(') hT.1 hT.2.1 hT.2.2.1 (by decide) (x' := lead ++ (b.text c ++ ')' :: rest)) (by simpa using e)
    exact ⟨hT.2.2.2.1, .inr (.inl ⟨rfl, w, c, lead, b, rfl, h⟩)⟩
  | seq id' w c lead b =>
    rw [Tree.text] at e
    obtain ⟨rfl, rfl, h⟩ := comp (o' := '[') hT.1 hT.2.1 hT.2.2.1 (by decide) (x' := lead ++ (b.text c ++ ']' :: rest)) (by simpa using e)
    exact ⟨hT.2.2.2.1, .inr (.inr (.inr (.inl ⟨rfl, w, c, lead, b, rfl, h⟩)))⟩
  | cntr id' w c lead b =>
    rw [Tree.text] at e
    obtain ⟨rfl, rfl, h⟩ := comp (o' := '(') hT.1 hT.2.1 hT.2.2.1 (by decide) (x' := lead ++ (b.text c ++ ')' :: rest)) (by simpa using e)
    exact ⟨hT.2.2.2.1, .inr (.inr (.inl ⟨rfl, w, c, lead, b, rfl, h⟩))⟩
  | map id' w c lead b =>
    rw [Tree.text] at e
    obtain ⟨rfl, rfl, h⟩ := comp (o' := '{') hT.1 hT.2.1 hT.2.2.1 (by decide) (x' := lead ++ (b.text c ++ '}' :: rest)) (by simpa using e)
    exact ⟨hT.2.2.2.1, .inr (.inr (.inr (.inr ⟨rfl, w, c, lead, b, rfl, h⟩)))⟩

end KS.Inl
