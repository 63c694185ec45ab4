import Verif.Lemmas.ExtBase
/-!
# Inputs on which no value begins
-/

namespace KS.Ext
open KS.P KS.Nom KS.PG KS.RT KS.Spec

variable {α β γ : Type} {s w : Str}

/-- Nothing, a line break or a closing delimiter comes next. -/
def Halt (i : Str) : Prop :=
  i.dropWhile isInlineWs = [] ∨ ∃ c r, i.dropWhile isInlineWs = c :: r ∧ (c ∈ closers ∨ c = '\n' ∨ c = '\r')

theorem inline_multi' {c : Char} (h : isInlineWs c = true) : isMultiWs c = true := by
  rw [ws_iff]; rcases (inline_iff c).mp h with rfl | rfl <;> simp

theorem multi_of_inline : ∀ i : Str, (i.dropWhile isInlineWs).dropWhile isMultiWs = i.dropWhile isMultiWs
  | [] => rfl
  | c :: r => by
    rw [List.dropWhile_cons]
    split
    · rename_i h
      rw [multi_of_inline r, List.dropWhile_cons, inline_multi' h]; rfl
    · rfl

theorem drop_head {q : Char → Bool} : ∀ {i : Str} {c : Char} {r : Str}, i.dropWhile q = c :: r → q c = false
  | [], _, _, h => by cases h
  | d :: t, c, r, h => by
    rw [List.dropWhile_cons] at h
    split at h
    · exact drop_head h
    · rename_i hd; cases h; simpa using hd

theorem halt_of_multi {i : Str} (h : i.dropWhile isMultiWs = [] ∨ ∃ c r, i.dropWhile isMultiWs = c :: r ∧ c ∈ closers) : Halt i := by
  rw [← multi_of_inline] at h
  unfold Halt
  cases hj : i.dropWhile isInlineWs with
  | nil => exact .inl rfl
  | cons d t =>
    right
    refine ⟨d, t, rfl, ?_⟩
    rw [hj, List.dropWhile_cons] at h
    have hd := drop_head hj
    by_cases hm : isMultiWs d = true
    · right
      rcases (ws_iff d).mp hm with rfl | rfl | rfl | rfl
      · cases hd
      · cases hd
      · exact .inr rfl
      · exact .inl rfl
    · left
      rw [if_neg hm] at h
      rcases h with h | ⟨c, r, h, hc⟩
      · cases h
      · cases h; exact hc

theorem ws_drop {i : Str} (h : Ws i) : i.dropWhile isMultiWs = [] := by
  rw [List.dropWhile_eq_nil_iff]; exact h

theorem halt_drop {i : Str} (h : Halt i) : Halt (i.dropWhile isInlineWs) := by
  unfold Halt
  have : (i.dropWhile isInlineWs).dropWhile isInlineWs = i.dropWhile isInlineWs := by
    cases hj : i.dropWhile isInlineWs with
    | nil => rfl
    | cons c r => rw [List.dropWhile_cons, drop_head hj]; rfl
  rw [this]; exact h

/-! ## Errors where nothing can start -/

theorem close_err {c : Char} {i : Str} (h : ∀ r, i.dropWhile isInlineWs ≠ c :: r) : ∃ e, ignoreWs (Nom.char c) i = .err e := by
  rw [ignoreWs_eq]
  cases hi : i.dropWhile isInlineWs with
  | nil => exact ⟨_, rfl⟩
  | cons d r => exact char_err r (by rintro rfl; exact h r hi)

theorem halt_sym {i : Str} (h : Halt i) {c : Char} (hc : c ∉ closers ∧ c ≠ '\n' ∧ c ≠ '\r') : ∃ e, ignoreWs (Nom.char c) i = .err e := by
  apply close_err
  intro r hr
  rcases h with h | ⟨d, t, h, hd⟩
  · rw [h] at hr; cases hr
  · rw [h] at hr; cases hr
    rcases hd with hd | hd | hd
    · exact hc.1 hd
    · exact hc.2.1 hd
    · exact hc.2.2 hd

/-- The first character, if any, is whitespace or a closing delimiter. -/
theorem halt_head {i : Str} (h : Halt i) : i = [] ∨ ∃ c r, i = c :: r ∧ (c ∈ closers ∨ isMultiWs c = true) := by
  cases i with
  | nil => exact .inl rfl
  | cons c r =>
    right
    refine ⟨c, r, rfl, ?_⟩
    by_cases hc : isInlineWs c = true
    · exact .inr (inline_multi' hc)
    · unfold Halt at h
      rw [List.dropWhile_cons, if_neg hc] at h
      rcases h with h | ⟨d, t, h, hd⟩
      · cases h
      · cases h
        rcases hd with hd | rfl | rfl
        · exact .inl hd
        · exact .inr (by decide)
        · exact .inr (by decide)

theorem halt_char {c : Char} (h : c ∈ closers ∨ isMultiWs c = true) :
    c ≠ 't' ∧ c ≠ 'f' ∧ c ≠ '<' ∧ isAlpha c = false ∧ c ≠ '_' ∧ c ≠ '(' ∧ isNumChar c = false ∧ c ≠ 's' ∧ c ≠ '"' ∧ c ≠ 'b' ∧ isNameChar c = false := by
  rcases h with h | h
  · revert c; decide
  · rcases (ws_iff c).mp h with rfl | rfl | rfl | rfl <;> decide

theorem halt_ident {i : Str} (h : Halt i) (b : Bool) : ∃ e, ident b i = .err e := by
  rcases halt_head h with rfl | ⟨c, r, rfl, hc⟩
  · cases b <;> exact ⟨_, rfl⟩
  · have hf := halt_char hc
    cases b
    · exact ident_err r hf.2.2.2.1 hf.2.2.2.2.1
    · exact identA_err r hf.2.2.1

theorem halt_prim {i : Str} (h : Halt i) : ∃ e, prim i = .err e := by
  have h1 : ∃ e, primValue (i.dropWhile isInlineWs) = .err e := by
    rcases h with h | ⟨c, r, h, hc⟩
    · rw [h]; exact ⟨_, by rfl⟩
    · rw [h]
      have hf := halt_char (c := c) (by
        rcases hc with hc | rfl | rfl
        · exact .inl hc
        · exact .inr (by decide)
        · exact .inr (by decide))
      exact primValue_err ⟨hf.2.2.2.2.2.1, hf.1, hf.2.1, hf.2.2.2.2.2.2.1, hf.2.2.2.2.2.2.2.1, hf.2.2.2.2.2.2.2.2.1, hf.2.2.2.2.2.2.2.2.2.1⟩ r
  obtain ⟨e, he⟩ := h1
  have h2 : Nom.separatedPair (Nom.opt (ident true)) inlineWs primValue i = .err e := by
    simp only [separatedPair, opt_err (halt_ident h true), PRes.bind, inlineWs, Nom.takeWhile, he]
  obtain ⟨e', he'⟩ := ctx_err (s := "primitive") ⟨e, h2⟩
  exact ⟨e', by simp only [prim, he', PRes.bind]⟩

theorem halt_opened {i : Str} (h : Halt i) (force : Bool) {o : Char} (ho : o ∈ openers) (body : Bool → Option Str → Parser α) :
    ∃ e, opened force o body i = .err e := by
  obtain ⟨e, he⟩ := halt_sym h (c := o) (by revert o; decide)
  exact ⟨e, by simp only [opened, opt_err (halt_ident h false), PRes.bind, he]⟩

/-- `kserd_delimited` with enough fuel. -/
def K (b : Bool) : Parser Kserd := fun i => kserdDelimited (i.length + 1) b i

theorem K_res (b : Bool) (i : Str) : Res i (fun _ a => Parsed a) (K b i) := delimited_res _ b i (by omega)

theorem K_eq (b : Bool) (i : Str) : K b i = (patternDelimited i).bind fun i pat =>
    match pat with
    | .tuple => tuple K b i
    | .cntr => cntrDelimited K b i
    | .seq => seqDelimited K b i
    | .map => mapDelimited K b i
    | .none => prim i := by
  unfold K
  rw [kserdDelimited]
  refine bind_congr (patternDelimited_res i) ?_
  rintro r pat _ rfl
  have ha : AgreeLt (kserdDelimited r.length) K r := fun b j _ hl =>
    ⟨delimited_res _ b j hl, delimited_fuel _ _ b j hl (by omega)⟩
  cases pat
  · exact tuple_congr b ha
  · exact cntr_congr b ha
  · exact seq_congr b ha
  · exact map_del_congr b ha
  · rfl

theorem halt_pat {i : Str} (h : Halt i) : ∃ d, patternDelimited i = .ok i d := by
  have h1 := opt_err (halt_ident h true)
  have h2 := opt_err (halt_ident h false)
  have h3 : (startsWith (str "true") i || startsWith (str "false") i) = false := by
    rcases halt_head h with rfl | ⟨c, r, rfl, hc⟩
    · rfl
    · exact not_word r (halt_char hc).1 (halt_char hc).2.1
  exact ⟨nextDelim .none (i.dropWhile isMultiWs), by simp only [patternDelimited, h3, Bool.false_eq_true, if_false, h1, PRes.bind, h2]⟩

theorem halt_K {i : Str} (h : Halt i) (b : Bool) : ∃ e, K b i = .err e := by
  obtain ⟨d, hd⟩ := halt_pat h
  rw [K_eq, hd]
  cases d
  · show ∃ e, tuple K b i = _
    exact halt_opened h b (by decide) _
  · show ∃ e, cntrDelimited K b i = _
    exact halt_opened h b (by decide) _
  · show ∃ e, seqDelimited K b i = _
    exact halt_opened h b (by decide) _
  · show ∃ e, mapDelimited K b i = _
    exact halt_opened h b (by decide) _
  · exact halt_prim h

theorem halt_kvpKserd {i : Str} (h : Halt i) (b : Bool) : ∃ e, kvpKserd K b i = .err e := by
  apply ctx_err
  have : ∃ e, Nom.alt [K false, K true] i = .err e := by
    rw [alt_skip _ (halt_K h false)]
    exact alt_last (halt_K h true)
  obtain ⟨e, he⟩ := this
  exact ⟨e, by simp only [separatedPair, he, PRes.bind]⟩

theorem halt_kvpField {i : Str} (h : Halt i) (k : Bool → Parser Kserd) (b : Bool) : ∃ e, kvpField k b i = .err e := by
  apply ctx_err
  have h0 : i.dropWhile isNameChar = i := by
    rcases halt_head h with rfl | ⟨c, r, rfl, hc⟩
    · rfl
    · rw [List.dropWhile_cons, (halt_char hc).2.2.2.2.2.2.2.2.2.2]; rfl
  obtain ⟨e, he⟩ := halt_sym h (c := '=') (by decide)
  exact ⟨e, by simp only [separatedPair, fieldName, Nom.takeWhile, PRes.bind, h0, he]⟩

/-! ## Lists -/

theorem _root_.KS.PG.Res.ok_suffix {i : Str} {Q : Str → α → Prop} {x : PRes α} (h : Res i Q x) {r : Str} {a : α} (hx : x = .ok r a) : r <:+ i := by
  subst hx; exact h.1

theorem multiWs_eq (i : Str) : multiWs i = .ok (i.dropWhile isMultiWs) (i.takeWhile isMultiWs) := rfl

/-! ## Elements -/

/-! ## Forcing inline -/

/-! ## Pairs -/

/-! ## Bodies -/

end KS.Ext
