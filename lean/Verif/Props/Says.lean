import Verif.Lemmas.Says
import Verif.Props.Parse
/-!
# C63: what parse errors say
-/

namespace KS.Props
open KS.Spec KS.TR

/-- **C63.** Every entry of the error of a rejected text says what holds of the text: an expected character is not there, and the
construct named by a context stands there (`Says`; contexts other than those listed there do not occur). The first entry is no
context but what stopped the parser, and every further entry begins no later in the text than the ones before it. -/
theorem C63_says (src : Str) (e : PErr) (h : parse src = .err e) :
    (∀ x ∈ e, x.1 <:+ src ∧ Says src x.1 x.2) ∧ (e.Pairwise fun a b => a.1 <:+ b.1) ∧ ∃ x r, e = x :: r ∧ ∀ c, x.2 ≠ .ctx c := by
  have hr := root_tr src
  unfold parse at h
  cases hp : P.kserdRoot src with
  | ok r k => rw [hp] at h; cases h
  | err e' => rw [hp] at hr h; cases h; exact hr rfl
  | fail e' => rw [hp] at hr h; cases h; exact hr
  | panic => rw [hp] at h; cases h
  | oof => rw [hp] at h; cases h

/-- **C63** (strings). A text in which the quote of a string is said to be missing has no further such quote: the string
really is not closed. -/
theorem C63_unclosed_string (src suf : Str) (e : PErr) (h : parse src = .err e) (hx : (suf, EKind.ctx "string") ∈ e) :
    ∃ d r, suf = d :: r ∧ d ∉ r ∧ (d = '"' ∨ (str "str" ++ suf) <:+ src) := by
  have := ((C63_says src e h).1 _ hx).2
  simpa [Says, SaysContext, Behind, str] using this

/-- Applied to a tuple with a string that is not closed. -/
example : ∃ e, parse (str "(\"a)") = .err e ∧ (str "\"a)", EKind.ctx "string") ∈ e ∧ ∃ d r, str "\"a)" = d :: r ∧ d ∉ r := by
  have h : (match parse (str "(\"a)") with | .err e => decide ((str "\"a)", EKind.ctx "string") ∈ e) | _ => false) = true := by decide +kernel
  split at h
  · rename_i e he
    have hm := of_decide_eq_true h
    obtain ⟨d, r, h1, h2, _⟩ := C63_unclosed_string _ _ e he hm
    exact ⟨e, he, hm, d, r, h1, h2⟩
  · cases h

/-- The message of a trace of an entry that is no missing character. -/
theorem get_msg {pe : ParseError} {i off : Nat} {kd : EKind} {t : Trace} (hne : pe.emptyInput = false) (hi : pe.errs[i]? = some (off, kd))
    (hk : ∀ c, kd ≠ .char c) (h : pe.get i = some (some t)) : t.msg = KS.str "in " ++ kd.debug := by
  rw [ParseError.get, hi] at h
  simp only [hne, Bool.false_eq_true, if_false] at h
  split at h
  · cases h
  · rename_i lo n l hl
    have : traceMsg l (off - lo) kd = some (KS.str "in " ++ kd.debug) := by
      cases kd <;> first | rfl | exact absurd rfl (hk _)
    rw [this] at h
    cases h; rfl

/-- **C63** (wording). The message of every entry of the error of a text that is not empty is worded as `Worded` says. -/
theorem C63_worded (src : Str) (e : PErr) (h : parse src = .err e) (hne : src ≠ []) (i : Nat) (suf : Str) (kd : EKind) (hi : e[i]? = some (suf, kd)) :
    ∃ t, (ParseError.new src e).get i = some (some t) ∧ Worded suf t.msg kd := by
  obtain ⟨hs, hsay⟩ := (C63_says src e h).1 _ (List.mem_of_getElem? hi)
  obtain ⟨t, h1, h2, h3, h4, h5⟩ := trace_at src hne e i suf kd hi hs
  refine ⟨t, h1, ?_⟩
  have hem : (ParseError.new src e).emptyInput = false := by
    show src.isEmpty = false
    cases src with
    | nil => exact absurd rfl hne
    | cons a b => rfl
  have hget : (ParseError.new src e).errs[i]? = some (errOffset src suf, kd) := by
    show (e.map _)[i]? = _
    rw [List.getElem?_map, hi]; rfl
  have hm := @get_msg _ _ _ kd t hem hget
  cases kd with
  | char c =>
    cases suf with
    | nil => exact h4 c rfl (.inl rfl)
    | cons d r =>
      show (if d = '\n' then _ else _)
      split
      · rename_i hd; subst hd; exact h4 c rfl (.inr ⟨r, rfl⟩)
      · rename_i hd; exact fun hr => h3 c rfl d r rfl hd hr
  | ctx c => exact h5 c rfl
  | alt => exact hm (fun _ hc => by cases hc) h1
  | tag => exact hm (fun _ hc => by cases hc) h1
  | eof => exact hm (fun _ hc => by cases hc) h1
  | separatedList => exact hm (fun _ hc => by cases hc) h1
  | alpha => exact hsay
  | takeWhile1 => exact hsay
  | crlf => exact hsay
  | fail => exact hsay
  | many0 => exact hsay

/-- Applied to the same text: the last entry is worded by its context. -/
example : ∃ e t, parse (str "(\"a)") = .err e ∧ (ParseError.new (str "(\"a)") e).get 5 = some (some t) ∧ t.msg = str "in inline tuple" := by
  have h : (match parse (str "(\"a)") with | .err e => decide (e[5]? = some (str "\"a)", EKind.ctx "inline tuple")) | _ => false) = true := by decide +kernel
  split at h
  · rename_i e he
    obtain ⟨t, h1, h2⟩ := C63_worded _ e he (by decide) 5 _ _ (of_decide_eq_true h)
    exact ⟨e, t, he, h1, h2⟩
  · cases h

/-- **C63** (the empty text). It is rejected, and the backtrace is this one: nothing to read, in the context "empty input". There is only one empty text, so
that computing it proves the claim. -/
theorem C63_empty : ∃ e, parse [] = .err e ∧
    (ParseError.new [] e).backtrace =
      some (str "#0: at 0:0 :: in Eof, got empty input\n\n\n\n#1: at 0:0 :: in empty input, got empty input\n\n") := by
  have h : (match parse [] with
      | .err e => decide ((ParseError.new [] e).backtrace =
          some (str "#0: at 0:0 :: in Eof, got empty input\n\n\n\n#1: at 0:0 :: in empty input, got empty input\n\n"))
      | _ => false) = true := by decide +kernel
  split at h
  · rename_i e he
    exact ⟨e, he, of_decide_eq_true h⟩
  · cases h

/-- **C63** (wording for the empty text). Whatever entries an error of the empty text has, each gives a trace at 0:0 without a line, worded as
`WordedEmpty` says. By `C63_empty` only two of them arise from `parse`. -/
theorem C63_empty_worded (e : PErr) (i : Nat) (suf : Str) (kd : EKind) (hi : e[i]? = some (suf, kd)) :
    ∃ t, (ParseError.new [] e).get i = some (some t) ∧ t.line = 0 ∧ t.col = 0 ∧ t.linestr = [] ∧ WordedEmpty t.msg kd := by
  have hx : (ParseError.new [] e).errs[i]? = some (errOffset [] suf, kd) := by
    show (e.map _)[i]? = _
    rw [List.getElem?_map, hi]; rfl
  refine ⟨emptyTrace kd, by rw [ParseError.get, hx]; rfl, rfl, rfl, rfl, ?_⟩
  cases kd with
  | char c =>
    show _ = _
    simp only [emptyTrace, List.append_assoc]
    rfl
  | ctx c => exact rfl
  | eof => exact rfl
  | alt => exact rfl
  | tag => exact rfl
  | alpha => trivial
  | takeWhile1 => trivial
  | crlf => trivial
  | fail => trivial
  | many0 => trivial
  | separatedList => trivial

/-- Applied to a missing bracket. -/
example : ∃ t, (ParseError.new [] [([], .char ')')]).get 0 = some (some t) ∧ t.msg = str "expected ')', got empty input" := by
  obtain ⟨t, h, _, _, _, hw⟩ := C63_empty_worded [([], .char ')')] 0 [] (.char ')') rfl
  exact ⟨t, h, hw⟩

/-- The contexts of the error of a text with their places, innermost first. -/
def contexts (s : Str) : List (String × Nat) :=
  match parse s with
  | .err e => e.filterMap fun x => match x.2 with
    | .ctx c => some (c, s.length - x.1.length)
    | _ => none
  | _ => []

/-- **C63** (the list of contexts is sharp). Each context named by `Says` occurs. -/
theorem C63_all_occur :
    contexts [] = [("empty input", 0)] ∧
    contexts (str "<a") = [("identity", 0)] ∧
    contexts (str "[[a:1]]\n1") = [("identity", 4), ("verbose container field name", 2), ("field name. expecting 'field_name[:identity]'", 0)] ∧
    contexts (str "<a> (1)") = [("unit value", 4), ("primitive value", 4), ("primitive", 0)] ∧
    contexts (str "strxabc") = [("string", 3), ("primitive value", 0), ("primitive", 0)] ∧
    contexts (str "b91'abc") = [("base 91 byte array", 0), ("primitive value", 0), ("primitive", 0)] ∧
    contexts (str "(\"a)") = [("string", 1), ("primitive value", 1), ("primitive", 1), ("comma separated kserds", 1), ("inline tuple", 1)] ∧
    contexts (str "(\n1") = [("multi-line (concise) tuple", 1)] ∧
    contexts (str "[1") = [("inline sequence", 1)] ∧
    contexts (str "[\n1") = [("multi-line (concise) sequence", 1)] ∧
    contexts (str "{\"a") = [("string", 1), ("primitive value", 1), ("primitive", 1), ("kserd-kserd key-value pair", 1),
      ("comma separated kserd-kserd pair", 1), ("inline map", 1)] ∧
    contexts (str "{\n\"a: 1\n}") = [("string", 2), ("primitive value", 2), ("primitive", 2), ("kserd-kserd key-value pair", 2),
      ("newline separated (concise) kserd-kserd pair", 1), ("concise map", 1)] ∧
    contexts (str "(a = \"b)") = [("string", 5), ("primitive value", 5), ("primitive", 5), ("name-kserd key value pair", 1),
      ("comma separated kserdstr-kserd pair", 1), ("inline container", 1)] ∧
    contexts (str "(\na = \"b\n)") = [("string", 6), ("primitive value", 6), ("primitive", 6), ("name-kserd key value pair", 2),
      ("newline separated (concise) kserdstr-kserd pair", 1), ("concise container", 1)] ∧
    contexts (str "[[a]]\n1: \"b") = [("string", 9), ("primitive value", 9), ("primitive", 9), ("verbose map entry", 8)] ∧
    contexts (str "[[a]]\n\"b") = [("string", 6), ("primitive value", 6), ("primitive", 6), ("verbose sequence entry", 6)] ∧
    contexts (str "[a]\n\"b") = [("string", 4), ("primitive value", 4), ("primitive", 4), ("nested container", 4)] ∧
    contexts (str "a = (1\n") = [("inline tuple", 5), ("name-kserd key value pair", 0)] := by
  refine ⟨?_, ?_, ?_, ?_, ?_, ?_, ?_, ?_, ?_, ?_, ?_, ?_, ?_, ?_, ?_, ?_, ?_, ?_⟩ <;> decide +kernel

/-- A value of no kind at all is reported as a broken byte array, the last kind tried. -/
theorem C63_byte_array : contexts (str "#") = [("base 91 byte array", 0), ("primitive value", 0), ("primitive", 0)] := by decide +kernel

end KS.Props
