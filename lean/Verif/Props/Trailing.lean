import Verif.Lemmas.GrammarTail
import Verif.Props.RoundTrip
import Verif.Props.Parse
/-!
# C32: nothing after the value is ignored
-/

namespace KS.Props
open KS.Spec KS.Nav KS.RT KS.P KS.Ext KS.GR

/-- The whitespace characters of the format. -/
def White (w : Str) : Prop := ∀ c ∈ w, c ∈ [' ', '\t', '\r', '\n']

theorem white_ws {w : Str} : White w ↔ Ws w := by
  unfold White Ws
  constructor
  · intro h c hc
    have := h c hc
    simp only [List.mem_cons, List.not_mem_nil, or_false] at this
    rcases this with rfl | rfl | rfl | rfl <;> decide
  · intro h c hc
    have := (ws_iff c).mp (h c hc)
    simp only [List.mem_cons, List.not_mem_nil, or_false]
    exact this

theorem white_spec {w : Str} (h : White w) : Spec.White w := fun c hc => by simpa using h c hc

/-- **C32 (partial).** Appending whitespace to accepted text changes nothing, if the text is not one of several lines or the whitespace has
no carriage return without line feed. Missing: the other case, where it is false of the code, see `C32_whitespace_exact`. -/
theorem C32_whitespace_partial (s w : Str) (k : Kserd) (h : parse s = .ok k) (hw : White w)
    (hc : ¬ LinesAhead s ∨ ∀ a b, w = a ++ '\r' :: b → ∃ r, b = '\n' :: r) : parse (s ++ w) = .ok k :=
  GR.parse_tail h (white_spec hw) (fun hl => hc.resolve_left (not_not_intro hl))

/-- **C32.** Appending whitespace to accepted text changes nothing or leads to an error, and it leads to an error exactly when the text
is one of several lines (a field, an identity or a heading comes first) and the whitespace has a carriage return without line feed. -/
theorem C32_whitespace_exact (s w : Str) (k : Kserd) (h : parse s = .ok k) (hw : White w) :
    (parse (s ++ w) = .ok k ∨ ∃ e, parse (s ++ w) = .err e) ∧
    ((∃ e, parse (s ++ w) = .err e) ↔ LinesAhead s ∧ ∃ a b, w = a ++ '\r' :: b ∧ ∀ r, b ≠ '\n' :: r) := by
  by_cases hc : LinesAhead s ∧ ∃ a b, w = a ++ '\r' :: b ∧ ∀ r, b ≠ '\n' :: r
  · have hne := GR.parse_lone h (white_spec hw) hc.1 hc.2
    have he : ∃ e, parse (s ++ w) = .err e := by
      rcases C31_total (s ++ w) with ⟨k', h'⟩ | ⟨e, h', -⟩
      · exact absurd h' (hne k')
      · exact ⟨e, h'⟩
    exact ⟨.inr he, fun _ => hc, fun _ => he⟩
  · have hok : parse (s ++ w) = .ok k := by
      refine GR.parse_tail h (white_spec hw) fun hl a b e => ?_
      by_contra hn
      exact hc ⟨hl, a, b, e, fun r hr => hn ⟨r, hr⟩⟩
    exact ⟨.inl hok, fun ⟨e, he⟩ => (by rw [hok] at he; cases he), fun h => absurd h hc⟩

/-- A carriage return on its own after a field is not accepted, though it is whitespace to the parser elsewhere. -/
theorem C32_fails_cr : parse (str "a = 1") = .ok (.mk none (.cntr [(str "a", .mk none (.num (.uint 1)))])) ∧ ∃ e, parse (str "a = 1" ++ ['\r']) = .err e :=
  ⟨by decide +kernel, err_of (by decide +kernel)⟩

/-- **C32.** After the text of an inline or concise layout only whitespace is accepted: anything else leads to an error, and whitespace
changes nothing. The trailing text must not turn the value into the name of a field (no `=` on the same line), into the identity of a
tuple (after `inf` or `NaN`), or prolong a number. -/
theorem C32_trailing (root : Kserd) (f : Formatter) (h : Reachable root f) (hv : NoVerboseCntr f) (hd : Readable f) (x : Str)
    (hx : '=' ∉ x ∨ ∃ y, x = '\n' :: y) (hn : ∀ n, root.val = .num n → ∀ c y, x = c :: y → c = ' ' ∨ c = '\n')
    (hb : Bare (displayed f) → ∀ a c y, x = a ++ c :: y → White a → c ∉ ['(', '[', '{']) :
    ∃ out, f.writeString [] = some out ∧ (White x → parse (out ++ x) = .ok (rereadK (displayed f))) ∧
      (¬ White x → ∃ e, parse (out ++ x) = .err e) := by
  obtain ⟨out, ho⟩ := (C24_write_partial root f h []).mpr (by
    obtain ⟨rfl, -⟩ := C22_rules root f h
    exact writable_of_text _ hd.text)
  obtain ⟨rfl, hr⟩ := C22_rules root f h
  refine ⟨out, ho, ?_⟩
  obtain ⟨ht, hh⟩ := readable_txt hr hd hv ho
  have hrfa : recogniseFieldAssign (out ++ x) = false := by
    refine rfa_append (txt_rfa _ _ _ hd.text ht) ?_
    rcases hx with hx | ⟨y, rfl⟩
    · exact rfa_all fun c hc e => hx (e ▸ hc)
    · exact rfa_stop (a := []) y (by simp) (by decide) (by decide)
  have hpv := notVerbose_rfa hd.text ht hh hrfa
  obtain ⟨c, r, hc, hws, -⟩ := txt_head (all_self hd.text) ht
  have hp := txt_rtG (displayed f) false out hd.text ht ((out ++ x).length + 1) false x (by simp) (by omega) (by
    intro n hval c y e
    have : ∃ n, f.root.val = .num n := by
      rw [displayed] at hval
      rcases hk : f.root with ⟨id, v⟩
      rw [hk] at hval
      cases v <;> simp only [shown, shownV, Kserd.val, reduceCtorEq] at hval
      exact ⟨_, rfl⟩
    obtain ⟨m, hm⟩ := this
    rcases hn m hm c y e with rfl | rfl <;> decide) (by
    intro hbare c y e
    have := hb hbare (x.takeWhile isMultiWs) c y (by rw [← e, List.takeWhile_append_dropWhile]) (white_ws.mpr fun d hd => List.mem_takeWhile_imp hd)
    simpa using this)
  have hN : N 0 (out ++ x) = .ok x (rereadK (displayed f)) := by
    rw [N_eq, hpv, if_neg (by simp)]
    have e : (out ++ x).dropWhile isInlineWs = out ++ x := by
      rw [hc, List.cons_append, List.dropWhile_cons, if_neg (by rw [inline_multi hws]; simp)]
    rw [ignoreWs_eq, e]; exact hp
  have hne : out ++ x ≠ [] := by rw [hc]; simp
  refine ⟨fun hw => root_of hne hN (white_ws.mp hw), fun hw => ?_⟩
  cases hp : parse (out ++ x) with
  | ok k =>
    obtain ⟨r, h1, h2⟩ := root_ok hp
    rw [hN] at h1
    cases h1
    exact (hw (white_ws.mpr h2)).elim
  | err e => exact ⟨e, rfl⟩
  | panic => rcases C31_total (out ++ x) with ⟨k, h⟩ | ⟨e, h, -⟩ <;> rw [hp] at h <;> cases h
  | oof => rcases C31_total (out ++ x) with ⟨k, h⟩ | ⟨e, h, -⟩ <;> rw [hp] at h <;> cases h

/-- Each restriction on the trailing text is needed. -/
theorem C32_trailing_restrictions :
    parse (str "1") = .ok (.mk none (.num (.uint 1))) ∧
    parse (str "1" ++ str " = 2") = .ok (.mk none (.cntr [(str "1", .mk none (.num (.uint 2)))])) ∧
    parse (str "1" ++ str "2") = .ok (.mk none (.num (.uint 12))) ∧
    parse (str "inf") = .ok (.mk none (.num (.float (.inf false)))) ∧
    parse (str "inf" ++ str " (1)") = .ok (.mk (some (str "inf")) (.tuple [.mk none (.num (.uint 1))])) := by decide +kernel

/-! ## Non-vacuity -/

/-- Whitespace after a nested container over several lines, and after a list. -/
example : parse (str "a = 1\n[b]\n    c = [1, 2]" ++ str " \t\r\n\n  ") = parse (str "a = 1\n[b]\n    c = [1, 2]") ∧
    parse (str "[1, 2]" ++ str "\r\r \t\n") = parse (str "[1, 2]") ∧
    parse (str "[1, 2]") = .ok (.mk none (.seq [.mk none (.num (.uint 1)), .mk none (.num (.uint 2))])) := by decide +kernel

/-- Whitespace after text that ends in `str`. -/
example : parse (str "a = 1\n:str" ++ str " \n\t") = parse (str "a = 1\n:str") ∧
    parse (str "a = 1\n:str") = .ok (.mk (some (str "str")) (.cntr [(str "a", .mk none (.num (.uint 1)))])) := by decide +kernel

/-- `a = 1` is text of several lines, `(a = 1)` is not: a carriage return on its own is an error behind the one only. -/
example : parse (str "(a = 1)" ++ ['\r']) = parse (str "(a = 1)") ∧
    parse (str "(a = 1)") = .ok (.mk none (.cntr [(str "a", .mk none (.num (.uint 1)))])) := by decide +kernel
example : ∃ e, parse (str "a = 1" ++ ['\r']) = .err e :=
  ((C32_whitespace_exact _ ['\r'] _ C32_fails_cr.1 (by intro c hc; simpa using .inr (.inr (.inl (by simpa using hc))))).2).mpr ⟨.inl ⟨[], str "a ", str " 1", by decide, (by intro c hc; cases hc), by decide⟩, [], [], rfl, by simp⟩

/-- Text after a list. -/
example : ∃ e, parse (str "[1, 2]" ++ str " x") = .err e := err_of (by decide +kernel)
example : ∃ e, parse (str "[1, 2]" ++ str "\na = 1") = .err e := err_of (by decide +kernel)

end KS.Props
