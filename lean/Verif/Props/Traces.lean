import Verif.Props.Parse
/-!
# C38: what an error looks like
-/

namespace KS.Props
open KS.Spec

theorem bytes_ascii : ∀ (p : Str), (∀ c ∈ p, c.toNat < 128) → bytes p = p.length
  | [], _ => rfl
  | c :: r, h => by
    have h1 := h c (by simp)
    have h2 := bytes_ascii r fun d hd => h d (by simp [hd])
    have h3 : c.utf8Size = 1 := by
      have : c.val.toNat < 128 := h1
      unfold Char.utf8Size
      rw [if_pos]
      rw [UInt32.le_iff_toNat_le]
      show c.val.toNat ≤ 127
      omega
    show (c.utf8Size :: r.map Char.utf8Size).sum = _
    rw [List.sum_cons, h3, List.length_cons]
    show 1 + bytes r = _
    omega

/-- **C38.** A trace is shown in three lines: position and message, the line quoted, and a marker. If the part `p` of the line before the position
is ASCII, the marker stands below the first character that was not accepted. -/
theorem C38_marker (src suf : Str) (t : Trace) (h : TraceAt src suf t) : ∃ before p : Str, src = before ++ p ++ suf ∧
    (before = [] ∨ ∃ b, before = b ++ ['\n']) ∧
    t.display = str "at " ++ natDigits (1 + before.count '\n') ++ str ":" ++ natDigits (1 + bytes p) ++ str " :: " ++ t.msg ++ ['\n'] ++
      t.linestr ++ ['\n'] ++ List.replicate (bytes p) ' ' ++ ['^'] ∧
    ((∀ c ∈ p, c.toNat < 128) → bytes p = p.length) := by
  obtain ⟨before, term, after, p, h⟩ := h
  have hb := h.2.1
  have hl := h.2.2.2.2.1
  have hs := h.2.2.2.2.2.1
  have hc := h.2.2.2.2.2.2.2.2
  clear h
  refine ⟨before, p, hs, hb, ?_, bytes_ascii p⟩
  have h1 : str "\n" = ['\n'] := rfl
  have h2 : str "^" = ['^'] := rfl
  have h3 : 0 < t.col := by omega
  have h4 : t.col - 1 = bytes p := by omega
  unfold Trace.display
  rw [if_pos h3, h4, hl, hc, h1, h2]
  simp only [List.append_assoc]

/-- **C38, limit.** The column counts bytes, so behind text that is not ASCII the marker stands too far to the right: here below the closing
parenthesis, although the `1` before it was not accepted. -/
theorem C38_marker_bytes : ∃ e, parse (str "(\"é\" 1)") = .err e ∧ ∃ t, (ParseError.new (str "(\"é\" 1)") e).get 0 = some (some t) ∧
    t.display = str "at 1:7 :: expected ')', found '1'\n(\"é\" 1)\n      ^" :=
  ⟨_, rfl, _, rfl, by decide +kernel⟩

theorem backtraceFrom_eq : ∀ (ts : List Trace) (i n : Nat), n + 1 = i + ts.length →
    backtraceFrom n i ts = (str "\n\n").intercalate (ts.mapIdx fun j t => str "#" ++ natDigits (i + j) ++ str ": " ++ t.display)
  | [], _, _, _ => rfl
  | [t], i, n, h => by
    have : i = n := by simpa using h.symm
    subst this
    simp [backtraceFrom, List.mapIdx_cons, List.intercalate]
  | t :: u :: r, i, n, h => by
    have hi : i ≠ n := by simp only [List.length_cons] at h; omega
    rw [backtraceFrom, if_neg hi, backtraceFrom_eq (u :: r) (i + 1) n (by simp only [List.length_cons] at h ⊢; omega)]
    rw [List.mapIdx_cons (a := t)]
    simp only [List.mapIdx_cons, List.intercalate, List.intersperse, List.flatten_cons, List.append_assoc, Nat.add_zero, Nat.add_assoc,
      Nat.add_comm 1]

/-- **C38.** The error of a rejected input shows all traces in order, numbered from zero and separated by blank lines. -/
theorem C38_rendered (src : Str) (e : PErr) (h : parse src = .err e) : ∃ ts : List Trace, ts.length = e.length ∧
    (∀ (i : Nat) t, ts[i]? = some t → (ParseError.new src e).get i = some (some t)) ∧
    (ParseError.new src e).backtrace =
      some ((str "\n\n").intercalate (ts.mapIdx fun i t => str "#" ++ natDigits i ++ str ": " ++ t.display)) := by
  obtain ⟨h1, h2⟩ := parse_err_inside h
  have hlen : (ParseError.new src e).errs.length = e.length := by
    show (e.map _).length = _; rw [List.length_map]
  have hall : ∀ j, 0 ≤ j → j < 0 + e.length → ∃ t, (ParseError.new src e).get j = some (some t) := by
    intro j _ hj
    rw [Nat.zero_add] at hj
    by_cases hne : src = []
    · subst hne
      have hx : (ParseError.new [] e).errs[j]? = some (errOffset [] e[j].1, e[j].2) := by
        show (e.map _)[j]? = _
        rw [List.getElem?_map, List.getElem?_eq_getElem hj, Option.map_some]
      refine ⟨emptyTrace e[j].2, ?_⟩
      rw [ParseError.get, hx]; rfl
    · obtain ⟨t, ht1, _⟩ := trace_at src hne e j e[j].1 e[j].2 (List.getElem?_eq_getElem hj) (h2 _ (List.getElem_mem hj))
      exact ⟨t, ht1⟩
  obtain ⟨l, hl, hll, hg⟩ := iterFrom_some _ _ 0 hall
  have hpos : 0 < e.length := List.length_pos_iff.mpr h1
  refine ⟨l, hll, ?_, ?_⟩
  · intro i t hi
    have hlt : i < e.length := by
      rw [← hll]; exact (List.getElem?_eq_some_iff.mp hi).1
    obtain ⟨t', ht, hgt⟩ := hg i hlt
    rw [hi] at ht; cases ht
    rwa [Nat.zero_add] at hgt
  · rw [ParseError.backtrace, hlen, hl, Option.map_some, backtraceFrom_eq l 0 (e.length - 1) (by omega)]
    simp only [Nat.zero_add]

example : ∃ e, parse (str "(\"é\" 1)") = .err e ∧ (ParseError.new (str "(\"é\" 1)") e).backtrace =
    some (str "#0: at 1:7 :: expected ')', found '1'\n(\"é\" 1)\n      ^\n\n#1: at 1:2 :: in inline tuple\n(\"é\" 1)\n ^") :=
  ⟨_, rfl, by decide +kernel⟩

end KS.Props
