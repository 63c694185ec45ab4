import Verif.Lemmas.ParseErr
import Verif.Lemmas.ParseFuel
/-!
# Parsing: C31 (totality), C33 (well-formed results), C38 (error locations)
-/

namespace KS.Props
open KS.Spec KS.PG KS.PE

/-- **C31.** On every input `parse` returns a Kserd or an error. The model marks the `unwrap` of `with_id`, and running out of
recursion fuel (no Rust recursion is that deep), as separate outcomes: they never happen. -/
theorem C31_total (s : Str) : (∃ k, parse s = .ok k) ∨ ∃ e, parse s = .err e ∧ e ≠ [] := by
  have h := root_res s
  unfold parse
  cases hp : P.kserdRoot s with
  | ok r k => exact .inl ⟨k, rfl⟩
  | err e => rw [hp] at h; exact .inr ⟨e, rfl, h.1⟩
  | fail e => rw [hp] at h; exact .inr ⟨e, rfl, h.1⟩
  | panic => rw [hp] at h; exact h.elim
  | oof => rw [hp] at h; exact h.elim

example : ∃ k, parse (str "Name (a = 1, b = [str\"x\", {1: ()}])") = .ok k := by
  have : (∃ e, parse (str "Name (a = 1, b = [str\"x\", {1: ()}])") = .err e) → False := by
    rintro ⟨e, h⟩
    have h2 : (match parse (str "Name (a = 1, b = [str\"x\", {1: ()}])") with | .ok _ => true | _ => false) = true := by decide +kernel
    rw [h] at h2; cases h2
  rcases C31_total (str "Name (a = 1, b = [str\"x\", {1: ()}])") with h | ⟨e, h, _⟩
  · exact h
  · exact (this ⟨e, h⟩).elim

/-- **C31.** The fuel is not observable: nested Kserds parse the same with any fuel above the input length, so the model agrees
with the unbounded recursion of the code. -/
theorem C31_fuel (f g : Nat) (i : Str) (hf : i.length < f) (hg : i.length < g) :
    (∀ force, P.kserdDelimited f force i = P.kserdDelimited g force i ∧ P.kserdDelimited f force i ≠ .oof) ∧
    (∀ n, P.kserdNested f n i = P.kserdNested g n i ∧ P.kserdNested f n i ≠ .oof) := by
  refine ⟨fun force => ⟨delimited_fuel f g force i hf hg, ?_⟩, fun n => ⟨nested_fuel f g n i hf hg, ?_⟩⟩
  · intro h; have := delimited_res f force i hf; rw [h] at this; exact this
  · intro h; have := nested_res f n i hf; rw [h] at this; exact this

/-- Applied to a tuple read with two amounts of fuel. -/
example : P.kserdDelimited 5 false (str "(1)") = P.kserdDelimited 100 false (str "(1)") := ((C31_fuel 5 100 (str "(1)") (by decide) (by decide)).1 false).1

/-- **C33.** Whatever parses is well-formed at every depth (`Parsed`: valid names as identities, field names of name characters,
strictly ascending fields, numbers in range), and every identity passes `with_id`. -/
theorem C33_parsed (s : Str) (k : Kserd) (h : parse s = .ok k) :
    Parsed k ∧ All (fun x => ∀ i, x.id = some i → ∀ v, Kserd.withId i v = .ok (.mk (some i) v)) k := by
  have hr := root_res s
  have hk : Parsed k := by
    unfold parse at h
    cases hp : P.kserdRoot s with
    | ok r k' => rw [hp] at hr h; cases h; exact hr.2.2
    | err e => rw [hp] at h; cases h
    | fail e => rw [hp] at h; cases h
    | panic => rw [hp] at h; cases h
    | oof => rw [hp] at h; cases h
  refine ⟨hk, all_mono ?_ k hk⟩
  intro x hx i hi v
  exact withId_valid (hx.1 i hi) v

/-- The hypothesis is met by a text with two layouts and a repeated field. -/
example : parse (str ":Id\nb = 1\n[a:In]\n    x = -2\nb = 3\n") =
    .ok (.mk (some (str "Id")) (.cntr [(str "a", .mk (some (str "In")) (.cntr [(str "x", .mk none (.num (.int (-2))))])),
      (str "b", .mk none (.num (.uint 3)))])) := by
  decide +kernel

/-- Field names are not always names: the parser accepts an empty one. -/
theorem C33_empty_name : parse (str "(= 3)") = .ok (.mk none (.cntr [([], .mk none (.num (.uint 3)))])) := by
  decide +kernel

/-- The errors of a rejected input lie inside it. -/
theorem parse_err_inside {s : Str} {e : PErr} (h : parse s = .err e) : e ≠ [] ∧ ∀ x ∈ e, x.1 <:+ s := by
  have hr := root_res s
  unfold parse at h
  cases hp : P.kserdRoot s with
  | ok r k' => rw [hp] at h; cases h
  | err e' => rw [hp] at hr h; cases h; exact hr
  | fail e' => rw [hp] at hr h; cases h; exact hr
  | panic => rw [hp] at h; cases h
  | oof => rw [hp] at h; cases h

/-- A trace of any error whose positions lie in a non-empty source. -/
theorem trace_at (src : Str) (hne : src ≠ []) (e : PErr) (i : Nat) (suf : Str) (kd : EKind) (hi : e[i]? = some (suf, kd))
    (hs : suf <:+ src) : ∃ t, (ParseError.new src e).get i = some (some t) ∧ TraceAt src suf t ∧
      (∀ c, kd = .char c → ∀ d r, suf = d :: r → d ≠ '\n' → d ≠ '\r' → t.msg = str "expected '" ++ [c] ++ str "', found '" ++ [d] ++ str "'") ∧
      (∀ c, kd = .char c → (suf = [] ∨ ∃ r, suf = '\n' :: r) →
        t.msg = str "expected '" ++ [c] ++ str "', reached end of line or end of file first") ∧
      (∀ c, kd = .ctx c → t.msg = str "in " ++ str c) := by
  obtain ⟨pre, rfl⟩ := hs
  have hpieces := splitIncl_pieces (pre ++ suf)
  have hflat := splitIncl_flatten (pre ++ suf)
  have hne' : splitIncl (pre ++ suf) ≠ [] := by
    intro h; rw [h] at hflat; exact hne hflat.symm
  obtain ⟨L1, l, L2, p, e1, e2, h1, h2, h3, h4, h5⟩ := locate _ 0 1 pre suf hpieces hne' hflat
  obtain ⟨term, ht1, ht2, ht3⟩ := chomp_spec l (h4.imp id And.left)
  obtain ⟨hc1, hc2⟩ := count_full L1 h3
  have hoff : errOffset (pre ++ suf) suf = 0 + bytes pre := by
    rw [errOffset, utf8Len_eq, utf8Len_eq, bytes_append]; omega
  have hsub : 0 + bytes pre - (0 + bytes L1.flatten) = bytes p := by rw [e2, bytes_append]; omega
  -- what follows the position in its line
  obtain ⟨q, hq⟩ := h1
  have hsuf : suf = q ++ L2.flatten := by
    have : pre ++ suf = L1.flatten ++ (l ++ L2.flatten) := by
      rw [← hflat, e1]; simp
    rw [e2, ← hq] at this
    simpa using this
  have hmsg : ∃ m, traceMsg (chomp l) (bytes p) kd = some m ∧
      (∀ c, kd = .char c → ∀ d r, suf = d :: r → d ≠ '\n' → d ≠ '\r' → m = str "expected '" ++ [c] ++ str "', found '" ++ [d] ++ str "'") ∧
      (∀ c, kd = .char c → (suf = [] ∨ ∃ r, suf = '\n' :: r) →
        m = str "expected '" ++ [c] ++ str "', reached end of line or end of file first") ∧
      (∀ c, kd = .ctx c → m = str "in " ++ str c) := by
    cases kd with
    | char c =>
      rw [traceMsg]
      split
      · rename_i hle
        refine ⟨_, rfl, ?_, fun c' hc' _ => by cases hc'; rfl, fun c' hc' => by cases hc'⟩
        -- past the text: what follows is a terminator or nothing
        intro c' _ d r hd hn hr
        exfalso
        rw [utf8Len_eq] at hle
        have hpl : p ++ q = chomp l ++ term := by rw [hq, ← ht1]
        rcases List.append_eq_append_iff.mp hpl with ⟨z, hz1, hz2⟩ | ⟨z, hz1, hz2⟩
        · by_cases hz : z = []
          · rw [hz, List.append_nil] at hz1
            rw [hz, List.nil_append] at hz2
            rcases ht3 with ⟨h, hnf⟩ | ⟨h, _⟩ | h
            · have hL2 : L2 = [] := by
                rcases h4 with h4 | h4
                · exact absurd h4 hnf
                · exact h4.2
              rw [hz2, h, hL2] at hsuf; rw [hsuf] at hd; cases hd
            · rw [hz2, h] at hsuf; rw [hsuf] at hd; injection hd with hd _; exact hn hd.symm
            · rw [hz2, h] at hsuf; rw [hsuf] at hd; injection hd with hd _; exact hr hd.symm
          · rw [hz1, bytes_append] at hle; have := bytes_pos hz; omega
        · rcases ht3 with ⟨h, hnf⟩ | ⟨h, _⟩ | h
          · have hL2 : L2 = [] := by
              rcases h4 with h4 | h4
              · exact absurd h4 hnf
              · exact h4.2
            rw [h] at hz2
            have hqe : q = [] := (List.append_eq_nil_iff.mp hz2.symm).2
            rw [hqe, hL2] at hsuf; rw [hsuf] at hd; cases hd
          · rw [h] at hz2
            cases z with
            | nil => rw [List.nil_append] at hz2; rw [← hz2] at hsuf; rw [hsuf] at hd; injection hd with hd _; exact hn hd.symm
            | cons z0 z1 =>
              injection hz2 with hz0 hz2
              have hzz := List.append_eq_nil_iff.mp hz2.symm
              have hpe : p = l := by rw [← hq, hzz.2]; simp
              rw [hzz.2, h2 hpe] at hsuf; rw [hsuf] at hd; cases hd
          · rw [h] at hz2
            cases z with
            | nil => rw [List.nil_append] at hz2; rw [← hz2] at hsuf; rw [hsuf] at hd; injection hd with hd _; exact hr hd.symm
            | cons z0 z1 =>
              injection hz2 with hz0 hz2
              cases z1 with
              | nil =>
                have hz2 : ['\n'] = q := hz2
                rw [← hz2] at hsuf; rw [hsuf] at hd; injection hd with hd _; exact hn hd.symm
              | cons z2 z3 =>
                injection hz2 with hz0 hz2
                have hzz := List.append_eq_nil_iff.mp hz2.symm
                have hpe : p = l := by rw [← hq, hzz.2]; simp
                rw [hzz.2, h2 hpe] at hsuf; rw [hsuf] at hd; cases hd
      · rename_i hlt
        rw [utf8Len_eq] at hlt
        have hpl : p ++ q = chomp l ++ term := by rw [hq, ← ht1]
        rcases List.append_eq_append_iff.mp hpl with ⟨z, hz1, hz2⟩ | ⟨z, hz1, hz2⟩
        · have hzne : z ≠ [] := by
            rintro rfl; rw [hz1] at hlt; simp at hlt
          cases z with
          | nil => exact absurd rfl hzne
          | cons z0 z1 =>
            rw [hz1, sliceFrom_bytes]
            have hs0 : suf = z0 :: (z1 ++ term ++ L2.flatten) := by rw [hsuf, hz2]; simp
            refine ⟨_, rfl, ?_, ?_, fun c' hc' => by cases hc'⟩
            · intro c' hc' d r hd _ _
              cases hc'
              rw [hs0] at hd; injection hd with hd _; rw [hd]
            · intro c' hc' hd
              exfalso
              rw [hs0] at hd
              rcases hd with hd | ⟨r, hd⟩
              · cases hd
              · injection hd with hd _
                apply ht2; rw [hz1, hd]; simp
        · exfalso; apply hlt; rw [hz1, bytes_append]; omega
    | ctx c => exact ⟨_, rfl, fun c' hc' => (by cases hc'), fun c' hc' => (by cases hc'), fun c' hc' => by cases hc'; rfl⟩
    | _ => exact ⟨_, rfl, fun c' hc' => (by cases hc'), fun c' hc' => (by cases hc'), fun c' hc' => (by cases hc')⟩
  obtain ⟨m, hm1, hm2, hm3, hm4⟩ := hmsg
  refine ⟨⟨1 + L1.length, bytes p + 1, chomp l, m⟩, ?_, ?_, hm2, hm3, hm4⟩
  · have hget : (ParseError.new (pre ++ suf) e).errs[i]? = some (0 + bytes pre, kd) := by
      show (e.map _)[i]? = _
      rw [List.getElem?_map, hi, Option.map_some, hoff]
    rw [ParseError.get, hget]
    have hem : (ParseError.new (pre ++ suf) e).emptyInput = false := by
      show (pre ++ suf).isEmpty = false
      cases hps : pre ++ suf with
      | nil => exact absurd hps hne
      | cons a b => rfl
    have hlines : (ParseError.new (pre ++ suf) e).lines = lineEntries 0 1 (splitIncl (pre ++ suf)) :=
      fromIter_self _ (entries_asc _ _ _ hpieces)
    simp only [hem, hlines, h5, hsub, hm1]
    rfl
  · refine ⟨L1.flatten, term, L2.flatten, p, ?_, hc2, ht2, ?_, ?_, ?_, ?_, ?_, ?_⟩
    · show pre ++ suf = L1.flatten ++ chomp l ++ term ++ L2.flatten
      rw [← hflat, e1, List.flatten_append, List.flatten_cons, List.append_assoc L1.flatten, ← ht1]; simp
    · show (term = [] ∧ L2.flatten = []) ∨ _ ∨ _
      rcases ht3 with ⟨h, hnf⟩ | h | h
      · rcases h4 with h4 | h4
        · exact absurd h4 hnf
        · exact .inl ⟨h, by rw [h4.2]; rfl⟩
      · exact .inr (.inl h)
      · exact .inr (.inr h)
    · show 1 + L1.length = _; rw [hc1]
    · rw [e2]
    · show p <+: chomp l ++ term
      rw [← ht1]; exact ⟨q, hq⟩
    · show p = chomp l ++ term → _
      intro h; rw [← ht1] at h; rw [h2 h]; rfl
    · show bytes p + 1 = 1 + bytes p
      omega

/-- **C38.** A rejected non-empty input yields at least one trace. Every trace exists (computing it does not panic) and
describes a position inside the input (`TraceAt`), and a missing character is reported together with the character found there. -/
theorem C38_location (src : Str) (e : PErr) (h : parse src = .err e) (hne : src ≠ []) :
    0 < (ParseError.new src e).errs.length ∧
    ∀ i, i < (ParseError.new src e).errs.length → ∃ (suf : Str) (kd : EKind) (t : Trace), e[i]? = some (suf, kd) ∧ suf <:+ src ∧
      (ParseError.new src e).get i = some (some t) ∧ TraceAt src suf t ∧
      (∀ c, kd = .char c → ∀ d r, suf = d :: r → d ≠ '\n' → d ≠ '\r' → t.msg = str "expected '" ++ [c] ++ str "', found '" ++ [d] ++ str "'") := by
  obtain ⟨h1, h2⟩ := parse_err_inside h
  have hlen : (ParseError.new src e).errs.length = e.length := by
    show (e.map _).length = _; rw [List.length_map]
  refine ⟨by rw [hlen]; exact List.length_pos_iff.mpr h1, ?_⟩
  intro i hi
  rw [hlen] at hi
  have hx := List.getElem?_eq_getElem hi
  have hs := h2 _ (List.getElem_mem hi)
  obtain ⟨t, ht1, ht2, ht3, _⟩ := trace_at src hne e i e[i].1 e[i].2 hx hs
  exact ⟨_, _, t, hx, hs, ht1, ht2, ht3⟩

/-- **C38.** Line and column are in bounds: the line number is between one and one more than the number of line feeds, the column is between one
and one more than the number of bytes of the line with its terminator. -/
theorem C38_bounds (src suf : Str) (t : Trace) (h : TraceAt src suf t) :
    1 ≤ t.line ∧ t.line ≤ 1 + src.count '\n' ∧ 1 ≤ t.col ∧ t.col ≤ bytes t.linestr + 3 := by
  obtain ⟨before, term, after, p, h1, _, _, h4, h5, _, ⟨q, h7⟩, _, h9⟩ := h
  refine ⟨by omega, ?_, by omega, ?_⟩
  · rw [h5, h1]; simp only [List.count_append]; omega
  · have hb : bytes p + bytes q = bytes t.linestr + bytes term := by rw [← bytes_append, h7, bytes_append]
    have ht : bytes term ≤ 2 := by
      rcases h4 with ⟨rfl, _⟩ | ⟨rfl, _⟩ | rfl <;> decide
    omega

theorem iterFrom_some (pe : ParseError) : ∀ (n i : Nat), (∀ j, i ≤ j → j < i + n → ∃ t, pe.get j = some (some t)) →
    ∃ l, pe.iterFrom i n = some l ∧ l.length = n ∧ ∀ j, j < n → ∃ t, l[j]? = some t ∧ pe.get (i + j) = some (some t)
  | 0, _, _ => ⟨[], rfl, rfl, fun j hj => by omega⟩
  | n + 1, i, h => by
    obtain ⟨t, ht⟩ := h i (by omega) (by omega)
    obtain ⟨l, hl, hlen, hg⟩ := iterFrom_some pe n (i + 1) fun j h1 h2 => h j (by omega) (by omega)
    refine ⟨t :: l, by simp [ParseError.iterFrom, ht, hl], by simp [hlen], ?_⟩
    intro j hj
    cases j with
    | zero => exact ⟨t, rfl, ht⟩
    | succ j =>
      obtain ⟨t', h1, h2⟩ := hg j (by omega)
      exact ⟨t', by simpa using h1, by rw [show i + (j + 1) = i + 1 + j by omega]; exact h2⟩

/-- **C38.** Rendering the error of a rejected input never panics, the empty input included, and starts with the innermost trace. -/
theorem C38_backtrace (src : Str) (e : PErr) (h : parse src = .err e) : ∃ (t : Trace) (rest : Str),
    (ParseError.new src e).get 0 = some (some t) ∧
    (ParseError.new src e).backtrace = some (str "#0: " ++ t.display ++ rest) := by
  obtain ⟨h1, h2⟩ := parse_err_inside h
  have hlen : (ParseError.new src e).errs.length = e.length := by
    show (e.map _).length = _; rw [List.length_map]
  have hall : ∀ j, 0 ≤ j → j < 0 + e.length → ∃ t, (ParseError.new src e).get j = some (some t) := by
    intro j _ hj
    rw [Nat.zero_add] at hj
    by_cases hne : src = []
    · subst hne
      have hx : (ParseError.new [] e).errs[j]? = some (errOffset [] e[j].1, e[j].2) := by
        show (e.map _)[j]? = _
        rw [List.getElem?_map, List.getElem?_eq_getElem hj, Option.map_some]
      refine ⟨emptyTrace e[j].2, ?_⟩
      rw [ParseError.get, hx]; rfl
    · obtain ⟨t, ht1, _⟩ := trace_at src hne e j e[j].1 e[j].2 (List.getElem?_eq_getElem hj) (h2 _ (List.getElem_mem hj))
      exact ⟨t, ht1⟩
  obtain ⟨l, hl, hll, hg⟩ := iterFrom_some _ _ 0 hall
  have hpos : 0 < e.length := List.length_pos_iff.mpr h1
  obtain ⟨t, ht, htg⟩ := hg 0 hpos
  cases l with
  | nil => cases ht
  | cons t' l =>
    cases ht
    refine ⟨t, (if 0 = e.length - 1 then [] else str "\n\n") ++ backtraceFrom (e.length - 1) (0 + 1) l, htg, ?_⟩
    rw [ParseError.backtrace, hlen, hl, Option.map_some, backtraceFrom]
    have : natDigits 0 = ['0'] := by decide
    rw [this]
    simp only [List.append_assoc]
    rfl

/-- The example of the documentation of `backtrace`, first trace: line 4, column 16. -/
example : parseText (str "\nlist = [\n           (0,1)\n           (2,3]\n       ]\n") |>.isSome := by decide +kernel

example : (match parseText (str "\nlist = [\n           (0,1)\n           (2,3]\n       ]\n") with
    | some (.error pe) => pe.get 0
    | _ => none) = some (some ⟨4, 16, str "           (2,3]", str "expected ')', found ']'"⟩) := by
  decide +kernel

/-- The empty input is reported at 0:0. -/
theorem C38_empty : ∃ e, parse [] = .err e ∧ e.length = 2 ∧
    (ParseError.new [] e).get 0 = some (some ⟨0, 0, [], str "in Eof, got empty input"⟩) ∧
    (ParseError.new [] e).get 1 = some (some ⟨0, 0, [], str "in empty input, got empty input"⟩) :=
  ⟨_, rfl, rfl, by decide, by decide⟩

/-- **C31.** The public function: a Kserd or an error, never a panic. An error has a first trace and a backtrace, and all its traces point to
places in the text that was given. -/
theorem C31_public (s : Str) : (∃ k, parseText s = some (.ok k) ∧ parse s = .ok k) ∨
    ∃ e t b, parseText s = some (.error e) ∧ (∀ k, parse s ≠ .ok k) ∧ e.get 0 = some (some t) ∧ e.backtrace = some b ∧
      ∀ i t, e.get i = some (some t) → s ≠ [] → ∃ suf, suf <:+ s ∧ TraceAt s suf t := by
  rcases C31_total s with ⟨k, h⟩ | ⟨e, h, -⟩
  · exact .inl ⟨k, by rw [parseText, h], h⟩
  · obtain ⟨t, rest, h1, h2⟩ := C38_backtrace s e h
    refine .inr ⟨_, t, _, by rw [parseText, h], fun k hk => ?_, h1, h2, fun i t ht hne => ?_⟩
    · rw [h] at hk; cases hk
    · have hi : i < (ParseError.new s e).errs.length := by
        by_contra hi
        rw [ParseError.get, List.getElem?_eq_none (by omega)] at ht
        cases ht
      obtain ⟨suf, kd, t', _, h3, h4, h5, _⟩ := (C38_location s e h hne).2 i hi
      rw [h4] at ht; cases ht
      exact ⟨suf, h3, h5⟩

example : ∃ e t, parseText (str "[1, 2") = some (.error e) ∧ e.get 0 = some (some t) ∧ t.line = 1 := ⟨_, _, by rfl, by rfl, by rfl⟩

end KS.Props
