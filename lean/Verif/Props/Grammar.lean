import Verif.Lemmas.GrammarMeans
import Verif.Props.Trailing
/-!
# C59, C60: the texts that are accepted are exactly those of the grammar, and mean what the grammar says
-/

namespace KS.Props
open KS.Spec KS.GR

/-- C59. Whatever is accepted is the text of a document of the grammar with white space behind it, and the result is what the document
stands for. -/
theorem C59_sound {s : Str} {k : Kserd} (h : parse s = .ok k) :
    ∃ (D : Doc) (w : Str), s = D.text ++ w ∧ EndsWith D w ∧ D.Reads 0 w ∧ D.Means k := parse_sound h

/-- C59, for values with delimiters, where any text may follow: `Kserd`s in elements, fields and entries. -/
theorem C59_delimited {i r : Str} {k : Kserd} (hi : ∀ c t, i = c :: t → c ≠ ' ' ∧ c ≠ '\t') (h : P.kserdConcise i = .ok r k) :
    ∃ T : Spec.Tree, i = T.text ++ r ∧ T.Reads false r ∧ T.Means k := by
  obtain ⟨T, h1, h2, h3⟩ := concise_sound (fun c t e => by
    rw [← Bool.not_eq_true, GR.inline_iff]
    have := hi c t e
    tauto) h
  exact ⟨T, h3, h1, tree_means T h2⟩

/-- C60. Every document of the grammar is accepted, wherever it can be read as such, and the result is what it stands for. -/
theorem C60_complete {D : Doc} {w : Str} (hw : EndsWith D w) (hr : D.Reads 0 w) : ∃ k, parse (D.text ++ w) = .ok k ∧ D.Means k :=
  parse_complete hw hr

/-- C60. Exactly the texts of the grammar are accepted. -/
theorem C60_accepts (s : Str) : (∃ k, parse s = .ok k) ↔ ∃ (D : Doc) (w : Str), s = D.text ++ w ∧ EndsWith D w ∧ D.Reads 0 w := by
  constructor
  · rintro ⟨k, h⟩
    obtain ⟨D, w, h1, h2, h3, -⟩ := C59_sound h
    exact ⟨D, w, h1, h2, h3⟩
  · rintro ⟨D, w, rfl, h2, h3⟩
    obtain ⟨k, h, -⟩ := C60_complete h2 h3
    exact ⟨k, h⟩

/-- C60. The grammar is not ambiguous: whichever document a text is read as, its value is one of the values of all of them. -/
theorem C60_unambiguous {D E : Doc} {w v : Str} (hw : EndsWith D w) (hD : D.Reads 0 w) (hv : EndsWith E v) (hE : E.Reads 0 v) (h : D.text ++ w = E.text ++ v) :
    ∃ k, D.Means k ∧ E.Means k := by
  obtain ⟨k, h1, h2⟩ := C60_complete hw hD
  obtain ⟨k', h3, h4⟩ := C60_complete hv hE
  rw [h, h3] at h1
  cases h1
  exact ⟨k, h2, h4⟩

/-- C60. The grammar determines the value of a document, if the numbers in the keys of its maps are lawful (integers and most floats, C10): the
value returned is the one and only value the document stands for. -/
theorem C60_value {D : Doc} {w : Str} (hw : EndsWith D w) (hr : D.Reads 0 w) (hk : D.KeysOk) (k : Kserd) : parse (D.text ++ w) = .ok k ↔ D.Means k := by
  obtain ⟨k', h1, h2⟩ := C60_complete hw hr
  constructor
  · intro h
    rw [h1] at h
    cases h
    exact h2
  · intro h
    rw [h1, doc_unique D hk hr h h2]

/-- C60, for values with delimiters: on one line (`inl`) or concise. -/
theorem C60_delimited {T : Spec.Tree} {inl : Bool} {rest : Str} (h : T.Reads inl rest) :
    ∃ k, (if inl then P.kserdInline else P.kserdConcise) (T.text ++ rest) = .ok rest k ∧ T.Means k := by
  obtain ⟨k, hk, hm⟩ := tree_good T inl rest h
  refine ⟨k, ?_, tree_means T hm⟩
  cases inl <;> exact hk

/-! ## A document -/

/-- `(1, "x")` -/
def gramTuple : Spec.Tree :=
  .tuple none [] false [] (.cons [] (.prim none [] (.num (str "1") (.uint 1))) [] (.cons [' '] (.prim none [] (.quoted (str "x"))) [] .nil))

/-- A container with the identity `Cfg` and, below the heading `[a:Sub]`, a container with the field `b`. -/
def gramDoc : Doc :=
  .lines (.cons [] [] [] (.id [] (str "Cfg"))
    (.cons (str "\n") [] [] (.sub ⟨[], str "a", some ([], [], str "Sub"), [], [], str "\n"⟩
      (.lines (.cons [] (str "    ") [] (.field (str "b") [' '] [' '] gramTuple) .nil))) .nil))

example : gramDoc.text = str ":Cfg\n[a:Sub]\n    b = (1, \"x\")" := rfl

theorem not_bracket {c : Char} (h : isAlpha c = false ∧ c ≠ '_') (r : Str) : ¬ BracketAhead (c :: r) := by
  rintro ⟨n, w, b, z, e, hn, -⟩
  obtain ⟨d, t, rfl, hd⟩ := RT.name_head hn
  cases e
  rcases hd with hd | hd
  · rw [h.1] at hd; cases hd
  · exact h.2 hd

theorem gramTuple_reads (rest : Str) : gramTuple.Reads false rest := by
  have nil : Blanks [] := by intro c hc; cases hc
  have one : Blanks [' '] := by intro c hc; simp at hc; exact .inl hc
  refine ⟨(by intro s h; cases h), nil, fun _ => rfl, (by intro s h; cases h), nil, (by intro h; cases h), (by intro _ h; cases h), ?_, ?_⟩
  · rw [← assign_iff]; decide
  · refine ⟨nil, ⟨(by intro s h; cases h), nil, fun _ => rfl, ⟨?_, by decide +kernel⟩, ?_, fun _ _ => not_bracket (by decide) _⟩, nil,
      one, ⟨(by intro s h; cases h), nil, fun _ => rfl, ?_, trivial, fun _ _ => not_bracket (by decide) _⟩, nil, trivial⟩
    · intro c hc
      have : c = '1' := by simpa [str] using hc
      subst this; rw [← numChar_iff]; decide
    · intro c r e
      have : c = ',' := by cases e; rfl
      subst this; rw [← numChar_iff]; decide
    · show '"' ∉ str "x"
      decide

theorem gramDoc_reads : EndsWith gramDoc (str "\n") ∧ gramDoc.Reads 0 (str "\n") := by
  have nil : Blanks [] := by intro c hc; cases hc
  have one : Blanks [' '] := by intro c hc; simp at hc; exact .inl hc
  have nl : LineEnd (str "\n") := .inl rfl
  have bl : BlankLines (str "\n") := .cons (w := []) (r := []) nil nl .nil
  have vn : ∀ s : Str, (∃ c r, s = c :: r ∧ isAlpha c = true ∧ r.all P.isNameChar = true) → ValidName s := by
    rintro s ⟨c, r, e, h1, h2⟩; exact RT.validName_of e h1 h2
  have nc : ∀ s : Str, s.all P.isNameChar = true → ∀ ch ∈ s, NameChar ch := by
    intro s h ch hch; exact (PG.isNameChar_iff ch).mp (List.all_eq_true.mp h ch hch)
  refine ⟨⟨?_, fun _ => ⟨str "\n", [], rfl, bl, nil⟩⟩, ?_, ?_⟩
  · intro c hc; have : c = '\n' := by simpa [str] using hc
    subst this; simp
  · rw [← verbose_iff]; decide
  · refine ⟨.nil, .zero, nil, ⟨nil, vn _ ⟨'C', str "fg", rfl, by decide, by decide⟩, ?_⟩, (by intro h; cases h),
      bl, .zero, nil, ⟨⟨nil, nc _ (by decide), ?_, (by intro h; cases h), nil, nil, nl⟩, ?_, .nil, .blanks .zero, nil,
        ⟨nc _ (by decide), (by intro h; cases h), one, one, gramTuple_reads _⟩, (by intro h; cases h), trivial⟩, fun _ => trivial, trivial⟩
    · intro c r e
      have : c = '\n' := by cases e; rfl
      subst this; rw [← PG.isNameChar_iff]; decide
    · rintro a b i ⟨⟩
      exact ⟨nil, nil, vn _ ⟨'S', str "ub", rfl, by decide, by decide⟩, by intro h; cases h⟩
    · rw [← verbose_iff]; decide

example : ∃ k, parse (str ":Cfg\n[a:Sub]\n    b = (1, \"x\")\n") = .ok k ∧ gramDoc.Means k := C60_complete gramDoc_reads.1 gramDoc_reads.2

/-- No other value is meant. -/
example (k : Kserd) : gramDoc.Means k ↔ k = .mk (some (str "Cfg")) (.cntr [(str "a", .mk (some (str "Sub")) (.cntr [(str "b",
    .mk none (.tuple [.mk none (.num (.uint 1)), .mk none (.str (str "x"))]))]))]) := by
  rw [← C60_value gramDoc_reads.1 gramDoc_reads.2 (by simp [gramDoc, gramTuple, Doc.KeysOk, Lines.KeysOk, Line.KeysOk, Spec.Tree.KeysOk, Elems.KeysOk]) k,
    show parse (gramDoc.text ++ str "\n") = .ok (.mk (some (str "Cfg")) (.cntr [(str "a", .mk (some (str "Sub")) (.cntr [(str "b",
    .mk none (.tuple [.mk none (.num (.uint 1)), .mk none (.str (str "x"))]))]))])) by decide +kernel]
  constructor
  · intro h; cases h; rfl
  · rintro rfl; rfl

/-- The hypothesis of C59 holds, e.g., for text with a heading, a field on one line and a container on several. -/
example : ∃ (D : Doc) (w : Str), str "x = 1\n[m]\n    b = (\n\ta = <N> true\n)\n" = D.text ++ w ∧ EndsWith D w ∧ D.Reads 0 w ∧
    D.Means (.mk none (.cntr [(str "m", .mk none (.cntr [(str "b", .mk none (.cntr [(str "a", .mk (some (str "N")) (.bool true))]))])),
      (str "x", .mk none (.num (.uint 1)))])) := C59_sound (by decide +kernel)

/-! ## What the grammar says about some texts -/

/-- C59, C60. Corners of the format.
* A concise list needs white space behind its last element, too.
* No line break is needed between the lines of a container.
* `()` is the unit, but with a line break inside the empty tuple.
* The name of a field may be empty.
* A number that looks like a name is the identity of a list, if a bracket follows.
* A lone `\r` may stand behind a value with delimiters, but not behind lines. -/
theorem C60_corners :
    (∃ e, parse (str "(\n1\n2)") = .err e) ∧
    parse (str "(\n1\n2\n)") = .ok (.mk none (.tuple [.mk none (.num (.uint 1)), .mk none (.num (.uint 2))])) ∧
    parse (str "a = 1 b = 2") = .ok (.mk none (.cntr [(str "a", .mk none (.num (.uint 1))), (str "b", .mk none (.num (.uint 2)))])) ∧
    parse (str "()") = .ok (.mk none .unit) ∧ parse (str "(\n)") = .ok (.mk none (.tuple [])) ∧
    parse (str "= 1") = .ok (.mk none (.cntr [([], .mk none (.num (.uint 1)))])) ∧
    parse (str "inf") = .ok (.mk none (.num (.float (.inf false)))) ∧ parse (str "inf []") = .ok (.mk (some (str "inf")) (.seq [])) ∧
    (∃ k, parse (str "1\n\r") = .ok k) ∧ (∃ e, parse (str "a = 1\n\r") = .err e) := by
  refine ⟨err_of (by decide +kernel), by decide +kernel, by decide +kernel, by decide +kernel, by decide +kernel, by decide +kernel, by decide +kernel,
    by decide +kernel, ⟨_, rfl⟩, err_of (by decide +kernel)⟩

end KS.Props
