import Verif.Lemmas.ExpressWhole
import Verif.Props.RoundTrip
import Verif.Props.Grammar
/-!
# C65: which Kserds are the value of some text

Independent of the formatter: a Kserd may have a text although the formatter writes another one that is not read back (C36, C37).
-/

namespace KS.Props
open KS.Spec KS.Spec.Ex

/-- C65. Every Kserd whose parts can be written has a text. -/
theorem C65_expressible {k : Kserd} (h : All Node k) (hl : Lead k) : ∃ s, parse s = .ok k := EX.written h hl

/-- C65. What is read from any text: the numbers are those that can be written, the strings leave a character free, tuples do not begin with
something that looks like a field, and no empty container is in a tuple or a key or stands for itself without identity. -/
theorem C65_range {s : Str} {k : Kserd} (h : parse s = .ok k) : All Read k ∧ Lead k ∧ k ≠ .mk none (.cntr []) := EX.range h

/-- C65. The numbers that have a text. -/
theorem C65_numbers (n : Number) : (∃ s, parse s = .ok (.mk none (.num n))) ↔ Num n := by
  constructor
  · rintro ⟨s, h⟩
    exact (C65_range h).1.1
  · intro h
    by_cases hn : ∃ p, n = .float (.nan false p)
    · obtain ⟨p, rfl⟩ := hn
      have e : p = 2 ^ 51 := h.2
      subst e
      exact ⟨str "NaN", by decide +kernel⟩
    · refine C65_expressible ⟨⟨(by intro i hi; cases hi), h, fun _ p e => hn ⟨p, e⟩⟩, trivial⟩ (by intro _ s hs; cases hs)

/-- Among 2²⁰ characters, one does not occur in a shorter string. -/
theorem C65_free {s : Str} (h : s.length < 2 ^ 20) : ∃ d, Delim d ∧ d ∉ s := EX.free h

/-- C65. The strings that have a text, among those that leave a delimiter free (all that are shorter than 2²⁰ characters). -/
theorem C65_strings {s : Str} (hs : s.length < 2 ^ 20) : (∃ t, parse t = .ok (.mk none (.str s))) ↔ Leading s := by
  constructor
  · rintro ⟨t, h⟩
    exact (C65_range h).2.1 rfl s rfl
  · intro h
    exact C65_expressible ⟨⟨(by intro i hi; cases hi), C65_free hs⟩, trivial⟩ (by intro _ t ht; cases ht; exact h)

/-- With an identity, every such string has a text. -/
theorem C65_strings_id {i s : Str} (hi : ValidName i) (hs : s.length < 2 ^ 20) : ∃ t, parse t = .ok (.mk (some i) (.str s)) :=
  C65_expressible ⟨⟨(by intro j hj; cases hj; exact hi), C65_free hs⟩, trivial⟩ (by intro h; cases h)

/-- C65. Exactly which Kserds that are not containers have a text: those that are spellable at every depth, and whose root does not look like a field if it
is a string. A container may also be written in lines, where more can be said (`C65_more`). -/
theorem C65_exact {k : Kserd} (hk : ∀ f, k.val ≠ .cntr f) (hg : All Granted k) : (∃ s, parse s = .ok k) ↔ All Spellable k ∧ Lead k :=
  ⟨fun ⟨_, h⟩ => ⟨EX.root_spellable h hk, (C65_range h).2.1⟩, fun h => C65_expressible (EX.node_of hg h.1) h.2⟩

/-- C65. Exactly which Kserds can stand between delimiters, as an element, field value, key or entry value: the function that reads those returns `k` for
some text without leading blanks, whatever is left over, if and only if `k` is spellable at every depth. -/
theorem C65_delimited {k : Kserd} (hg : All Granted k) :
    (∃ i r, (∀ c t, i = c :: t → c ≠ ' ' ∧ c ≠ '\t') ∧ P.kserdConcise i = .ok r k) ↔ All Spellable k := by
  constructor
  · rintro ⟨i, r, hi, h⟩
    obtain ⟨T, -, hr, hm⟩ := C59_delimited hi h
    exact EX.tree_spellable hr hm
  · intro h
    obtain ⟨T, hT⟩ := EX.spell k (EX.node_of hg h)
    have hr := hT.reads _ (EX.feed_rest [])
    obtain ⟨k', h1, h2⟩ := C60_delimited hr
    obtain ⟨c, t, e, hc, -⟩ := hT.head
    refine ⟨T.text ++ ['\n'], ['\n'], fun c' t' e' => ?_, ?_⟩
    · rw [e] at e'
      cases e'
      constructor <;> (rintro rfl; exact hc (by decide))
    · rw [← GR.tree_unique T hT.keys hr h2 hT.means]
      exact h1

/-- In lines, containers may be empty, and identities of containers, sequences and maps may begin with `true` or `false`. -/
theorem C65_more : parse (str ":trueish\n") = .ok (.mk (some (str "trueish")) (.cntr [])) ∧
    parse (str "[[a:trueish]]\n1\n") = .ok (.mk none (.cntr [(str "a", .mk (some (str "trueish")) (.seq [.mk none (.num (.uint 1))]))])) ∧
    ¬ All Spellable (.mk (some (str "trueish")) (.cntr [])) ∧
    ¬ All Spellable (.mk (some (str "trueish")) (.seq [.mk none (.num (.uint 1))])) :=
  ⟨by decide +kernel, by decide +kernel, fun h => h.1.2.2.1 rfl, fun h => (h.1.2 _ rfl).1 (by decide)⟩

/-- C65. What any text is read as: spellable at every depth and not looking like a field, or else a container in lines that is not hollow. -/
theorem C65_necessary {s : Str} {k : Kserd} (h : parse s = .ok k) : (All Spellable k ∧ Lead k) ∨ (InLines k ∧ ¬ Hollow k) := EX.root_told h

/-- C65. Exactly which Kserds have a text, containers included: those that are spellable at every depth, and the containers that can be written in lines
and are not hollow. -/
theorem C65_whole {k : Kserd} (hg : All Granted k) (hk : All PrimKeys k) :
    (∃ s, parse s = .ok k) ↔ (All Spellable k ∧ Lead k) ∨ (InLines k ∧ ¬ Hollow k) :=
  ⟨fun ⟨_, h⟩ => C65_necessary h, fun h => h.elim (fun h => C65_expressible (EX.node_of hg h.1) h.2) fun h => EX.lines_written h.1 h.2 hg hk⟩

/-- A container with an empty one in its only field. -/
def nest (id : Option Str) (f : Fields) : Kserd := .mk id (.cntr ((str "a", .mk none (.cntr [])) :: f))

/-- C65. It has no text, but it has one with an identity or with another field that has one. -/
theorem C65_hollow : (∀ s, parse s ≠ .ok (nest none [])) ∧ (∃ s, parse s = .ok (nest (some (str "x")) [])) ∧
    (∃ s, parse s = .ok (nest none [(str "b", .mk none (.bool true))])) := by
  refine ⟨fun s h => ?_, ⟨str "[a]\n:x", by decide +kernel⟩, ⟨str "[a]\nb = true", by decide +kernel⟩⟩
  have hh : Hollow (nest none []) := .mk fun p hp => by
    rw [List.mem_singleton.mp hp]
    exact .mk (by simp)
  rcases C65_necessary h with h | h
  · exact EX.hollow_not_spellable hh h.1
  · exact h.2 hh

/-- The second and third meet the conditions of the theorem and are not spellable. -/
example : All Granted (nest (some (str "x")) []) ∧ All PrimKeys (nest (some (str "x")) []) ∧ InLines (nest (some (str "x")) []) ∧
    ¬ Hollow (nest (some (str "x")) []) ∧ ¬ All Spellable (nest (some (str "x")) []) := by
  refine ⟨⟨trivial, ⟨trivial, trivial⟩, trivial⟩, ⟨(by intro m h; cases h), ⟨(by intro m h; cases h), trivial⟩, trivial⟩, ?_, (fun h => by cases h),
    fun h => h.2.1.1.2.2.1 rfl⟩
  refine .mk (by rintro _ ⟨⟩; decide) (by decide) (by unfold Ascending; decide) fun p hp => ?_
  rw [List.mem_singleton.mp hp]
  exact .lines (.mk (by intro i hi; cases hi) (by simp) (by unfold Ascending; decide) (by simp))

/-- A bare NaN is taken for granted not to occur since what can be written depends on what comes next: before a bracket it is taken for an identity. -/
example : (∃ e, parse (str "(\nNaN\n(\n1\n)\n)") = .err e) ∧
    parse (str "(NaN, (1))") = .ok (.mk none (.tuple [.mk none (.num (.float (.nan false (2 ^ 51)))), .mk none (.tuple [.mk none (.num (.uint 1))])])) :=
  ⟨err_of (by decide +kernel), by decide +kernel⟩

/-- Not every Kserd has a text: positive signed integers, the empty container, and strings in which an `=` comes before all of the characters that
could stop the search for it. -/
theorem C65_none (s : Str) : parse s ≠ .ok (.mk none (.num (.int 5))) ∧ parse s ≠ .ok (.mk none (.cntr [])) ∧
    parse s ≠ .ok (.mk none (.str (str "=<>(){}'\"\r\n"))) ∧ parse s ≠ .ok (.mk none (.tuple [.mk none (.cntr [])])) := by
  refine ⟨fun h => ?_, fun h => (C65_range h).2.2 rfl, fun h => ?_, fun h => ?_⟩
  · have := (C65_range h).1.1.2
    revert this
    decide
  · rcases (C65_range h).2.1 rfl _ rfl with h | ⟨d, h1, h2⟩ | ⟨h | h, -⟩
    · exact h ⟨[], _, rfl, by simp⟩
    · revert d; decide
    · exact h (by decide)
    · exact h (by decide)
  · have h := (C65_range h).1.1.2 _ List.mem_cons_self
    exact h.1 rfl

/-- The same string in a field has a text, and after an identity too. -/
example : parse (str "a = str*=<>(){}'\"\r\n*") = .ok (.mk none (.cntr [(str "a", .mk none (.str (str "=<>(){}'\"\r\n")))])) := by decide +kernel
example : parse (str "<a>str*=<>(){}'\"\r\n*") = .ok (.mk (some (str "a")) (.str (str "=<>(){}'\"\r\n"))) := by decide +kernel

/-- The formatter writes `[true]`, which is read as a heading; but there is a text for it. -/
def listOfTrue : Kserd := .mk none (.seq [.mk none (.bool true)])
example : All Node listOfTrue ∧ Lead listOfTrue :=
  ⟨⟨⟨(by intro i hi; cases hi), by intro i hi; cases hi⟩, ⟨⟨(by intro i hi; cases hi), trivial⟩, trivial⟩, trivial⟩, by intro _ s hs; cases hs⟩
example : (∀ f, listOfTrue.val ≠ .cntr f) ∧ All Granted listOfTrue := ⟨(by intro f h; cases h), trivial, ⟨trivial, trivial⟩, trivial⟩
example : ∃ s, parse s = .ok listOfTrue := ⟨str "[\ntrue\n]", by decide +kernel⟩
example : ∃ e, parse (str "[true]") = .err e := err_of (by decide +kernel)

/-- Nested, with an identity, a map, bytes and a string with both quotes. -/
def spelt : Kserd := .mk (some (str "Rec")) (.cntr [(str "a", .mk none (.tuple [.mk none (.str (str "x = 1")), .mk none .unit])),
  (str "b", .mk none (.map [(.mk none (.num (.uint 1)), .mk none (.barr [1, 2])), (.mk none (.num (.uint 2)), .mk (some (str "i")) (.str (str "'\"")))]))])

example : All Node spelt ∧ Lead spelt := by
  have nv : ∀ i, (none : Option Str) = some i → ValidName i := by intro i hi; cases hi
  have nb : ∀ i, (none : Option Str) = some i → NotBool i := by intro i hi; cases hi
  have n1 : Number.WF (.uint 1) := by decide
  have n2 : Number.WF (.uint 2) := by decide
  have lw : ∀ n, Number.WF (.uint n) → AllNums lawful (.mk none (.num (.uint n))) := fun n h =>
    ⟨⟨h, trivial, (by intro h; cases h), by intro p h; cases h⟩, trivial⟩
  refine ⟨⟨⟨?_, ?_, by simp, by decide, by unfold Ascending; decide⟩, ⟨⟨nv, nb, ?_⟩, ⟨⟨nv, '*', ⟨by decide, by decide⟩, by decide⟩, trivial⟩, ⟨⟨nv, trivial⟩, trivial⟩, trivial⟩,
    ⟨⟨nv, nb, by unfold Ascending; decide, ?_⟩, ?_⟩, trivial⟩, by intro h; cases h⟩
  · rintro _ ⟨⟩; decide
  · rintro _ ⟨⟩; decide
  · rintro _ _ ⟨⟩ _ s ⟨⟩
    exact .inr (.inl ⟨'\'', by decide, by decide⟩)
  · simp only [List.mem_cons, List.not_mem_nil, or_false]
    rintro _ (rfl | rfl)
    · exact lw 1 n1
    · exact lw 2 n2
  · exact ⟨⟨⟨nv, ⟨n1, trivial⟩, by intro _ p h; cases h⟩, trivial⟩, ⟨⟨nv, trivial⟩, trivial⟩, ⟨⟨nv, ⟨n2, trivial⟩, by intro _ p h; cases h⟩, trivial⟩,
      ⟨⟨by rintro _ ⟨⟩; decide, '*', ⟨by decide, by decide⟩, by decide⟩, trivial⟩, trivial⟩

example : Num (.int (-5)) ∧ Num (.uint 5) ∧ Num (.float (.nan true (2 ^ 51))) ∧ ¬ Num (.float (.nan true 1)) := by
  refine ⟨⟨by decide, by decide⟩, ⟨by decide, trivial⟩, ⟨by decide, rfl⟩, fun h => ?_⟩
  exact absurd h.2 (by decide)

end KS.Props
