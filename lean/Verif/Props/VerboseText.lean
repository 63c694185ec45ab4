import Verif.Lemmas.VerboseText
/-!
# C57: what verbose text stands for
-/

namespace KS.Props
open KS.Spec KS.P KS.Nom KS.RT KS.AS

/-- **C57.** Verbose text written by hand: lines of a container in any order, with any repetition, nested to any depth, every value
as the crate writes it without a width limit, and any number of line breaks at the end. The text parses, to the container that the
lines stand for, and to nothing else: the last identity line counts, entries of a map and elements of a sequence are collected by
name wherever they stand, a map wins over a sequence and a sequence over a plain value, and of several plain values the last one
counts. -/
theorem C57_verbose (c : FormattingConfig) (hc : c.widthLimit = none) (ls : List VLine) (hb : Begins ls) (hok : LinesOk c ls) (m : Nat) :
    ∃ k, parse ((linesText c 0 ls).tail ++ List.replicate m '\n') = .ok k ∧ Means c ls k ∧ ∀ k', Means c ls k' → k' = k := by
  have hs : Stop 0 (nls m) := ⟨m, .inl rfl⟩
  have he : Eol (nls m) := by
    cases m with
    | zero => exact .inl rfl
    | succ m => exact .inr ⟨_, rfl⟩
  have hlen : (linesText c 0 ls ++ nls m).length ≤ ((linesText c 0 ls).tail ++ nls m).length + 1 := by
    rw [List.length_append, List.length_append, List.length_tail]; omega
  obtain ⟨x, hx, k, hk, hm⟩ := block_rt hok hb hs hlen fun G e => lines_rt hc ls 0 G (nls m) hok hs he (by omega)
  refine ⟨k, ?_, hm, fun k' h => means_unique (fun its its' => items_unique ls its its') h hm⟩
  rw [hx, List.tail_cons] at hk ⊢
  have hr : kserdRoot (x ++ nls m) = .ok [] k := by
    have hw : multiWs (nls m) = .ok [] (nls m) := by
      have h1 : ∀ c ∈ nls m, isMultiWs c = true := by intro c hc; rw [List.eq_of_mem_replicate hc]; decide
      rw [multiWs, takeWhile, (takeWhile_all_nil h1).1, (takeWhile_all_nil h1).2]
    have hne : (x ++ nls m).isEmpty = false := by
      have hp := pv_lines hok hb hx (nls m)
      cases hxe : x ++ nls m with
      | nil => rw [hxe] at hp; cases hp
      | cons _ _ => rfl
    rw [kserdRoot, if_neg (by simp [hne])]
    simp only [allConsuming, terminated, hk, bind_ok, hw]
    rfl
  show parse (x ++ nls m) = _
  rw [parse, hr]

/-! ## Non-vacuity -/

/-- Lines in disorder, with repetitions. -/
def handLines : List VLine := [
  .field (str "b") (.mk none (.num (.uint 1))),
  .elem (str "a") (some (str "T")) (.mk none (.num (.uint 2))),
  .id (str "Foo"),
  .entry (str "m") none (.mk none (.num (.uint 1))) (.mk none (.bool true)),
  .elem (str "a") none (.mk none (.num (.uint 3))),
  .field (str "b") (.mk none (.str (str "x"))),
  .sub (str "n") (some (str "I")) [.field (str "z") (.mk none (.tuple [.mk none (.num (.uint 4))]))],
  .entryLines (str "m") none (.mk none (.num (.uint 1))) [.id (str "P"), .field (str "x") (.mk none .unit)],
  .field (str "m") (.mk none (.num (.uint 5))),
  .elemLines (str "a") none [.field (str "y") (.mk none (.num (.uint 6)))],
  .id (str "Bar")]

theorem key_one : AllNums lawful (.mk none (.num (.uint 1))) := by
  rw [AllNums, All]; exact ⟨C10_integers_lawful _ (by decide) (by decide), by rw [AllV]; trivial⟩

/-- Their text, which meets the hypotheses of C57, and the container it stands for. -/
example : Begins handLines ∧ LinesOk { widthLimit := none } handLines ∧
    (linesText { widthLimit := none } 0 handLines).tail = str
      "b = 1
[[a:T]]
    2
:Foo
[[m]]
    1: true
[[a]]
    3
b = \"x\"
[n:I]
    z = (4)
[[m]]
    1:
    :P
    x = ()
m = 5
[[a]]
    y = 6
:Bar" ∧
    parse (linesText { widthLimit := none } 0 handLines).tail = .ok (.mk (some (str "Bar")) (.cntr [
      (str "a", .mk (some (str "T")) (.seq [.mk none (.num (.uint 2)), .mk none (.num (.uint 3)), .mk none (.cntr [(str "y", .mk none (.num (.uint 6)))])])),
      (str "b", .mk none (.str (str "x"))),
      (str "m", .mk none (.map [(.mk none (.num (.uint 1)), .mk (some (str "P")) (.cntr [(str "x", .mk none .unit)]))])),
      (str "n", .mk (some (str "I")) (.cntr [(str "z", .mk none (.tuple [.mk none (.num (.uint 4))]))]))])) := by
  refine ⟨trivial, ?_, by decide +kernel, by decide +kernel⟩
  have hn : ∀ n ∈ [str "a", str "b", str "m", str "n", str "x", str "y", str "z"], n ≠ [] ∧ ∀ ch ∈ n, NameChar ch := by decide +kernel
  have ht : ∀ k ∈ [Kserd.mk none (.num (.uint 1)), .mk none (.num (.uint 2)), .mk none (.num (.uint 3)), .mk none (.num (.uint 5)), .mk none (.num (.uint 6)),
      .mk none (.bool true), .mk none .unit, .mk none (.str (str "x")), .mk none (.tuple [.mk none (.num (.uint 4))])],
      All TextOk (hideIds { widthLimit := none } k) ∧ ¬ Bare (hideIds { widthLimit := none } k) ∧ NoHeading (hideIds { widthLimit := none } k) := by
    decide +kernel
  have hi : ∀ n ∈ [str "T", str "Foo", str "Bar", str "I", str "P"], ValidName n := by decide +kernel
  have on : ∀ {k}, All TextOk (hideIds { widthLimit := none } k) ∧ ¬ Bare (hideIds { widthLimit := none } k) ∧ NoHeading (hideIds { widthLimit := none } k) →
      OnLine { widthLimit := none } k := fun h => ⟨h.1, (fun e => by cases e), h.2.1⟩
  have some1 : ∀ {i : Str}, ValidName i → GoodId (some i) := fun h s e => by cases e; exact h
  have none1 : GoodId none := fun s e => by cases e
  simp only [handLines, LinesOk, LineOk]
  refine ⟨⟨hn _ (by simp), on (ht _ (by simp))⟩, ⟨hn _ (by simp), some1 (hi _ (by simp)), on (ht _ (by simp)), (ht _ (by simp)).2.2⟩, hi _ (by simp),
    ⟨hn _ (by simp), none1, ⟨on (ht _ (by simp)), key_one⟩, on (ht _ (by simp))⟩,
    ⟨hn _ (by simp), none1, on (ht _ (by simp)), (ht _ (by simp)).2.2⟩, ⟨hn _ (by simp), on (ht _ (by simp))⟩,
    ⟨hn _ (by simp), some1 (hi _ (by simp)), trivial, ⟨hn _ (by simp), on (ht _ (by simp))⟩, trivial⟩,
    ⟨hn _ (by simp), none1, ⟨on (ht _ (by simp)), key_one⟩, trivial, hi _ (by simp), ⟨hn _ (by simp), on (ht _ (by simp))⟩, trivial⟩,
    ⟨hn _ (by simp), on (ht _ (by simp))⟩, ⟨hn _ (by simp), none1, ?_, ⟨hn _ (by simp), on (ht _ (by simp))⟩, trivial⟩, hi _ (by simp), trivial⟩
  exact ⟨trivial, fun l n h1 h2 => by cases h1; cases h2; decide⟩

/-! ## The hypotheses are needed -/

/-- **C57, negative part.** A container that begins with a heading `[n:i]` is not recognised, although the same heading is in second place. -/
theorem C57_lost_heading : (∃ e, parse (str "[n:I]\n    z = 4") = .err e) ∧
    parse (str "a = 1\n[n:I]\n    z = 4") =
      .ok (.mk none (.cntr [(str "a", .mk none (.num (.uint 1))), (str "n", .mk (some (str "I")) (.cntr [(str "z", .mk none (.num (.uint 4)))]))])) :=
  ⟨err_of (by decide +kernel), by decide +kernel⟩

/-- **C57, negative part.** A container that is an element of a sequence may not begin with a name that begins with `str`: it is taken
for a string, here ` = "` between two `x`, and as a colon follows, for the key of a map entry. In second place the same line is read. -/
theorem C57_lost_element : (∃ e, parse (str "[[a]]\n    strx = \"x: 5\"") = .err e) ∧
    parse (str "[[a]]\n    b = 1\n    strx = \"x: 5\"") =
      .ok (.mk none (.cntr [(str "a", .mk none (.seq [.mk none (.cntr [(str "b", .mk none (.num (.uint 1))), (str "strx", .mk none (.str (str "x: 5")))])]))])) :=
  ⟨err_of (by decide +kernel), by decide +kernel⟩

end KS.Props
