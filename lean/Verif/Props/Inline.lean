import Verif.Lemmas.InlineRoot
/-!
# C70: which single-line texts are read, and as what
-/

namespace KS.Props
open KS.Spec KS.RT

/-- **C70.** The text of an ordinary Kserd on one line is accepted exactly if no composite has an identity that begins with a boolean, all numbers
are in range, and the whole is not taken for a heading. -/
theorem C70_accept (root : Kserd) (c : FormattingConfig) (hc : c.widthLimit = none) (ho : All Ordinary (hideIds c root))
    (htu : c.idOnTuples = false → ∀ x ∈ preorder root, ∀ l, x.val = .tuple l → x.id = none) :
    ∃ out, root.asStrWithConfig c = some out ∧ ((∃ k, parse out = .ok k) ↔ All Legible (hideIds c root) ∧ NoHeading (hideIds c root)) :=
  ⟨_, Inl.line_written root c hc ho htu, Inl.line_accepted ho⟩

/-- **C70.** Whenever such a text is accepted, the value is the Kserd without the hidden identities, its numbers reread; units, empty tuples and
empty containers become units if they have no identity, else empty tuples; and every map is made anew of its entries. -/
theorem C70_value (root : Kserd) (c : FormattingConfig) (hc : c.widthLimit = none) (ho : All Ordinary (hideIds c root))
    (htu : c.idOnTuples = false → ∀ x ∈ preorder root, ∀ l, x.val = .tuple l → x.id = none) {out : Str} {k : Kserd}
    (hw : root.asStrWithConfig c = some out) (h : parse out = .ok k) : ReadAs (hideIds c root) k := by
  rw [Inl.line_written root c hc ho htu] at hw
  cases hw
  exact (Inl.line_means ho h).2.2

/-- **C70.** The conditions of C34 are exactly those under which the text reads back: for ordinary Kserds whose map keys remain in order (as they do
when lawful, `C34_map_keys`), each of them is needed. -/
theorem C70_back (root : Kserd) (c : FormattingConfig) (hc : c.widthLimit = none) (ho : All Ordinary (hideIds c root))
    (hm : All (fun x => ∀ m, x.val = .map m → (rereadM m).Pairwise (fun a b => Kserd.cmp a.1 b.1 = .lt ∧ Kserd.eq a.1 b.1 = false)) (hideIds c root))
    (htu : c.idOnTuples = false → ∀ x ∈ preorder root, ∀ l, x.val = .tuple l → x.id = none) :
    ∃ out, root.asStrWithConfig c = some out ∧
      (parse out = .ok (rereadK (hideIds c root)) ↔ All TextOk (hideIds c root) ∧ NoHeading (hideIds c root)) := by
  refine ⟨_, Inl.line_written root c hc ho htu, fun h => ?_, fun h => ?_⟩
  · obtain ⟨h1, h2, h3⟩ := Inl.line_means ho h
    refine ⟨?_, h2⟩
    have h4 := Inl.crisp_clear _ (Inl.read_crisp _ h3)
    rw [all_mem] at ho hm h1 h4 ⊢
    intro x hx
    have ho := ho x hx
    have hm := hm x hx
    have h1 := h1 x hx
    have h4 := h4 x hx
    obtain ⟨id, v⟩ := x
    refine ⟨ho.1, ?_⟩
    cases v with
    | unit => exact h4
    | bool b => trivial
    | num n => exact h1
    | str s => exact ho.2
    | barr b => trivial
    | tuple l => exact ⟨h1, h4⟩
    | seq l => exact h1
    | cntr f => exact ⟨h1, h4, ho.2⟩
    | map m => exact ⟨h1, hm m rfl⟩
  · obtain ⟨out, ho', hp, -⟩ := C34_inline root c hc h.1 htu h.2
    rw [Inl.line_written root c hc ho htu] at ho'
    cases ho'
    exact hp

/-! ## Non-vacuity -/

instance (k : Kserd) : Decidable (Ordinary k) := by
  unfold Ordinary
  cases k.val <;> simp only [Ascending, NameChar] <;> infer_instance

/-- A Kserd that is read, but not as itself. -/
def inlineSample : Kserd :=
  .mk none (.cntr [
    (str "a", .mk none (.seq [.mk (some (str "U")) .unit, .mk none (.tuple []), .mk (some (str "C")) (.cntr []), .mk none (.num (.uint 1))])),
    (str "b", .mk none (.map [(.mk (some (str "T")) (.tuple []), .mk none (.bool true)), (.mk (some (str "C")) (.cntr []), .mk none (.bool false))]))])

/-- `inlineSample` meets the hypotheses of C70, and this is its text and what it is read as. -/
example : All Ordinary (hideIds { widthLimit := none } inlineSample) ∧
    inlineSample.asStrWithConfig { widthLimit := none } = some (str "(a = [U(), (), C (), 1], b = { T(): true, C (): false })") ∧
    parse (str "(a = [U(), (), C (), 1], b = { T(): true, C (): false })") = .ok (.mk none (.cntr [
      (str "a", .mk none (.seq [.mk (some (str "U")) (.tuple []), .mk none .unit, .mk (some (str "C")) (.tuple []), .mk none (.num (.uint 1))])),
      (str "b", .mk none (.map [(.mk (some (str "C")) (.tuple []), .mk none (.bool false))]))])) := by decide +kernel

/-- Ordinary Kserds whose texts are not read: an identity that begins with a boolean, and a sequence taken for a heading. -/
example : ∀ k ∈ [Kserd.mk none (.tuple [.mk (some (str "falsey")) (.tuple [.mk none .unit])]), .mk none (.seq [.mk none (.bool true)])],
    All Ordinary (hideIds { widthLimit := none } k) ∧ ¬ (All Legible (hideIds { widthLimit := none } k) ∧ NoHeading (hideIds { widthLimit := none } k)) := by
  intro k hk
  simp only [List.mem_cons, List.not_mem_nil, or_false] at hk
  rcases hk with rfl | rfl
  · refine ⟨by decide +kernel, fun h => ?_⟩
    have := (all_mem _).mp h.1 (.mk (some (str "falsey")) (.tuple [.mk none .unit])) (by decide +kernel)
    exact absurd (this (str "falsey") rfl) (by decide)
  · refine ⟨by decide +kernel, fun h => ?_⟩
    exact (h.2 rfl [.mk none (.bool true)] rfl).2 _ rfl ⟨rfl, .inl ⟨true, rfl⟩⟩

/-- `sample` meets the hypotheses of `C70_back`, and both sides of it hold. -/
example : All Ordinary (hideIds { widthLimit := none } sample) ∧ All TextOk (hideIds { widthLimit := none } sample) ∧
    NoHeading (hideIds { widthLimit := none } sample) := by decide +kernel

/-- The restriction to strings that can be quoted is needed: this string is delimited by `_`, and read as a container with a field `str_`. -/
theorem C70_string_needed :
    (Kserd.mk none (.str (str "=\"'#`|*^!%~&\"\n:a"))).asStr = some (str "str_=\"'#`|*^!%~&\"\n:a_") ∧
    parse (str "str_=\"'#`|*^!%~&\"\n:a_") = .ok (.mk (some (str "a_")) (.cntr [(str "str_", .mk none (.str (str "'#`|*^!%~&")))])) := by decide +kernel

end KS.Props
