import Verif.Lemmas.RtPlain
import Verif.Props.Verbose
/-!
# C37: the default text form reads back
-/

namespace KS.Props
open KS.Spec KS.Nav KS.RT

/-- **C37, every layout.** A Kserd that is plain as displayed reads back in every layout that the formatter can reach: the text is written,
it parses to the Kserd as displayed with its numbers as they read back, and when every number is exact that is equal to the formatted Kserd in
both directions. -/
theorem C37_every_layout_partial (root : Kserd) (f : Formatter) (h : Reachable root f) (hp : PlainTree (displayed f))
    (htu : ∀ i k l, (preorder root)[i]? = some k → flags f i = false → k.val = .tuple l → k.id = none) :
    ∃ out, f.writeString [] = some out ∧ parse out = .ok (rereadK (displayed f)) ∧
      (AllNums Exact root → Kserd.eq root (rereadK (displayed f)) = true ∧ Kserd.eq (rereadK (displayed f)) root = true) := by
  obtain ⟨hroot, hr⟩ := C22_rules root f h
  obtain ⟨hd, hl⟩ := plain_readable hr hp (by rw [hroot]; exact htu)
  exact C36_roundtrip_partial root f h hd hl

/-- **C37, every configuration and Kserd,** plain or not: if the layout that the configuration leads to is `Readable` and `LayoutOk` (C36), the text parses to
the Kserd with the identities that are shown. -/
theorem C37_layout_partial (root : Kserd) (c : FormattingConfig) (f f' : Formatter) (hf : Formatter.new root = some f)
    (h : Solver.applyConfig f c = some f') (hd : Readable f') (hl : LayoutOk f') :
    ∃ out, root.asStrWithConfig c = some out ∧ parse out = .ok (rereadK (hideIds c root)) ∧
      (AllNums Exact root → Kserd.eq root (rereadK (hideIds c root)) = true ∧ Kserd.eq (rereadK (hideIds c root)) root = true) := by
  obtain ⟨h0, hr0⟩ := C22_rules root f (.new hf)
  have hre : Reachable root f' := .config c (.new hf) h
  obtain ⟨hroot, -⟩ := C22_rules _ _ hre
  obtain ⟨hdis, -⟩ := displayed_config hr0 h (by rw [hroot, h0])
  obtain ⟨out, ho, hp⟩ := C36_roundtrip_partial root f' hre hd hl
  rw [hdis, h0] at hp
  exact ⟨out, by rw [Kserd.asStrWithConfig, hf, Option.bind_some, h, Option.bind_some, ho], hp⟩

/-- **C37, every configuration.** -/
theorem C37_config_partial (root : Kserd) (c : FormattingConfig) (hp : PlainTree (hideIds c root))
    (htu : c.idOnTuples = false → ∀ x ∈ preorder root, ∀ l, x.val = .tuple l → x.id = none) :
    ∃ out, root.asStrWithConfig c = some out ∧ parse out = .ok (rereadK (hideIds c root)) ∧
      (AllNums Exact root → Kserd.eq root (rereadK (hideIds c root)) = true ∧ Kserd.eq (rereadK (hideIds c root)) root = true) := by
  obtain ⟨f0, hf0, rfl, hr0⟩ := C22_new root
  obtain ⟨f, hf⟩ := C24_config_partial f0.root f0 (.new hf0) (smallKeys_plain hp.node) c
  have hre : Reachable f0.root f := .config c (.new hf0) hf
  obtain ⟨hroot, -⟩ := C22_rules _ _ hre
  obtain ⟨hdis, hfl⟩ := displayed_config hr0 hf hroot
  obtain ⟨out, ho, h⟩ := C37_every_layout_partial f0.root f hre (by rw [hdis]; exact hp) (by
    intro i k l hk hfa hv
    rw [hfl i k hk, hv] at hfa
    exact htu hfa k (List.mem_of_getElem? hk) l hv)
  rw [hdis] at h
  refine ⟨out, ?_, h⟩
  rw [Kserd.asStrWithConfig, hf0, Option.bind_some, hf, Option.bind_some, ho]

/-- **C37 (partial).** `parse (kserd.as_str())` for every plain Kserd: it succeeds, with the identities that the default configuration shows, and
equals the Kserd when its numbers are exact. Missing, because false of the code: Kserds that are not plain and are laid out verbosely, see
`C37_lost_…`, and the exceptions of C34. -/
theorem C37_default_partial (k : Kserd) (hp : PlainTree (hideIds {} k)) :
    ∃ out, k.asStr = some out ∧ parse out = .ok (rereadK (hideIds {} k)) ∧
      (AllNums Exact k → Kserd.eq k (rereadK (hideIds {} k)) = true ∧ Kserd.eq (rereadK (hideIds {} k)) k = true) :=
  C37_config_partial k {} hp (by intro h; cases h)

/-! ## Non-vacuity -/

/-- An order whose text does not fit a line. -/
def orderSample : Kserd :=
  .mk (some (str "Order")) (.cntr [
    (str "customer", .mk (some (str "Customer")) (.cntr [
      (str "name", .mk none (.str (str "a name that is rather longer than the sixty characters of a line"))),
      (str "points", .mk none (.tuple [.mk none (.num (.uint 3)), .mk none (.num (.int (-4)))]))])),
    (str "items", .mk (some (str "Vec")) (.seq [
      .mk (some (str "Item")) (.cntr [(str "id", .mk none (.num (.uint 1))), (str "note", .mk none (.str (str "the first item, said to be \"blue\"")))]),
      .mk (some (str "Item")) (.cntr [(str "id", .mk none (.num (.uint 2))), (str "note", .mk none (.str (str "the second item")))])])),
    (str "stock", .mk none (.map [(.mk none (.str (str "left")), .mk none (.seq [.mk none (.num (.uint 7)), .mk none .unit])),
      (.mk none (.str (str "right")), .mk none (.bool true))]))])

/-- `orderSample` meets the hypotheses of C37 and is laid out verbosely. -/
example : PlainTree (hideIds {} orderSample) ∧ orderSample.asStr = some (str
    ":Order\n\n[customer:Customer]\n    name = \"a name that is rather longer than the sixty characters of a line\"\n    points = (3, -4)\nitems = [\n            Item (id = 1, note = str'the first item, said to be \"blue\"')\n            Item (id = 2, note = \"the second item\")\n        ]\nstock = { \"left\": [7, ()], \"right\": true }\n") := by decide +kernel

/-! ## Exceptions

Kserds without any unusual text that `as_str` loses only because it lays them out verbosely. -/

/-- A string that does not fit a line. -/
abbrev longK : Kserd := .mk none (.str (str "a description that is rather longer than sixty characters are"))

/-- A container with an identity that comes first in one without (`FirstPlain`): the text is rejected. -/
theorem C37_lost_heading :
    let t := str "\n[customer:Customer]\n    name = \"a description that is rather longer than sixty characters are\"\ntotal = 3\n"
    (Kserd.mk none (.cntr [(str "customer", .mk (some (str "Customer")) (.cntr [(str "name", longK)])), (str "total", numK 3)])).asStr = some t ∧
    ∃ e, parse t = .err e :=
  ⟨by decide +kernel, err_of (by decide +kernel)⟩

/-- A map that is a field of an inner container (`NoMapField`): the text reads as a different Kserd. -/
theorem C37_lost_map :
    let t := str "\n[order]\n\n[[items]]\n1: \"a description that is rather longer than sixty characters are\"\ntotal = 3\n"
    let k := Kserd.mk none (.cntr [(str "order", .mk none (.cntr [(str "items", .mk none (.map [(numK 1, longK)]))])), (str "total", numK 3)])
    let k' := Kserd.mk none (.cntr [(str "items", .mk none (.map [(numK 1, longK)])), (str "order", .mk none (.cntr [])), (str "total", numK 3)])
    k.asStr = some t ∧ parse t = .ok k' ∧ Kserd.eq k k' = false :=
  ⟨by decide +kernel, by decide +kernel, by decide +kernel⟩

/-- A sequence of containers as a map value (`PlainNode`): the text is rejected. -/
theorem C37_lost_value :
    let t := str "a = 1\n\n[[m]]\n1:\n[\n                x = \"a description that is rather longer than sixty characters are\"\n\n    ]\n"
    (Kserd.mk none (.cntr [(str "a", numK 1), (str "m", .mk none (.map [(numK 1, .mk none (.seq [.mk none (.cntr [(str "x", longK)])]))]))])).asStr = some t ∧
    ∃ e, parse t = .err e :=
  ⟨by decide +kernel, err_of (by decide +kernel)⟩

/-- A sequence of sequences, one of them a single boolean (`NoHeading`): the text reads as a different Kserd. -/
theorem C37_lost_element :
    let t := str "a = 1\n\n[[m]]\n[true]\n\n[[m]]\n\"a description that is rather longer than sixty characters are\"\n"
    let k := Kserd.mk none (.cntr [(str "a", numK 1), (str "m", .mk none (.seq [.mk none (.seq [.mk none (.bool true)]), longK]))])
    let k' := Kserd.mk none (.cntr [(str "a", numK 1), (str "m", .mk none (.seq [.mk none (.cntr []), longK])), (str "true", .mk none (.cntr []))])
    k.asStr = some t ∧ parse t = .ok k' ∧ Kserd.eq k k' = false :=
  ⟨by decide +kernel, by decide +kernel, by decide +kernel⟩

/-- A map with a long sequence for a key: `as_str` panics. -/
theorem C37_panics : (Kserd.mk none (.cntr [(str "m", .mk none (.map [(.mk none (.seq [longK]), numK 1)]))])).asStr = none := by decide +kernel

end KS.Props
