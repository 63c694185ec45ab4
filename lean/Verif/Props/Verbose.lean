import Verif.Lemmas.RtVDec
import Verif.Props.RoundTrip
/-!
# C36: verbose text reads back
-/

namespace KS.Props
open KS.Spec KS.Nav KS.RT

/-- **C36 (partial).** Whatever layout the formatter has reached, with verbose containers at any depth: if the layout meets `Readable` and
`LayoutOk` then its text parses, to the Kserd as displayed with its numbers as they read back. When every number is exact that is equal to the
formatted Kserd, in both directions. Missing, because false of the code: layouts that do not meet the conditions, see the `C36_lost_…`
theorems. -/
theorem C36_roundtrip_partial (root : Kserd) (f : Formatter) (h : Reachable root f) (hd : Readable f) (hl : LayoutOk f) :
    ∃ out, f.writeString [] = some out ∧ parse out = .ok (rereadK (displayed f)) ∧
      (AllNums Exact root → Kserd.eq root (rereadK (displayed f)) = true ∧ Kserd.eq (rereadK (displayed f)) root = true) := by
  obtain ⟨out, ho⟩ := (C24_write_partial root f h []).mpr (by
    obtain ⟨rfl, -⟩ := C22_rules root f h
    exact writable_of_text _ hd.text)
  obtain ⟨rfl, hr⟩ := C22_rules root f h
  exact ⟨out, ho, layout_parses hr hd hl ho, equal_displayed⟩

/-! ## Non-vacuity -/

/-- A Kserd with sequences, maps and containers in one another, with identities. -/
def verboseSample : Kserd :=
  .mk (some (str "Pt")) (.cntr [
    (str "a", .mk none (.seq [
      .mk (some (str "P")) (.cntr [(str "x", .mk none (.num (.uint 1))), (str "y", .mk none (.tuple [.mk none (.num (.uint 2)), .mk none (.num (.uint 3))]))]),
      .mk none (.num (.uint 4))])),
    (str "b", .mk none (.map [(.mk none (.num (.int (-2))), .mk none (.str (str "x\"y"))),
      (.mk none (.num (.uint 3)), .mk none (.cntr [(str "z", .mk none (.barr [7, 8]))]))])),
    (str "c", .mk (some (str "Q")) (.cntr [(str "d", .mk none (.seq [.mk none (.num (.uint 5)), .mk none (.num (.uint 6))])),
      (str "e", .mk none (.cntr [(str "f", .mk none .unit)]))])),
    (str "d", .mk none (.bool true))])

/-- The layout in which everything is as verbose as possible meets the hypotheses of C36. -/
example : ∃ f, Reachable verboseSample f ∧ Readable f ∧ LayoutOk f ∧ f.writeString [] = some (str
"
:Pt

[[a]]
    :P
    x = 1
    y = (
            2
            3
        )

[[a]]
4

[[b]]
-2: str'x\"y'
[[b]]
3:
    z = b91'1WA'


[c:Q]

    [[d]]
    5

    [[d]]
    6

    [e]
        f = ()
d = true
").tail := by
  obtain ⟨f, hf, h⟩ := after_reach (k := verboseSample) (l := []) (fun f => readableV f && (decide (LayoutOk f) && decide (f.writeString [] =
    some (str "\n:Pt\n\n[[a]]\n    :P\n    x = 1\n    y = (\n            2\n            3\n        )\n\n[[a]]\n4\n\n[[b]]\n-2: str'x\"y'\n[[b]]\n3:\n    z = b91'1WA'\n\n\n[c:Q]\n\n    [[d]]\n    5\n\n    [[d]]\n    6\n\n    [e]\n        f = ()\nd = true\n").tail))) (by decide +kernel)
  simp only [Bool.and_eq_true, decide_eq_true_eq] at h
  exact ⟨f, hf, readableV_spec h.1, h.2⟩

/-- Verbose sequences as elements under headings: the text that follows is glued to the closing bracket, and reads back nevertheless. -/
example : ∃ f, Reachable (.mk none (.cntr [(str "a", .mk none (.seq [.mk none (.seq [.mk none (.num (.uint 1))])])), (str "b", .mk none (.num (.uint 2)))])) f ∧
    Readable f ∧ LayoutOk f ∧ f.writeString [] = some (str "\n[[a]]\n[\n        1\n    ]b = 2\n") := by
  obtain ⟨f, hf, h⟩ := after_reach (k := .mk none (.cntr [(str "a", .mk none (.seq [.mk none (.seq [.mk none (.num (.uint 1))])])), (str "b", .mk none (.num (.uint 2)))]))
    (l := []) (fun f => readableV f && (decide (LayoutOk f) && decide (f.writeString [] = some (str "\n[[a]]\n[\n        1\n    ]b = 2\n")))) (by decide +kernel)
  simp only [Bool.and_eq_true, decide_eq_true_eq] at h
  exact ⟨f, hf, readableV_spec h.1, h.2⟩

/-! ## Every condition is needed

The witnesses are texts written by the formatter after the given requests; all of them meet `Readable`. -/

/-- The layout of `k` after the requests `l` is readable and is written as `t`. -/
def Writes (k : Kserd) (l : List (Nat × Repr')) (t : String) : Prop :=
  ∃ f, after k l = some f ∧ Reachable k f ∧ Readable f ∧ f.writeString [] = some (str t)

theorem writes_of {k : Kserd} {l : List (Nat × Repr')} {t : String}
    (h : (after k l).any (fun f => readableV f && decide (f.writeString [] = some (str t))) = true) : Writes k l t := by
  cases hf : after k l with
  | none => rw [hf] at h; cases h
  | some f =>
    rw [hf] at h
    have h : (readableV f && decide (f.writeString [] = some (str t))) = true := h
    rw [Bool.and_eq_true, decide_eq_true_eq] at h
    have hf0 := hf
    unfold after at hf
    cases hn : Formatter.new k with
    | none => rw [hn, requests] at hf; cases hf
    | some g => rw [hn] at hf; exact ⟨f, hf0, requests_reach l g f (.new hn) hf, readableV_spec h.1, h.2⟩

/-- A number. -/
abbrev numK (n : Nat) : Kserd := .mk none (.num (.uint n))

/-- The heading of a container that comes first may not have an identity (`FirstOk`): `[a:B]` is not recognised. -/
theorem C36_lost_heading_identity :
    Writes (.mk none (.cntr [(str "a", .mk (some (str "B")) (.cntr [(str "x", numK 1)]))])) [] "\n[a:B]\n    x = 1\n" ∧
    ∃ e, parse (str "\n[a:B]\n    x = 1\n") = .err e :=
  ⟨writes_of (by decide +kernel), err_of (by decide +kernel)⟩

/-- Nor may it begin with a digit or be empty (`FirstOk`), although both are valid field names. -/
theorem C36_lost_heading_name :
    (Writes (.mk none (.cntr [(str "0", .mk none (.cntr [(str "x", numK 1)]))])) [] "\n[0]\n    x = 1\n" ∧
      ∃ e, parse (str "\n[0]\n    x = 1\n") = .err e) ∧
    (Writes (.mk none (.cntr [([], .mk none (.cntr [(str "x", numK 1)]))])) [] "\n[]\n    x = 1\n" ∧
      ∃ e, parse (str "\n[]\n    x = 1\n") = .err e) :=
  ⟨⟨writes_of (by decide +kernel), err_of (by decide +kernel)⟩, writes_of (by decide +kernel), err_of (by decide +kernel)⟩

/-- A map under headings belongs to the whole text (`HeadedOk`): its headings are not indented, so that the entries are read as a field of the
outermost container. The Kserd read is a different one. -/
theorem C36_lost_map_depth :
    let k := Kserd.mk none (.cntr [(str "a", .mk none (.cntr [(str "m", .mk none (.map [(numK 1, numK 2)])), (str "n", numK 3)]))])
    let k' := Kserd.mk none (.cntr [(str "a", .mk none (.cntr [])), (str "m", .mk none (.map [(numK 1, numK 2)])), (str "n", numK 3)])
    Writes k [] "\n[a]\n\n[[m]]\n1: 2\n    n = 3\n" ∧ parse (str "\n[a]\n\n[[m]]\n1: 2\n    n = 3\n") = .ok k' ∧ Kserd.eq k k' = false :=
  ⟨writes_of (by decide +kernel), by decide +kernel, by decide +kernel⟩

/-- The keys of a map under headings are inline (`EntriesOk`). -/
theorem C36_lost_key :
    Writes (.mk none (.cntr [(str "m", .mk none (.map [(.mk none (.seq [numK 1]), numK 2)]))])) [] "\n[[m]]\n[\n    1\n]: 2\n" ∧
    ∃ e, parse (str "\n[[m]]\n[\n    1\n]: 2\n") = .err e :=
  ⟨writes_of (by decide +kernel), err_of (by decide +kernel)⟩

/-- No field `inf` comes before a heading (`FieldOk`), no such element either (`ValueOk`). -/
theorem C36_lost_inf :
    (Writes (.mk none (.cntr [(str "a", .mk none (.num (.float (.inf false)))), (str "b", .mk none (.cntr [(str "x", numK 1)]))])) []
        "a = inf\n\n[b]\n    x = 1\n" ∧
      ∃ e, parse (str "a = inf\n\n[b]\n    x = 1\n") = .err e) ∧
    (Writes (.mk none (.cntr [(str "a", .mk none (.seq [.mk none (.num (.float (.inf false))), numK 1]))])) [] "\n[[a]]\ninf\n\n[[a]]\n1\n" ∧
      ∃ e, parse (str "\n[[a]]\ninf\n\n[[a]]\n1\n") = .err e) :=
  ⟨⟨writes_of (by decide +kernel), err_of (by decide +kernel)⟩, writes_of (by decide +kernel), err_of (by decide +kernel)⟩

/-- An inline element is not taken for a heading (`ElemsOk`). The Kserd read is a different one. -/
theorem C36_lost_element :
    let k := Kserd.mk none (.cntr [(str "a", .mk none (.seq [.mk none (.seq [.mk none (.bool true)])])), (str "b", numK 2)])
    let k' := Kserd.mk none (.cntr [(str "a", .mk none (.seq [.mk none (.cntr [])])), (str "b", numK 2), (str "true", .mk none (.cntr []))])
    Writes k [(2, .inline)] "\n[[a]]\n[true]\nb = 2\n" ∧ parse (str "\n[[a]]\n[true]\nb = 2\n") = .ok k' ∧ Kserd.eq k k' = false :=
  ⟨writes_of (by decide +kernel), by decide +kernel, by decide +kernel⟩

/-- The first field name of a container under `[[name]]` may not begin with `str` (`NoStr`): it is taken for a string and that for a map key. -/
theorem C36_lost_str :
    let k := Kserd.mk none (.cntr [(str "a", .mk none (.seq [.mk none (.cntr [(str "strx", .mk none (.str (str "x:x"))), (str "u", numK 2)])]))])
    Writes k [] "\n[[a]]\n    strx = \"x:x\"\n    u = 2\n" ∧ ∃ e, parse (str "\n[[a]]\n    strx = \"x:x\"\n    u = 2\n") = .err e :=
  ⟨writes_of (by decide +kernel), err_of (by decide +kernel)⟩

/-- Sequences and maps under headings lose their identity (`HeadedOk`). The Kserd read is equal but for the identity. -/
theorem C36_lost_identity :
    (Writes (.mk none (.cntr [(str "a", .mk (some (str "V")) (.seq [numK 1]))])) [] "\n[[a]]\n1\n" ∧
      parse (str "\n[[a]]\n1\n") = .ok (.mk none (.cntr [(str "a", .mk none (.seq [numK 1]))]))) ∧
    (Writes (.mk none (.cntr [(str "a", .mk (some (str "V")) (.map [(numK 1, numK 2)]))])) [] "\n[[a]]\n1: 2\n" ∧
      parse (str "\n[[a]]\n1: 2\n") = .ok (.mk none (.cntr [(str "a", .mk none (.map [(numK 1, numK 2)]))]))) :=
  ⟨⟨writes_of (by decide +kernel), by decide +kernel⟩, writes_of (by decide +kernel), by decide +kernel⟩

/-- A verbose sequence that is the value of a map entry holds no verbose container (`Flat`). -/
theorem C36_lost_value :
    let k := Kserd.mk none (.cntr [(str "a", .mk none (.map [(numK 1, .mk none (.seq [.mk none (.cntr [(str "x", numK 1)])]))])), (str "b", numK 2)])
    Writes k [] "\n[[a]]\n1:\n[\n                x = 1\n\n    ]\nb = 2\n" ∧
      ∃ e, parse (str "\n[[a]]\n1:\n[\n                x = 1\n\n    ]\nb = 2\n") = .err e :=
  ⟨writes_of (by decide +kernel), err_of (by decide +kernel)⟩

end KS.Props
