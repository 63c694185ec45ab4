import Verif.Lemmas.RtGlue
import Verif.Lemmas.RtEq
import Verif.Lemmas.RtDec
/-!
# C34, C35: inline and concise text reads back
-/

namespace KS.Props
open KS.Spec KS.Nav KS.RT

theorem exact_displayed {f : Formatter} (h : AllNums Exact f.root) : All exP (displayed f) := by
  rw [AllNums, all_mem] at h
  rw [all_mem]
  intro x hx
  obtain ⟨j, hj⟩ := List.mem_iff_getElem?.mp hx
  rw [displayed, preorder_shown, mapS_get] at hj
  obtain ⟨y, hy, rfl⟩ := Option.map_eq_some_iff.mp hj
  have := h y (List.mem_of_getElem? hy)
  obtain ⟨id, v⟩ := y
  cases v <;> first | trivial | exact this

theorem equal_displayed {f : Formatter} (h : AllNums Exact f.root) :
    Kserd.eq f.root (rereadK (displayed f)) = true ∧ Kserd.eq (rereadK (displayed f)) f.root = true := by
  have he : eraseIds f.root = eraseIds (displayed f) := (erase_shown _ _ _).symm
  obtain ⟨h1, h2, -⟩ := C09_ids_ignored _ _ he (rereadK (displayed f))
  rw [h1, h2]
  exact eq_reread _ (exact_displayed h)

/-- **C35 (partial).** Whatever inline and concise layout the formatter has reached, its text parses, to the Kserd as displayed with its
numbers as they read back. When every number is exact that is equal to the formatted Kserd, in both directions. Sequences and maps may
be verbose too. Missing, because false of the code: states that are not `Readable`, see the `C35_lost_…` theorems. -/
theorem C35_roundtrip_partial (root : Kserd) (f : Formatter) (h : Reachable root f) (hv : NoVerboseCntr f) (hd : Readable f) :
    ∃ out, f.writeString [] = some out ∧ parse out = .ok (rereadK (displayed f)) ∧
      (AllNums Exact root → Kserd.eq root (rereadK (displayed f)) = true ∧ Kserd.eq (rereadK (displayed f)) root = true) := by
  obtain ⟨out, ho⟩ := (C24_write_partial root f h []).mpr (by
    obtain ⟨rfl, -⟩ := C22_rules root f h
    exact writable_of_text _ hd.text)
  obtain ⟨rfl, hr⟩ := C22_rules root f h
  exact ⟨out, ho, readable_parses hr hd hv ho, equal_displayed⟩

/-- **C34.** With no width limit the text of every Kserd that is readable once the configured identities are hidden parses, to that Kserd
with its numbers as they read back; when every number is exact, to an equal Kserd. -/
theorem C34_inline (root : Kserd) (c : FormattingConfig) (hc : c.widthLimit = none) (ht : All TextOk (hideIds c root))
    (htu : c.idOnTuples = false → ∀ x ∈ preorder root, ∀ l, x.val = .tuple l → x.id = none) (hh : NoHeading (hideIds c root)) :
    ∃ out, root.asStrWithConfig c = some out ∧ parse out = .ok (rereadK (hideIds c root)) ∧
      (AllNums Exact root → Kserd.eq root (rereadK (hideIds c root)) = true ∧ Kserd.eq (rereadK (hideIds c root)) root = true) := by
  obtain ⟨f0, hf0, rfl, hr0⟩ := C22_new root
  obtain ⟨f, hf, hroot, hin⟩ := C25_inline f0.root f0 (.new hf0) c hc
  have hre : Reachable f0.root f := .config c (.new hf0) hf
  obtain ⟨hdis, hfl⟩ := displayed_config hr0 hf hroot
  have hli : ∀ i k, (preorder f.root)[i]? = some k → line f i = some .inline := by
    intro i k hk
    rw [hroot] at hk
    exact hin i (List.getElem?_eq_some_iff.mp hk).1
  obtain ⟨out, ho, hp, he⟩ := C35_roundtrip_partial f0.root f hre
    (by
      intro i k fs hk _ e
      rw [hli i k hk] at e; cases e)
    { text := by rw [hdis]; exact ht
      hidden := by
        intro i k l hk hfa hv
        rw [hroot] at hk
        rw [hfl i k hk, hv] at hfa
        exact htu hfa k (List.mem_of_getElem? hk) l hv
      lines := fun i k hk hne => absurd (hli i k hk) hne
      heading := fun _ => by rw [hdis]; exact hh }
  rw [hdis] at hp he
  refine ⟨out, ?_, hp, he⟩
  rw [Kserd.asStrWithConfig, hf0, Option.bind_some, hf, Option.bind_some, ho]

/-- The condition on map entries holds whenever the entries are in ascending order, as in every Rust `Kserd`, and the keys contain
lawful numbers and no empty containers. -/
theorem C34_map_keys (m : List (Kserd × Kserd)) (hm : Ascending Kserd.cmp m) (hk : ∀ p ∈ m, AllNums lawful p.1 ∧ NoEmptyCntr p.1) :
    (rereadM m).Pairwise (fun a b => Kserd.cmp a.1 b.1 = .lt ∧ Kserd.eq a.1 b.1 = false) := keys_reread hm hk

/-! ## Non-vacuity -/

/-- A Kserd of every kind, with identities. -/
def sample : Kserd :=
  .mk (some (str "Pt")) (.cntr [
    (str "a", .mk none (.seq [.mk none (.num (.uint 1)), .mk (some (str "Some")) (.tuple [.mk none (.bool true)])])),
    (str "b", .mk none (.map [(.mk none (.num (.int (-2))), .mk none (.str (str "x\"y"))), (.mk none (.num (.uint 3)), .mk none .unit)])),
    (str "c", .mk none (.barr [7, 8]))])

/-- `sample` meets the hypotheses of C34. -/
example : All TextOk (hideIds { widthLimit := none } sample) ∧ NoHeading (hideIds { widthLimit := none } sample) ∧
    sample.asStrWithConfig { widthLimit := none } =
      some (str "Pt (a = [1, Some(true)], b = { -2: str'x\"y', 3: () }, c = b91'1WA')") := by decide +kernel

/-- So does a string with both kinds of quotes and an `=` after them. -/
example : All TextOk (.mk none (.str (str "{\"it's\": \"a = b\"}"))) ∧ NoHeading (.mk none (.str (str "{\"it's\": \"a = b\"}"))) ∧
    (Kserd.mk none (.str (str "{\"it's\": \"a = b\"}"))).asStrWithConfig { widthLimit := none } = some (str "str#{\"it's\": \"a = b\"}#") := by
  decide +kernel

/-- The formatter with the root made concise. -/
def conciseRoot (k : Kserd) : Option Formatter := (Formatter.new k).bind fun f => match f.request 0 .concise with | .ok f => some f | .error _ => none

theorem conciseRoot_reach {k : Kserd} (P : Formatter → Bool) (h : (match conciseRoot k with | some f => P f | none => false) = true) :
    ∃ f, Reachable k f ∧ P f = true := by
  unfold conciseRoot at h
  cases hf : Formatter.new k with
  | none => rw [hf] at h; cases h
  | some f =>
    rw [hf, Option.bind_some] at h
    cases hr : f.request 0 .concise with
    | error e => rw [hr] at h; cases h
    | ok g => rw [hr] at h; exact ⟨g, .repr 0 .concise (.new hf) hr, h⟩

/-- A reachable concise layout of `sample` that meets the hypotheses of C35. -/
example : ∃ f, Reachable sample f ∧ Readable f ∧ NoVerboseCntr f ∧ line f 0 = some .concise ∧
    f.writeString [] = some (str "Pt (\n    a = [\n            1\n            Some(\n                true\n            )\n        ]\n    b = {\n            -2: str'x\"y'\n            3: ()\n        }\n    c = b91'1WA'\n)") := by
  obtain ⟨f, hf, h⟩ := conciseRoot_reach (k := sample) (fun f => readableB f && (decide (line f 0 = some .concise) && decide (f.writeString [] =
    some (str "Pt (\n    a = [\n            1\n            Some(\n                true\n            )\n        ]\n    b = {\n            -2: str'x\"y'\n            3: ()\n        }\n    c = b91'1WA'\n)")))) (by decide +kernel)
  simp only [Bool.and_eq_true, decide_eq_true_eq] at h
  exact ⟨f, hf, (readableB_spec h.1).1, (readableB_spec h.1).2, h.2⟩

/-! ## Every condition is needed

The witnesses are texts written by the formatter with its default settings unless said otherwise. -/

theorem err_of {s : Str} (h : (match parse s with | .err _ => true | _ => false) = true) : ∃ e, parse s = .err e := by
  cases hp : parse s with
  | err e => exact ⟨e, rfl⟩
  | _ => rw [hp] at h; cases h

/-- `[true]`, `[inf]` and `[[1], [2]]` are taken for headings (`NoHeading`). -/
theorem C34_lost_heading :
    (∀ k ∈ [Kserd.mk none (.seq [.mk none (.bool true)]), .mk none (.seq [.mk none (.num (.float (.inf false)))]),
        .mk none (.seq [.mk none (.seq [.mk none (.num (.uint 1))]), .mk none (.seq [.mk none (.num (.uint 2))])])],
      ∃ out, k.asStr = some out ∧ ∃ e, parse out = .err e) := by
  intro k hk
  simp only [List.mem_cons, List.not_mem_nil, or_false] at hk
  rcases hk with rfl | rfl | rfl
  · exact ⟨str "[true]", by decide +kernel, err_of (by decide +kernel)⟩
  · exact ⟨str "[inf]", by decide +kernel, err_of (by decide +kernel)⟩
  · exact ⟨str "[[1], [2]]", by decide +kernel, err_of (by decide +kernel)⟩

/-- A unit with identity and an empty tuple without read back as each other. -/
theorem C34_lost_unit :
    (Kserd.mk (some (str "u")) .unit).asStr = some (str "u()") ∧ parse (str "u()") = .ok (.mk (some (str "u")) (.tuple [])) ∧
    (Kserd.mk none (.tuple [])).asStr = some (str "()") ∧ parse (str "()") = .ok (.mk none .unit) ∧
    (Kserd.mk none (.cntr [])).asStr = some (str "()") ∧
    Kserd.eq (.mk none .unit) (.mk none (.tuple [])) = false := by decide +kernel

/-- An identity that begins with a boolean is not read, though `with_id` accepts it (`NotBool`). -/
theorem C34_lost_bool_id :
    Kserd.withId (str "true_positive") (.tuple [.mk none (.num (.uint 1))]) = .ok (.mk (some (str "true_positive")) (.tuple [.mk none (.num (.uint 1))])) ∧
    (Kserd.mk (some (str "true_positive")) (.tuple [.mk none (.num (.uint 1))])).asStr = some (str "true_positive(1)") ∧
    ∃ e, parse (str "true_positive(1)") = .err e := ⟨by decide +kernel, by decide +kernel, err_of (by decide +kernel)⟩

/-- Identities and field names that the constructors accept but the parser does not (`ValidName`, `NameChar`). -/
theorem C34_lost_names :
    (Kserd.withId (str "Vec*") (.tuple [.mk none .unit]) = .ok (.mk (some (str "Vec*")) (.tuple [.mk none .unit])) ∧
      (Kserd.mk (some (str "Vec*")) (.tuple [.mk none .unit])).asStr = some (str "Vec*(())") ∧ ∃ e, parse (str "Vec*(())") = .err e) ∧
    (Value.newCntr [(str "a.b", .mk none .unit)] = .ok (.cntr [(str "a.b", .mk none .unit)]) ∧
      (Kserd.mk none (.cntr [(str "a.b", .mk none .unit)])).asStr = some (str "(a.b = ())") ∧ ∃ e, parse (str "(a.b = ())") = .err e) :=
  ⟨⟨by decide +kernel, by decide +kernel, err_of (by decide +kernel)⟩, ⟨by decide +kernel, by decide +kernel, err_of (by decide +kernel)⟩⟩

/-- A root string with both quotes and `=` before them is taken for a verbose container (`Quotable`). -/
theorem C34_lost_string : (Kserd.mk none (.str (str "a=\"'"))).asStr = some (str "str#a=\"'#") ∧ ∃ e, parse (str "str#a=\"'#") = .err e :=
  ⟨by decide +kernel, err_of (by decide +kernel)⟩

/-- Two map keys that read back as equal ones leave a single entry. -/
theorem C34_lost_keys :
    let a := Kserd.mk (some (str "T")) (.tuple [])
    let b := Kserd.mk (some (str "C")) (.cntr [])
    Kserd.cmp a b = .lt ∧
    (Kserd.mk none (.map [(a, .mk none (.num (.uint 1))), (b, .mk none (.num (.uint 2)))])).asStr = some (str "{ T(): 1, C (): 2 }") ∧
    parse (str "{ T(): 1, C (): 2 }") = .ok (.mk none (.map [(.mk (some (str "C")) (.tuple []), .mk none (.num (.uint 2)))])) := by decide +kernel

/-- On lines of their own, `inf` followed by `(1)` is read as the beginning of a tuple with identity (`Separable`). -/
theorem C35_lost_lines :
    let k := Kserd.mk none (.seq [.mk none (.num (.float (.inf false))), .mk none (.tuple [.mk none (.num (.uint 1))])])
    ∃ f, Reachable k f ∧ NoVerboseCntr f ∧ f.writeString [] = some (str "[\n    inf\n    (\n        1\n    )\n]") ∧
      ∃ e, parse (str "[\n    inf\n    (\n        1\n    )\n]") = .err e := by
  intro k
  obtain ⟨f, hf, h⟩ := conciseRoot_reach (k := k) (fun f => f.fmts.all (fun x => x.line ≠ .verbose) && decide (f.writeString [] =
    some (str "[\n    inf\n    (\n        1\n    )\n]"))) (by decide +kernel)
  simp only [Bool.and_eq_true, decide_eq_true_eq, List.all_eq_true] at h
  refine ⟨f, hf, ?_, h.2, err_of (by decide +kernel)⟩
  intro i k fs _ _ e
  rw [line, Option.map_eq_some_iff] at e
  obtain ⟨fm, hfm, e⟩ := e
  exact h.1 fm (List.mem_of_getElem? hfm) e

end KS.Props
