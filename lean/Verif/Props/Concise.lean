import Verif.Lemmas.LaidWrite
import Verif.Props.Inline
/-!
# C75: which inline and concise texts are read, and as what
-/

namespace KS.Props
open KS.Spec KS.RT

/-- The assumptions of C75 on a formatter state: ordinary Kserds, no tuple with a hidden identity (C28), and no sequence, container or map with
the identity `true` or `false` (`C75_split`). -/
structure Usual (f : Formatter) : Prop where
  text : All Ordinary (displayed f)
  hidden : ∀ i k l, (preorder f.root)[i]? = some k → flags f i = false → k.val = .tuple l → k.id = none
  whole : All (fun k => ¬ Splits k) (displayed f)

theorem usual_written (root : Kserd) (f : Formatter) (h : Reachable root f) (hu : Usual f) : ∃ out, f.writeString [] = some out := by
  refine (C24_write_partial root f h []).mpr ?_
  obtain ⟨rfl, -⟩ := C22_rules root f h
  intro x hx s hs
  obtain ⟨j, hj⟩ := List.mem_iff_getElem?.mp hx
  have := (all_mem _).mp hu.text _ (List.mem_of_getElem? (shown_get f hj))
  obtain ⟨id, v⟩ := x
  cases hs
  exact this.2.1

/-- **C75.** In every formatter state without verbose containers, the text is accepted exactly if no composite has an identity that begins with a
boolean, all numbers are in range, no `inf` or `NaN` on a line of its own is followed by an opening bracket, and a single line is not taken for a
heading. -/
theorem C75_accept (root : Kserd) (f : Formatter) (h : Reachable root f) (hv : NoVerboseCntr f) (hu : Usual f) :
    ∃ out, f.writeString [] = some out ∧
      ((∃ k, parse out = .ok k) ↔ All Legible (displayed f) ∧
        (∀ i k, (preorder f.root)[i]? = some k → line f i ≠ some .inline → Separable (shown (flags f) i k).val) ∧
        (line f 0 = some .inline → NoHeading (displayed f))) := by
  obtain ⟨out, hout⟩ := usual_written root f h hu
  refine ⟨out, hout, ?_⟩
  obtain ⟨rfl, hr⟩ := C22_rules root f h
  obtain ⟨t, rfl, h1, h2, h3, h4⟩ := Cc.state_laid hr hv hu.text hu.hidden hout
  have ho : All Ordinary t.kserd := by rw [h1]; exact hu.text
  have hw : All Cc.Whole t.kserd := by rw [h1]; exact hu.whole
  rw [← h3, h4]
  constructor
  · rintro ⟨k, hk⟩
    obtain ⟨g1, g2, g3, -⟩ := Cc.laid_means h2 ho hw hk
    refine ⟨h1 ▸ g1, g2, ?_⟩
    rintro ⟨k', e⟩
    have := g3 k' e
    rw [e] at h1
    rw [← h1]; exact this
  · rintro ⟨g1, g2, g3⟩
    refine Cc.laid_accepted h2 ho (h1 ▸ g1) g2 fun k e => ?_
    have := g3 ⟨k, e⟩
    rw [e] at h1
    rw [← h1] at this; exact this

/-- **C75.** Whenever such a text is accepted, the value is the displayed Kserd with its numbers reread; units, empty tuples and empty containers
become units if they have no identity, else empty tuples; and every map is made anew of its entries. -/
theorem C75_value (root : Kserd) (f : Formatter) (h : Reachable root f) (hv : NoVerboseCntr f) (hu : Usual f) {out : Str} {k : Kserd}
    (hw : f.writeString [] = some out) (hk : parse out = .ok k) : ReadAs (displayed f) k := by
  obtain ⟨rfl, hr⟩ := C22_rules root f h
  obtain ⟨t, rfl, h1, h2, -⟩ := Cc.state_laid hr hv hu.text hu.hidden hw
  have := (Cc.laid_means h2 (by rw [h1]; exact hu.text) (by rw [h1]; exact hu.whole) hk).2.2.2
  rwa [h1] at this

/-- **C75.** The conditions of C35 are exactly those under which the text reads back: for ordinary Kserds whose map keys remain in order (as they do
when lawful, `C34_map_keys`), each of them is needed. -/
theorem C75_back (root : Kserd) (f : Formatter) (h : Reachable root f) (hv : NoVerboseCntr f) (hu : Usual f)
    (hm : All (fun x => ∀ m, x.val = .map m → (rereadM m).Pairwise (fun a b => Kserd.cmp a.1 b.1 = .lt ∧ Kserd.eq a.1 b.1 = false)) (displayed f)) :
    ∃ out, f.writeString [] = some out ∧ (parse out = .ok (rereadK (displayed f)) ↔ Readable f) := by
  obtain ⟨out, hout, hacc⟩ := C75_accept root f h hv hu
  refine ⟨out, hout, fun hk => ?_, fun hd => ?_⟩
  · obtain ⟨h1, h2, h3⟩ := hacc.mp ⟨_, hk⟩
    have h4 := Inl.crisp_clear _ (Inl.read_crisp _ (C75_value root f h hv hu hout hk))
    refine ⟨?_, hu.hidden, h2, h3⟩
    have ho := hu.text
    rw [all_mem] at ho hm h1 h4 ⊢
    intro x hx
    have ho := ho x hx
    have hm := hm x hx
    have h1 := h1 x hx
    have h4 := h4 x hx
    obtain ⟨id, v⟩ := x
    refine ⟨ho.1, ?_⟩
    cases v with
    | unit => exact h4
    | bool b => trivial
    | num n => exact h1
    | str s => exact ho.2
    | barr b => trivial
    | tuple l => exact ⟨h1, h4⟩
    | seq l => exact h1
    | cntr f => exact ⟨h1, h4, ho.2⟩
    | map m => exact ⟨h1, hm m rfl⟩
  · obtain ⟨out', hout', hp, -⟩ := C35_roundtrip_partial root f h hv hd
    rw [hout] at hout'
    cases hout'
    exact hp

/-! ## Non-vacuity, and why identities `true` and `false` are set apart -/

instance (k : Kserd) : Decidable (Splits k) := by unfold Splits; infer_instance

/-- `Usual` except for the rule about tuples with hidden identities, which holds if no identity of a tuple is hidden. -/
def usualB (f : Formatter) : Bool :=
  decide (All Ordinary (displayed f)) && (decide (All (fun k => ¬ Splits k) (displayed f)) && (f.fmts.all (fun x => x.line ≠ .verbose && x.id) &&
    decide (f.fmts.length = (preorder f.root).length)))

theorem usualB_spec {f : Formatter} (h : usualB f = true) : Usual f ∧ NoVerboseCntr f := by
  simp only [usualB, Bool.and_eq_true, decide_eq_true_eq, List.all_eq_true] at h
  obtain ⟨h1, h2, h3, h4⟩ := h
  refine ⟨⟨h1, fun i k l hk hf _ => ?_, h2⟩, fun i k fs _ _ e => ?_⟩
  · exfalso
    rw [flags, idOn] at hf
    cases hfm : f.fmts[i]? with
    | none =>
      rw [List.getElem?_eq_none_iff, h4] at hfm
      have := (List.getElem?_eq_some_iff.mp hk).1
      omega
    | some fm =>
      rw [hfm] at hf
      have := (h3 fm (List.mem_of_getElem? hfm)).2
      simp [this] at hf
  · rw [line, Option.map_eq_some_iff] at e
    obtain ⟨fm, hfm, e⟩ := e
    exact (h3 fm (List.mem_of_getElem? hfm)).1 e

/-- A state that meets the hypotheses of C75, over several lines, and is read, though not as itself. -/
example : ∃ f, Reachable inlineSample f ∧ Usual f ∧ NoVerboseCntr f ∧ line f 0 = some .concise := by
  obtain ⟨f, hf, h⟩ := conciseRoot_reach (k := inlineSample) (fun f => usualB f && decide (line f 0 = some .concise)) (by decide +kernel)
  simp only [Bool.and_eq_true, decide_eq_true_eq] at h
  exact ⟨f, hf, (usualB_spec h.1).1, (usualB_spec h.1).2, h.2⟩

/-- On a line of its own a container with identity `true` is read as two elements: the boolean, and the container without identity. -/
theorem C75_split :
    let k := Kserd.mk none (.seq [.mk (some (str "true")) (.cntr [(str "a", .mk none (.num (.uint 1)))])])
    Kserd.withId (str "true") (.cntr [(str "a", .mk none (.num (.uint 1)))]) = .ok (.mk (some (str "true")) (.cntr [(str "a", .mk none (.num (.uint 1)))])) ∧
    ∃ f, Reachable k f ∧ NoVerboseCntr f ∧ f.writeString [] = some (str "[\n    true (\n        a = 1\n    )\n]") ∧
      parse (str "[\n    true (\n        a = 1\n    )\n]") =
        .ok (.mk none (.seq [.mk none (.bool true), .mk none (.cntr [(str "a", .mk none (.num (.uint 1)))])])) := by
  intro k
  obtain ⟨f, hf, h⟩ := conciseRoot_reach (k := k) (fun f => f.fmts.all (fun x => x.line ≠ .verbose) && decide (f.writeString [] =
    some (str "[\n    true (\n        a = 1\n    )\n]"))) (by decide +kernel)
  simp only [Bool.and_eq_true, decide_eq_true_eq, List.all_eq_true] at h
  refine ⟨by decide +kernel, f, hf, ?_, h.2, by decide +kernel⟩
  intro i k fs _ _ e
  rw [line, Option.map_eq_some_iff] at e
  obtain ⟨fm, hfm, e⟩ := e
  exact h.1 fm (List.mem_of_getElem? hfm) e

end KS.Props
