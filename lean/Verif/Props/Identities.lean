import Verif.Lemmas.HideIds
import Verif.Props.Layout
/-!
# C28: identity switches, continued

`C28_hide_partial` (Layout) compares the texts of two formatters in the same state. Here: what `Formatter::id` and the configuration do to the
switches, and that a configured text is the text of the Kserd without the hidden identities, formatted from scratch.
-/

namespace KS.Props
open KS.Spec KS.Nav KS.Fm KS.Wr KS.Hide

/-- **C28.** `Formatter::id` succeeds exactly on the indices of nodes, with an out-of-bounds error otherwise. It sets the switch of that node
and leaves the Kserd, the navigator, all representations and all other switches as they were. -/
theorem C28_id (root : Kserd) (f : Formatter) (h : Reachable root f) (i : Nat) (b : Bool) :
    (f.setId i b = .error .idxOutOfBounds ↔ (preorder root).length ≤ i) ∧ ((∃ f', f.setId i b = .ok f') ↔ i < (preorder root).length) ∧
    ∀ f', f.setId i b = .ok f' → f'.root = f.root ∧ f'.nav = f.nav ∧ (∀ j, line f' j = line f j) ∧ idOn f' i = some b ∧
      ∀ j ≠ i, idOn f' j = idOn f j := by
  obtain ⟨rfl, hr⟩ := C22_rules root f h
  have hlen : f.fmts.length = (preorder f.root).length := by rw [hr.len, hr.nav, new_length, ← size_preorder]
  rw [← hlen]
  refine ⟨?_, ?_, ?_⟩
  · rw [Formatter.setId]
    split
    · constructor
      · intro h; cases h
      · intro h; omega
    · constructor
      · intro h; omega
      · intro h; rfl
  · rw [Formatter.setId]
    split
    · exact ⟨fun _ => by assumption, fun _ => ⟨_, rfl⟩⟩
    · exact ⟨fun ⟨_, h⟩ => (by cases h), fun h => absurd h (by assumption)⟩
  · intro f' hf'
    refine ⟨(setId_line hf' 0).2.1, (setId_line hf' 0).2.2.1, fun j => (setId_line hf' j).1, ?_, ?_⟩
    · rw [Formatter.setId] at hf'
      split at hf'
      · rename_i hlt
        cases hf'
        simp only [idOn, List.getElem?_modify, List.getElem?_eq_getElem hlt]
        simp
      · cases hf'
    · intro j hj
      rw [Formatter.setId] at hf'
      split at hf'
      · cases hf'
        simp only [idOn, List.getElem?_modify]
        cases f.fmts[j]? with
        | none => rfl
        | some x => simp [Ne.symm hj]
      · cases hf'

/-- **C28.** After configuring, every node shows its identity exactly if the configuration says so for its kind of value. -/
theorem C28_config (root : Kserd) (f f' : Formatter) (h : Reachable root f) (c : FormattingConfig) (hf : Solver.applyConfig f c = some f')
    (i : Nat) (x : Kserd) (hx : (preorder root)[i]? = some x) : idOn f' i = some (showsId c x.val) := by
  obtain ⟨rfl, hr⟩ := C22_rules root f h
  obtain ⟨n, hn, rfl⟩ := RT.nav_get hr hx
  rw [config_id hr hf i n hn]
  cases n.kserd.val <;> rfl

/-- All nodes inline or not, the switch is `true` in the formatter without hidden identities. -/
theorem withoutHidden_config {root : Kserd} {f0 f : Formatter} (h : Formatter.new root = some f0) {c : FormattingConfig}
    (hf : Solver.applyConfig f0 c = some f) :
    withoutHidden f = { root := hideIds c root, nav := Nav.new (hideIds c root), fmts := f.fmts.map fun x => { x with id := true } } := by
  obtain ⟨rfl, hr⟩ := C22_rules root f0 (.new h)
  obtain ⟨hroot, _⟩ := C22_rules _ f (.config c (.new h) hf)
  have := (RT.displayed_config hr hf hroot).1
  rw [displayed] at this
  rw [withoutHidden, this]

/-- **C28 (partial).** If tuples show their identities or none has one, the text under a configuration is the text of the Kserd without the
identities that the configuration hides, formatted under the same configuration; one panics exactly when the other does. Missing: a tuple whose
identity is hidden removes the preceding character (`C28_tuple_eats`), and a unit keeps its identity (`C28_unit_shown`). -/
theorem C28_config_text_partial (root : Kserd) (c : FormattingConfig)
    (ht : c.idOnTuples = true ∨ ∀ x ∈ preorder root, ∀ l, x.val = .tuple l → x.id = none) :
    root.asStrWithConfig c = (hideIds c root).asStrWithConfig c := by
  rw [Kserd.asStrWithConfig, Kserd.asStrWithConfig, formatter_new_hide]
  cases hf0 : Formatter.new root with
  | none => rfl
  | some f0 =>
    simp only [Option.map_some, Option.bind_some, applyConfig_hide]
    cases hf : Solver.applyConfig f0 c with
    | none => rfl
    | some f =>
      simp only [Option.map_some, Option.bind_some]
      have h0 : Formatter.new (hideIds c root) = some (F c f0) := by rw [formatter_new_hide, hf0]; rfl
      have h1 : Solver.applyConfig (F c f0) c = some (F c f) := by rw [applyConfig_hide, hf]; rfl
      have e1 : f.writeString [] = (withoutHidden f).writeString [] := by
        apply C28_hide_partial root f (.config c (.new hf0) hf)
        intro i n l hn hid hl
        obtain ⟨hroot, hr⟩ := C22_rules root f (.config c (.new hf0) hf)
        have hx : (preorder root)[i]? = some n.kserd := by
          rw [hr.nav, hroot] at hn
          rw [← (C18_preorder root).1, List.getElem?_map, hn]; rfl
        rcases ht with ht | ht
        · have := C28_config root f0 f (.new hf0) c hf i n.kserd hx
          rw [hid, hl] at this
          rw [show showsId c (.tuple l) = c.idOnTuples from rfl, ht] at this
          cases this
        · exact ht _ (List.mem_of_getElem? hx) l hl
      have e2 : (F c f).writeString [] = (withoutHidden (F c f)).writeString [] := by
        apply C28_hide_partial _ _ (.config c (.new h0) h1)
        intro i n l hn hid hl
        obtain ⟨hroot, hr⟩ := C22_rules _ _ (.config c (.new h0) h1)
        have hx : (preorder (hideIds c root))[i]? = some n.kserd := by
          rw [hr.nav, hroot] at hn
          rw [← (C18_preorder _).1, List.getElem?_map, hn]; rfl
        have := C28_config _ _ _ (.new h0) c h1 i n.kserd hx
        rw [hid] at this
        have hn' : (F c f).nav[i]? = (f.nav[i]?).map (H c) := get_hide c _ _
        rw [hn] at hn'
        cases hm : f.nav[i]? with
        | none => rw [hm] at hn'; cases hn'
        | some m =>
          rw [hm] at hn'
          cases hn'
          change some false = some (showsId c (hideIds c m.kserd).val) at this
          change (hideIds c m.kserd).id = none
          rcases hk : m.kserd with ⟨id, v⟩
          rw [hk, hideIds] at this
          rw [hideIds]
          have hl' : hideIdsV c v = .tuple l := by
            change (hideIds c m.kserd).val = _ at hl
            rw [hk, hideIds] at hl; exact hl
          cases v with
          | tuple l0 =>
            change (if c.idOnTuples then id else none) = none
            change some false = some c.idOnTuples at this
            rw [← Option.some.inj this]
            rfl
          | _ => cases hl'
      rw [e1, e2, withoutHidden_config hf0 hf, withoutHidden_config h0 h1, hide_hide]
      rfl

/-- Identities of a sequence, a number and a map are hidden, those of the container and the string are not; the text takes two lines. -/
example :
    let root : Kserd := .mk (some (str "T")) (.cntr [(str "a", .mk (some (str "u")) (.seq [.mk (some (str "v")) (.num (.uint 1))])),
      (str "b", .mk (some (str "w")) (.map []))])
    let c : FormattingConfig := { idOnContainers := true, idOnPrimitives := true, idOnSeqs := false, idOnMaps := false, widthLimit := some 5 }
    hideIds c root = .mk (some (str "T")) (.cntr [(str "a", .mk none (.seq [.mk (some (str "v")) (.num (.uint 1))])), (str "b", .mk none (.map []))]) ∧
    ∃ out, root.asStrWithConfig c = some out ∧ '\n' ∈ out := by
  refine ⟨by rfl, _, by rfl, by decide +kernel⟩

/-- `Formatter::id` on the two nodes of `T [u 1]`. -/
example : ∃ f f', Reachable (.mk (some (str "T")) (.seq [.mk (some (str "u")) (.num (.uint 1))])) f ∧ f.setId 1 true = .ok f' ∧
    f.writeString [] = some (str "[1]") ∧ f'.writeString [] = some (str "[<u> 1]") ∧ f.setId 2 true = .error .idxOutOfBounds :=
  ⟨_, _, .config {} (.new (by rfl)) (by rfl), by rfl, by decide +kernel, by decide +kernel, by rfl⟩

end KS.Props
