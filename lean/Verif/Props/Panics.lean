import Verif.Props.Choice
import Verif.Lemmas.ChoicePanic
/-!
# C24: exactly when formatting panics
-/

namespace KS.Props
open KS.Spec KS.Nav KS.Fm KS.Wr KS.Ch

/-- **C24 (partial).** Applying a configuration to a new formatter panics exactly when the plan of layouts makes a map key verbose. The full claim, that it
never panics, is false: see `C24_config_panics`. -/
theorem C24_config_exact_partial (root : Kserd) (f : Formatter) (hf : Formatter.new root = some f) (c : FormattingConfig) :
    Solver.applyConfig f c = none ↔ VerboseKey c root := by
  constructor
  · intro h
    obtain ⟨ds, g, hmem, hord, h0, hr, hl, hdown, he⟩ := config_start root f hf c
    rw [he] at h
    obtain ⟨a, d, b, m, g', e, hgood, hr', h0', hl', hm, hk, hv⟩ :=
      run_fails hord hmem ds [] g rfl h0 hr (fun d hd => by cases hd) hdown (fun d hd => by cases hd) h
    obtain ⟨hcl, hnx⟩ := hord a d b e
    have hnav : g'.nav = Nav.new root := by rw [hr'.nav, h0']
    have hdone : DoneOn c g' (topLine c root) (fun j => j ∈ 0 :: (a ++ [d])) := by
      refine ⟨hr', ?_, by rw [hl', hl], ?_, ?_⟩
      · intro j hj _ hjm
        rcases List.mem_cons.mp hjm with h | h
        · omega
        · exact hgood j h
      · intro j n p hn hp hj
        rw [hnav] at hn
        rcases List.mem_cons.mp hj with h | h
        · subst h; have := (C19_links _ 0 n hn).2.1.mpr rfl; rw [hp] at this; cases this
        · rcases List.mem_append.mp h with h | h
          · have := hcl.parent j (List.mem_cons_of_mem _ h) n p hn hp
            rcases List.mem_cons.mp this with h | h <;> simp [h]
          · rcases List.mem_singleton.mp h with rfl
            have := hnx.parent n p hn hp
            rcases List.mem_cons.mp this with h | h <;> simp [h]
      · intro v n p q k hn hp hq hkn hki hj
        rw [hnav] at hn hq
        rcases List.mem_cons.mp hj with h | h
        · subst h; have := (C19_links _ 0 n hn).2.1.mpr rfl; rw [hp] at this; cases this
        · rcases List.mem_append.mp h with h | h
          · have := hcl.key v (List.mem_cons_of_mem _ h) n p q k hn hp hq hkn hki
            rcases List.mem_cons.mp this with h | h <;> simp [h]
          · rcases List.mem_singleton.mp h with rfl
            have := hnx.key n p q k hn hp hq hkn hki
            rcases List.mem_cons.mp this with h | h <;> simp [h]
    have hseg := layouts_on h0' hdone
    have hlen : (layouts c root).length = root.size := by
      rw [layouts]
      simp only [List.length_cons, planV_length]
      rw [size_eq root]; omega
    rw [hnav] at hm
    have hdl : d < (layouts c root).length := by
      have := (List.getElem?_eq_some_iff.mp hm).1
      rw [new_length] at this
      omega
    have := hseg d _ (List.getElem?_eq_getElem hdl) (by simp)
    rw [Nat.zero_add, hv] at this
    exact ⟨d, m, hm, hk, by rw [List.getElem?_eq_getElem hdl, this]⟩
  · rintro ⟨i, n, hn, hk, hv⟩
    cases h : Solver.applyConfig f c with
    | none => rfl
    | some f' =>
      exfalso
      obtain ⟨h0, hd⟩ := config_done root f f' hf c h
      have hl := layouts_on h0 hd i _ hv trivial
      rw [Nat.zero_add] at hl
      exact no_verbose_key hd (by rw [hd.rules.nav, h0]; exact hn) hk hl

/-- **C24 (partial).** `as_str_with_config` panics exactly when the plan makes a map key verbose, or some string contains all twenty delimiters. -/
theorem C24_text_exact_partial (root : Kserd) (c : FormattingConfig) :
    root.asStrWithConfig c = none ↔ VerboseKey c root ∨ ¬ Writable (preorder root) := by
  obtain ⟨f, hf, _⟩ := C22_new root
  have h1 := C24_config_exact_partial root f hf c
  rw [Kserd.asStrWithConfig, hf, ← h1]
  simp only [Option.bind_some]
  cases h : Solver.applyConfig f c with
  | none => simp
  | some f' =>
    have h2 := C24_write_partial root f' (.config c (.new hf) h) []
    simp only [Option.bind_some, reduceCtorEq, false_or, ← h2]
    cases f'.writeString [] <;> simp

/-- A case in which the plan makes a key verbose, and one with the same Kserd and a greater limit in which it does not. -/
def keyRoot : Kserd := .mk none (.cntr [(str "a", .mk none (.map [(.mk none (.seq [nm 1]), nm 1)]))])

example : VerboseKey { widthLimit := some 0 } keyRoot ∧ keyRoot.asStrWithConfig { widthLimit := some 0 } = none :=
  ⟨⟨2, _, rfl, by decide +kernel, by decide +kernel⟩, by decide +kernel⟩

example : ¬ VerboseKey { widthLimit := some 40 } keyRoot ∧ Writable (preorder keyRoot) := by
  have h : keyRoot.asStrWithConfig { widthLimit := some 40 } ≠ none := by decide +kernel
  rw [Ne, C24_text_exact_partial] at h
  push Not at h
  exact h

/-- **C24 (partial).** Without a width limit nothing but such a string makes it panic. -/
theorem C24_unlimited_partial (root : Kserd) (c : FormattingConfig) (hc : c.widthLimit = none) :
    root.asStrWithConfig c = none ↔ ¬ Writable (preorder root) := by
  rw [C24_text_exact_partial]
  constructor
  · rintro (h | h)
    · exfalso
      obtain ⟨f, hf, _⟩ := C22_new root
      have h := (C24_config_exact_partial root f hf c).mpr h
      obtain ⟨ds, g, hmem, hord, h0, hr, hl, hdown, he⟩ := config_start root f hf c
      rw [he] at h
      obtain ⟨a, d, b, m, g', e, hgood, hr', h0', hl', hm, hk, hv⟩ :=
        run_fails hord hmem ds [] g rfl h0 hr (fun d hd => by cases hd) hdown (fun d hd => by cases hd) h
      have htop : topLine c root = .inline := by
        rw [topLine, hc, wish]
        cases maxRepr root.val <;> cases isSeqMap root.val <;> rfl
      rw [htop, ← hl'] at hl
      have up : ∀ j n r, g'.nav[j]? = some n → line g' j = some r → r = .inline := by
        intro j
        induction j using Nat.strong_induction_on with
        | _ j ih =>
          intro n r hn hlr
          have hn' := hn; rw [hr'.nav] at hn'
          cases hp : n.parent with
          | none =>
            have := (C19_links _ j n hn').2.1.mp hp
            subst this
            rw [hl] at hlr; cases hlr; rfl
          | some p =>
            obtain ⟨hlt, q, hq⟩ := parent_lt hn' hp
            rw [← hr'.nav] at hq
            obtain ⟨P, hP⟩ := line_some ⟨hr'.nav, hr'.len⟩ hq
            have e1 := ih p hlt q P hq hP
            have := hr'.parent j p n r P hn hp hlr hP
            subst e1
            cases r <;> first | rfl | (exfalso; revert this; decide)
      have := up d m _ hm hv
      cases this
    · exact h
  · exact Or.inr

/-- A case meeting the hypothesis. -/
example : keyRoot.asStrWithConfig { widthLimit := none } ≠ none := by decide +kernel

end KS.Props
