import Verif.Lemmas.FixedPoint
import Verif.Props.Default
import Verif.Props.Identities
import Verif.Lemmas.Settle
/-!
# C52: written text is a fixed point
-/

namespace KS.Props
open KS.Spec KS.Nav KS.RT KS.Renum

/-- **C52, numbers.** The text of a Kserd depends on its numbers through their own texts only: exchanging every number for one with the same
text, at every depth and in map keys, changes neither the layout nor the text under any configuration. -/
theorem C52_numbers (g : Number → Number) (root : Kserd) (h : AllNums (fun n => (g n).disp = n.disp) root) (c : FormattingConfig) :
    (mapNum g root).asStrWithConfig c = root.asStrWithConfig c := by
  classical
  let g' : Number → Number := fun n => if (g n).disp = n.disp then g n else n
  have hg : ∀ n, (g' n).disp = n.disp := by
    intro n
    by_cases hn : (g n).disp = n.disp
    · simp only [g', if_pos hn, hn]
    · simp only [g', if_neg hn]
  have hc : mapNum g root = mapNum g' root := by
    apply mapNum_congr
    refine all_mono (fun x hx => ?_) h
    split at hx
    · simp only [g', if_pos hx]
    · trivial
  rw [hc, Kserd.asStrWithConfig, Kserd.asStrWithConfig, formatter_new_renum]
  cases Formatter.new root with
  | none => rfl
  | some f0 =>
    simp only [Option.map_some, Option.bind_some, applyConfig_renum c hg]
    cases Solver.applyConfig f0 c with
    | none => rfl
    | some f => simp only [Option.map_some, Option.bind_some, writeString_renum hg]

/-- **C52 (partial).** Writing a plain Kserd without empty containers, parsing the text and writing the result under the same configuration
gives the same text again. Missing, because false of the code: the float `-0` (`C52_minus_zero`), empty containers (`C52_empty`), and texts that
do not read back (C34 to C37). -/
theorem C52_text_partial (root : Kserd) (c : FormattingConfig) (hp : PlainTree (hideIds c root))
    (htu : c.idOnTuples = false → ∀ x ∈ preorder root, ∀ l, x.val = .tuple l → x.id = none)
    (hn : AllNums (fun n => n.WF ∧ n.disp ≠ str "-0") root) (he : NoEmptyCntr root) :
    ∃ out k, root.asStrWithConfig c = some out ∧ parse out = .ok k ∧ k.asStrWithConfig c = some out := by
  obtain ⟨out, ho, hpo, -⟩ := C37_config_partial root c hp htu
  refine ⟨out, _, ho, hpo, ?_⟩
  rw [reread_mapNum _ (ne_hide he), C52_numbers, ← C28_config_text_partial, ho]
  · cases h : c.idOnTuples with
    | true => exact Or.inl rfl
    | false => exact Or.inr (htu h)
  · have h1 := (all_mem _).mp hp.text
    have h2 := (all_mem _).mp (nums_hide (c := c) hn)
    unfold AllNums
    rw [all_mem]
    intro x hx
    have a := h1 x hx
    have b := h2 x hx
    rcases x with ⟨id, v⟩
    cases v with
    | num n =>
      have a' : Number.fromStr n.disp ≠ none := a.2
      exact disp_reread n b.1 a' b.2
    | _ => trivial

/-- **C52 (partial), default configuration.** -/
theorem C52_default_partial (root : Kserd) (hp : PlainTree (hideIds {} root)) (hn : AllNums (fun n => n.WF ∧ n.disp ≠ str "-0") root)
    (he : NoEmptyCntr root) : ∃ out k, root.asStr = some out ∧ parse out = .ok k ∧ k.asStr = some out :=
  C52_text_partial root {} hp (by intro h; cases h) hn he

/-- **C52 (partial), two rounds.** With `-0` among the numbers, but not among map keys, and with empty containers, the text settles after one
round: what is written from the Kserd that was read back is a fixed point. The configuration shows identities on tuples, as the default does. -/
theorem C52_settles_partial (root : Kserd) (c : FormattingConfig) (hp : PlainTree (hideIds c root)) (hc : c.idOnTuples = true)
    (hn : AllNums Number.WF root)
    (hk : ∀ x ∈ preorder root, ∀ m, x.val = .map m → ∀ p ∈ m, ∀ n, p.1.val = .num n → n.disp ≠ str "-0") :
    ∃ out k out' k', root.asStrWithConfig c = some out ∧ parse out = .ok k ∧ k.asStrWithConfig c = some out' ∧
      parse out' = .ok k' ∧ k'.asStrWithConfig c = some out' := by
  have htu : c.idOnTuples = false → ∀ x ∈ preorder root, ∀ l, x.val = .tuple l → x.id = none := by
    intro h; rw [hc] at h; cases h
  obtain ⟨out, ho, hpo, -⟩ := C37_config_partial root c hp htu
  have hcalm : All Calm (hideIds c root) := by
    refine calm_hide ((all_mem _).mpr fun x hx => ⟨fun n e => ?_, hk x hx⟩)
    have := (all_mem _).mp hn x hx
    rw [e] at this
    exact this
  have hpl := plain_reread hp hcalm
  have hh := hide_reread hc root
  obtain ⟨out', k', h1, h2, h3⟩ := C52_text_partial (rereadK (hideIds c root)) c (by rw [hh]; exact hpl)
    (by intro h; rw [hc] at h; cases h) (nums_reread hp.text hcalm) (ne_reread _)
  exact ⟨out, _, out', k', ho, hpo, h1, h2, h3⟩

/-! ## Non-vacuity -/

/-- A tuple of `-0`, a container with identity and no fields, and a map from 1 to `-0`. -/
def unsettled : Kserd := .mk none (.tuple [.mk none (.num (.float (.fin true 0))), .mk (some (str "A")) (.cntr []),
  .mk none (.map [(.mk none (.num (.uint 1)), .mk none (.num (.float (.fin true 0))))])])

/-- Its text changes once, and then stays. -/
example : unsettled.asStr = some (str "(-0, A (), { 1: -0 })") ∧
    (∃ k, parse (str "(-0, A (), { 1: -0 })") = .ok k ∧ k.asStr = some (str "(0, A(), { 1: 0 })")) ∧
    ∃ out k out' k', unsettled.asStr = some out ∧ parse out = .ok k ∧ k.asStr = some out' ∧ parse out' = .ok k' ∧ k'.asStr = some out' :=
  ⟨by decide +kernel, ⟨.mk none (.tuple [.mk none (.num (.int 0)), .mk (some (str "A")) (.tuple []),
      .mk none (.map [(.mk none (.num (.uint 1)), .mk none (.num (.int 0)))])]), by decide +kernel, by decide +kernel⟩,
    C52_settles_partial unsettled {} (by decide +kernel) rfl
      (by simp only [unsettled, AllNums, All, AllV, AllF, AllL, AllM, Kserd.val]; decide +kernel)
      (by
        intro x hx m e p hp n en
        simp [unsettled, preorder, preorderV, preorderL, preorderF, preorderM] at hx
        rcases hx with rfl | rfl | rfl | rfl | rfl | rfl <;> simp only [Kserd.val, Value.map.injEq, reduceCtorEq] at e
        subst e
        simp only [List.mem_singleton] at hp
        subst hp
        simp only [Kserd.val, Value.num.injEq] at en
        subst en
        decide +kernel)⟩

/-- `orderSample` meets the hypotheses, so its text is a fixed point. -/
example : ∃ out k, orderSample.asStr = some out ∧ parse out = .ok k ∧ k.asStr = some out :=
  C52_default_partial orderSample (by decide +kernel)
    (by simp only [orderSample, AllNums, All, AllV, AllF, AllL, AllM, Kserd.val]; decide +kernel)
    (by simp only [orderSample, NoEmptyCntr, All, AllV, AllF, AllL, AllM, Kserd.val]; decide +kernel)

/-- Numbers with the same text in three representations: `3_u128`, `3_i128` and `3.0`. -/
example : Number.disp (.uint 3) = str "3" ∧ Number.disp (.int 3) = str "3" ∧ Number.disp (.float (.fin false (3 * 2 ^ 1074))) = str "3" := by
  decide +kernel

/-! ## Exceptions -/

/-- `-0.0` is written as `-0`, which reads as the integer 0 and is written as `0`. -/
theorem C52_minus_zero :
    let k := Kserd.mk none (.num (.float (.fin true 0)))
    let k' := Kserd.mk none (.num (.int 0))
    k.asStr = some (str "-0") ∧ parse (str "-0") = .ok k' ∧ k'.asStr = some (str "0") := by decide +kernel

/-- An empty container with an identity is written with a space, reads as an empty tuple and is written without. -/
theorem C52_empty :
    let k := Kserd.mk (some (str "A")) (.cntr [])
    let k' := Kserd.mk (some (str "A")) (.tuple [])
    k.asStr = some (str "A ()") ∧ parse (str "A ()") = .ok k' ∧ k'.asStr = some (str "A()") := by decide +kernel

end KS.Props
