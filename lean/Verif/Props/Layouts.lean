import Verif.Props.Default
/-!
# C53: the layout carries no information
-/

namespace KS.Props
open KS.Spec KS.Nav KS.RT

mutual
theorem erase_reread : ∀ (k : Kserd), eraseIds (rereadK k) = rereadK (eraseIds k)
  | .mk id v => by
    cases v with
    | tuple l => simp only [rereadK, rereadV, eraseIds, eraseIdsV, eraseL_reread l]
    | seq l => simp only [rereadK, rereadV, eraseIds, eraseIdsV, eraseL_reread l]
    | cntr l =>
      rcases l with _ | ⟨⟨n, k⟩, r⟩
      · rfl
      · have := eraseF_reread ((n, k) :: r)
        simp only [rereadK, rereadV, eraseIds, eraseIdsV, List.isEmpty_cons, Bool.false_eq_true, if_false, eraseIdsF] at this ⊢
        rw [this]
    | map l => simp only [rereadK, rereadV, eraseIds, eraseIdsV, eraseM_reread l]
    | _ => rfl
theorem eraseL_reread : ∀ (l : List Kserd), eraseIdsL (rereadL l) = rereadL (eraseIdsL l)
  | [] => rfl
  | k :: r => by simp only [rereadL, eraseIdsL, erase_reread k, eraseL_reread r]
theorem eraseF_reread : ∀ (l : List (Str × Kserd)), eraseIdsF (rereadF l) = rereadF (eraseIdsF l)
  | [] => rfl
  | (n, k) :: r => by simp only [rereadF, eraseIdsF, erase_reread k, eraseF_reread r]
theorem eraseM_reread : ∀ (l : List (Kserd × Kserd)), eraseIdsM (rereadM l) = rereadM (eraseIdsM l)
  | [] => rfl
  | (k, v) :: r => by simp only [rereadM, eraseIdsM, erase_reread k, erase_reread v, eraseM_reread r]
end

theorem flags_past {f : Formatter} (hr : Rules f) {i : Nat} (h : (preorder f.root).length ≤ i) : flags f i = false := by
  unfold flags idOn
  have : f.fmts[i]? = none := by
    rw [List.getElem?_eq_none_iff, hr.len, hr.nav, ← List.length_map (f := (·.kserd)), (C18_preorder f.root).1]; exact h
  simp [this]

/-- **C53 (partial), whichever layouts read back.** Two formatters of one Kserd, reached by any calls, have layouts that are `Readable` and
`LayoutOk` (C36). Their texts read back as Kserds that differ in identities only, and not at all when both show the same identities. -/
theorem C53_any_partial (root : Kserd) (f g : Formatter) (hf : Reachable root f) (hg : Reachable root g)
    (df : Readable f) (lf : LayoutOk f) (dg : Readable g) (lg : LayoutOk g) :
    ∃ s t a b, f.writeString [] = some s ∧ g.writeString [] = some t ∧ parse s = .ok a ∧ parse t = .ok b ∧ eraseIds a = eraseIds b ∧
      ((∀ i < (preorder root).length, flags f i = flags g i) → a = b) := by
  obtain ⟨s, hs, ps, -⟩ := C36_roundtrip_partial root f hf df lf
  obtain ⟨t, ht, pt, -⟩ := C36_roundtrip_partial root g hg dg lg
  obtain ⟨rf, rulesf⟩ := C22_rules root f hf
  obtain ⟨rg, rulesg⟩ := C22_rules root g hg
  refine ⟨s, t, _, _, hs, ht, ps, pt, ?_, ?_⟩
  · rw [erase_reread, erase_reread, displayed, displayed, erase_shown, erase_shown, rf, rg]
  · intro h
    have : displayed f = displayed g := by
      rw [displayed, displayed, rf, rg]
      congr 1
      funext i
      by_cases hi : i < (preorder root).length
      · exact h i hi
      · rw [flags_past rulesf (by rw [rf]; omega), flags_past rulesg (by rw [rg]; omega)]
    rw [this]

/-- **C53 (partial).** Two formatters of one Kserd, reached by any calls, show a plain Kserd each. Their texts read back as Kserds that differ in
identities only, and not at all when both show the same identities. Missing, because false of the code: texts that do not read back, see C34 to
C37. -/
theorem C53_layouts_partial (root : Kserd) (f g : Formatter) (hf : Reachable root f) (hg : Reachable root g)
    (pf : PlainTree (displayed f)) (pg : PlainTree (displayed g))
    (tf : ∀ i k l, (preorder root)[i]? = some k → flags f i = false → k.val = .tuple l → k.id = none)
    (tg : ∀ i k l, (preorder root)[i]? = some k → flags g i = false → k.val = .tuple l → k.id = none) :
    ∃ s t a b, f.writeString [] = some s ∧ g.writeString [] = some t ∧ parse s = .ok a ∧ parse t = .ok b ∧ eraseIds a = eraseIds b ∧
      ((∀ i < (preorder root).length, flags f i = flags g i) → a = b) := by
  obtain ⟨rf, rulesf⟩ := C22_rules root f hf
  obtain ⟨rg, rulesg⟩ := C22_rules root g hg
  subst rf
  obtain ⟨df, lf⟩ := plain_readable rulesf pf tf
  obtain ⟨dg, lg⟩ := plain_readable rulesg pg (by rw [rg]; exact tg)
  exact C53_any_partial f.root f g hf hg df lf dg lg

/-! ## Non-vacuity -/

/-- `orderSample` on one line and as verbosely as possible: different texts, the same Kserd. -/
example :
    let one := orderSample.asStrWithConfig { widthLimit := none }
    let many := orderSample.asStrWithConfig { widthLimit := some 0 }
    one ≠ many ∧ ∃ s t a, one = some s ∧ many = some t ∧ parse s = .ok a ∧ parse t = .ok a := by
  have hp : PlainTree (hideIds {} orderSample) := by decide +kernel
  obtain ⟨s, hs, ps, -⟩ := C37_config_partial orderSample { widthLimit := none } hp (by intro h; cases h)
  obtain ⟨t, ht, pt, -⟩ := C37_config_partial orderSample { widthLimit := some 0 } hp (by intro h; cases h)
  exact ⟨by decide +kernel, s, t, _, hs, ht, ps, pt⟩

/-- A container that begins with a container that shows an identity, with a map among its fields: not plain. -/
def firstNamed : Kserd := .mk (some (str "Pt")) (.cntr [
  (str "a", .mk none (.cntr [(str "b", .mk (some (str "Q")) (.cntr [(str "x", .mk none (.num (.uint 1)))])),
    (str "m", .mk none (.map [(.mk none (.num (.uint 2)), .mk none .unit)]))])),
  (str "d", .mk none (.bool true))])

/-- On one line and with the outer container verbose it reads back, as the same Kserd. -/
example : ¬ PlainTree firstNamed ∧ ∃ s t a, s = str "Pt (a = (b = Q (x = 1), m = { 2: () }), d = true)" ∧
    t = str ":Pt\na = (b = Q (x = 1), m = { 2: () })\nd = true\n" ∧ parse s = .ok a ∧ parse t = .ok a := by
  obtain ⟨f, hf, h⟩ := after_reach (k := firstNamed) (l := [(0, .inline)]) (fun f => readableV f && (decide (LayoutOk f) &&
    decide (f.writeString [] = some (str "Pt (a = (b = Q (x = 1), m = { 2: () }), d = true)")) &&
    decide ((List.range 8).map (flags f) = List.replicate 8 true))) (by decide +kernel)
  obtain ⟨g, hg, h'⟩ := after_reach (k := firstNamed) (l := [(1, .inline)]) (fun f => readableV f && (decide (LayoutOk f) &&
    decide (f.writeString [] = some (str ":Pt\na = (b = Q (x = 1), m = { 2: () })\nd = true\n")) &&
    decide ((List.range 8).map (flags f) = List.replicate 8 true))) (by decide +kernel)
  simp only [Bool.and_eq_true, decide_eq_true_eq] at h h'
  obtain ⟨s, t, a, b, hs, ht, ps, pt, -, e⟩ := C53_any_partial firstNamed f g hf hg (readableV_spec h.1) h.2.1.1 (readableV_spec h'.1) h'.2.1.1
  rw [h.2.1.2, Option.some.injEq] at hs
  rw [h'.2.1.2, Option.some.injEq] at ht
  subst hs ht
  have hlen : (preorder firstNamed).length = 8 := by decide +kernel
  have : a = b := e fun i hi => by
    rw [hlen] at hi
    have := congrArg (·[i]?) (h.2.2.trans h'.2.2.symm)
    simpa [hi] using this
  subst this
  exact ⟨by decide +kernel, _, _, a, rfl, rfl, ps, pt⟩

end KS.Props
