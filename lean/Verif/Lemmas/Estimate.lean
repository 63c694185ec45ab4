import Verif.Spec.Widths
/-!
# The formatter's estimates of widths are those of the specification
-/

namespace KS.SV
open KS.Spec

/-! ## One Kserd -/

theorem hex_step {n : Nat} (h : 16 ≤ n) : (Nat.toDigits 16 n).length = (Nat.toDigits 16 (n / 16)).length + 1 := by
  rw [Nat.toDigits_of_base_le (by decide) h, List.length_append]; rfl

theorem hex_last {n : Nat} (h : n < 16) : (Nat.toDigits 16 n).length = 1 := by rw [Nat.toDigits_of_lt_base h]; rfl

theorem hex_len {n : Nat} (h : n < 0x1000000) : (Nat.toDigits 16 n).length = hexWidth n := by
  rw [hexWidth]
  split
  · rw [hex_last (by omega)]
  · rw [hex_step (by omega)]
    split
    · rw [hex_last (by omega)]
    · rw [hex_step (by omega)]
      split
      · rw [hex_last (by omega)]
      · rw [hex_step (by omega)]
        split
        · rw [hex_last (by omega)]
        · rw [hex_step (by omega)]
          split
          · rw [hex_last (by omega)]
          · rw [hex_step (by omega), hex_last (by omega)]

theorem esc_len (d : Char) : Solver.escLen d = 1 + escSurplus d := by
  have hd : d.toNat < 0x1000000 := by
    have := d.valid
    rcases this with h | ⟨_, h⟩
    · have : d.toNat < 0xd800 := h
      omega
    · have : d.toNat < 0x110000 := h
      omega
  have hm : (d = '\t' ∨ d = '\r' ∨ d = '\n' ∨ d = '\'' ∨ d = '"' ∨ d = '\\') ↔ d ∈ ['\t', '\r', '\n', '\'', '"', '\\'] := by simp
  rw [Solver.escLen, escSurplus]
  by_cases h : d ∈ ['\t', '\r', '\n', '\'', '"', '\\']
  · have hs : ¬ Simple d := by
      rintro ⟨h1, _, h3, h4, h5⟩
      simp only [List.mem_cons, List.not_mem_nil, or_false] at h
      rcases h with rfl | rfl | rfl | rfl | rfl | rfl
      · revert h1; decide
      · revert h1; decide
      · revert h1; decide
      · exact h4 rfl
      · exact h3 rfl
      · exact h5 rfl
    rw [if_pos (hm.mpr h), if_neg hs, if_pos h]
  · rw [if_neg (fun e => h (hm.mp e))]
    by_cases hp : 0x20 ≤ d.toNat ∧ d.toNat ≤ 0x7e
    · have hs : Simple d := ⟨hp.1, hp.2, fun e => h (by simp [e]), fun e => h (by simp [e]), fun e => h (by simp [e])⟩
      rw [if_pos hp, if_pos hs]
    · have hs : ¬ Simple d := fun hs => hp ⟨hs.1, hs.2.1⟩
      rw [if_neg hp, if_neg hs, if_neg h, hex_len hd]; omega

theorem esc_sum : ∀ s : Str, (s.map Solver.escLen).sum = s.length + (s.map escSurplus).sum
  | [] => rfl
  | d :: s => by
    rw [List.map_cons, List.sum_cons, esc_len, esc_sum s, List.length_cons, List.map_cons, List.sum_cons]; omega

/-- What is reckoned for a Kserd by itself, what is missed, what it has, and what is reckoned too much. -/
theorem own_est (c : FormattingConfig) (x : Kserd) :
    Solver.inlineWidth c x.id x.val + missed1 c x = ownWidth c x + surplus1 c x := by
  obtain ⟨id, v⟩ := x
  have hsep : W.separator.length = 2 := rfl
  have hasg : W.assigner.length = 2 := rfl
  have hkas : W.keysAssigner.length = 1 := rfl
  have hprim : ∀ v, (if c.idOnPrimitives = true then Solver.idLen id + 3 else 0) =
      idChars c.idOnPrimitives id 3 + noIdSurplus c (.mk id v) := by
    intro v
    cases id with
    | none => cases h : c.idOnPrimitives <;> simp [noIdSurplus, idChars, Solver.idLen, h, Kserd.id]
    | some i => cases h : c.idOnPrimitives <;> simp [noIdSurplus, idChars, Solver.idLen, h, Kserd.id]
  have hnamed : ∀ v on, idShown c v = on → (if 0 < Solver.idLen id ∧ on = true then Solver.idLen id + 1 else 0) =
      idChars on id 1 - blankMissed c (.mk id v) := by
    intro v on h
    cases id with
    | none => cases on <;> simp [idChars, Solver.idLen]
    | some i => cases i <;> cases on <;> simp [idChars, Solver.idLen, blankMissed, Kserd.id, Kserd.val, h]
  have hblank : ∀ v on, idShown c v = on → blankMissed c (.mk id v) ≤ idChars on id 1 := by
    intro v on h
    cases id with
    | none => simp [blankMissed, Kserd.id]
    | some i => cases i <;> cases on <;> simp [idChars, blankMissed, Kserd.id, Kserd.val, h]
  change Solver.inlineWidth c id v + _ = _
  cases v <;> simp only [Solver.inlineWidth, ownWidth, missed1, surplus1, idWidth, idShown, commas, Kserd.val, Kserd.id]
  case unit =>
    cases id with
    | none => rfl
    | some i => cases i <;> simp [idChars, Solver.idLen]
  case bool b => rw [hprim (.bool b)]; omega
  case num n => rw [hprim (.num n)]; omega
  case str s =>
    rw [hprim (.str s), esc_sum]
    split <;> omega
  case barr b => rw [hprim (.barr b), hsep]; omega
  case tuple l =>
    rw [hsep]
    cases id with
    | none => simp only [Solver.idLen, idChars, Option.map_none, Option.getD_none, Nat.lt_irrefl, false_and, if_false, ne_eq, not_true, and_false]; omega
    | some i =>
      cases i with
      | nil => cases c.idOnTuples <;> simp [idChars, Solver.idLen] <;> omega
      | cons a r => cases c.idOnTuples <;> simp [idChars, Solver.idLen] <;> omega
  case cntr f =>
    have hs : ∀ g : Fields, (g.map fun p => p.1.length + 3).sum = (g.map fun p => p.1.length).sum + g.length * 3 := by
      intro g
      induction g with
      | nil => rfl
      | cons a r ih => simp only [List.map_cons, List.sum_cons, List.length_cons, ih]; omega
    have := hblank (.cntr f) c.idOnContainers rfl
    rw [hnamed (.cntr f) c.idOnContainers rfl]
    rw [hs, hsep, hasg]; omega
  case seq l =>
    have := hblank (.seq l) c.idOnSeqs rfl
    rw [hnamed (.seq l) c.idOnSeqs rfl]
    rw [hsep]; omega
  case map m =>
    have := hblank (.map m) c.idOnMaps rfl
    rw [hnamed (.map m) c.idOnMaps rfl]
    rw [hsep, hkas]
    cases m with
    | nil => rw [if_pos rfl, if_pos rfl]; omega
    | cons a r => rw [if_neg (by simp), if_neg (by simp)]; omega

theorem own_eq (c : FormattingConfig) (x : Kserd) : Solver.inlineWidth c x.id x.val = estWidth c x := by
  have := own_est c x
  rw [estWidth]; omega

theorem head_eq (c : FormattingConfig) (x : Kserd) : Solver.conciseWidth c x.id x.val = headWidth c x := by
  have e : Solver.idLen x.id = (x.id.getD []).length := by cases x.id <;> rfl
  have h := own_eq c x
  obtain ⟨id, v⟩ := x
  cases v <;> simp only [Solver.conciseWidth, headWidth, idShown, Kserd.val, Kserd.id] at e h ⊢ <;> first | exact h | (rw [e]; congr)

/-! ## Whole Kserds -/

mutual
theorem total_sum (c : FormattingConfig) : ∀ k, Solver.inlineTotal c k = subtreeWidth c k
  | .mk id v => by
    rw [Solver.inlineTotal, subtreeWidth, preorder, List.map_cons, List.sum_cons, totalV_sum c v]
    congr 1
    exact own_eq c (.mk id v)
theorem totalV_sum (c : FormattingConfig) : ∀ v, Solver.inlineTotalV c v = ((preorderV v).map (estWidth c)).sum
  | .tuple l => by rw [Solver.inlineTotalV, preorderV]; exact totalL_sum c l
  | .seq l => by rw [Solver.inlineTotalV, preorderV]; exact totalL_sum c l
  | .cntr l => by rw [Solver.inlineTotalV, preorderV]; exact totalF_sum c l
  | .map l => by rw [Solver.inlineTotalV, preorderV]; exact totalM_sum c l
  | .unit => rfl
  | .bool _ => rfl
  | .num _ => rfl
  | .str _ => rfl
  | .barr _ => rfl
theorem totalL_sum (c : FormattingConfig) : ∀ l, Solver.inlineTotalL c l = ((preorderL l).map (estWidth c)).sum
  | [] => rfl
  | k :: r => by rw [Solver.inlineTotalL, preorderL, List.map_append, List.sum_append, total_sum c k, totalL_sum c r]; rfl
theorem totalF_sum (c : FormattingConfig) : ∀ l, Solver.inlineTotalF c l = ((preorderF l).map (estWidth c)).sum
  | [] => rfl
  | (n, k) :: r => by rw [Solver.inlineTotalF, preorderF, List.map_append, List.sum_append, total_sum c k, totalF_sum c r]; rfl
theorem totalM_sum (c : FormattingConfig) : ∀ l, Solver.inlineTotalM c l = ((preorderM l).map (estWidth c)).sum
  | [] => rfl
  | (k, v) :: r => by
    rw [Solver.inlineTotalM, preorderM, List.map_append, List.map_append, List.sum_append, List.sum_append, total_sum c k, total_sum c v,
      totalM_sum c r]
    simp only [subtreeWidth]; omega
end

theorem foldr_max_append (a b : List Nat) : (a ++ b).foldr max 0 = max (a.foldr max 0) (b.foldr max 0) := by
  induction a with
  | nil => simp
  | cons x r ih => rw [List.cons_append, List.foldr_cons, List.foldr_cons, ih]; omega

theorem foldr_max_add (n : Nat) : ∀ l : List Nat, l ≠ [] → (l.map (n + ·)).foldr max 0 = n + l.foldr max 0
  | [], h => absurd rfl h
  | [x], _ => by simp
  | x :: y :: r, _ => by
    have := foldr_max_add n (y :: r) (by simp)
    rw [List.map_cons, List.foldr_cons, this, List.foldr_cons (l := y :: r)]; omega

theorem ends_ne (c : FormattingConfig) (k : Kserd) : lineEnds c k ≠ [] := by
  obtain ⟨id, v⟩ := k
  rw [lineEnds]; exact List.cons_ne_nil _ _

mutual
theorem block_eq (c : FormattingConfig) : ∀ k, Solver.conciseTotal c k = blockWidth c k
  | .mk id v => by
    rw [Solver.conciseTotal, blockWidth, lineEnds, List.foldr_cons, blockV_eq c v]
    congr 1
    exact head_eq c (.mk id v)
theorem blockV_eq (c : FormattingConfig) : ∀ v, Solver.conciseTotalV c v = (lineEndsV c v).foldr max 0
  | .tuple l => by rw [Solver.conciseTotalV, lineEndsV]; exact blockL_eq c l
  | .seq l => by rw [Solver.conciseTotalV, lineEndsV]; exact blockL_eq c l
  | .cntr l => by rw [Solver.conciseTotalV, lineEndsV]; exact blockF_eq c l
  | .map l => by rw [Solver.conciseTotalV, lineEndsV]; exact blockM_eq c l
  | .unit => rfl
  | .bool _ => rfl
  | .num _ => rfl
  | .str _ => rfl
  | .barr _ => rfl
theorem blockL_eq (c : FormattingConfig) : ∀ l, Solver.conciseTotalL c l = (lineEndsL c l).foldr max 0
  | [] => rfl
  | k :: r => by
    rw [Solver.conciseTotalL, lineEndsL, foldr_max_append, foldr_max_add _ _ (ends_ne c k), block_eq c k, blockL_eq c r]; rfl
theorem blockF_eq (c : FormattingConfig) : ∀ l, Solver.conciseTotalF c l = (lineEndsF c l).foldr max 0
  | [] => rfl
  | (n, k) :: r => by
    rw [Solver.conciseTotalF, lineEndsF, foldr_max_append, foldr_max_add _ _ (ends_ne c k), block_eq c k, blockF_eq c r]
    have e : W.assigner.length = 2 := rfl
    rw [e, W.indentW, blockWidth]
    congr 1
theorem blockM_eq (c : FormattingConfig) : ∀ l, Solver.conciseTotalM c l = (lineEndsM c l).foldr max 0
  | [] => rfl
  | (k, v) :: r => by
    rw [Solver.conciseTotalM, lineEndsM, foldr_max_append, foldr_max_add _ _ (ends_ne c v), block_eq c v, blockM_eq c r, total_sum c k]
    have e : W.keysAssigner.length = 1 := rfl
    rw [e, W.indentW, blockWidth]
    congr 1
end

end KS.SV
