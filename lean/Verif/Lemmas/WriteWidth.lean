import Verif.Lemmas.WriteInline
/-!
# Length of text written inline
-/

namespace KS

namespace Base91

theorem encStep_len (b n x : Nat) : (encStep b n x).2.2.length * 13 + 2 * (encStep b n x).2.1 ≤ 2 * (n + 8) := by
  unfold encStep
  dsimp only
  split
  · split <;> (simp only [List.length_cons, List.length_nil]; omega)
  · simp

theorem encLoop_len : ∀ (xs : List Nat) (b n : Nat), (encLoop b n xs).length * 13 ≤ 2 * (n + 8 * xs.length) + 26
  | [], b, n => by
    rw [encLoop]
    split
    · simp
    · split <;> (simp only [List.length_cons, List.length_nil]; omega)
  | x :: xs, b, n => by
    rw [encLoop_cons, List.length_append]
    have h1 := encStep_len b n x
    have h2 := encLoop_len xs (encStep b n x).1 (encStep b n x).2.1
    simp only [List.length_cons]
    omega

theorem encode_len (b : Bytes) : (encode b).length + 5 ≤ 3 + b.length * 2 + (b.length - 1) * 2 + (if b.length ≤ 1 then 2 else 0) := by
  match b with
  | [] => decide
  | [x] =>
    have : (encode [x]).length = 2 := by
      simp [encode, encLoop, encStep]
    rw [this]; simp
  | x :: y :: r =>
    have := encLoop_len ((x :: y :: r).map (·.toNat)) 0 0
    rw [List.length_map] at this
    rw [encode]
    simp only [List.length_cons] at this ⊢
    split
    · omega
    · omega

end Base91

namespace Wr
open KS.Spec KS.Nav KS.Props

variable {fmts : List Fmt} {config : FormattingConfig}

theorem slack_append (a b : List Kserd) : slack (a ++ b) = slack a + slack b := by simp [slack]
theorem slack_cons (k : Kserd) (b : List Kserd) : slack (k :: b) = slack1 k + slack b := by simp [slack]
theorem slack_nil : slack [] = 0 := rfl

theorem sep_len : W.separator.length = 2 := rfl
theorem asg_len : W.assigner.length = 2 := rfl
theorem kas_len : W.keysAssigner.length = 1 := rfl

theorem escLen_pos (c : Char) : 1 ≤ Solver.escLen c := by
  unfold Solver.escLen; split
  · omega
  · split <;> omega

theorem esc_sum (s : Str) : s.length ≤ (s.map Solver.escLen).sum := by
  induction s with
  | nil => simp
  | cons c s ih => simp only [List.map_cons, List.sum_cons, List.length_cons]; have := escLen_pos c; omega

theorem esc_sum_quote (s : Str) (h : '"' ∈ s) : s.length + 1 ≤ (s.map Solver.escLen).sum := by
  induction s with
  | nil => cases h
  | cons c s ih =>
    simp only [List.map_cons, List.sum_cons, List.length_cons]
    rcases List.mem_cons.mp h with rfl | h
    · have h1 := esc_sum s
      have h2 : Solver.escLen '"' = 2 := by decide
      omega
    · have := escLen_pos c
      have := ih h; omega

theorem strLit_len {s l : Str} (h : W.strLit s = some l) :
    l.length ≤ 2 + (s.map Solver.escLen).sum + (if '"' ∈ s then 2 else 0) := by
  rw [W.strLit] at h
  split at h
  · cases h
  · rename_i d hd
    cases h
    have h1 := esc_sum s
    by_cases hq : '"' ∈ s
    · have h2 := esc_sum_quote s hq
      rw [if_pos hq]
      simp only [List.length_append, List.length_cons, List.length_nil]
      split
      · simp; omega
      · have : (str "str").length = 3 := rfl
        omega
    · have hd' : W.delims.find? (fun d => !s.contains d) = some '"' := by
        rw [W.delims, List.find?_cons]
        have : s.contains '"' = false := by
          cases hc : s.contains '"' with
          | false => rfl
          | true => exact absurd (List.contains_iff_mem.mp hc) hq
        rw [this]; rfl
      rw [hd'] at hd; cases hd
      simp [hq]; omega

/-- Inline, with the identity flag of the configuration. -/
def WidthOk (config : FormattingConfig) (x : Kserd) (fm : Fmt) : Prop :=
  fm.line = .inline ∧ fm.id = Solver.idFlag config x.val.kind

theorem nonprim_len (buf : Str) (on : Bool) (id : Option Str) :
    (W.nonprimIdent buf on id).length ≤ buf.length + (if 0 < Solver.idLen id ∧ on = true then Solver.idLen id + 1 else 0) +
      emptyId id := by
  unfold W.nonprimIdent
  cases on
  · simp
  · cases id with
    | none => simp [Solver.idLen]
    | some i =>
      cases i with
      | nil => simp [Solver.idLen, emptyId]
      | cons c r => simp [Solver.idLen, emptyId]

theorem tuplePrefix_len (buf : Str) (on : Bool) (id : Option Str) :
    (W.tuplePrefix buf on id).length ≤ buf.length + 1 + (if 0 < Solver.idLen id ∧ on = true then Solver.idLen id + 1 else 0) := by
  unfold W.tuplePrefix
  cases on
  · cases id <;> simp [W.nonprimIdent, W.pop]
  · cases id with
    | none => simp [W.nonprimIdent]
    | some i =>
      cases i with
      | nil => simp [W.nonprimIdent, W.pop]
      | cons c r => simp [W.nonprimIdent, W.pop, Solver.idLen]

theorem prim_len {buf : Str} {id : Option Str} {v : Value} {out : Str} (hv : v.kind = .prim)
    (h : W.prim buf id v config.idOnPrimitives = some out) :
    out.length ≤ buf.length + Solver.inlineWidth config id v + slack1 (.mk id v) := by
  have hgt : (str "> ").length = 2 := rfl
  have hpar : (str "()").length = 2 := rfl
  have hpi : (W.primIdent buf config.idOnPrimitives id).length ≤ buf.length + (if config.idOnPrimitives then Solver.idLen id + 3 else 0) := by
    unfold W.primIdent
    cases config.idOnPrimitives
    · simp
    · cases id with
      | none => simp
      | some i => simp [Solver.idLen, hgt]; try omega
  cases v <;> simp only [W.prim] at h <;> simp only [Solver.inlineWidth, slack1, Kserd.val, Kserd.id]
  case unit =>
    cases h
    unfold W.unit
    cases id with
    | none => simp [Solver.idLen, hpar]
    | some i =>
      cases i with
      | nil => simp [Solver.idLen, hpar]
      | cons c r => simp [Solver.idLen, hpar]; try omega
  case bool b =>
    cases h
    rw [List.length_append]
    cases b
    · have : (W.boolLit false).length = 5 := rfl
      simp; omega
    · have : (W.boolLit true).length = 4 := rfl
      simp; omega
  case num n => cases h; rw [List.length_append]; omega
  case str s =>
    rw [Option.map_eq_some_iff] at h
    obtain ⟨l, hl, rfl⟩ := h
    have := strLit_len hl
    rw [List.length_append]; omega
  case barr b =>
    cases h
    have h1 := Base91.encode_len b
    have h2 : (str "b91'").length = 4 := rfl
    unfold W.barrLit
    simp only [List.length_append, List.length_cons, List.length_nil, h2, sep_len]
    omega
  all_goals cases h

theorem popSep_len (b : Str) : (W.popSep b).length = b.length - 2 := by
  simp [W.popSep, W.pop]; omega

mutual
theorem node_len (k : Kserd) (idx col : Nat) (buf out : Str) (h : At (WidthOk config) fmts idx (preorder k))
    (ho : W.node fmts k idx col buf = some out) :
    out.length ≤ buf.length + Solver.inlineTotal config k + slack (preorder k) := by
  obtain ⟨id, v⟩ := k
  rw [preorder, at_cons] at h
  obtain ⟨⟨fm, hfm, hl, hid⟩, h⟩ := h
  obtain ⟨pid, ln⟩ := fm
  have hl : ln = .inline := hl
  subst hl
  have hid : pid = Solver.idFlag config v.kind := hid
  rw [preorder, slack_cons, Solver.inlineTotal]
  cases v with
  | tuple l =>
    have hid : pid = config.idOnTuples := hid
    simp only [W.node, hfm, Option.map_eq_some_iff, preorderV] at ho h ⊢
    obtain ⟨b, hb', rfl⟩ := ho
    have h1 := listInline_len l _ _ _ _ h hb'
    have h2 := tuplePrefix_len buf pid id
    rw [hid] at h1 h2
    simp only [Solver.inlineTotalV, Solver.inlineWidth, slack1, Kserd.val, sep_len] at *
    cases l with
    | nil => simp; simp at h1; simp [preorderL, slack_nil, Solver.inlineTotalL] at h1 ⊢; omega
    | cons a r => simp [popSep_len] at h1 ⊢; omega
  | seq l =>
    have hid : pid = config.idOnSeqs := hid
    simp only [W.node, hfm, Option.map_eq_some_iff, preorderV] at ho h ⊢
    obtain ⟨b, hb', rfl⟩ := ho
    have h1 := listInline_len l _ _ _ _ h hb'
    have h2 := nonprim_len buf pid id
    rw [hid] at h1 h2
    simp only [Solver.inlineTotalV, Solver.inlineWidth, slack1, Kserd.val, Kserd.id, sep_len, List.length_append, List.length_cons, List.length_nil] at *
    cases l with
    | nil => simp [preorderL, slack_nil, Solver.inlineTotalL] at h1 h2 ⊢; omega
    | cons a r => simp [popSep_len] at h1 h2 ⊢; omega
  | cntr f =>
    have hid : pid = config.idOnContainers := hid
    simp only [W.node, hfm, Option.map_eq_some_iff, preorderV] at ho h ⊢
    obtain ⟨b, hb', rfl⟩ := ho
    have h1 := cntrInline_len f _ _ _ _ h hb'
    have h2 := nonprim_len buf pid id
    rw [hid] at h1 h2
    simp only [Solver.inlineTotalV, Solver.inlineWidth, slack1, Kserd.val, Kserd.id, sep_len, asg_len, List.length_append, List.length_cons, List.length_nil] at *
    cases f with
    | nil => simp [preorderF, slack_nil, Solver.inlineTotalF] at h1 h2 ⊢; omega
    | cons a r => simp [popSep_len] at h1 h2 ⊢; omega
  | map m =>
    have hid : pid = config.idOnMaps := hid
    simp only [W.node, hfm, Option.map_eq_some_iff, preorderV] at ho h ⊢
    obtain ⟨b, hb', rfl⟩ := ho
    have h1 := mapInline_len m _ _ _ _ h hb'
    have h2 := nonprim_len buf pid id
    rw [hid] at h1 h2
    simp only [Solver.inlineTotalV, Solver.inlineWidth, slack1, Kserd.val, Kserd.id, sep_len, kas_len, List.length_append, List.length_cons, List.length_nil] at *
    cases m with
    | nil => simp [preorderM, slack_nil, Solver.inlineTotalM] at h1 h2 ⊢; omega
    | cons a r => simp [popSep_len] at h1 h2 ⊢; omega
  | unit => simp only [W.node, hfm, hid] at ho; have := prim_len rfl ho; omega
  | bool b => simp only [W.node, hfm, hid] at ho; have := prim_len rfl ho; omega
  | num b => simp only [W.node, hfm, hid] at ho; have := prim_len rfl ho; omega
  | barr b => simp only [W.node, hfm, hid] at ho; have := prim_len rfl ho; omega
  | str s => simp only [W.node, hfm, hid] at ho; have := prim_len rfl ho; omega
theorem listInline_len (l : List Kserd) (idx col : Nat) (buf out : Str)
    (h : At (WidthOk config) fmts idx (preorderL l)) (ho : W.listInline fmts l idx col buf = some out) :
    out.length ≤ buf.length + Solver.inlineTotalL config l + slack (preorderL l) + 2 * l.length := by
  match l with
  | [] => simp only [W.listInline] at ho; cases ho; simp; omega
  | k :: r =>
    rw [preorderL, at_append, size_preorder] at h
    rw [W.listInline] at ho
    split at ho
    · cases ho
    · rename_i b hb'
      have h1 := node_len k _ _ _ _ h.1 hb'
      have h2 := listInline_len r _ _ _ _ h.2 ho
      rw [preorderL, slack_append, Solver.inlineTotalL]
      simp only [List.length_append, List.length_cons, sep_len] at *
      omega
theorem cntrInline_len (l : List (Str × Kserd)) (idx col : Nat) (buf out : Str)
    (h : At (WidthOk config) fmts idx (preorderF l)) (ho : W.cntrInline fmts l idx col buf = some out) :
    out.length ≤ buf.length + Solver.inlineTotalF config l + slack (preorderF l) + 5 * l.length + (l.map (fun p => p.1.length)).sum := by
  match l with
  | [] => simp only [W.cntrInline] at ho; cases ho; simp; omega
  | (n, k) :: r =>
    rw [preorderF, at_append, size_preorder] at h
    rw [W.cntrInline] at ho
    split at ho
    · cases ho
    · rename_i b hb'
      have h1 := node_len k _ _ _ _ h.1 hb'
      have h2 := cntrInline_len r _ _ _ _ h.2 ho
      rw [preorderF, slack_append, Solver.inlineTotalF]
      simp only [List.length_append, List.length_cons, List.length_nil, sep_len, asg_len, List.map_cons, List.sum_cons] at *
      omega
theorem mapInline_len (l : List (Kserd × Kserd)) (idx col : Nat) (buf out : Str)
    (h : At (WidthOk config) fmts idx (preorderM l)) (ho : W.mapInline fmts l idx col buf = some out) :
    out.length ≤ buf.length + Solver.inlineTotalM config l + slack (preorderM l) + 4 * l.length := by
  match l with
  | [] => simp only [W.mapInline] at ho; cases ho; simp; omega
  | (k, v) :: r =>
    rw [preorderM, at_append, at_append, size_preorder, size_preorder] at h
    rw [W.mapInline] at ho
    split at ho
    · cases ho
    · rename_i b hb'
      split at ho
      · cases ho
      · rename_i b2 hb2
        have h1 := node_len k _ _ _ _ h.1 hb'
        have h2 := node_len v _ _ _ _ h.2.1 hb2
        have h3 := mapInline_len r _ _ _ _ h.2.2 ho
        rw [preorderM, slack_append, slack_append, Solver.inlineTotalM]
        simp only [List.length_append, List.length_cons, List.length_nil, sep_len, kas_len] at *
        omega
end

end Wr
end KS
