import Verif.Lemmas.WriteWidth
import Verif.Spec.Width
/-!
# The exact length of text written inline
-/

namespace KS.IL
open KS.Spec KS.Nav KS.Wr KS.Props

variable {fmts : List Fmt} {config : FormattingConfig}

def own (c : FormattingConfig) (l : List Kserd) : Nat := (l.map (ownWidth c)).sum

theorem own_append (c) (a b : List Kserd) : own c (a ++ b) = own c a + own c b := by simp [own]
theorem own_cons (c) (k : Kserd) (b : List Kserd) : own c (k :: b) = ownWidth c k + own c b := by simp [own]
theorem own_nil (c) : own c [] = 0 := rfl

def TI (c : FormattingConfig) (x : Kserd) : Prop := ∀ l, x.val = .tuple l → x.id = none ∨ c.idOnTuples = true

theorem strLit_exact {s l : Str} (h : W.strLit s = some l) : l.length = s.length + (if '"' ∈ s then 5 else 2) := by
  rw [W.strLit] at h
  split at h
  · cases h
  · rename_i d hd
    cases h
    by_cases hq : '"' ∈ s
    · have : d ≠ '"' := by
        rintro rfl
        have := List.find?_some hd
        simp at this
        exact this hq
      rw [if_pos hq, if_neg this]
      have : (str "str").length = 3 := rfl
      simp only [List.length_append, List.length_cons, List.length_nil]
      omega
    · have hd' : W.delims.find? (fun d => !s.contains d) = some '"' := by
        rw [W.delims, List.find?_cons]
        have : s.contains '"' = false := by
          cases hc : s.contains '"' with
          | false => rfl
          | true => exact absurd (List.contains_iff_mem.mp hc) hq
        rw [this]; rfl
      rw [hd'] at hd; cases hd
      simp [hq]

theorem nonprim_exact (buf : Str) (on : Bool) (id : Option Str) :
    (W.nonprimIdent buf on id).length = buf.length + idChars on id 1 := by
  unfold W.nonprimIdent idChars
  cases on <;> cases id <;> simp
  try omega

theorem tuplePrefix_exact (buf : Str) (on : Bool) (id : Option Str) (h : id = none ∨ on = true) :
    (W.tuplePrefix buf on id).length = buf.length + 1 + idChars on id 0 := by
  unfold W.tuplePrefix idChars
  cases on
  · cases id with
    | none => simp [W.nonprimIdent]
    | some i => rcases h with h | h <;> cases h
  · cases id with
    | none => simp [W.nonprimIdent]
    | some i => simp [W.nonprimIdent, W.pop]; omega

theorem prim_exact {buf : Str} {id : Option Str} {v : Value} {out : Str} (hv : v.kind = .prim)
    (h : W.prim buf id v config.idOnPrimitives = some out) : out.length = buf.length + ownWidth config (.mk id v) := by
  have hgt : (str "> ").length = 2 := rfl
  have hpar : (str "()").length = 2 := rfl
  have hpi : (W.primIdent buf config.idOnPrimitives id).length =
      buf.length + idChars config.idOnPrimitives id 3 := by
    unfold W.primIdent idChars
    generalize config.idOnPrimitives = q
    cases q <;> cases id <;> simp [hgt]
    try omega
  cases v <;> simp only [W.prim] at h <;> simp only [ownWidth, idWidth, idShown, Kserd.val, Kserd.id]
  case unit =>
    cases h
    unfold W.unit
    cases id with
    | none => simp [hpar, idChars]
    | some i => cases i <;> simp [hpar, idChars] <;> try omega
  case bool b =>
    cases h
    rw [List.length_append, hpi]
    cases b
    · have : (W.boolLit false).length = 5 := rfl
      rw [this, Nat.add_assoc]; rfl
    · have : (W.boolLit true).length = 4 := rfl
      rw [this, Nat.add_assoc]; rfl
  case num n => cases h; rw [List.length_append, hpi]; omega
  case str s =>
    rw [Option.map_eq_some_iff] at h
    obtain ⟨l, hl, rfl⟩ := h
    have := strLit_exact hl
    rw [List.length_append, hpi]; omega
  case barr b =>
    cases h
    have h2 : (str "b91'").length = 4 := rfl
    unfold W.barrLit
    simp only [List.length_append, List.length_cons, List.length_nil, h2, hpi]
    omega
  all_goals cases hv

mutual
theorem node_exact (k : Kserd) (idx col : Nat) (buf out : Str) (h : At (WidthOk config) fmts idx (preorder k)) (ht : ∀ x ∈ preorder k, TI config x)
    (ho : W.node fmts k idx col buf = some out) : out.length = buf.length + own config (preorder k) := by
  obtain ⟨id, v⟩ := k
  rw [preorder] at ht
  have ht0 := ht _ (List.mem_cons_self ..)
  have ht1 : ∀ x ∈ preorderV v, TI config x := fun x hx => ht x (List.mem_cons_of_mem _ hx)
  clear ht
  rw [preorder, at_cons] at h
  obtain ⟨⟨fm, hfm, hl, hid⟩, h⟩ := h
  obtain ⟨pid, ln⟩ := fm
  have hl : ln = .inline := hl
  subst hl
  have hid : pid = Solver.idFlag config v.kind := hid
  rw [preorder, own_cons]
  cases v with
  | tuple l =>
    have hid : pid = config.idOnTuples := hid
    simp only [W.node, hfm, Option.map_eq_some_iff, preorderV] at ho h ht1 ⊢
    obtain ⟨b, hb', rfl⟩ := ho
    have h1 := listInline_exact l _ _ _ _ h ht1 hb'
    have h2 := tuplePrefix_exact buf pid id (by rw [hid]; exact ht0 l rfl)
    rw [hid] at h1 h2
    rw [h2] at h1
    simp only [ownWidth, idWidth, idShown, commas, Kserd.val, Kserd.id] at *
    generalize idChars config.idOnTuples id 0 = z at *
    cases l with
    | nil => simp [preorderL, own_nil] at h1 ⊢; omega
    | cons a r => simp [popSep_len] at h1 ⊢; omega
  | seq l =>
    have hid : pid = config.idOnSeqs := hid
    simp only [W.node, hfm, Option.map_eq_some_iff, preorderV] at ho h ht1 ⊢
    obtain ⟨b, hb', rfl⟩ := ho
    have h1 := listInline_exact l _ _ _ _ h ht1 hb'
    have h2 := nonprim_exact buf pid id
    rw [hid] at h1 h2
    simp only [List.length_append, List.length_cons, List.length_nil] at h1
    rw [h2] at h1
    simp only [ownWidth, idWidth, idShown, commas, Kserd.val, Kserd.id] at *
    generalize idChars config.idOnSeqs id 1 = z at *
    cases l with
    | nil => simp [preorderL, own_nil] at h1 h2 ⊢; omega
    | cons a r => simp [popSep_len] at h1 h2 ⊢; omega
  | cntr f =>
    have hid : pid = config.idOnContainers := hid
    simp only [W.node, hfm, Option.map_eq_some_iff, preorderV] at ho h ht1 ⊢
    obtain ⟨b, hb', rfl⟩ := ho
    have h1 := cntrInline_exact f _ _ _ _ h ht1 hb'
    have h2 := nonprim_exact buf pid id
    rw [hid] at h1 h2
    simp only [List.length_append, List.length_cons, List.length_nil] at h1
    rw [h2] at h1
    simp only [ownWidth, idWidth, idShown, commas, Kserd.val, Kserd.id] at *
    generalize idChars config.idOnContainers id 1 = z at *
    generalize (f.map fun p => p.1.length + 3).sum = s at *
    cases f with
    | nil => simp [preorderF, own_nil] at h1 h2 ⊢; omega
    | cons a r => simp [popSep_len] at h1 h2 ⊢; omega
  | map m =>
    have hid : pid = config.idOnMaps := hid
    simp only [W.node, hfm, Option.map_eq_some_iff, preorderV] at ho h ht1 ⊢
    obtain ⟨b, hb', rfl⟩ := ho
    have h1 := mapInline_exact m _ _ _ _ h ht1 hb'
    have h2 := nonprim_exact buf pid id
    rw [hid] at h1 h2
    simp only [ownWidth, idWidth, idShown, commas, Kserd.val, Kserd.id] at *
    generalize idChars config.idOnMaps id 1 = z at *
    cases m with
    | nil => simp [preorderM, own_nil, h2] at h1 h2 ⊢; omega
    | cons a r => simp [popSep_len, h2] at h1 h2 ⊢; omega
  | unit => simp only [W.node, hfm, hid] at ho; have := prim_exact rfl ho; rw [this]; simp [preorderV, own_nil]
  | bool b => simp only [W.node, hfm, hid] at ho; have := prim_exact rfl ho; rw [this]; simp [preorderV, own_nil]
  | num b => simp only [W.node, hfm, hid] at ho; have := prim_exact rfl ho; rw [this]; simp [preorderV, own_nil]
  | barr b => simp only [W.node, hfm, hid] at ho; have := prim_exact rfl ho; rw [this]; simp [preorderV, own_nil]
  | str s => simp only [W.node, hfm, hid] at ho; have := prim_exact rfl ho; rw [this]; simp [preorderV, own_nil]
theorem listInline_exact (l : List Kserd) (idx col : Nat) (buf out : Str) (h : At (WidthOk config) fmts idx (preorderL l))
    (ht : ∀ x ∈ preorderL l, TI config x) (ho : W.listInline fmts l idx col buf = some out) :
    out.length = buf.length + own config (preorderL l) + 2 * l.length := by
  match l with
  | [] => simp only [W.listInline] at ho; cases ho; simp [preorderL, own_nil]
  | k :: r =>
    rw [preorderL, at_append, size_preorder] at h
    rw [preorderL] at ht
    rw [W.listInline] at ho
    split at ho
    · cases ho
    · rename_i b hb'
      have h1 := node_exact k _ _ _ _ h.1 (fun x hx => ht x (List.mem_append_left _ hx)) hb'
      have h2 := listInline_exact r _ _ _ _ h.2 (fun x hx => ht x (List.mem_append_right _ hx)) ho
      rw [preorderL, own_append]
      simp only [List.length_append, List.length_cons, sep_len] at *
      omega
theorem cntrInline_exact (l : List (Str × Kserd)) (idx col : Nat) (buf out : Str) (h : At (WidthOk config) fmts idx (preorderF l))
    (ht : ∀ x ∈ preorderF l, TI config x) (ho : W.cntrInline fmts l idx col buf = some out) :
    out.length = buf.length + own config (preorderF l) + 2 * l.length + (l.map (fun p => p.1.length + 3)).sum := by
  match l with
  | [] => simp only [W.cntrInline] at ho; cases ho; simp [preorderF, own_nil]
  | (n, k) :: r =>
    rw [preorderF, at_append, size_preorder] at h
    rw [preorderF] at ht
    rw [W.cntrInline] at ho
    split at ho
    · cases ho
    · rename_i b hb'
      have h1 := node_exact k _ _ _ _ h.1 (fun x hx => ht x (List.mem_append_left _ hx)) hb'
      have h2 := cntrInline_exact r _ _ _ _ h.2 (fun x hx => ht x (List.mem_append_right _ hx)) ho
      rw [preorderF, own_append]
      simp only [List.length_append, List.length_cons, List.length_nil, sep_len, asg_len, List.map_cons, List.sum_cons] at *
      omega
theorem mapInline_exact (l : List (Kserd × Kserd)) (idx col : Nat) (buf out : Str) (h : At (WidthOk config) fmts idx (preorderM l))
    (ht : ∀ x ∈ preorderM l, TI config x) (ho : W.mapInline fmts l idx col buf = some out) :
    out.length = buf.length + own config (preorderM l) + 4 * l.length := by
  match l with
  | [] => simp only [W.mapInline] at ho; cases ho; simp [preorderM, own_nil]
  | (k, v) :: r =>
    rw [preorderM, at_append, at_append, size_preorder, size_preorder] at h
    rw [preorderM] at ht
    rw [W.mapInline] at ho
    split at ho
    · cases ho
    · rename_i b hb'
      split at ho
      · cases ho
      · rename_i b2 hb2
        have h1 := node_exact k _ _ _ _ h.1 (fun x hx => ht x (List.mem_append_left _ hx)) hb'
        have h2 := node_exact v _ _ _ _ h.2.1 (fun x hx => ht x (List.mem_append_right _ (List.mem_append_left _ hx))) hb2
        have h3 := mapInline_exact r _ _ _ _ h.2.2 (fun x hx => ht x (List.mem_append_right _ (List.mem_append_right _ hx))) ho
        rw [preorderM, own_append, own_append]
        simp only [List.length_append, List.length_cons, List.length_nil, sep_len, kas_len] at *
        omega
end

end KS.IL
