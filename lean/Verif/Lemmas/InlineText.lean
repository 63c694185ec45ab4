import Verif.Props.Fields
/-!
# The single-line text
-/

namespace KS.Inl
open KS.Spec KS.Nav KS.Wr KS.RT

/-! The text of a Kserd on one line. -/
mutual
def ln : Kserd → Str
  | .mk id v => lnV id v
termination_by structural a => a
def lnV (id : Option Str) : Value → Str
  | .unit => nid [] id ++ ['(', ')']
  | .bool b => pid id ++ W.boolLit b
  | .num n => pid id ++ n.disp
  | .str s => pid id ++ (W.strLit s).getD []
  | .barr b => pid id ++ W.barrLit b
  | .tuple l => nid [] id ++ '(' :: (lnI l [] ++ [')'])
  | .seq l => nid [' '] id ++ '[' :: (lnI l [] ++ [']'])
  | .cntr f => nid [' '] id ++ '(' :: (lnF f [] ++ [')'])
  | .map m => nid [' '] id ++ '{' :: (lnM m [' '] [] ++ ['}'])
termination_by structural a => a
def lnI : List Kserd → Str → Str
  | [], _ => []
  | k :: r, pre => pre ++ (ln k ++ lnI r [',', ' '])
termination_by structural a => a
def lnF : List (Str × Kserd) → Str → Str
  | [], _ => []
  | (n, k) :: r, pre => pre ++ (n ++ (' ' :: '=' :: ' ' :: (ln k ++ lnF r [',', ' '])))
termination_by structural a => a
def lnM : List (Kserd × Kserd) → Str → Str → Str
  | [], _, fin => fin
  | (k, v) :: r, pre, _ => pre ++ (ln k ++ (':' :: ' ' :: (ln v ++ lnM r [',', ' '] [' '])))
termination_by structural a => a
end

/-- What is needed of a node and its format. -/
structure Flat (fmts : List Fmt) (i : Nat) (x : Kserd) : Prop where
  fm : ∃ fm, fmts[i]? = some fm ∧ fm.line = .inline
  ids : ∀ fm, fmts[i]? = some fm → IdsOk x fm
  unit : x.val = .unit → x.id ≠ some []

variable {fmts : List Fmt}

theorem sep_eq : str ", " = [',', ' '] := rfl

mutual
theorem node_ln (k : Kserd) (idx col : Nat) (buf out : Str) (h : AtN (Flat fmts) idx (preorder k))
    (ho : W.node fmts k idx col buf = some out) : out = buf ++ ln (shown (flag fmts) idx k) := by
  obtain ⟨id, v⟩ := k
  rw [preorder, atN_cons] at h
  obtain ⟨hp, h⟩ := h
  obtain ⟨fm, hfm, hl⟩ := hp.fm
  have hids := hp.ids fm hfm
  obtain ⟨on, ln'⟩ := fm
  have hl : ln' = .inline := hl
  subst hl
  have hf : flag fmts idx = on := flag_of hfm
  rw [shown, hf, ln]
  cases v with
  | tuple l =>
    have hid : on = false → id = none := fun e => hids e ⟨l, rfl⟩
    simp only [preorderV] at h
    simp only [W.node, hfm, Option.map_eq_some_iff, tuplePrefix_txt hid] at ho
    obtain ⟨b, hb, rfl⟩ := ho
    rw [listHead_ln l _ _ _ _ h hb]
    simp [shownV, shownId, lnV]
  | seq l =>
    simp only [preorderV] at h
    simp only [W.node, hfm, Option.map_eq_some_iff, nonprim_txt] at ho
    obtain ⟨b, hb, rfl⟩ := ho
    rw [listHead_ln l _ _ _ _ h hb]
    simp [shownV, shownId, lnV]
  | cntr l =>
    simp only [preorderV] at h
    simp only [W.node, hfm, Option.map_eq_some_iff, nonprim_txt] at ho
    obtain ⟨b, hb, rfl⟩ := ho
    rw [cntrHead_ln l _ _ _ _ h hb]
    simp [shownV, shownId, lnV]
  | map l =>
    simp only [preorderV] at h
    simp only [W.node, hfm, Option.map_eq_some_iff, nonprim_txt] at ho
    obtain ⟨b, hb, rfl⟩ := ho
    rw [mapHead_ln l _ _ _ _ h hb]
    simp [shownV, shownId, lnV]
  | unit =>
    have hu : id ≠ some [] := hp.unit rfl
    simp only [W.node, hfm, W.prim, W.unit, Option.some.injEq] at ho
    simp only [shownV, shownId, lnV]
    cases id with
    | none => exact ho.symm
    | some i =>
      have : i.isEmpty = false := by
        cases i with
        | nil => exact absurd rfl hu
        | cons _ _ => rfl
      simp only [this, Bool.false_eq_true, if_false] at ho
      rw [← ho, nid]
      simp
      rfl
  | bool b =>
    simp only [W.node, hfm, W.prim, Option.some.injEq, primIdent_txt] at ho
    rw [← ho]; simp only [shownV, lnV, shownId, List.append_assoc]
  | num b =>
    simp only [W.node, hfm, W.prim, Option.some.injEq, primIdent_txt] at ho
    rw [← ho]; simp only [shownV, lnV, shownId, List.append_assoc]
  | barr b =>
    simp only [W.node, hfm, W.prim, Option.some.injEq, primIdent_txt] at ho
    rw [← ho]; simp only [shownV, lnV, shownId, List.append_assoc]
  | str s =>
    simp only [W.node, hfm, W.prim, Option.map_eq_some_iff, primIdent_txt] at ho
    obtain ⟨l, hl, rfl⟩ := ho
    simp only [shownV, lnV, shownId, List.append_assoc, hl, Option.getD_some]
termination_by structural k
theorem listInline_ln (l : List Kserd) (idx col : Nat) (buf out : Str) (h : AtN (Flat fmts) idx (preorderL l))
    (ho : W.listInline fmts l idx col (buf ++ str ", ") = some out) : out = buf ++ lnI (shownL (flag fmts) idx l) [',', ' '] ++ str ", " := by
  match l with
  | [] => simp only [W.listInline, Option.some.injEq] at ho; rw [← ho, shownL, lnI]; simp
  | k :: r =>
    rw [preorderL, atN_append, size_preorder] at h
    rw [W.listInline] at ho
    split at ho
    · cases ho
    · rename_i b hb
      have e1 := node_ln k _ _ _ _ h.1 hb
      subst e1
      rw [listInline_ln r _ _ _ _ h.2 ho, shownL, lnI]
      simp [sep_eq]
termination_by structural l
theorem listHead_ln (l : List Kserd) (idx col : Nat) (buf out : Str) (h : AtN (Flat fmts) idx (preorderL l))
    (ho : W.listInline fmts l idx col buf = some out) :
    (if l.isEmpty = true then out else W.popSep out) = buf ++ lnI (shownL (flag fmts) idx l) [] := by
  match l with
  | [] => simp only [W.listInline, Option.some.injEq] at ho; simp [← ho, shownL, lnI]
  | k :: r =>
    rw [preorderL, atN_append, size_preorder] at h
    rw [W.listInline] at ho
    split at ho
    · cases ho
    · rename_i b hb
      have e1 := node_ln k _ _ _ _ h.1 hb
      subst e1
      rw [listInline_ln r _ _ _ _ h.2 ho, shownL, lnI]
      simp only [List.isEmpty_cons, Bool.false_eq_true, if_false, popSep_sep]
      simp
termination_by structural l
theorem cntrInline_ln (l : List (Str × Kserd)) (idx col : Nat) (buf out : Str) (h : AtN (Flat fmts) idx (preorderF l))
    (ho : W.cntrInline fmts l idx col (buf ++ str ", ") = some out) : out = buf ++ lnF (shownF (flag fmts) idx l) [',', ' '] ++ str ", " := by
  match l with
  | [] => simp only [W.cntrInline, Option.some.injEq] at ho; rw [← ho, shownF, lnF]; simp
  | (n, k) :: r =>
    rw [preorderF, atN_append, size_preorder] at h
    rw [W.cntrInline] at ho
    split at ho
    · cases ho
    · rename_i b hb
      have e1 := node_ln k _ _ _ _ h.1 hb
      subst e1
      rw [cntrInline_ln r _ _ _ _ h.2 ho, shownF, lnF]
      have : W.assigner = [' ', '='] := rfl
      simp [sep_eq, this]
termination_by structural l
theorem cntrHead_ln (l : List (Str × Kserd)) (idx col : Nat) (buf out : Str) (h : AtN (Flat fmts) idx (preorderF l))
    (ho : W.cntrInline fmts l idx col buf = some out) :
    (if l.isEmpty = true then out else W.popSep out) = buf ++ lnF (shownF (flag fmts) idx l) [] := by
  match l with
  | [] => simp only [W.cntrInline, Option.some.injEq] at ho; simp [← ho, shownF, lnF]
  | (n, k) :: r =>
    rw [preorderF, atN_append, size_preorder] at h
    rw [W.cntrInline] at ho
    split at ho
    · cases ho
    · rename_i b hb
      have e1 := node_ln k _ _ _ _ h.1 hb
      subst e1
      rw [cntrInline_ln r _ _ _ _ h.2 ho, shownF, lnF]
      have : W.assigner = [' ', '='] := rfl
      simp only [List.isEmpty_cons, Bool.false_eq_true, if_false, popSep_sep]
      simp [this]
termination_by structural l
theorem mapInline_ln (l : List (Kserd × Kserd)) (idx col : Nat) (buf out : Str) (h : AtN (Flat fmts) idx (preorderM l))
    (ho : W.mapInline fmts l idx col (buf ++ str ", ") = some out) :
    W.popSep out ++ [' '] = buf ++ lnM (shownM (flag fmts) idx l) [',', ' '] [' '] := by
  match l with
  | [] => simp only [W.mapInline, Option.some.injEq] at ho; rw [← ho, shownM, lnM, popSep_sep]
  | (k, v) :: r =>
    rw [preorderM, atN_append, atN_append, size_preorder, size_preorder] at h
    rw [W.mapInline] at ho
    split at ho
    · cases ho
    · rename_i b hb
      split at ho
      · cases ho
      · rename_i b2 hb2
        have e1 := node_ln k _ _ _ _ h.1 hb
        subst e1
        have e2 := node_ln v _ _ _ _ h.2.1 hb2
        subst e2
        rw [mapInline_ln r _ _ _ _ h.2.2 ho, shownM, lnM]
        have : W.keysAssigner = [':'] := rfl
        simp [sep_eq, this]
termination_by structural l
theorem mapHead_ln (l : List (Kserd × Kserd)) (idx col : Nat) (buf out : Str) (h : AtN (Flat fmts) idx (preorderM l))
    (ho : W.mapInline fmts l idx col (buf ++ '{' :: (if l.isEmpty = true then [] else [' '])) = some out) :
    (if l.isEmpty = true then out else W.popSep out ++ [' ']) = buf ++ '{' :: lnM (shownM (flag fmts) idx l) [' '] [] := by
  match l with
  | [] => simp only [W.mapInline, Option.some.injEq] at ho; simp [← ho, shownM, lnM]
  | (k, v) :: r =>
    rw [preorderM, atN_append, atN_append, size_preorder, size_preorder] at h
    rw [W.mapInline] at ho
    split at ho
    · cases ho
    · rename_i b hb
      split at ho
      · cases ho
      · rename_i b2 hb2
        have e1 := node_ln k _ _ _ _ h.1 hb
        subst e1
        have e2 := node_ln v _ _ _ _ h.2.1 hb2
        subst e2
        simp only [List.isEmpty_cons, Bool.false_eq_true, if_false]
        rw [mapInline_ln r _ _ _ _ h.2.2 ho, shownM, lnM]
        have : W.keysAssigner = [':'] := rfl
        simp [this]
termination_by structural l
end

/-- The single-line text written with no width limit. -/
theorem inline_ln (root : Kserd) (c : FormattingConfig) (hc : c.widthLimit = none) (ht : All (fun x => x.val = .unit → x.id ≠ some []) root)
    (htu : c.idOnTuples = false → ∀ x ∈ preorder root, ∀ l, x.val = .tuple l → x.id = none) {out : Str} (ho : root.asStrWithConfig c = some out) :
    out = ln (hideIds c root) := by
  obtain ⟨f0, hf0, rfl, hr0⟩ := Props.C22_new root
  obtain ⟨f, hf, hroot, hin⟩ := Props.C25_inline f0.root f0 (.new hf0) c hc
  have hre : Reachable f0.root f := .config c (.new hf0) hf
  obtain ⟨-, hr⟩ := Props.C22_rules f0.root f hre
  obtain ⟨hdis, hfl⟩ := displayed_config hr0 hf hroot
  rw [Kserd.asStrWithConfig, hf0, Option.bind_some, hf, Option.bind_some] at ho
  have hli : ∀ i, i < (preorder f0.root).length → line f i = some .inline := hin
  have hp : AtN (Flat f.fmts) 0 (preorder f.root) := by
    intro j x hx
    rw [hroot] at hx
    rw [Nat.zero_add]
    have hlj := hli j (List.getElem?_eq_some_iff.mp hx).1
    obtain ⟨n, hnn, rfl⟩ := nav_get hr (by rw [hroot]; exact hx)
    have hs : Fm.Shape f := ⟨hr.nav, hr.len⟩
    refine ⟨?_, ?_, (all_mem _).mp ht _ (List.mem_of_getElem? hx)⟩
    · obtain ⟨fm, hfm⟩ := hs.fmt hnn
      refine ⟨fm, hfm, ?_⟩
      rw [line, hfm] at hlj
      exact Option.some.inj hlj
    · intro fm hfm e ⟨l, hl⟩
      have h1 : flags f j = false := by rw [← flag_eq, flag_of hfm, e]
      rw [hfl j _ hx, hl] at h1
      exact htu h1 _ (List.mem_of_getElem? hx) l hl
  rw [Formatter.writeString] at ho
  have := node_ln f.root 0 0 [] out hp ho
  rw [flag_eq, ← displayed, hdis] at this
  exact this

end KS.Inl
