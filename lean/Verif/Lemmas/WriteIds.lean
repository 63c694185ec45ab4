import Verif.Lemmas.Write
/-!
# Hidden identities
-/

namespace KS.Wr
open KS.Spec KS.Nav KS.Props

variable {fmts : List Fmt}

/-- The flag of a node. -/
def flag (fmts : List Fmt) (i : Nat) : Bool := (fmts[i]?).map (·.id) = some true
/-- The formats with all identities shown. -/
def showAll (fmts : List Fmt) : List Fmt := fmts.map fun x => { x with id := true }

theorem showAll_get (i : Nat) : (showAll fmts)[i]? = (fmts[i]?).map fun x => { x with id := true } := by
  rw [showAll, List.getElem?_map]

mutual
theorem shown_size (on : Nat → Bool) : ∀ (i : Nat) (k : Kserd), (shown on i k).size = k.size
  | i, .mk id v => by rw [shown, Kserd.size, Kserd.size, shownV_size]
theorem shownV_size (on : Nat → Bool) : ∀ (i : Nat) (v : Value), Kserd.sizeV (shownV on i v) = Kserd.sizeV v
  | i, .tuple l => by rw [shownV, Kserd.sizeV, Kserd.sizeV, shownL_size]
  | i, .seq l => by rw [shownV, Kserd.sizeV, Kserd.sizeV, shownL_size]
  | i, .cntr l => by rw [shownV, Kserd.sizeV, Kserd.sizeV, shownF_size]
  | i, .map l => by rw [shownV, Kserd.sizeV, Kserd.sizeV, shownM_size]
  | _, .unit => rfl
  | _, .bool _ => rfl
  | _, .num _ => rfl
  | _, .str _ => rfl
  | _, .barr _ => rfl
theorem shownL_size (on : Nat → Bool) : ∀ (i : Nat) (l : List Kserd), Kserd.sizeL (shownL on i l) = Kserd.sizeL l
  | i, [] => rfl
  | i, k :: r => by rw [shownL, Kserd.sizeL, Kserd.sizeL, shown_size, shownL_size]
theorem shownF_size (on : Nat → Bool) : ∀ (i : Nat) (l : List (Str × Kserd)), Kserd.sizeF (shownF on i l) = Kserd.sizeF l
  | i, [] => rfl
  | i, (n, k) :: r => by rw [shownF, Kserd.sizeF, Kserd.sizeF, shown_size, shownF_size]
theorem shownM_size (on : Nat → Bool) : ∀ (i : Nat) (l : List (Kserd × Kserd)), Kserd.sizeM (shownM on i l) = Kserd.sizeM l
  | i, [] => rfl
  | i, (k, v) :: r => by rw [shownM, Kserd.sizeM, Kserd.sizeM, shown_size, shown_size, shownM_size]
end

theorem shownL_isEmpty (on : Nat → Bool) (i : Nat) (l : List Kserd) : (shownL on i l).isEmpty = l.isEmpty := by
  cases l <;> rfl
theorem shownF_isEmpty (on : Nat → Bool) (i : Nat) (l : List (Str × Kserd)) : (shownF on i l).isEmpty = l.isEmpty := by
  cases l <;> rfl
theorem shownM_isEmpty (on : Nat → Bool) (i : Nat) (l : List (Kserd × Kserd)) : (shownM on i l).isEmpty = l.isEmpty := by
  cases l <;> rfl

/-- A tuple whose identity is hidden has none. -/
def IdsOk (x : Kserd) (fm : Fmt) : Prop := fm.id = false → (∃ l, x.val = .tuple l) → x.id = none

theorem nonprim_shown (buf : Str) (on : Bool) (id : Option Str) :
    W.nonprimIdent buf on id = W.nonprimIdent buf true (if on = true then id else none) := by
  cases on <;> simp [W.nonprimIdent]

theorem prim_shown (buf : Str) (on : Bool) (id : Option Str) :
    W.primIdent buf on id = W.primIdent buf true (if on = true then id else none) := by
  cases on <;> simp [W.primIdent]

theorem tuple_shown (buf : Str) (on : Bool) (id : Option Str) (h : on = false → id = none) :
    W.tuplePrefix buf on id = W.tuplePrefix buf true (if on = true then id else none) := by
  cases on
  · rw [h rfl]; rfl
  · rfl

theorem nests_shown (on : Nat → Bool) (i : Nat) (k : Kserd) : W.nests (shown on i k).val = W.nests k.val := by
  obtain ⟨id, v⟩ := k
  cases v <;> rfl

mutual
theorem node_shown (k : Kserd) (idx col : Nat) (buf : Str) (h : At IdsOk fmts idx (preorder k)) :
    W.node fmts k idx col buf = W.node (showAll fmts) (shown (flag fmts) idx k) idx col buf := by
  obtain ⟨id, v⟩ := k
  rw [preorder, at_cons] at h
  obtain ⟨⟨fm, hfm, hok⟩, h⟩ := h
  obtain ⟨pid, ln⟩ := fm
  have hf : flag fmts idx = pid := by rw [flag, hfm]; cases pid <;> rfl
  rw [shown, hf]
  cases v with
  | tuple l =>
    have hid : pid = false → id = none := fun e => hok e ⟨l, rfl⟩
    simp only [preorderV] at h
    have h1 := fun c b => listInline_shown l (idx + 1) c b h
    have h2 := fun c b => listConcise_shown l (idx + 1) c b h
    simp only [W.node, hfm, showAll_get, Option.map_some, shownV, shownId, shownL_isEmpty, h1, h2, tuple_shown buf pid id hid]
  | seq l =>
    simp only [preorderV] at h
    have h1 := fun c b => listInline_shown l (idx + 1) c b h
    have h2 := fun c b => listConcise_shown l (idx + 1) c b h
    simp only [W.node, hfm, showAll_get, Option.map_some, shownV, shownId, shownL_isEmpty, h1, h2, nonprim_shown buf pid id]
  | cntr f =>
    simp only [preorderV] at h
    have h1 := fun c b => cntrInline_shown f (idx + 1) c b h
    have h2 := fun c b => cntrConcise_shown f (idx + 1) c b h
    have h3 := fun c b => cntrVerbose_shown f (idx + 1) c b h
    simp only [W.node, hfm, showAll_get, Option.map_some, shownV, shownId, shownF_isEmpty, h1, h2, h3, nonprim_shown buf pid id]
    cases ln <;> cases pid <;> rfl
  | map m =>
    simp only [preorderV] at h
    have h1 := fun c b => mapInline_shown m (idx + 1) c b h
    have h2 := fun c b => mapConcise_shown m (idx + 1) c b h
    simp only [W.node, hfm, showAll_get, Option.map_some, shownV, shownId, shownM_isEmpty, h1, h2, nonprim_shown buf pid id]
  | unit => simp only [W.node, hfm, showAll_get, Option.map_some, shownV, shownId, W.prim]
  | bool b => simp only [W.node, hfm, showAll_get, Option.map_some, shownV, shownId, W.prim, prim_shown buf pid id]
  | num b => simp only [W.node, hfm, showAll_get, Option.map_some, shownV, shownId, W.prim, prim_shown buf pid id]
  | barr b => simp only [W.node, hfm, showAll_get, Option.map_some, shownV, shownId, W.prim, prim_shown buf pid id]
  | str s => simp only [W.node, hfm, showAll_get, Option.map_some, shownV, shownId, W.prim, prim_shown buf pid id]
theorem listInline_shown (l : List Kserd) (idx col : Nat) (buf : Str) (h : At IdsOk fmts idx (preorderL l)) :
    W.listInline fmts l idx col buf = W.listInline (showAll fmts) (shownL (flag fmts) idx l) idx col buf := by
  match l with
  | [] => simp only [shownL, W.listInline]
  | k :: r =>
    rw [preorderL, at_append, size_preorder] at h
    have h2 := fun c b => listInline_shown r (idx + k.size) c b h.2
    simp only [W.listInline, shownL, shown_size, node_shown k idx col _ h.1, h2]
theorem listConcise_shown (l : List Kserd) (idx col : Nat) (buf : Str) (h : At IdsOk fmts idx (preorderL l)) :
    W.listConcise fmts l idx col buf = W.listConcise (showAll fmts) (shownL (flag fmts) idx l) idx col buf := by
  match l with
  | [] => simp only [shownL, W.listConcise]
  | k :: r =>
    rw [preorderL, at_append, size_preorder] at h
    have h2 := fun c b => listConcise_shown r (idx + k.size) c b h.2
    simp only [W.listConcise, shownL, shown_size, node_shown k idx col _ h.1, h2]
theorem seqVerbose_shown (n : Str) (l : List Kserd) (idx col : Nat) (buf : Str) (h : At IdsOk fmts idx (preorderL l)) :
    W.seqVerbose fmts n l idx col buf = W.seqVerbose (showAll fmts) n (shownL (flag fmts) idx l) idx col buf := by
  match l with
  | [] => simp only [shownL, W.seqVerbose]
  | k :: r =>
    rw [preorderL, at_append, size_preorder] at h
    have h1 := fun c b => node_shown k idx c b h.1
    have h2 := fun c b => seqVerbose_shown n r (idx + k.size) c b h.2
    obtain ⟨fm, hfm, _⟩ := h.1 0 k (by obtain ⟨id, v⟩ := k; rw [preorder]; rfl)
    rw [Nat.add_zero] at hfm
    simp only [W.seqVerbose, shownL, shown_size, hfm, showAll_get, Option.map_some, h1, h2]
theorem cntrInline_shown (l : List (Str × Kserd)) (idx col : Nat) (buf : Str) (h : At IdsOk fmts idx (preorderF l)) :
    W.cntrInline fmts l idx col buf = W.cntrInline (showAll fmts) (shownF (flag fmts) idx l) idx col buf := by
  match l with
  | [] => simp only [shownF, W.cntrInline]
  | (n, k) :: r =>
    rw [preorderF, at_append, size_preorder] at h
    have h2 := fun c b => cntrInline_shown r (idx + k.size) c b h.2
    simp only [W.cntrInline, shownF, shown_size, node_shown k idx col _ h.1, h2]
theorem cntrConcise_shown (l : List (Str × Kserd)) (idx col : Nat) (buf : Str) (h : At IdsOk fmts idx (preorderF l)) :
    W.cntrConcise fmts l idx col buf = W.cntrConcise (showAll fmts) (shownF (flag fmts) idx l) idx col buf := by
  match l with
  | [] => simp only [shownF, W.cntrConcise]
  | (n, k) :: r =>
    rw [preorderF, at_append, size_preorder] at h
    have h1 := fun c b => node_shown k idx c b h.1
    have h2 := fun c b => cntrConcise_shown r (idx + k.size) c b h.2
    simp only [W.cntrConcise, shownF, shown_size, h1, h2]
theorem cntrVerbose_shown (l : List (Str × Kserd)) (idx col : Nat) (buf : Str) (h : At IdsOk fmts idx (preorderF l)) :
    W.cntrVerbose fmts l idx col buf = W.cntrVerbose (showAll fmts) (shownF (flag fmts) idx l) idx col buf := by
  match l with
  | [] => simp only [shownF, W.cntrVerbose]
  | (n, k) :: r =>
    rw [preorderF, at_append, size_preorder] at h
    have h1 := fun c b => node_shown k idx c b h.1
    have h2 := fun c b => cntrVerbose_shown r (idx + k.size) c b h.2
    obtain ⟨fm, hfm, _⟩ := h.1 0 k (by obtain ⟨id, v⟩ := k; rw [preorder]; rfl)
    rw [Nat.add_zero] at hfm
    have h3 := fun c b => nested_shown n k idx c b h.1 hfm
    simp only [W.cntrVerbose, shownF, shown_size, hfm, showAll_get, Option.map_some, h1, h2, h3, nests_shown]
theorem nested_shown (n : Str) (k : Kserd) (idx col : Nat) (buf : Str) (h : At IdsOk fmts idx (preorder k)) {fm : Fmt}
    (hfm : fmts[idx]? = some fm) :
    W.nested fmts fm.id n k idx col buf = W.nested (showAll fmts) true n (shown (flag fmts) idx k) idx col buf := by
  obtain ⟨id, v⟩ := k
  rw [preorder, at_cons] at h
  obtain ⟨_, h⟩ := h
  obtain ⟨pid, ln⟩ := fm
  have hf : flag fmts idx = pid := by rw [flag, hfm]; cases pid <;> rfl
  rw [shown, hf]
  cases v with
  | cntr f =>
    simp only [preorderV] at h
    have h3 := fun c b => cntrVerbose_shown f (idx + 1) c b h
    simp only [W.nested, shownV, shownId, h3]
    cases pid <;> rfl
  | seq l =>
    simp only [preorderV] at h
    have h3 := fun c b => seqVerbose_shown n l (idx + 1) c b h
    simp only [W.nested, shownV, shownId, h3]
  | map l =>
    simp only [preorderV] at h
    have h3 := fun c b => mapVerbose_shown n l (idx + 1) c b h
    simp only [W.nested, shownV, shownId, h3]
  | tuple l => simp only [W.nested, shownV]
  | unit => simp only [W.nested, shownV]
  | bool b => simp only [W.nested, shownV]
  | num b => simp only [W.nested, shownV]
  | str b => simp only [W.nested, shownV]
  | barr b => simp only [W.nested, shownV]
theorem mapInline_shown (l : List (Kserd × Kserd)) (idx col : Nat) (buf : Str) (h : At IdsOk fmts idx (preorderM l)) :
    W.mapInline fmts l idx col buf = W.mapInline (showAll fmts) (shownM (flag fmts) idx l) idx col buf := by
  match l with
  | [] => simp only [shownM, W.mapInline]
  | (k, v) :: r =>
    rw [preorderM, at_append, at_append, size_preorder, size_preorder] at h
    have h1 := fun c b => node_shown k idx c b h.1
    have h2 := fun c b => node_shown v (idx + k.size) c b h.2.1
    have h3 := fun c b => mapInline_shown r (idx + k.size + v.size) c b h.2.2
    simp only [W.mapInline, shownM, shown_size, h1, h2, h3]
theorem mapConcise_shown (l : List (Kserd × Kserd)) (idx col : Nat) (buf : Str) (h : At IdsOk fmts idx (preorderM l)) :
    W.mapConcise fmts l idx col buf = W.mapConcise (showAll fmts) (shownM (flag fmts) idx l) idx col buf := by
  match l with
  | [] => simp only [shownM, W.mapConcise]
  | (k, v) :: r =>
    rw [preorderM, at_append, at_append, size_preorder, size_preorder] at h
    have h1 := fun c b => node_shown k idx c b h.1
    have h2 := fun c b => node_shown v (idx + k.size) c b h.2.1
    have h3 := fun c b => mapConcise_shown r (idx + k.size + v.size) c b h.2.2
    obtain ⟨fm, hfm, _⟩ := h.1 0 k (by obtain ⟨id, v⟩ := k; rw [preorder]; rfl)
    rw [Nat.add_zero] at hfm
    simp only [W.mapConcise, shownM, shown_size, hfm, showAll_get, Option.map_some, h1, h2, h3]
theorem mapVerbose_shown (n : Str) (l : List (Kserd × Kserd)) (idx col : Nat) (buf : Str) (h : At IdsOk fmts idx (preorderM l)) :
    W.mapVerbose fmts n l idx col buf = W.mapVerbose (showAll fmts) n (shownM (flag fmts) idx l) idx col buf := by
  match l with
  | [] => simp only [shownM, W.mapVerbose]
  | (k, v) :: r =>
    rw [preorderM, at_append, at_append, size_preorder, size_preorder] at h
    have h1 := fun c b => node_shown k idx c b h.1
    have h2 := fun c b => node_shown v (idx + k.size) c b h.2.1
    have h3 := fun c b => mapVerbose_shown n r (idx + k.size + v.size) c b h.2.2
    obtain ⟨fm, hfm, _⟩ := h.1 0 k (by obtain ⟨id, v⟩ := k; rw [preorder]; rfl)
    rw [Nat.add_zero] at hfm
    obtain ⟨fm', hfm', _⟩ := h.2.1 0 v (by obtain ⟨id, v⟩ := v; rw [preorder]; rfl)
    rw [Nat.add_zero] at hfm'
    simp only [W.mapVerbose, shownM, shown_size, hfm, hfm', showAll_get, Option.map_some, h1, h2, h3]
end

end KS.Wr
