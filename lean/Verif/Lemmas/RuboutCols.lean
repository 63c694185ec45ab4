import Verif.Lemmas.Rubout
import Verif.Lemmas.RtGlue
import Verif.Props.Lines
/-!
# Values on one line do not depend on the column
-/

namespace KS.Rub
open KS.Spec KS.Nav KS.Props KS.Wr KS.RT

variable {fmts : List Fmt}

mutual
theorem node_col (k : Kserd) (idx : Nat) (h : Inl fmts idx k.size) : AnyCol fmts idx k := by
  obtain ⟨id, v⟩ := k
  intro c c' b
  rw [Kserd.size] at h
  have hl : ∀ fm, fmts[idx]? = some fm → fm.line = .inline := fun fm hfm => h 0 (by omega) fm (by rwa [Nat.add_zero])
  have hv : Inl fmts (idx + 1) (Kserd.sizeV v) := h.right
  cases v <;> simp only [W.node] <;> cases hfm : fmts[idx]? <;> first | rfl | (have hl := hl _ hfm; simp only [hl])
  · rename_i l _; rw [list_col l _ hv c c']
  · rename_i f _; rw [cntr_col f _ hv c c']
  · rename_i l _; rw [list_col l _ hv c c']
  · rename_i l _; rw [map_col l _ hv c c']
theorem list_col (l : List Kserd) (idx : Nat) (h : Inl fmts idx (Kserd.sizeL l)) (c c' : Nat) (b : Str) :
    W.listInline fmts l idx c b = W.listInline fmts l idx c' b := by
  match l with
  | [] => simp only [W.listInline]
  | k :: r =>
    rw [Kserd.sizeL] at h
    simp only [W.listInline]
    rw [node_col k idx h.left c c']
    split
    · rfl
    · exact list_col r _ h.right c c' _
theorem cntr_col (l : List (Str × Kserd)) (idx : Nat) (h : Inl fmts idx (Kserd.sizeF l)) (c c' : Nat) (b : Str) :
    W.cntrInline fmts l idx c b = W.cntrInline fmts l idx c' b := by
  match l with
  | [] => simp only [W.cntrInline]
  | (n, k) :: r =>
    rw [Kserd.sizeF] at h
    simp only [W.cntrInline]
    rw [node_col k idx h.left c c']
    split
    · rfl
    · exact cntr_col r _ h.right c c' _
theorem map_col (l : List (Kserd × Kserd)) (idx : Nat) (h : Inl fmts idx (Kserd.sizeM l)) (c c' : Nat) (b : Str) :
    W.mapInline fmts l idx c b = W.mapInline fmts l idx c' b := by
  match l with
  | [] => simp only [W.mapInline]
  | (k, v) :: r =>
    rw [Kserd.sizeM] at h
    simp only [W.mapInline]
    rw [node_col k idx h.left.left c c']
    split
    · rfl
    · rw [node_col v _ h.left.right c c']
      split
      · rfl
      · rw [Nat.add_assoc]; exact map_col r _ h.right c c' _
end

/-- What the condition on the columns says in terms of the writer. -/
theorem keysOk_of {f : Formatter} (hr : Rules f) {m : Char} : ∀ (l : List (Kserd × Kserd)) (i : Nat),
    (∀ j x, (preorderM l)[j]? = some x → (preorder f.root)[i + j]? = some x) → EntryCols f i l → KeysOk (rubOut m) m f.fmts i l
  | [], _, _, _ => trivial
  | (k, v) :: r, i, hsub, h => by
    have hs2 : ∀ j x, (preorder v)[j]? = some x → (preorder f.root)[i + k.size + j]? = some x := by
      intro j x hx
      have := hsub (k.size + j) x (by
        rw [preorderM, List.getElem?_append_right (by rw [size_preorder]; omega), size_preorder,
          List.getElem?_append_left (by rw [show k.size + j - k.size = j by omega]; exact (List.getElem?_eq_some_iff.mp hx).1)]
        rwa [show k.size + j - k.size = j by omega])
      rwa [← Nat.add_assoc] at this
    have hs3 : ∀ j x, (preorderM r)[j]? = some x → (preorder f.root)[i + k.size + v.size + j]? = some x := by
      intro j x hx
      have := hsub (k.size + v.size + j) x (by
        rw [preorderM, ← List.append_assoc, List.getElem?_append_right (by rw [List.length_append, size_preorder, size_preorder]; omega),
          List.length_append, size_preorder, size_preorder]
        rwa [show k.size + v.size + j - (k.size + v.size) = j by omega])
      rwa [← Nat.add_assoc, ← Nat.add_assoc] at this
    refine ⟨?_, keysOk_of hr r _ hs3 h.2⟩
    rcases h.1 with h | h | h
    · refine .inl (keepsLen_rub fun hat j y hy => ?_)
      obtain ⟨fm, hfm, _⟩ := hat j y hy
      refine ⟨fm, hfm, fun e ht => h j y hy ht ?_⟩
      rw [← flag_eq, flag_of hfm, e]
    · refine .inr (.inl fun fm hfm e => h ?_)
      rw [line, hfm, ← e]; rfl
    · refine .inr (.inr (node_col v _ ?_))
      obtain ⟨n, hn, hk⟩ := nav_get hr (hs2 0 v (by obtain ⟨id, v⟩ := v; rw [preorder]; rfl))
      rw [Nat.add_zero] at hn
      intro j hj fm hfm
      have := inline_range hr hn h (i + k.size + j) (by omega) (by rw [hk]; omega)
      rw [line, hfm] at this
      exact Option.some.inj this

end KS.Rub
