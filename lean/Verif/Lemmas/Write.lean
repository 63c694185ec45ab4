import Verif.Lemmas.Formatter
import Verif.Props.Formatter
/-!
# Lemmas about the writers
-/

namespace KS.Wr
open KS.Spec KS.Nav KS.Props

/-- Node `idx + j` is formatted and `P` relates it to the `j`-th of the Kserds. -/
def At (P : Kserd → Fmt → Prop) (fmts : List Fmt) (idx : Nat) (ks : List Kserd) : Prop :=
  ∀ j x, ks[j]? = some x → ∃ fm, fmts[idx + j]? = some fm ∧ P x fm

variable {P : Kserd → Fmt → Prop} {fmts : List Fmt}

theorem at_append {idx : Nat} {a b : List Kserd} :
    At P fmts idx (a ++ b) ↔ At P fmts idx a ∧ At P fmts (idx + a.length) b := by
  constructor
  · intro h
    constructor
    · intro j x hx
      exact h j x (by rw [List.getElem?_append_left (List.getElem?_eq_some_iff.mp hx).1]; exact hx)
    · intro j x hx
      have := h (a.length + j) x (by rw [List.getElem?_append_right (by omega)]; simpa using hx)
      rwa [← Nat.add_assoc] at this
  · rintro ⟨h1, h2⟩ j x hx
    by_cases hj : j < a.length
    · rw [List.getElem?_append_left hj] at hx; exact h1 j x hx
    · rw [List.getElem?_append_right (by omega)] at hx
      have := h2 _ x hx
      rwa [show idx + a.length + (j - a.length) = idx + j by omega] at this

theorem at_cons {idx : Nat} {k : Kserd} {b : List Kserd} :
    At P fmts idx (k :: b) ↔ (∃ fm, fmts[idx]? = some fm ∧ P k fm) ∧ At P fmts (idx + 1) b := by
  rw [show k :: b = [k] ++ b from rfl, at_append]
  constructor
  · rintro ⟨h1, h2⟩; exact ⟨h1 0 k rfl, h2⟩
  · rintro ⟨h1, h2⟩
    refine ⟨?_, h2⟩
    intro j x hx
    match j with
    | 0 => simp at hx; subst hx; exact h1
    | j + 1 => simp at hx

theorem At.mono {Q : Kserd → Fmt → Prop} (h : ∀ x fm, P x fm → Q x fm) {idx : Nat} {ks : List Kserd} (ha : At P fmts idx ks) :
    At Q fmts idx ks := fun j x hx => by
  obtain ⟨fm, h1, h2⟩ := ha j x hx; exact ⟨fm, h1, h x fm h2⟩

theorem size_preorder (k : Kserd) : (preorder k).length = k.size := by
  rw [← (C18_preorder k).1, List.length_map, new_length]

/-- The whole formatter as `At`. -/
theorem at_of_nav {f : Formatter} (hnav : f.nav = Nav.new f.root) (hlen : f.fmts.length = f.nav.length)
    (h : ∀ (i : Nat) (n : NavNode) (fm : Fmt), f.nav[i]? = some n → f.fmts[i]? = some fm → P n.kserd fm) : At P f.fmts 0 (preorder f.root) := by
  intro j x hx
  rw [← (C18_preorder f.root).1, ← hnav, List.getElem?_map] at hx
  cases hn : f.nav[j]? with
  | none => rw [hn] at hx; cases hx
  | some n =>
    rw [hn] at hx; cases hx
    have hl := (List.getElem?_eq_some_iff.mp hn).1
    obtain ⟨fm, hfm⟩ : ∃ fm, f.fmts[j]? = some fm := ⟨_, List.getElem?_eq_getElem (by rw [hlen]; exact hl)⟩
    exact ⟨fm, by rw [Nat.zero_add]; exact hfm, h j n fm hn hfm⟩

theorem writable_append {a b : List Kserd} : Writable (a ++ b) ↔ Writable a ∧ Writable b := by
  constructor
  · intro h; exact ⟨fun x hx => h x (by simp [hx]), fun x hx => h x (by simp [hx])⟩
  · rintro ⟨h1, h2⟩ x hx
    rcases List.mem_append.mp hx with hx | hx
    · exact h1 x hx
    · exact h2 x hx

theorem writable_nil : Writable [] := fun x hx => by cases hx

theorem writable_cons {k : Kserd} {b : List Kserd} :
    Writable (k :: b) ↔ (∀ s, k.val = .str s → Delimitable s) ∧ Writable b := by
  rw [show k :: b = [k] ++ b from rfl, writable_append]
  constructor
  · rintro ⟨h1, h2⟩; exact ⟨h1 k (by simp), h2⟩
  · rintro ⟨h1, h2⟩; exact ⟨fun x hx => by simp at hx; subst hx; exact h1, h2⟩

theorem strLit_some (s : Str) : (W.strLit s).isSome = true ↔ Delimitable s := by
  rw [W.strLit]
  split
  · rename_i h
    rw [List.find?_eq_none] at h
    constructor
    · intro h; cases h
    · rintro ⟨d, hd, hds⟩
      have := h d hd
      simp only [Bool.not_eq_true', Bool.not_eq_false] at this
      exact absurd (List.contains_iff_mem.mp this) hds
  · rename_i d h
    refine ⟨fun _ => ?_, fun _ => rfl⟩
    have h1 := List.find?_some h
    have h2 := List.mem_of_find?_eq_some h
    refine ⟨d, h2, fun hm => ?_⟩
    rw [List.contains_iff_mem.mpr hm] at h1; cases h1

/-- Tuples are never verbose. -/
def TupleOk (x : Kserd) (fm : Fmt) : Prop := ∀ l, x.val = .tuple l → fm.line ≠ .verbose

mutual
theorem node_isSome (k : Kserd) (idx col : Nat) (buf : Str) (h : At TupleOk fmts idx (preorder k)) :
    (W.node fmts k idx col buf).isSome = true ↔ Writable (preorder k) := by
  obtain ⟨id, v⟩ := k
  rw [preorder, at_cons] at h
  obtain ⟨⟨fm, hfm, ht⟩, h⟩ := h
  rw [preorder, writable_cons]
  cases v with
  | tuple l =>
    have ht' := ht l rfl
    have : (∀ s, (Kserd.mk id (.tuple l)).val = .str s → Delimitable s) := fun s hs => by cases hs
    simp only [W.node, hfm, this, implies_true, true_and, preorderV] at h ⊢
    cases hl : fm.line with
    | inline => simpa using listInline_isSome l _ _ _ h
    | concise => simpa using listConcise_isSome l _ _ _ h
    | verbose => exact absurd hl ht'
  | seq l =>
    have : (∀ s, (Kserd.mk id (.seq l)).val = .str s → Delimitable s) := fun s hs => by cases hs
    simp only [W.node, hfm, this, implies_true, true_and, preorderV] at h ⊢
    cases hl : fm.line with
    | inline => simpa using listInline_isSome l _ _ _ h
    | concise => simpa using listConcise_isSome l _ _ _ h
    | verbose => simpa using listConcise_isSome l _ _ _ h
  | cntr f =>
    have : (∀ s, (Kserd.mk id (.cntr f)).val = .str s → Delimitable s) := fun s hs => by cases hs
    simp only [W.node, hfm, this, implies_true, true_and, preorderV] at h ⊢
    cases hl : fm.line with
    | inline => simpa using cntrInline_isSome f _ _ _ h
    | concise => simpa using cntrConcise_isSome f _ _ _ h
    | verbose => simpa using cntrVerbose_isSome f _ _ _ h
  | map m =>
    have : (∀ s, (Kserd.mk id (.map m)).val = .str s → Delimitable s) := fun s hs => by cases hs
    simp only [W.node, hfm, this, implies_true, true_and, preorderV] at h ⊢
    cases hl : fm.line with
    | inline => simpa using mapInline_isSome m _ _ _ h
    | concise => simpa using mapConcise_isSome m _ _ _ h
    | verbose => simpa using mapConcise_isSome m _ _ _ h
  | unit => simp [W.node, hfm, W.prim, preorderV, writable_nil, Kserd.val]
  | bool b => simp [W.node, hfm, W.prim, preorderV, writable_nil, Kserd.val]
  | num b => simp [W.node, hfm, W.prim, preorderV, writable_nil, Kserd.val]
  | barr b => simp [W.node, hfm, W.prim, preorderV, writable_nil, Kserd.val]
  | str s =>
    simp only [W.node, hfm, W.prim, preorderV, writable_nil, Kserd.val, Option.isSome_map, strLit_some, and_true]
    constructor
    · intro h s' hs; cases hs; exact h
    · intro h; exact h s rfl
theorem listInline_isSome (l : List Kserd) (idx col : Nat) (buf : Str) (h : At TupleOk fmts idx (preorderL l)) :
    (W.listInline fmts l idx col buf).isSome = true ↔ Writable (preorderL l) := by
  match l with
  | [] => simp [W.listInline, preorderL, writable_nil]
  | k :: r =>
    rw [preorderL, at_append, size_preorder] at h
    rw [preorderL, writable_append, ← node_isSome k idx col buf h.1, W.listInline]
    cases W.node fmts k idx col buf with
    | none => simp
    | some b => simpa using listInline_isSome r _ _ _ h.2
theorem listConcise_isSome (l : List Kserd) (idx col : Nat) (buf : Str) (h : At TupleOk fmts idx (preorderL l)) :
    (W.listConcise fmts l idx col buf).isSome = true ↔ Writable (preorderL l) := by
  match l with
  | [] => simp [W.listConcise, preorderL, writable_nil]
  | k :: r =>
    rw [preorderL, at_append, size_preorder] at h
    rw [preorderL, writable_append, ← node_isSome k idx col (W.indent buf col) h.1, W.listConcise]
    cases W.node fmts k idx col (W.indent buf col) with
    | none => simp
    | some b => simpa using listConcise_isSome r _ _ _ h.2
theorem seqVerbose_isSome (name : Str) (l : List Kserd) (idx col : Nat) (buf : Str) (h : At TupleOk fmts idx (preorderL l)) :
    (W.seqVerbose fmts name l idx col buf).isSome = true ↔ Writable (preorderL l) := by
  match l with
  | [] => simp [W.seqVerbose, preorderL, writable_nil]
  | k :: r =>
    rw [preorderL, at_append, size_preorder] at h
    have h1 := fun c b => node_isSome k idx c b h.1
    obtain ⟨fm, hfm⟩ : ∃ fm, fmts[idx]? = some fm := by
      obtain ⟨i, v⟩ := k
      have := h.1; rw [preorder, at_cons] at this
      obtain ⟨⟨fm, e, _⟩, _⟩ := this; exact ⟨fm, e⟩
    rw [preorderL, writable_append, W.seqVerbose, hfm]
    simp only
    split
    · rename_i hr
      split at hr
      · rw [← h1 (col + W.indentW) (W.indent buf col ++ str "[[" ++ name ++ str "]]\n"), hr]; simp
      · rw [Option.map_eq_none_iff] at hr
        rw [← h1 col (W.indent (W.indent buf col ++ str "[[" ++ name ++ str "]]\n") col), hr]; simp
    · rename_i b hr
      have hw : Writable (preorder k) := by
        split at hr
        · rw [← h1 (col + W.indentW) (W.indent buf col ++ str "[[" ++ name ++ str "]]\n"), hr]; rfl
        · rw [← h1 col (W.indent (W.indent buf col ++ str "[[" ++ name ++ str "]]\n") col)]
          rw [Option.map_eq_some_iff] at hr
          obtain ⟨_, hr, _⟩ := hr
          rw [hr]; rfl
      simpa [hw] using seqVerbose_isSome name r _ _ _ h.2
theorem cntrInline_isSome (l : List (Str × Kserd)) (idx col : Nat) (buf : Str) (h : At TupleOk fmts idx (preorderF l)) :
    (W.cntrInline fmts l idx col buf).isSome = true ↔ Writable (preorderF l) := by
  match l with
  | [] => simp [W.cntrInline, preorderF, writable_nil]
  | (n, k) :: r =>
    rw [preorderF, at_append, size_preorder] at h
    rw [preorderF, writable_append, ← node_isSome k idx col (buf ++ n ++ W.assigner ++ [' ']) h.1, W.cntrInline]
    cases W.node fmts k idx col (buf ++ n ++ W.assigner ++ [' ']) with
    | none => simp
    | some b => simpa using cntrInline_isSome r _ _ _ h.2
theorem cntrConcise_isSome (l : List (Str × Kserd)) (idx col : Nat) (buf : Str) (h : At TupleOk fmts idx (preorderF l)) :
    (W.cntrConcise fmts l idx col buf).isSome = true ↔ Writable (preorderF l) := by
  match l with
  | [] => simp [W.cntrConcise, preorderF, writable_nil]
  | (n, k) :: r =>
    rw [preorderF, at_append, size_preorder] at h
    rw [preorderF, writable_append, ← node_isSome k idx (col + (n ++ W.assigner ++ [' ']).length)
      (W.indent buf col ++ (n ++ W.assigner ++ [' '])) h.1, W.cntrConcise]
    cases W.node fmts k idx (col + (n ++ W.assigner ++ [' ']).length) (W.indent buf col ++ (n ++ W.assigner ++ [' '])) with
    | none => simp
    | some b => simpa using cntrConcise_isSome r _ _ _ h.2
theorem cntrVerbose_isSome (l : List (Str × Kserd)) (idx col : Nat) (buf : Str) (h : At TupleOk fmts idx (preorderF l)) :
    (W.cntrVerbose fmts l idx col buf).isSome = true ↔ Writable (preorderF l) := by
  match l with
  | [] => simp [W.cntrVerbose, preorderF, writable_nil]
  | (n, k) :: r =>
    rw [preorderF, at_append, size_preorder] at h
    have h1 := fun c b => node_isSome k idx c b h.1
    obtain ⟨fm, hfm⟩ : ∃ fm, fmts[idx]? = some fm := by
      obtain ⟨i, v⟩ := k
      have := h.1; rw [preorder, at_cons] at this
      obtain ⟨⟨fm, e, _⟩, _⟩ := this; exact ⟨fm, e⟩
    rw [preorderF, writable_append, W.cntrVerbose, hfm]
    simp only
    have fin : ∀ (res : Option Str), (res.isSome = true ↔ Writable (preorder k)) →
        ((match res with
          | none => none
          | some buf => W.cntrVerbose fmts r (idx + k.size) col buf).isSome = true ↔
          Writable (preorder k) ∧ Writable (preorderF r)) := by
      intro res hres
      rw [← hres]
      cases res with
      | none => simp
      | some b => simpa using cntrVerbose_isSome r _ _ _ h.2
    apply fin
    split
    · rename_i hc
      exact nested_isSome fm.id n k idx col buf h.1 hc.2
    · rw [Option.isSome_map]; exact h1 _ _
theorem nested_isSome (pid : Bool) (n : Str) (k : Kserd) (idx col : Nat) (buf : Str) (h : At TupleOk fmts idx (preorder k))
    (hn : W.nests k.val = true) :
    (W.nested fmts pid n k idx col buf).isSome = true ↔ Writable (preorder k) := by
  obtain ⟨vid, v⟩ := k
  rw [preorder, at_cons] at h
  obtain ⟨⟨fm, hfm, _⟩, h'⟩ := h
  rw [preorder, writable_cons]
  cases v with
  | cntr f =>
    simp only [preorderV] at h' ⊢
    simp [W.nested, cntrVerbose_isSome f _ _ _ h', Kserd.val]
  | seq l =>
    simp only [preorderV] at h' ⊢
    simp [W.nested, seqVerbose_isSome n l _ _ _ h', Kserd.val]
  | map m =>
    simp only [preorderV] at h' ⊢
    simp [W.nested, mapVerbose_isSome n m _ _ _ h', Kserd.val]
  | _ => simp [Kserd.val, W.nests] at hn
theorem mapInline_isSome (l : List (Kserd × Kserd)) (idx col : Nat) (buf : Str) (h : At TupleOk fmts idx (preorderM l)) :
    (W.mapInline fmts l idx col buf).isSome = true ↔ Writable (preorderM l) := by
  match l with
  | [] => simp [W.mapInline, preorderM, writable_nil]
  | (k, v) :: r =>
    rw [preorderM, at_append, at_append, size_preorder, size_preorder] at h
    rw [preorderM, writable_append, writable_append, ← node_isSome k idx col buf h.1, W.mapInline]
    cases W.node fmts k idx col buf with
    | none => simp
    | some b =>
      rw [← node_isSome v (idx + k.size) col (b ++ W.keysAssigner ++ [' ']) h.2.1]
      simp only
      cases W.node fmts v (idx + k.size) col (b ++ W.keysAssigner ++ [' ']) with
      | none => simp
      | some b => simpa using mapInline_isSome r _ _ _ h.2.2
theorem mapConcise_isSome (l : List (Kserd × Kserd)) (idx col : Nat) (buf : Str) (h : At TupleOk fmts idx (preorderM l)) :
    (W.mapConcise fmts l idx col buf).isSome = true ↔ Writable (preorderM l) := by
  match l with
  | [] => simp [W.mapConcise, preorderM, writable_nil]
  | (k, v) :: r =>
    rw [preorderM, at_append, at_append, size_preorder, size_preorder] at h
    obtain ⟨fm, hfm⟩ : ∃ fm, fmts[idx]? = some fm := by
      obtain ⟨i, v⟩ := k
      have := h.1; rw [preorder, at_cons] at this
      obtain ⟨⟨fm, e, _⟩, _⟩ := this; exact ⟨fm, e⟩
    rw [preorderM, writable_append, writable_append, ← node_isSome k idx col (W.indent buf col) h.1, W.mapConcise, hfm]
    simp only
    cases W.node fmts k idx col (W.indent buf col) with
    | none => simp
    | some b =>
      simp only
      generalize (if fm.line = Repr'.inline then W.written (W.indent buf col) (b ++ W.keysAssigner ++ [' ']) else 2 + W.keysAssigner.length) = off
      rw [← node_isSome v (idx + k.size) (col + off) (b ++ W.keysAssigner ++ [' ']) h.2.1]
      cases W.node fmts v (idx + k.size) (col + off) (b ++ W.keysAssigner ++ [' ']) with
      | none => simp
      | some b => simpa using mapConcise_isSome r _ _ _ h.2.2
theorem mapVerbose_isSome (name : Str) (l : List (Kserd × Kserd)) (idx col : Nat) (buf : Str)
    (h : At TupleOk fmts idx (preorderM l)) :
    (W.mapVerbose fmts name l idx col buf).isSome = true ↔ Writable (preorderM l) := by
  match l with
  | [] => simp [W.mapVerbose, preorderM, writable_nil]
  | (k, v) :: r =>
    rw [preorderM, at_append, at_append, size_preorder, size_preorder] at h
    obtain ⟨fm, hfm⟩ : ∃ fm, fmts[idx]? = some fm := by
      obtain ⟨i, v⟩ := k
      have := h.1; rw [preorder, at_cons] at this
      obtain ⟨⟨fm, e, _⟩, _⟩ := this; exact ⟨fm, e⟩
    obtain ⟨vm, hvm⟩ : ∃ fm, fmts[idx + k.size]? = some fm := by
      obtain ⟨i, v⟩ := v
      have := h.2.1; rw [preorder, at_cons] at this
      obtain ⟨⟨fm, e, _⟩, _⟩ := this; exact ⟨fm, e⟩
    have h1 := node_isSome k idx col (buf ++ str "[[" ++ name ++ str "]]\n") h.1
    have h2 := fun c b => node_isSome v (idx + k.size) c b h.2.1
    rw [preorderM, writable_append, writable_append, ← h1, W.mapVerbose, hfm, hvm]
    simp only
    cases W.node fmts k idx col (buf ++ str "[[" ++ name ++ str "]]\n") with
    | none => simp
    | some b =>
      have fin : ∀ (res : Option Str), (res.isSome = true ↔ Writable (preorder v)) →
          ((match res with
            | none => none
            | some buf => W.mapVerbose fmts name r (idx + k.size + v.size) col buf).isSome = true ↔
            (some b).isSome = true ∧ Writable (preorder v) ∧ Writable (preorderM r)) := by
        intro res hres
        rw [← hres]
        cases res with
        | none => simp
        | some b => simpa using mapVerbose_isSome name r _ _ _ h.2.2
      apply fin
      split <;> (rw [Option.isSome_map]; exact h2 _ _)
end

theorem tuple_not_verbose {l : List Kserd} : ¬ Repr'.verbose ≤ maxRepr (.tuple l) := by
  rw [maxRepr]; split <;> decide

theorem rules_at {f : Formatter} (h : Rules f) : At TupleOk f.fmts 0 (preorder f.root) := by
  apply at_of_nav h.nav h.len
  intro i n fm hn hfm l hl hv
  have := h.max i n fm.line hn (by rw [line, hfm]; rfl)
  rw [hv, hl] at this
  exact tuple_not_verbose this

end KS.Wr
