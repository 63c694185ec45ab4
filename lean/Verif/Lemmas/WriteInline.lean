import Verif.Lemmas.Write
import Verif.Lemmas.NumChars
/-!
# Characters of text written inline
-/

namespace KS.Wr
open KS.Spec KS.Nav KS.Props

variable {fmts : List Fmt} {Q : Char → Prop}

/-- All characters satisfy `Q`. -/
def CS (Q : Char → Prop) (s : Str) : Prop := ∀ c ∈ s, Q c

theorem cs_append {a b : Str} (h1 : CS Q a) (h2 : CS Q b) : CS Q (a ++ b) := by
  intro c hc
  rcases List.mem_append.mp hc with hc | hc
  · exact h1 c hc
  · exact h2 c hc

theorem cs_cons {a : Char} {b : Str} (h1 : Q a) (h2 : CS Q b) : CS Q (a :: b) := by
  intro c hc
  rcases List.mem_cons.mp hc with rfl | hc
  · exact h1
  · exact h2 c hc

theorem cs_nil : CS Q [] := fun c hc => by cases hc

theorem cs_pop {a : Str} (h : CS Q a) : CS Q (W.pop a) := fun c hc => h c ((List.dropLast_prefix a).subset hc)
theorem cs_popSep {a : Str} (h : CS Q a) : CS Q (W.popSep a) := cs_pop (cs_pop h)

theorem cs_lit (hQ : ∀ c, Printable c → Q c) {a : Str} (h : ∀ c ∈ a, 32 ≤ c.toNat ∧ c.toNat ≤ 126) : CS Q a :=
  fun c hc => hQ c (h c hc)

theorem cs_nonprim (hQ : ∀ c, Printable c → Q c) {buf : Str} {p : Bool} {id : Option Str} (hb : CS Q buf)
    (hi : ∀ i, id = some i → CS Q i) : CS Q (W.nonprimIdent buf p id) := by
  unfold W.nonprimIdent
  split
  · split
    · exact cs_append (cs_append hb (hi _ rfl)) (cs_lit hQ (by decide))
    · exact hb
  · exact hb

theorem cs_primIdent (hQ : ∀ c, Printable c → Q c) {buf : Str} {p : Bool} {id : Option Str} (hb : CS Q buf)
    (hi : ∀ i, id = some i → CS Q i) : CS Q (W.primIdent buf p id) := by
  unfold W.primIdent
  split
  · split
    · exact cs_append (cs_append hb (cs_cons (hQ _ ⟨by decide, by decide⟩) (hi _ rfl))) (cs_lit hQ (by decide))
    · exact hb
  · exact hb

theorem cs_tuplePrefix (hQ : ∀ c, Printable c → Q c) {buf : Str} {p : Bool} {id : Option Str} (hb : CS Q buf)
    (hi : ∀ i, id = some i → CS Q i) : CS Q (W.tuplePrefix buf p id) := by
  unfold W.tuplePrefix
  have := cs_nonprim hQ (p := p) hb hi
  dsimp only
  split
  · exact cs_append (cs_pop this) (cs_lit hQ (by decide))
  · exact cs_append this (cs_lit hQ (by decide))

theorem cs_strLit (hQ : ∀ c, Printable c → Q c) {s l : Str} (hs : CS Q s) (h : W.strLit s = some l) : CS Q l := by
  rw [W.strLit] at h
  split at h
  · cases h
  · rename_i d hd
    have hm := List.mem_of_find?_eq_some hd
    have hp : ∀ d ∈ W.delims, 32 ≤ d.toNat ∧ d.toNat ≤ 126 := by decide
    cases h
    have hdq := hQ d (hp d hm)
    refine cs_append (cs_append ?_ (cs_cons hdq hs)) (cs_cons hdq cs_nil)
    split
    · exact cs_nil
    · exact cs_lit hQ (by decide)

theorem cs_prim (hQ : ∀ c, Printable c → Q c) {buf : Str} {p : Bool} {id : Option Str} {v : Value} {out : Str} (hb : CS Q buf)
    (hi : ∀ i, id = some i → CS Q i) (hs : ∀ s, v = .str s → CS Q s) (h : W.prim buf id v p = some out) : CS Q out := by
  have hpi := cs_primIdent hQ (p := p) hb hi
  cases v <;> simp only [W.prim] at h
  case unit =>
    cases h
    unfold W.unit
    split
    · split
      · exact cs_append hb (cs_lit hQ (by decide))
      · exact cs_append (cs_append hb (hi _ rfl)) (cs_lit hQ (by decide))
    · exact cs_append hb (cs_lit hQ (by decide))
  case bool b =>
    cases h
    exact cs_append hpi (cs_lit hQ (by cases b <;> decide))
  case num n =>
    cases h
    exact cs_append hpi (fun c hc => hQ c (printable_of_isNumChar (disp_chars n c hc)))
  case str s =>
    rw [Option.map_eq_some_iff] at h
    obtain ⟨l, hl, rfl⟩ := h
    exact cs_append hpi (cs_strLit hQ (hs s rfl) hl)
  case barr b =>
    cases h
    refine cs_append hpi ?_
    unfold W.barrLit
    refine cs_append (cs_append (cs_lit hQ (by decide)) ?_) (cs_lit hQ (by decide))
    exact fun c hc => hQ c (Base91.table_printable c (Base91.encode_mem b c hc))
  all_goals cases h

def InlineOk (_ : Kserd) (fm : Fmt) : Prop := fm.line = .inline

theorem textAll_cons {k : Kserd} {b : List Kserd} (h : ∀ x ∈ k :: b, TextAll Q x) : TextAll Q k ∧ ∀ x ∈ b, TextAll Q x :=
  ⟨h k (by simp), fun x hx => h x (by simp [hx])⟩

theorem textAll_append {a b : List Kserd} (h : ∀ x ∈ a ++ b, TextAll Q x) : (∀ x ∈ a, TextAll Q x) ∧ ∀ x ∈ b, TextAll Q x :=
  ⟨fun x hx => h x (by simp [hx]), fun x hx => h x (by simp [hx])⟩

mutual
theorem node_cs (hQ : ∀ c, Printable c → Q c) (k : Kserd) (idx col : Nat) (buf out : Str) (h : At InlineOk fmts idx (preorder k))
    (ht : ∀ x ∈ preorder k, TextAll Q x) (hb : CS Q buf) (ho : W.node fmts k idx col buf = some out) : CS Q out := by
  obtain ⟨id, v⟩ := k
  rw [preorder, at_cons] at h
  obtain ⟨⟨fm, hfm, hl⟩, h⟩ := h
  rw [preorder] at ht
  obtain ⟨ht, ht'⟩ := textAll_cons ht
  have hi : ∀ i, id = some i → CS Q i := ht.1
  obtain ⟨pid, ln⟩ := fm
  have hl : ln = .inline := hl
  subst hl
  cases v with
  | tuple l =>
    simp only [W.node, hfm, Option.map_eq_some_iff, preorderV] at ho h ht'
    obtain ⟨b, hb', rfl⟩ := ho
    have := listInline_cs hQ l _ _ _ _ h ht' (cs_tuplePrefix hQ hb hi) hb'
    refine cs_append ?_ (cs_lit hQ (by decide))
    split
    · exact this
    · exact cs_popSep this
  | seq l =>
    simp only [W.node, hfm, Option.map_eq_some_iff, preorderV] at ho h ht'
    obtain ⟨b, hb', rfl⟩ := ho
    have := listInline_cs hQ l _ _ _ _ h ht' (cs_append (cs_nonprim hQ hb hi) (cs_lit hQ (by decide))) hb'
    refine cs_append ?_ (cs_lit hQ (by decide))
    split
    · exact this
    · exact cs_popSep this
  | cntr f =>
    simp only [W.node, hfm, Option.map_eq_some_iff, preorderV] at ho h ht'
    obtain ⟨b, hb', rfl⟩ := ho
    have := cntrInline_cs hQ f _ _ _ _ h ht' (ht.2.2 f rfl) (cs_append (cs_nonprim hQ hb hi) (cs_lit hQ (by decide))) hb'
    refine cs_append ?_ (cs_lit hQ (by decide))
    split
    · exact this
    · exact cs_popSep this
  | map m =>
    simp only [W.node, hfm, Option.map_eq_some_iff, preorderV] at ho h ht'
    obtain ⟨b, hb', rfl⟩ := ho
    have := mapInline_cs hQ m _ _ _ _ h ht' (cs_append (cs_nonprim hQ hb hi) (cs_lit hQ (by split <;> decide))) hb'
    refine cs_append ?_ (cs_lit hQ (by decide))
    split
    · exact this
    · exact cs_append (cs_popSep this) (cs_lit hQ (by decide))
  | unit => simp only [W.node, hfm] at ho; exact cs_prim hQ hb hi ht.2.1 ho
  | bool b => simp only [W.node, hfm] at ho; exact cs_prim hQ hb hi ht.2.1 ho
  | num b => simp only [W.node, hfm] at ho; exact cs_prim hQ hb hi ht.2.1 ho
  | barr b => simp only [W.node, hfm] at ho; exact cs_prim hQ hb hi ht.2.1 ho
  | str s => simp only [W.node, hfm] at ho; exact cs_prim hQ hb hi ht.2.1 ho
theorem listInline_cs (hQ : ∀ c, Printable c → Q c) (l : List Kserd) (idx col : Nat) (buf out : Str)
    (h : At InlineOk fmts idx (preorderL l)) (ht : ∀ x ∈ preorderL l, TextAll Q x) (hb : CS Q buf)
    (ho : W.listInline fmts l idx col buf = some out) : CS Q out := by
  match l with
  | [] => simp only [W.listInline] at ho; cases ho; exact hb
  | k :: r =>
    rw [preorderL, at_append, size_preorder] at h
    rw [preorderL] at ht
    obtain ⟨t1, t2⟩ := textAll_append ht
    rw [W.listInline] at ho
    split at ho
    · cases ho
    · rename_i b hb'
      exact listInline_cs hQ r _ _ _ _ h.2 t2 (cs_append (node_cs hQ k _ _ _ _ h.1 t1 hb hb') (cs_lit hQ (by decide))) ho
theorem cntrInline_cs (hQ : ∀ c, Printable c → Q c) (l : List (Str × Kserd)) (idx col : Nat) (buf out : Str)
    (h : At InlineOk fmts idx (preorderF l)) (ht : ∀ x ∈ preorderF l, TextAll Q x) (hn : ∀ p ∈ l, ∀ c ∈ p.1, Q c) (hb : CS Q buf)
    (ho : W.cntrInline fmts l idx col buf = some out) : CS Q out := by
  match l with
  | [] => simp only [W.cntrInline] at ho; cases ho; exact hb
  | (n, k) :: r =>
    rw [preorderF, at_append, size_preorder] at h
    rw [preorderF] at ht
    obtain ⟨t1, t2⟩ := textAll_append ht
    rw [W.cntrInline] at ho
    split at ho
    · cases ho
    · rename_i b hb'
      have h1 : CS Q (buf ++ n ++ W.assigner ++ [' ']) :=
        cs_append (cs_append (cs_append hb (hn (n, k) (by simp))) (cs_lit hQ (by decide))) (cs_lit hQ (by decide))
      exact cntrInline_cs hQ r _ _ _ _ h.2 t2 (fun p hp => hn p (by simp [hp]))
        (cs_append (node_cs hQ k _ _ _ _ h.1 t1 h1 hb') (cs_lit hQ (by decide))) ho
theorem mapInline_cs (hQ : ∀ c, Printable c → Q c) (l : List (Kserd × Kserd)) (idx col : Nat) (buf out : Str)
    (h : At InlineOk fmts idx (preorderM l)) (ht : ∀ x ∈ preorderM l, TextAll Q x) (hb : CS Q buf)
    (ho : W.mapInline fmts l idx col buf = some out) : CS Q out := by
  match l with
  | [] => simp only [W.mapInline] at ho; cases ho; exact hb
  | (k, v) :: r =>
    rw [preorderM, at_append, at_append, size_preorder, size_preorder] at h
    rw [preorderM] at ht
    obtain ⟨t1, t2⟩ := textAll_append ht
    obtain ⟨t2, t3⟩ := textAll_append t2
    rw [W.mapInline] at ho
    split at ho
    · cases ho
    · rename_i b hb'
      split at ho
      · cases ho
      · rename_i b2 hb2
        have h1 := node_cs hQ k _ _ _ _ h.1 t1 hb hb'
        have h2 := node_cs hQ v _ _ _ _ h.2.1 t2 (cs_append (cs_append h1 (cs_lit hQ (by decide))) (cs_lit hQ (by decide))) hb2
        exact mapInline_cs hQ r _ _ _ _ h.2.2 t3 (cs_append h2 (cs_lit hQ (by decide))) ho
end

end KS.Wr
