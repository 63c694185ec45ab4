import Verif.Spec.GrammarKeys
import Verif.Lemmas.GrammarDocComplete
import Verif.Lemmas.Assemble
import Verif.Props.Kserds
/-!
# The grammar determines the value of a document
-/

namespace KS.GR
open KS.Spec KS.PG

/-! ## Numbers and containers in a value -/

mutual
theorem tree_nums {P : Number → Prop} (T : Spec.Tree) {k : Kserd} (hn : T.Nums P) (h : T.Means k) : AllNums P k := by
  cases T with
  | prim id w l =>
    subst h
    cases l <;> exact ⟨hn, trivial⟩
  | tuple id w c lead b =>
    obtain ⟨l, h1, rfl⟩ := h
    exact ⟨trivial, (allL_iff _ _).mpr (elems_nums b hn h1)⟩
  | seq id w c lead b =>
    obtain ⟨l, h1, rfl⟩ := h
    exact ⟨trivial, (allL_iff _ _).mpr (elems_nums b hn h1)⟩
  | cntr id w c lead b =>
    obtain ⟨l, f, h1, h2, rfl⟩ := h
    refine ⟨trivial, (allF_iff _ _).mpr fun p hp => ?_⟩
    obtain ⟨x, y, e, -⟩ := (h2.2 p).mp hp
    exact assigns_nums b hn h1 p (by rw [e]; simp)
  | map id w c lead b =>
    obtain ⟨l, m, h1, h2, rfl⟩ := h
    exact ⟨trivial, (allM_iff _ _).mpr fun p hp => pairs_nums b hn h1 p (h2.1 p hp)⟩
termination_by structural T
theorem elems_nums {P : Number → Prop} (b : Elems) {l : List Kserd} (hn : b.Nums P) (h : b.Means l) : ∀ k ∈ l, AllNums P k := by
  cases b with
  | nil => subst h; simp
  | cons pre t post r =>
    obtain ⟨k, l', h1, h2, rfl⟩ := h
    exact List.forall_mem_cons.mpr ⟨tree_nums t hn.1 h1, elems_nums r hn.2 h2⟩
termination_by structural b
theorem assigns_nums {P : Number → Prop} (b : Assigns) {l : List (Str × Kserd)} (hn : b.Nums P) (h : b.Means l) : ∀ p ∈ l, AllNums P p.2 := by
  cases b with
  | nil => subst h; simp
  | cons pre n mid gap t post r =>
    obtain ⟨k, l', h1, h2, rfl⟩ := h
    exact List.forall_mem_cons.mpr ⟨tree_nums t hn.1 h1, assigns_nums r hn.2 h2⟩
termination_by structural b
theorem pairs_nums {P : Number → Prop} (b : Pairs) {l : List (Kserd × Kserd)} (hn : b.Nums P) (h : b.Means l) :
    ∀ p ∈ l, AllNums P p.1 ∧ AllNums P p.2 := by
  cases b with
  | nil => subst h; simp
  | cons pre key mid gap v post r =>
    obtain ⟨k, x, l', h1, h2, h3, rfl⟩ := h
    exact List.forall_mem_cons.mpr ⟨⟨tree_nums key hn.1 h1, tree_nums v hn.2.1 h2⟩, pairs_nums r hn.2.2 h3⟩
termination_by structural b
end

mutual
theorem tree_full (T : Spec.Tree) {inl : Bool} {rest : Str} {k : Kserd} (hr : T.Reads inl rest) (h : T.Means k) : NoEmptyCntr k := by
  cases T with
  | prim id w l =>
    subst h
    cases l <;> exact ⟨trivial, trivial⟩
  | tuple id w c lead b =>
    obtain ⟨l, h1, rfl⟩ := h
    exact ⟨trivial, (allL_iff _ _).mpr (elems_full b hr.2.2.2.2.2.2.2.2 h1)⟩
  | seq id w c lead b =>
    obtain ⟨l, h1, rfl⟩ := h
    exact ⟨trivial, (allL_iff _ _).mpr (elems_full b hr.2.2.2.2.2.2 h1)⟩
  | cntr id w c lead b =>
    obtain ⟨l, f, h1, h2, rfl⟩ := h
    refine ⟨?_, (allF_iff _ _).mpr fun p hp => ?_⟩
    · have hb := hr.2.2.2.2.2.2.1
      show f ≠ []
      rintro rfl
      have : ∀ p : Str × Kserd, ¬ LastFor (· = ·) l p := fun p hp => List.not_mem_nil ((h2.2 p).mpr hp)
      have hl : l ≠ [] := by
        cases b with
        | nil => cases hb
        | cons pre n mid gap t post r => obtain ⟨k, l', -, -, rfl⟩ := h1; simp
      obtain ⟨l', p, rfl⟩ := List.eq_nil_or_concat' l |>.resolve_left hl
      exact this p ⟨l', [], by simp, by simp⟩
    · obtain ⟨x, y, e, -⟩ := (h2.2 p).mp hp
      exact assigns_full b hr.2.2.2.2.2.2.2 h1 p (by rw [e]; simp)
  | map id w c lead b =>
    obtain ⟨l, m, h1, h2, rfl⟩ := h
    exact ⟨trivial, (allM_iff _ _).mpr fun p hp => pairs_full b hr.2.2.2.2.2.2 h1 p (h2.1 p hp)⟩
termination_by structural T
theorem elems_full (b : Elems) {c : Bool} {rest : Str} {l : List Kserd} (hr : b.Reads c rest) (h : b.Means l) : ∀ k ∈ l, NoEmptyCntr k := by
  cases b with
  | nil => subst h; simp
  | cons pre t post r =>
    obtain ⟨k, l', h1, h2, rfl⟩ := h
    exact List.forall_mem_cons.mpr ⟨tree_full t hr.2.1 h1, elems_full r hr.2.2.2 h2⟩
termination_by structural b
theorem assigns_full (b : Assigns) {c : Bool} {rest : Str} {l : List (Str × Kserd)} (hr : b.Reads c rest) (h : b.Means l) : ∀ p ∈ l, NoEmptyCntr p.2 := by
  cases b with
  | nil => subst h; simp
  | cons pre n mid gap t post r =>
    obtain ⟨k, l', h1, h2, rfl⟩ := h
    exact List.forall_mem_cons.mpr ⟨tree_full t hr.2.2.2.2.2.1 h1, assigns_full r hr.2.2.2.2.2.2.2 h2⟩
termination_by structural b
theorem pairs_full (b : Pairs) {c : Bool} {rest : Str} {l : List (Kserd × Kserd)} (hr : b.Reads c rest) (h : b.Means l) :
    ∀ p ∈ l, NoEmptyCntr p.1 ∧ NoEmptyCntr p.2 := by
  cases b with
  | nil => subst h; simp
  | cons pre key mid gap v post r =>
    obtain ⟨k, x, l', h1, h2, h3, rfl⟩ := h
    exact List.forall_mem_cons.mpr ⟨⟨tree_full key hr.2.1 h1, tree_full v hr.2.2.2.2.1 h2⟩, pairs_full r hr.2.2.2.2.2.2 h3⟩
termination_by structural b
end

theorem fieldsOf_unique {l : List (Str × Kserd)} {f g : Fields} (h : FieldsOf l f) (h' : FieldsOf l g) : f = g :=
  BTree.Ascending.ext lawStr h.1 h'.1 fun p => (h.2 p).trans (h'.2 p).symm

theorem entriesOf_unique {l : List (Kserd × Kserd)} (hl : GoodKeys l) {f g : KMap} (h : EntriesOf l f) (h' : EntriesOf l g) : f = g :=
  BTree.Ascending.ext Props.lawKserd (h.2 hl).1 (h'.2 hl).1 fun p => ((h.2 hl).2 p).trans ((h'.2 hl).2 p).symm

mutual
theorem tree_unique (T : Spec.Tree) {inl : Bool} {rest : Str} (hk : T.KeysOk) (hr : T.Reads inl rest) {k k' : Kserd} (h : T.Means k) (h' : T.Means k') : k = k' := by
  cases T with
  | prim id w l => rw [h, h']
  | tuple id w c lead b =>
    obtain ⟨l, h1, rfl⟩ := h
    obtain ⟨l', h1', rfl⟩ := h'
    rw [elems_unique b hk hr.2.2.2.2.2.2.2.2 h1 h1']
  | seq id w c lead b =>
    obtain ⟨l, h1, rfl⟩ := h
    obtain ⟨l', h1', rfl⟩ := h'
    rw [elems_unique b hk hr.2.2.2.2.2.2 h1 h1']
  | cntr id w c lead b =>
    obtain ⟨l, f, h1, h2, rfl⟩ := h
    obtain ⟨l', f', h1', h2', rfl⟩ := h'
    cases assigns_unique b hk hr.2.2.2.2.2.2.2 h1 h1'
    rw [fieldsOf_unique h2 h2']
  | map id w c lead b =>
    obtain ⟨l, f, h1, h2, rfl⟩ := h
    obtain ⟨l', f', h1', h2', rfl⟩ := h'
    obtain ⟨rfl, hg⟩ := pairs_unique b hk hr.2.2.2.2.2.2 h1 h1'
    rw [entriesOf_unique hg h2 h2']
termination_by structural T
theorem elems_unique (b : Elems) {c : Bool} {rest : Str} (hk : b.KeysOk) (hr : b.Reads c rest) {l l' : List Kserd} (h : b.Means l) (h' : b.Means l') : l = l' := by
  cases b with
  | nil => rw [h, h']
  | cons pre t post r =>
    obtain ⟨k, l1, h1, h2, rfl⟩ := h
    obtain ⟨k', l1', h1', h2', rfl⟩ := h'
    rw [tree_unique t hk.1 hr.2.1 h1 h1', elems_unique r hk.2 hr.2.2.2 h2 h2']
termination_by structural b
theorem assigns_unique (b : Assigns) {c : Bool} {rest : Str} (hk : b.KeysOk) (hr : b.Reads c rest) {l l' : List (Str × Kserd)} (h : b.Means l) (h' : b.Means l') :
    l = l' := by
  cases b with
  | nil => rw [h, h']
  | cons pre n mid gap t post r =>
    obtain ⟨k, l1, h1, h2, rfl⟩ := h
    obtain ⟨k', l1', h1', h2', rfl⟩ := h'
    rw [tree_unique t hk.1 hr.2.2.2.2.2.1 h1 h1', assigns_unique r hk.2 hr.2.2.2.2.2.2.2 h2 h2']
termination_by structural b
theorem pairs_unique (b : Pairs) {c : Bool} {rest : Str} (hk : b.KeysOk) (hr : b.Reads c rest) {l l' : List (Kserd × Kserd)} (h : b.Means l) (h' : b.Means l') :
    l = l' ∧ GoodKeys l := by
  cases b with
  | nil => subst h; subst h'; exact ⟨rfl, by intro p hp; cases hp⟩
  | cons pre key mid gap v post r =>
    obtain ⟨k, x, l1, h1, h2, h3, rfl⟩ := h
    obtain ⟨k', x', l1', h1', h2', h3', rfl⟩ := h'
    obtain ⟨e, hg⟩ := pairs_unique r hk.2.2.2 hr.2.2.2.2.2.2 h3 h3'
    refine ⟨?_, List.forall_mem_cons.mpr ⟨⟨tree_nums key hk.1 h1, tree_full key hr.2.1 h1⟩, hg⟩⟩
    rw [tree_unique key hk.2.1 hr.2.1 h1 h1', tree_unique v hk.2.2.1 hr.2.2.2.2.1 h2 h2', e]
termination_by structural b
end

/-! ## Lines -/

/-- The keys of the entries have lawful numbers. -/
def KeysLaw (its : List Item) : Prop := ∀ n, ∀ e ∈ entriesFor n its, AllNums lawful e.2.1

theorem valueFor_unique {its : List Item} (hi : KeysLaw its) {n : Str} {k k' : Kserd} (h : ValueFor its n k) (h' : ValueFor its n k') : k = k' := by
  unfold ValueFor at h h'
  split at h
  · rename_i he
    rw [if_pos he] at h'
    obtain ⟨m, rfl, -, hm⟩ := h
    obtain ⟨m', rfl, -, hm'⟩ := h'
    rw [AS.mapOf_unique _ (hm (hi n)) (hm' (hi n))]
    intro p hp
    obtain ⟨e, he, rfl⟩ := List.mem_map.mp hp
    exact hi n e he
  · rename_i he
    rw [if_neg he] at h'
    split at h
    · rename_i h2
      rw [if_pos h2] at h'
      rw [h, h']
    · rename_i h2
      rw [if_neg h2] at h'
      rw [h] at h'
      exact Option.some.inj h'

theorem linesOf_unique {its : List Item} (hi : KeysLaw its) {k k' : Kserd} (h : LinesOf its k) (h' : LinesOf its k') : k = k' := by
  obtain ⟨f, rfl, h1, h2, h3⟩ := h
  obtain ⟨f', rfl, h1', h2', h3'⟩ := h'
  have : ∀ p, p ∈ f ↔ p ∈ f' := by
    rintro ⟨n, x⟩
    constructor
    · intro hp
      obtain ⟨y, hy⟩ := (h2' n).mpr ((h2 n).mp ⟨x, hp⟩)
      rwa [valueFor_unique hi (h3 n x hp) (h3' n y hy)]
    · intro hp
      obtain ⟨y, hy⟩ := (h2 n).mpr ((h2' n).mp ⟨x, hp⟩)
      rwa [valueFor_unique hi (h3' n x hp) (h3 n y hy)]
  rw [BTree.Ascending.ext lawStr h1 h1' this]

mutual
theorem doc_unique (D : Doc) {d : Nat} {rest : Str} (hk : D.KeysOk) (hr : D.Reads d rest) {k k' : Kserd} (h : D.Means k) (h' : D.Means k') : k = k' := by
  cases D with
  | value w t => exact tree_unique t hk hr.2.1 h h'
  | lines l =>
    obtain ⟨its, h1, h2⟩ := h
    obtain ⟨its', h1', h2'⟩ := h'
    obtain ⟨rfl, hi⟩ := lines_unique l hk hr.2 h1 h1'
    exact linesOf_unique hi h2 h2'
termination_by structural D
theorem lines_unique (l : Lines) {d : Nat} {rest : Str} (hk : l.KeysOk) (hr : l.Reads d rest) {its its' : List Item} (h : l.Means its) (h' : l.Means its') :
    its = its' ∧ KeysLaw its := by
  cases l with
  | nil => subst h; subst h'; exact ⟨rfl, by intro n e he; cases he⟩
  | cons skip ind pre x r =>
    obtain ⟨i, its1, h1, h2, rfl⟩ := h
    obtain ⟨i', its1', h1', h2', rfl⟩ := h'
    obtain ⟨e1, g1⟩ := line_unique x hk.1 hr.2.2.2.1 h1 h1'
    obtain ⟨e2, g2⟩ := lines_unique r hk.2 hr.2.2.2.2.2 h2 h2'
    refine ⟨by rw [e1, e2], fun n e he => ?_⟩
    have : entriesFor n (i :: its1) = entriesFor n [i] ++ entriesFor n its1 := by
      simp only [entriesFor, List.filterMap_cons, List.filterMap_nil]
      split <;> simp
    rw [this] at he
    rcases List.mem_append.mp he with he | he
    · exact g1 n e he
    · exact g2 n e he
termination_by structural l
theorem line_unique (x : Line) {d : Nat} {rest : Str} (hk : x.KeysOk) (hr : x.Reads d rest) {i i' : Item} (h : x.Means i) (h' : x.Means i') :
    i = i' ∧ KeysLaw [i] := by
  have none : ∀ {i : Item}, (∀ n, entriesFor n [i] = []) → KeysLaw [i] := fun h n e he => by rw [h] at he; cases he
  have entry : ∀ {n : Str} {j : Option Str} {a v : Kserd}, AllNums lawful a → KeysLaw [.entry n j a v] := by
    intro n j a v ha m e he
    simp only [entriesFor, List.filterMap_cons, List.filterMap_nil] at he
    split at he
    · cases he
    · rename_i b hb
      split at hb
      · cases hb
        rw [List.mem_singleton.mp he]; exact ha
      · cases hb
  cases x with
  | id w n => subst h; subst h'; exact ⟨rfl, none fun _ => rfl⟩
  | field n mid gap t =>
    obtain ⟨k, h1, rfl⟩ := h
    obtain ⟨k', h1', rfl⟩ := h'
    exact ⟨by rw [tree_unique t hk hr.2.2.2.2 h1 h1'], none fun _ => rfl⟩
  | sub g D =>
    obtain ⟨k, h1, rfl⟩ := h
    obtain ⟨k', h1', rfl⟩ := h'
    exact ⟨by rw [doc_unique D hk hr.2 h1 h1'], none fun _ => rfl⟩
  | elem g D =>
    obtain ⟨k, h1, rfl⟩ := h
    obtain ⟨k', h1', rfl⟩ := h'
    exact ⟨by rw [doc_unique D hk hr.2.2 h1 h1'], none fun _ => rfl⟩
  | entry g w key mid gap t =>
    obtain ⟨a, k, h1, h2, rfl⟩ := h
    obtain ⟨a', k', h1', h2', rfl⟩ := h'
    exact ⟨by rw [tree_unique key hk.2.1 hr.2.2.1 h1 h1', tree_unique t hk.2.2 hr.2.2.2.2.2 h2 h2'], entry (tree_nums key hk.1 h1)⟩
  | entryBelow g w key mid gap eol D =>
    obtain ⟨a, k, h1, h2, rfl⟩ := h
    obtain ⟨a', k', h1', h2', rfl⟩ := h'
    exact ⟨by rw [tree_unique key hk.2.1 hr.2.2.1 h1 h1', doc_unique D hk.2.2 hr.2.2.2.2.2.2 h2 h2'], entry (tree_nums key hk.1 h1)⟩
termination_by structural x
end

end KS.GR
