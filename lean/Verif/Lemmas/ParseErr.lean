import Verif.Lemmas.ParseTotal
import Verif.Model.ParseErr
/-!
# Lines and offsets of parse errors
-/

namespace KS.PE
open KS.Spec

theorem utf8Len_eq (s : Str) : utf8Len s = bytes s := by
  induction s with
  | nil => rfl
  | cons c r ih => rw [utf8Len, ih]; simp [bytes]

theorem bytes_append (a b : Str) : bytes (a ++ b) = bytes a + bytes b := by simp [bytes]

theorem bytes_pos {s : Str} (h : s ≠ []) : 0 < bytes s := by
  cases s with
  | nil => exact absurd rfl h
  | cons c r =>
    have := Char.utf8Size_pos c
    simp only [bytes, List.map_cons, List.sum_cons]; omega

theorem splitIncl_flatten : ∀ s : Str, (splitIncl s).flatten = s
  | [] => rfl
  | c :: r => by
    rw [splitIncl]
    have ih := splitIncl_flatten r
    split
    · rw [List.flatten_cons, ih]; rfl
    · split
      · rename_i h; rw [h] at ih; rw [← ih]; rfl
      · rename_i l ls h
        rw [h] at ih
        rw [List.flatten_cons] at ih ⊢
        rw [← ih]; rfl

/-- A line with its terminator. -/
def Full (l : Str) : Prop := ∃ x, l = x ++ ['\n'] ∧ '\n' ∉ x

/-- Pieces: all complete lines, but the last may lack its terminator. -/
def Pieces : List Str → Prop
  | [] => True
  | [l] => l ≠ [] ∧ (Full l ∨ '\n' ∉ l)
  | l :: ls => Full l ∧ Pieces ls

theorem full_ne {l : Str} (h : Full l) : l ≠ [] := by
  obtain ⟨x, rfl, _⟩ := h; simp

theorem pieces_cons {l : Str} {ls : List Str} (h : Full l) (hs : Pieces ls) : Pieces (l :: ls) := by
  cases ls with
  | nil => exact ⟨full_ne h, .inl h⟩
  | cons a b => exact ⟨h, hs⟩

theorem full_cons {c : Char} {l : Str} (hc : c ≠ '\n') (h : Full l) : Full (c :: l) := by
  obtain ⟨x, rfl, hx⟩ := h
  exact ⟨c :: x, rfl, by simp [Ne.symm hc, hx]⟩

theorem splitIncl_pieces : ∀ s : Str, Pieces (splitIncl s)
  | [] => trivial
  | c :: r => by
    rw [splitIncl]
    have ih := splitIncl_pieces r
    split
    · rename_i hc; subst hc; exact pieces_cons ⟨[], rfl, by simp⟩ ih
    · rename_i hc
      split
      · exact ⟨by simp, .inr (by simp [Ne.symm hc])⟩
      · rename_i l ls h
        rw [h] at ih
        cases ls with
        | nil => exact ⟨by simp, ih.2.imp (full_cons hc) (fun h => by simp [Ne.symm hc, h])⟩
        | cons a b => exact ⟨full_cons hc ih.1, ih.2⟩

theorem piece_ne {l : Str} {ls : List Str} (h : Pieces (l :: ls)) : l ≠ [] := by
  cases ls with
  | nil => exact h.1
  | cons a b => exact full_ne h.1

theorem pieces_tail {l : Str} {ls : List Str} (h : Pieces (l :: ls)) : Pieces ls := by
  cases ls with
  | nil => trivial
  | cons a b => exact h.2

theorem entries_ge : ∀ (ls : List Str) (off n : Nat), ∀ p ∈ lineEntries off n ls, off ≤ p.1
  | [], _, _, p, h => by simp [lineEntries] at h
  | l :: ls, off, n, p, h => by
    rw [lineEntries] at h
    rcases List.mem_cons.mp h with rfl | h
    · exact Nat.le_refl _
    · have := entries_ge ls _ _ p h; omega

theorem entries_asc : ∀ (ls : List Str) (off n : Nat), Pieces ls → Ascending compare (lineEntries off n ls)
  | [], _, _, _ => by simp [lineEntries, Ascending]
  | l :: ls, off, n, h => by
    rw [lineEntries]
    refine List.pairwise_cons.mpr ⟨?_, entries_asc ls _ _ (pieces_tail h)⟩
    intro p hp
    have h1 := entries_ge ls _ _ p hp
    have h2 := bytes_pos (piece_ne h)
    rw [utf8Len_eq] at h1
    show compare off p.1 = .lt
    rw [Nat.compare_eq_lt]; omega

theorem lawNat : BTree.Lawful (fun _ : Nat => True) compare (fun a b => a == b) where
  swap := fun a b => by rw [Nat.compare_swap]
  tr := fun a b c _ _ _ => by
    rcases Nat.lt_trichotomy a b with h | h | h <;> rcases Nat.lt_trichotomy b c with h' | h' | h' <;>
      simp only [Tr, Nat.compare_eq_lt.mpr, Nat.compare_eq_eq.mpr, Nat.compare_eq_gt.mpr, h, h'] <;>
      first
        | trivial
        | (rw [Nat.compare_eq_lt]; omega)
        | (rw [Nat.compare_eq_gt]; omega)
        | (cases compare a c <;> rfl)
  eq := fun a b _ _ => by rw [Nat.compare_eq_eq, beq_iff_eq]

theorem fromIter_self (ls : List (Nat × (Nat × Str))) (h : Ascending compare ls) :
    BTree.fromIter compare (fun a b => a == b) ls = ls := by
  have hs := BTree.fromIter_spec lawNat ls (fun _ _ => trivial)
  refine BTree.Ascending.ext lawNat hs.2.2.2.1 h ?_
  intro p
  rw [hs.2.2.2.2]
  constructor
  · rintro ⟨a, b, rfl, _⟩; simp
  · intro hp
    obtain ⟨a, b, rfl⟩ := List.append_of_mem hp
    refine ⟨a, b, rfl, ?_⟩
    intro q hq he
    have := (List.pairwise_append.mp h).2.1
    rw [(List.pairwise_cons.mp this).1 q hq] at he
    cases he

theorem chomp_spec (l : Str) (h : Full l ∨ '\n' ∉ l) : ∃ term, l = chomp l ++ term ∧ '\n' ∉ chomp l ∧
    ((term = [] ∧ ¬ Full l) ∨ (term = ['\n'] ∧ ¬ ∃ x, chomp l = x ++ ['\r']) ∨ term = ['\r', '\n']) := by
  rcases h with ⟨x, rfl, hx⟩ | h
  · rcases List.eq_nil_or_concat x with rfl | ⟨y, c, rfl⟩
    · refine ⟨['\n'], rfl, by simp [chomp], .inr (.inl ⟨rfl, ?_⟩)⟩
      rintro ⟨z, hz⟩
      simp [chomp] at hz
    · by_cases hc : c = '\r'
      · subst hc
        have e : chomp (y.concat '\r' ++ ['\n']) = y := by simp [chomp]
        refine ⟨['\r', '\n'], by rw [e]; simp, ?_, .inr (.inr rfl)⟩
        rw [e]; intro hy; exact hx (by simp [hy])
      · have e : chomp (y.concat c ++ ['\n']) = y.concat c := by
          unfold chomp
          simp only [List.concat_eq_append, List.reverse_append, List.reverse_cons, List.reverse_nil, List.nil_append, List.cons_append]
          split
          · rename_i hh; injection hh with _ hh; injection hh with hh _; exact absurd hh hc
          · rename_i hh; injection hh with _ hh; rw [← hh]; simp
          · rename_i hh; exact absurd rfl (hh _)
        refine ⟨['\n'], by rw [e], by rw [e]; exact hx, .inr (.inl ⟨rfl, ?_⟩)⟩
        rw [e]
        rintro ⟨z, hz⟩
        rw [List.concat_eq_append] at hz
        have := (List.append_inj' hz rfl).2
        injection this with this _
        exact hc this
  · have e : chomp l = l := by
      unfold chomp
      split
      · rename_i hh; exfalso; apply h; rw [← List.mem_reverse, hh]; simp
      · rename_i hh; exfalso; apply h; rw [← List.mem_reverse, hh]; simp
      · rfl
    refine ⟨[], by rw [e]; simp, by rw [e]; exact h, .inl ⟨rfl, ?_⟩⟩
    rintro ⟨x, rfl, _⟩
    exact h (by simp)

theorem locate : ∀ (ls : List Str) (off n : Nat) (pre suf : Str), Pieces ls → ls ≠ [] → ls.flatten = pre ++ suf →
    ∃ L1 l L2 p, ls = L1 ++ l :: L2 ∧ pre = L1.flatten ++ p ∧ p <+: l ∧ (p = l → L2 = []) ∧ (∀ x ∈ L1, Full x) ∧
      (Full l ∨ ('\n' ∉ l ∧ L2 = [])) ∧
      getLine (lineEntries off n ls) (off + bytes pre) = some (off + bytes L1.flatten, (n + L1.length, chomp l))
  | [], _, _, _, _, _, h, _ => absurd rfl h
  | [l], off, n, pre, suf, hp, _, he => by
    refine ⟨[], l, [], pre, rfl, rfl, ⟨suf, by simpa using he.symm⟩, fun _ => rfl, by simp, ?_, ?_⟩
    · rcases hp.2 with h | h
      · exact .inl h
      · exact .inr ⟨h, rfl⟩
    · simp [getLine, lineEntries, bytes]
  | l :: l2 :: ls, off, n, pre, suf, hp, _, he => by
    rw [List.flatten_cons] at he
    rcases List.append_eq_append_iff.mp he with ⟨q, hq1, hq2⟩ | ⟨q, hq1, hq2⟩
    · -- the position is behind this line
      obtain ⟨L1, l', L2, p, e1, e2, h1, h2, h3, h4, h5⟩ := locate (l2 :: ls) (off + utf8Len l) (n + 1) q suf (pieces_tail hp) (by simp) hq2
      refine ⟨l :: L1, l', L2, p, by rw [e1]; rfl, by rw [hq1, e2]; simp, h1, h2, ?_, h4, ?_⟩
      · intro x hx
        rcases List.mem_cons.mp hx with rfl | hx
        · exact hp.1
        · exact h3 x hx
      · rw [lineEntries]
        have e : off + bytes pre = off + utf8Len l + bytes q := by rw [hq1, bytes_append, utf8Len_eq]; omega
        rw [getLine, List.filter_cons, if_pos (by simp), e, List.getLast?_cons]
        rw [getLine] at h5
        rw [h5, Option.getD_some, List.flatten_cons, bytes_append, utf8Len_eq, List.length_cons, Nat.add_assoc, Nat.add_assoc,
          Nat.add_comm 1]
    · by_cases hq : q = []
      · subst hq
        simp only [List.append_nil] at hq1
        have hq2' : (l2 :: ls).flatten = [] ++ suf := by simpa using hq2.symm
        obtain ⟨L1, l', L2, p, e1, e2, h1, h2, h3, h4, h5⟩ := locate (l2 :: ls) (off + utf8Len l) (n + 1) [] suf (pieces_tail hp) (by simp) hq2'
        refine ⟨l :: L1, l', L2, p, by rw [e1]; rfl, by rw [← hq1]; simpa using e2, h1, h2, ?_, h4, ?_⟩
        · intro x hx
          rcases List.mem_cons.mp hx with rfl | hx
          · exact hp.1
          · exact h3 x hx
        · rw [lineEntries]
          have e : off + bytes pre = off + utf8Len l + bytes [] := by rw [hq1, utf8Len_eq]; simp [bytes]
          rw [getLine, List.filter_cons, if_pos (by simp), e, List.getLast?_cons]
          rw [getLine] at h5
          rw [h5, Option.getD_some, List.flatten_cons, bytes_append, utf8Len_eq, List.length_cons, Nat.add_assoc, Nat.add_assoc,
            Nat.add_comm 1]
      · refine ⟨[], l, l2 :: ls, pre, rfl, rfl, ⟨q, hq1.symm⟩, ?_, by simp, .inl hp.1, ?_⟩
        · intro e; rw [e] at hq1; simp at hq1; exact absurd hq1 hq
        · have hb := bytes_pos hq
          have hlen : bytes l = bytes pre + bytes q := by rw [hq1, bytes_append]
          rw [lineEntries, getLine, List.filter_cons, if_pos (by simp), List.filter_eq_nil_iff.mpr]
          · simp [bytes]
          · intro p hpp
            have := entries_ge _ _ _ p hpp
            rw [utf8Len_eq] at this
            simp; omega

theorem count_full : ∀ (L : List Str), (∀ x ∈ L, Full x) → L.flatten.count '\n' = L.length ∧ (L.flatten = [] ∨ ∃ b, L.flatten = b ++ ['\n'])
  | [], _ => ⟨rfl, .inl rfl⟩
  | l :: L, h => by
    obtain ⟨x, rfl, hx⟩ := h l (by simp)
    obtain ⟨h1, h2⟩ := count_full L fun y hy => h y (List.mem_cons_of_mem _ hy)
    refine ⟨?_, .inr ?_⟩
    · rw [List.flatten_cons, List.count_append, h1, List.count_append, List.count_eq_zero_of_not_mem hx]
      simp; omega
    · rcases h2 with h2 | ⟨b, h2⟩
      · exact ⟨x, by rw [List.flatten_cons, h2]; simp⟩
      · exact ⟨x ++ ['\n'] ++ b, by rw [List.flatten_cons, h2]; simp⟩

theorem sliceFrom_bytes : ∀ (p r : Str), sliceFrom (bytes p) (p ++ r) = some r
  | [], r => by simp [bytes, sliceFrom]
  | c :: p, r => by
    have hc := Char.utf8Size_pos c
    have e : bytes (c :: p) = c.utf8Size + bytes p := by simp [bytes]
    rw [e]
    obtain ⟨m, hm⟩ : ∃ m, c.utf8Size + bytes p = m + 1 := ⟨c.utf8Size + bytes p - 1, by omega⟩
    rw [hm, List.cons_append, sliceFrom, if_pos (by omega), show m + 1 - c.utf8Size = bytes p by omega]
    exact sliceFrom_bytes p r

end KS.PE
