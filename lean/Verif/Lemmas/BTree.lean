import Verif.Lemmas.Order
/-! Laws of the `BTreeMap` model over a lawful key order. -/

namespace KS.BTree

open Spec

variable {κ β : Type}

/-- A key order and key equality that behave on the keys satisfying `P`. -/
structure Lawful (P : κ → Prop) (cmp : κ → κ → Ordering) (eq : κ → κ → Bool) : Prop where
  swap : ∀ a b, cmp b a = (cmp a b).swap
  tr : ∀ a b c, P a → P b → P c → Tr (cmp a b) (cmp b c) (cmp a c)
  eq : ∀ a b, P a → P b → (eq a b = true ↔ cmp a b = .eq)

/-- Insert, replacing key and value of an equal key. -/
def insK (cmp : κ → κ → Ordering) (k : κ) (v : β) : List (κ × β) → List (κ × β)
  | [] => [(k, v)]
  | (k', v') :: r =>
    match cmp k k' with
    | .lt => (k, v) :: (k', v') :: r
    | .eq => (k, v) :: r
    | .gt => (k', v') :: insK cmp k v r

def WSorted (cmp : κ → κ → Ordering) (l : List (κ × β)) : Prop := l.Pairwise (fun a b => cmp a.1 b.1 ≠ .gt)

def Keys (P : κ → Prop) (l : List (κ × β)) : Prop := ∀ p ∈ l, P p.1

variable {P : κ → Prop} {cmp : κ → κ → Ordering} {eq : κ → κ → Bool}

namespace Lawful

theorem refl (h : Lawful P cmp eq) (a : κ) : cmp a a = .eq := by
  have := h.swap a a
  cases hc : cmp a a <;> rw [hc] at this <;> simp at this ⊢

theorem sw (h : Lawful P cmp eq) {a b : κ} {o : Ordering} (hab : cmp a b = o) : cmp b a = o.swap := by
  rw [h.swap a b, hab]

theorem lt_le (h : Lawful P cmp eq) {a b c : κ} (ha : P a) (hb : P b) (hc : P c) (h1 : cmp a b = .lt)
    (h2 : cmp b c ≠ .gt) : cmp a c = .lt := by
  have := h.tr a b c ha hb hc
  rw [h1] at this
  cases h3 : cmp b c <;> rw [h3] at this h2 <;> simp_all [Tr]

theorem le_lt (h : Lawful P cmp eq) {a b c : κ} (ha : P a) (hb : P b) (hc : P c) (h1 : cmp a b ≠ .gt)
    (h2 : cmp b c = .lt) : cmp a c = .lt := by
  have := h.tr a b c ha hb hc
  rw [h2] at this
  cases h3 : cmp a b <;> rw [h3] at this h1 <;> simp_all [Tr]

theorem eq_l (h : Lawful P cmp eq) {a b c : κ} (ha : P a) (hb : P b) (hc : P c) (h1 : cmp a b = .eq) :
    cmp a c = cmp b c := by
  have := h.tr a b c ha hb hc
  rw [h1] at this
  exact this

theorem eq_r (h : Lawful P cmp eq) {a b c : κ} (ha : P a) (hb : P b) (hc : P c) (h1 : cmp b c = .eq) :
    cmp a c = cmp a b := by
  have := h.tr a b c ha hb hc
  rw [h1] at this
  cases h2 : cmp a b <;> rw [h2] at this <;> simpa [Tr] using this

end Lawful

theorem sortInsert_mem (k : κ) (v : β) : ∀ (L : List (κ × β)) (p), p ∈ sortInsert cmp k v L ↔ p = (k, v) ∨ p ∈ L
  | [], p => by simp [sortInsert]
  | (k', v') :: r, p => by
    unfold sortInsert
    split
    · simp
    · simp only [List.mem_cons, sortInsert_mem k v r p]; tauto

theorem sortInsert_sorted (h : Lawful P cmp eq) (k : κ) (v : β) (hk : P k) : ∀ L : List (κ × β),
    Keys P L → WSorted cmp L → WSorted cmp (sortInsert cmp k v L)
  | [], _, _ => by simp [sortInsert, WSorted]
  | (k', v') :: r, hP, hs => by
    have hk' : P k' := hP (k', v') (by simp)
    have hr : Keys P r := fun p hp => hP p (List.mem_cons_of_mem _ hp)
    obtain ⟨hs1, hs2⟩ := List.pairwise_cons.mp hs
    unfold sortInsert
    split
    · rename_i hc
      refine List.pairwise_cons.mpr ⟨?_, hs⟩
      intro p hp
      rcases List.mem_cons.mp hp with rfl | hp
      · simp only [hc]; decide
      · simp only; rw [h.lt_le hk hk' (hr p hp) hc (hs1 p hp)]; decide
    · rename_i hc
      refine List.pairwise_cons.mpr ⟨?_, sortInsert_sorted h k v hk r hr hs2⟩
      intro p hp
      rcases (sortInsert_mem k v r p).mp hp with rfl | hp
      · simp only
        intro hgt
        have := h.sw hgt
        simp only [Ordering.swap] at this
        exact hc this
      · exact hs1 p hp

theorem dedup_mem : ∀ (L : List (κ × β)) (p), p ∈ dedupLast eq L → p ∈ L
  | [], p, h => by simp [dedupLast] at h
  | [q], p, h => by simpa [dedupLast] using h
  | q :: q' :: r, p, h => by
    unfold dedupLast at h
    split at h
    · exact List.mem_cons_of_mem _ (dedup_mem (q' :: r) p h)
    · rcases List.mem_cons.mp h with rfl | h
      · simp
      · exact List.mem_cons_of_mem _ (dedup_mem (q' :: r) p h)

theorem dedup_head (h : Lawful P cmp eq) : ∀ (r : List (κ × β)) (p : κ × β), Keys P (p :: r) →
    ∃ q s, dedupLast eq (p :: r) = q :: s ∧ cmp p.1 q.1 = .eq ∧ P q.1
  | [], p, hP => ⟨p, [], rfl, h.refl _, hP p (by simp)⟩
  | q :: r, p, hP => by
    have hp : P p.1 := hP p (by simp)
    have hq : P q.1 := hP q (by simp)
    unfold dedupLast
    split
    · rename_i he
      obtain ⟨q', s, h1, h2, h3⟩ := dedup_head h r q (fun x hx => hP x (List.mem_cons_of_mem _ hx))
      refine ⟨q', s, h1, ?_, h3⟩
      rw [h.eq_l hp hq h3 ((h.eq _ _ hp hq).mp he)]; exact h2
    · exact ⟨p, _, rfl, h.refl _, hp⟩

theorem dedup_sortInsert (h : Lawful P cmp eq) (k : κ) (v : β) (hk : P k) : ∀ L : List (κ × β),
    Keys P L → WSorted cmp L → dedupLast eq (sortInsert cmp k v L) = insK cmp k v (dedupLast eq L)
  | [], _, _ => rfl
  | [(k', v')], hP, _ => by
    have hk' : P k' := hP (k', v') (by simp)
    have he := h.eq k' k hk' hk
    simp only [sortInsert, dedupLast, insK]
    cases hc : cmp k k'
    · have : eq k k' = false := by
        have := h.eq k k' hk hk'; rw [hc] at this; simpa using this
      simp [dedupLast, this]
    · have : eq k' k = true := he.mpr (by rw [h.sw hc]; rfl)
      simp [dedupLast, this]
    · have : eq k' k = false := by
        rw [h.sw hc] at he; simpa using he
      simp [dedupLast, this]
  | (k', v') :: (k2, v2) :: r, hP, hs => by
    have hk' : P k' := hP (k', v') (by simp)
    have hk2 : P k2 := hP (k2, v2) (by simp)
    have hr : Keys P ((k2, v2) :: r) := fun p hp => hP p (List.mem_cons_of_mem _ hp)
    obtain ⟨hs1, hs2⟩ := List.pairwise_cons.mp hs
    have hle : cmp k' k2 ≠ .gt := hs1 (k2, v2) (by simp)
    have ih := dedup_sortInsert h k v hk ((k2, v2) :: r) hr hs2
    have heq : ∀ a b, P a → P b → (eq a b = if cmp a b = .eq then true else false) := by
      intro a b ha hb
      have := h.eq a b ha hb
      by_cases hh : cmp a b = .eq
      · rw [if_pos hh]; exact this.mpr hh
      · rw [if_neg hh]; cases hx : eq a b
        · rfl
        · exact absurd (this.mp hx) hh
    unfold sortInsert
    cases hc : cmp k k'
    · -- strictly before the head
      obtain ⟨q, s, h1, h2, h3⟩ := dedup_head h ((k2, v2) :: r) (k', v') hP
      simp only [dedupLast] at h1 ⊢
      rw [heq k k' hk hk', hc, if_neg (by decide), h1]
      simp only [Bool.false_eq_true, if_false, insK]
      have : cmp k q.1 = .lt := by rw [h.eq_r hk hk' h3 h2]; exact hc
      rw [this]
    · -- equal to the head: goes behind it
      simp only
      have hk'k : cmp k' k = .eq := by rw [h.sw hc]; rfl
      cases hc2 : cmp k k2
      · have hlt : cmp k' k2 = .lt := by rw [h.eq_l hk' hk hk2 hk'k]; exact hc2
        simp only [sortInsert, hc2] at ih ⊢
        simp only [dedupLast]
        simp only [heq k' k hk' hk, hk'k, heq k' k2 hk' hk2, hlt, heq k k2 hk hk2, hc2, if_true, reduceCtorEq, if_false,
          Bool.false_eq_true]
        simp [insK, hc]
      · simp only [sortInsert, hc2] at ih ⊢
        have h12 : cmp k' k2 = .eq := by rw [h.eq_l hk' hk hk2 hk'k]; exact hc2
        rw [dedupLast, dedupLast]
        simp only [heq k' k2 hk' hk2, h12, if_true]
        exact ih
      · exfalso
        apply hle
        rw [h.eq_l hk' hk hk2 hk'k]; exact hc2
    · simp only
      have hk'k : cmp k' k = .lt := by rw [h.sw hc]; rfl
      cases hc2 : cmp k k2
      · have hlt : cmp k' k2 = .lt := h.lt_le hk' hk hk2 hk'k (by rw [hc2]; decide)
        simp only [sortInsert, hc2] at ih ⊢
        rw [dedupLast, ih, dedupLast]
        simp only [heq k' k hk' hk, hk'k, heq k' k2 hk' hk2, hlt]
        simp [insK, hc]
      all_goals
        simp only [sortInsert, hc2] at ih ⊢
        rw [dedupLast, dedupLast, ih]
        rw [heq k' k2 hk' hk2]
        by_cases h12 : cmp k' k2 = .eq
        · rw [if_pos h12, if_pos rfl, if_pos rfl]
        · rw [if_neg h12]; simp [insK, hc]

theorem stableSort_append (l : List (κ × β)) (p : κ × β) :
    stableSort cmp (l ++ [p]) = sortInsert cmp p.1 p.2 (stableSort cmp l) := by
  simp [stableSort, List.foldl_append]

theorem insK_mem (h : Lawful P cmp eq) (k : κ) (v : β) (hk : P k) : ∀ L : List (κ × β), Keys P L → Ascending cmp L →
    ∀ p, p ∈ insK cmp k v L ↔ p = (k, v) ∨ (p ∈ L ∧ cmp k p.1 ≠ .eq)
  | [], _, _, p => by simp [insK]
  | (k', v') :: r, hP, hs, p => by
    have hk' : P k' := hP (k', v') (by simp)
    have hr : Keys P r := fun p hp => hP p (List.mem_cons_of_mem _ hp)
    obtain ⟨hs1, hs2⟩ := List.pairwise_cons.mp hs
    have ih := insK_mem h k v hk r hr hs2 p
    unfold insK
    cases hc : cmp k k'
    · simp only [List.mem_cons]
      constructor
      · rintro (h1 | h1 | h1)
        · exact Or.inl h1
        · subst h1; exact Or.inr ⟨Or.inl rfl, by simp [hc]⟩
        · refine Or.inr ⟨Or.inr h1, ?_⟩
          rw [h.lt_le hk hk' (hr p h1) hc (by rw [hs1 p h1]; decide)]; decide
      · rintro (h1 | ⟨h1 | h1, -⟩) <;> simp [h1]
    · simp only [List.mem_cons]
      constructor
      · rintro (h1 | h1)
        · exact Or.inl h1
        · refine Or.inr ⟨Or.inr h1, ?_⟩
          rw [h.eq_l hk hk' (hr p h1) hc, hs1 p h1]; decide
      · rintro (h1 | ⟨h1 | h1, h2⟩)
        · exact Or.inl h1
        · subst h1; exact absurd hc h2
        · exact Or.inr h1
    · simp only [List.mem_cons, ih]
      constructor
      · rintro (h1 | h1 | h1)
        · subst h1; exact Or.inr ⟨Or.inl rfl, by simp [hc]⟩
        · exact Or.inl h1
        · exact Or.inr ⟨Or.inr h1.1, h1.2⟩
      · rintro (h1 | ⟨h1 | h1, h2⟩)
        · exact Or.inr (Or.inl h1)
        · exact Or.inl h1
        · exact Or.inr (Or.inr ⟨h1, h2⟩)

theorem insK_sorted (h : Lawful P cmp eq) (k : κ) (v : β) (hk : P k) : ∀ L : List (κ × β), Keys P L → Ascending cmp L →
    Ascending cmp (insK cmp k v L)
  | [], _, _ => by simp [insK, Ascending]
  | (k', v') :: r, hP, hs => by
    have hk' : P k' := hP (k', v') (by simp)
    have hr : Keys P r := fun p hp => hP p (List.mem_cons_of_mem _ hp)
    obtain ⟨hs1, hs2⟩ := List.pairwise_cons.mp hs
    have ih := insK_sorted h k v hk r hr hs2
    unfold insK
    cases hc : cmp k k'
    · refine List.pairwise_cons.mpr ⟨?_, hs⟩
      intro p hp
      rcases List.mem_cons.mp hp with rfl | hp
      · exact hc
      · exact h.lt_le hk hk' (hr p hp) hc (by rw [hs1 p hp]; decide)
    · refine List.pairwise_cons.mpr ⟨?_, hs2⟩
      intro p hp
      simp only
      rw [h.eq_l hk hk' (hr p hp) hc]; exact hs1 p hp
    · refine List.pairwise_cons.mpr ⟨?_, ih⟩
      intro p hp
      rcases (insK_mem h k v hk r hr hs2 p).mp hp with rfl | ⟨hp, -⟩
      · simp only; rw [h.sw hc]; rfl
      · exact hs1 p hp

/-- Everything about `from_iter` at once: what it holds, and in which order. -/
theorem fromIter_spec (h : Lawful P cmp eq) (l : List (κ × β)) (hP : Keys P l) :
    Keys P (stableSort cmp l) ∧ WSorted cmp (stableSort cmp l) ∧
    Keys P (fromIter cmp eq l) ∧ Ascending cmp (fromIter cmp eq l) ∧
    ∀ p, p ∈ fromIter cmp eq l ↔ LastFor (fun a b => cmp a b = .eq) l p := by
  have main : ∀ l' : List (κ × β), Keys P l'.reverse →
      Keys P (stableSort cmp l'.reverse) ∧ WSorted cmp (stableSort cmp l'.reverse) ∧
      Keys P (fromIter cmp eq l'.reverse) ∧ Ascending cmp (fromIter cmp eq l'.reverse) ∧
      ∀ p, p ∈ fromIter cmp eq l'.reverse ↔ LastFor (fun a b => cmp a b = .eq) l'.reverse p := by
    intro l'
    induction l' with
    | nil =>
      intro _
      refine ⟨by simp [Keys, stableSort], by simp [WSorted, stableSort], by simp [Keys, fromIter, stableSort, dedupLast],
        by simp [Ascending, fromIter, stableSort, dedupLast], ?_⟩
      intro p
      simp [fromIter, stableSort, dedupLast, LastFor]
    | cons q r ih =>
      intro hP
      rw [List.reverse_cons] at hP ⊢
      have hq : P q.1 := hP q (by simp)
      obtain ⟨h1, h2, h3, h4, h5⟩ := ih (fun p hp => hP p (List.mem_append_left _ hp))
      generalize r.reverse = l at *
      have e : fromIter cmp eq (l ++ [q]) = insK cmp q.1 q.2 (fromIter cmp eq l) := by
        unfold fromIter
        rw [stableSort_append, dedup_sortInsert h _ _ hq _ h1 h2]
      have hm := insK_mem h q.1 q.2 hq (fromIter cmp eq l) h3 h4
      refine ⟨?_, ?_, ?_, ?_, ?_⟩
      · intro p hp
        rw [stableSort_append, sortInsert_mem] at hp
        rcases hp with rfl | hp
        · exact hq
        · exact h1 p hp
      · rw [stableSort_append]; exact sortInsert_sorted h _ _ hq _ h1 h2
      · intro p hp
        rw [e, hm] at hp
        rcases hp with rfl | hp
        · exact hq
        · exact h3 p hp.1
      · rw [e]; exact insK_sorted h _ _ hq _ h3 h4
      · intro p
        rw [e, hm, h5]
        have hqq : (q.1, q.2) = q := rfl
        rw [hqq]
        constructor
        · rintro (rfl | ⟨⟨b, a, rfl, h7⟩, h8⟩)
          · exact ⟨l, [], rfl, by simp⟩
          · refine ⟨b, a ++ [q], by simp, ?_⟩
            intro x hx
            rcases List.mem_append.mp hx with hx | hx
            · exact h7 x hx
            · simp only [List.mem_singleton] at hx
              subst hx
              intro hh
              rw [h.sw hh] at h8
              exact h8 rfl
        · rintro ⟨b, a, h6, h7⟩
          rcases List.eq_nil_or_concat a with rfl | ⟨a', z, rfl⟩
          · have := List.append_inj' h6 rfl
            simp at this
            exact Or.inl this.2.symm
          · have h6' : l ++ [q] = (b ++ p :: a') ++ [z] := by rw [h6]; simp
            have := List.append_inj' h6' rfl
            obtain ⟨hl, hz⟩ := this
            simp at hz
            subst hz
            refine Or.inr ⟨⟨b, a', hl, fun x hx => h7 x (by simp [hx])⟩, ?_⟩
            intro hh
            exact h7 q (by simp) (by show cmp p.1 q.1 = .eq; rw [h.sw hh]; rfl)
  have := main l.reverse (by rw [List.reverse_reverse]; exact hP)
  rwa [List.reverse_reverse] at this

/-- Two strictly ascending lists with the same members are equal. -/
theorem Ascending.ext (h : Lawful P cmp eq) : ∀ {l m : List (κ × β)}, Ascending cmp l → Ascending cmp m →
    (∀ p, p ∈ l ↔ p ∈ m) → l = m
  | [], [], _, _, _ => rfl
  | [], p :: r, _, _, hh => by have := (hh p).mpr (by simp); simp at this
  | p :: r, [], _, _, hh => by have := (hh p).mp (by simp); simp at this
  | p :: r, q :: s, hl, hm, hh => by
    obtain ⟨l1, l2⟩ := List.pairwise_cons.mp hl
    obtain ⟨m1, m2⟩ := List.pairwise_cons.mp hm
    have irr : ∀ a : κ, cmp a a ≠ .lt := fun a => by rw [h.refl]; decide
    have hpq : p = q := by
      rcases List.mem_cons.mp ((hh p).mp (by simp)) with h1 | h1
      · exact h1
      · rcases List.mem_cons.mp ((hh q).mpr (by simp)) with h2 | h2
        · exact h2.symm
        · have := h.sw (m1 p h1)
          rw [l1 q h2] at this; simp at this
    subst hpq
    have : r = s := by
      apply Ascending.ext h l2 m2
      intro x
      constructor
      · intro hx
        rcases List.mem_cons.mp ((hh x).mp (List.mem_cons_of_mem _ hx)) with h1 | h1
        · subst h1; exact absurd (l1 _ hx) (irr _)
        · exact h1
      · intro hx
        rcases List.mem_cons.mp ((hh x).mpr (List.mem_cons_of_mem _ hx)) with h1 | h1
        · subst h1; exact absurd (m1 _ hx) (irr _)
        · exact h1
    rw [this]

/-- Lookup in an ascending list. -/
theorem get_some (h : Lawful P cmp eq) (k : κ) (hk : P k) : ∀ (L : List (κ × β)), Keys P L → Ascending cmp L → ∀ v,
    (get cmp k L = some v ↔ ∃ k', (k', v) ∈ L ∧ cmp k k' = .eq)
  | [], _, _, v => by simp [get]
  | (k', v') :: r, hP, hs, v => by
    have hk' : P k' := hP (k', v') (by simp)
    have hr : Keys P r := fun p hp => hP p (List.mem_cons_of_mem _ hp)
    obtain ⟨hs1, hs2⟩ := List.pairwise_cons.mp hs
    have ih := get_some h k hk r hr hs2 v
    unfold get
    cases hc : cmp k k'
    · simp only [reduceCtorEq, false_iff]
      rintro ⟨k2, h1, h2⟩
      rcases List.mem_cons.mp h1 with h1 | h1
      · simp only [Prod.mk.injEq] at h1
        rw [h1.1, hc] at h2; simp at h2
      · have := h.lt_le hk hk' (hr _ h1) hc (by rw [hs1 _ h1]; decide)
        rw [this] at h2; simp at h2
    · simp only [Option.some.injEq]
      constructor
      · rintro rfl; exact ⟨k', by simp, hc⟩
      · rintro ⟨k2, h1, h2⟩
        rcases List.mem_cons.mp h1 with h1 | h1
        · simp only [Prod.mk.injEq] at h1; exact h1.2.symm
        · have := h.eq_l hk hk' (hr _ h1) hc
          rw [hs1 _ h1, h2] at this; simp at this
    · simp only [ih, List.mem_cons]
      constructor
      · rintro ⟨k2, h1, h2⟩; exact ⟨k2, Or.inr h1, h2⟩
      · rintro ⟨k2, h1 | h1, h2⟩
        · simp only [Prod.mk.injEq] at h1
          rw [h1.1, hc] at h2; simp at h2
        · exact ⟨k2, h1, h2⟩

/-- Inserting keys in ascending order one after the other rebuilds the list. -/
theorem foldl_insert_sorted (hsw : ∀ a b, cmp b a = (cmp a b).swap) : ∀ (L acc : List (κ × β)),
    Ascending cmp (acc ++ L) → L.foldl (fun m kv => insert cmp kv.1 kv.2 m) acc = acc ++ L
  | [], acc, _ => by simp
  | (k, v) :: r, acc, hs => by
    have hins : ∀ a : List (κ × β), (∀ p ∈ a, cmp p.1 k = .lt) → insert cmp k v a = a ++ [(k, v)] := by
      intro a
      induction a with
      | nil => intros; rfl
      | cons p a ih =>
        intro h2
        have : cmp k p.1 = .gt := by rw [hsw, h2 p (by simp)]; rfl
        obtain ⟨p1, p2⟩ := p
        simp only at this
        simp only [insert, this, List.cons_append]
        rw [ih (fun q hq => h2 q (List.mem_cons_of_mem _ hq))]
    have hlt : ∀ p ∈ acc, cmp p.1 k = .lt := by
      intro p hp
      exact (List.pairwise_append.mp hs).2.2 p hp (k, v) (by simp)
    simp only [List.foldl_cons]
    rw [hins acc hlt]
    have := foldl_insert_sorted hsw r (acc ++ [(k, v)]) (by simpa using hs)
    rw [this]; simp

end KS.BTree

namespace KS

theorem lawStr : BTree.Lawful (fun _ : Str => True) cmpStr (fun a b => a == b) where
  swap := cmpStr_swap
  tr a b c _ _ _ := cmpStr_tr a b c
  eq a b _ _ := by rw [cmpStr_eq]; simp

end KS
