import Verif.Lemmas.RtMain
/-!
# Assembling a verbose container from its lines
-/

namespace KS.RT
open KS.Spec KS.P KS.Nom KS.BTree

/-- The lines of the fields: one line for a value, one per element for a sequence or map under headings. -/
inductive Coll : List (Str × Kserd) → List CField → Prop
  | nil : Coll [] []
  | direct {n K F cs} : Coll F cs → Coll ((n, K) :: F) (.direct n K :: cs)
  | nested {n K F cs} : Coll F cs → Coll ((n, K) :: F) (.nested n K :: cs)
  | seq {n l F cs} : l ≠ [] → Coll F cs → Coll ((n, .mk none (.seq l)) :: F) (l.map (.seqEntry none n) ++ cs)
  | map {n m F cs} : m ≠ [] → m.Pairwise (fun a b => Kserd.cmp a.1 b.1 = .lt) → Coll F cs →
      Coll ((n, .mk none (.map m)) :: F) (m.map (fun p => .mapEntry none n p.1 p.2) ++ cs)

theorem Coll.append {F1 F2 : List (Str × Kserd)} {c1 c2 : List CField} (h1 : Coll F1 c1) (h2 : Coll F2 c2) : Coll (F1 ++ F2) (c1 ++ c2) := by
  induction h1 with
  | nil => exact h2
  | direct _ ih => exact .direct ih
  | nested _ ih => exact .nested ih
  | seq hl _ ih => rw [List.append_assoc]; exact .seq hl ih
  | map hm hp _ ih => rw [List.append_assoc]; exact .map hm hp ih

section
variable {κ β : Type} {cmp : κ → κ → Ordering}

theorem insert_end (k : κ) (v : β) : ∀ (L : List (κ × β)), (∀ p ∈ L, cmp k p.1 = .gt) → BTree.insert cmp k v L = L ++ [(k, v)]
  | [], _ => rfl
  | (k', v') :: r, h => by
    have h1 := h (k', v') (by simp)
    simp only at h1
    simp only [BTree.insert, h1, insert_end k v r (fun p hp => h p (List.mem_cons_of_mem _ hp)), List.cons_append]

theorem insert_again (k : κ) (v w : β) (hk : cmp k k = .eq) : ∀ (L : List (κ × β)), (∀ p ∈ L, cmp k p.1 = .gt) →
    BTree.insert cmp k v (L ++ [(k, w)]) = L ++ [(k, v)]
  | [], _ => by simp [BTree.insert, hk]
  | (k', v') :: r, h => by
    have h1 := h (k', v') (by simp)
    simp only at h1
    simp only [List.cons_append, BTree.insert, h1, insert_again k v w hk r (fun p hp => h p (List.mem_cons_of_mem _ hp))]

theorem get_end (k : κ) : ∀ (L : List (κ × β)), (∀ p ∈ L, cmp k p.1 = .gt) → BTree.get cmp k L = none
  | [], _ => rfl
  | (k', v') :: r, h => by
    have h1 := h (k', v') (by simp)
    simp only at h1
    simp only [BTree.get, h1, get_end k r (fun p hp => h p (List.mem_cons_of_mem _ hp))]

theorem get_again (k : κ) (w : β) (hk : cmp k k = .eq) : ∀ (L : List (κ × β)), (∀ p ∈ L, cmp k p.1 = .gt) →
    BTree.get cmp k (L ++ [(k, w)]) = some w
  | [], _ => by simp [BTree.get, hk]
  | (k', v') :: r, h => by
    have h1 := h (k', v') (by simp)
    simp only at h1
    simp only [List.cons_append, BTree.get, h1, get_again k w hk r (fun p hp => h p (List.mem_cons_of_mem _ hp))]
end

theorem insert_insK {β : Type} (k : Str) (v : β) : ∀ L : List (Str × β), BTree.insert cmpStr k v L = insK cmpStr k v L
  | [] => rfl
  | (k', v') :: r => by
    cases hc : cmpStr k k' with
    | eq => simp only [BTree.insert, insK, hc]; rw [(cmpStr_eq k k').mp hc]
    | lt => simp only [BTree.insert, insK, hc]
    | gt => simp only [BTree.insert, insK, hc, insert_insK k v r]

theorem fold_ins {β : Type} (g : Str × β → Kserd) : ∀ (L : List (Str × β)) (R : Fields), Ascending cmpStr R →
    (L.Pairwise fun a b => a.1 ≠ b.1) → (∀ p ∈ L, ∀ q ∈ R, p.1 ≠ q.1) →
    Ascending cmpStr (L.foldl (fun r p => BTree.insert cmpStr p.1 (g p) r) R) ∧
    ∀ x, x ∈ L.foldl (fun r p => BTree.insert cmpStr p.1 (g p) r) R ↔ x ∈ R ∨ ∃ p ∈ L, x = (p.1, g p)
  | [], R, hR, _, _ => ⟨hR, fun x => by simp⟩
  | p :: L, R, hR, hp, hd => by
    have hk : Keys (fun _ : Str => True) R := fun _ _ => trivial
    have hm := insK_mem lawStr p.1 (g p) trivial R hk hR
    have hs := insK_sorted lawStr p.1 (g p) trivial R hk hR
    rw [List.pairwise_cons] at hp
    rw [List.foldl_cons, insert_insK]
    have hmem : ∀ x, x ∈ insK cmpStr p.1 (g p) R ↔ x = (p.1, g p) ∨ x ∈ R := by
      intro x
      rw [hm]
      constructor
      · rintro (h | h)
        · exact .inl h
        · exact .inr h.1
      · rintro (h | h)
        · exact .inl h
        · refine .inr ⟨h, fun he => ?_⟩
          exact hd p (by simp) x h ((cmpStr_eq _ _).mp he)
    obtain ⟨h1, h2⟩ := fold_ins g L _ hs hp.2 (by
      intro a ha q hq
      rcases (hmem q).mp hq with rfl | hq
      · exact fun e => hp.1 a ha e.symm
      · exact hd a (List.mem_cons_of_mem _ ha) q hq)
    refine ⟨h1, fun x => ?_⟩
    rw [h2, hmem]
    simp only [List.mem_cons, exists_eq_or_imp]
    tauto

def seqK (p : Str × (Option Str × List Kserd)) : Kserd := .mk p.2.1 (.seq p.2.2)
def mapK (p : Str × (Option Str × KMap)) : Kserd := .mk p.2.1 (.map p.2.2)

theorem step_seqs (n : Str) : ∀ (l : List Kserd) (a : CAcc) (S : List (Str × (Option Str × List Kserd))) (l0 : List Kserd),
    (∀ p ∈ S, cmpStr n p.1 = .gt) → a.seqs = S ++ [(n, (none, l0))] →
    (l.map (CField.seqEntry none n)).foldl CAcc.step a = { a with seqs := S ++ [(n, (none, l0 ++ l))] }
  | [], a, S, l0, _, h => by simp [← h]
  | x :: l, a, S, l0, hS, h => by
    have hk := lawStr.refl n
    have h1 : a.step (.seqEntry none n x) = { a with seqs := S ++ [(n, (none, l0 ++ [x]))] } := by
      simp only [CAcc.step, h, get_again n _ hk S hS, Option.getD_some, Option.none_or, insert_again n _ _ hk S hS]
    rw [List.map_cons, List.foldl_cons, h1, step_seqs n l _ S (l0 ++ [x]) hS rfl]
    simp

theorem step_maps (n : Str) : ∀ (m : KMap) (a : CAcc) (S : List (Str × (Option Str × KMap))) (m0 : KMap),
    (∀ p ∈ S, cmpStr n p.1 = .gt) → (m0 ++ m).Pairwise (fun a b => Kserd.cmp a.1 b.1 = .lt) → a.maps = S ++ [(n, (none, m0))] →
    (m.map (fun p => CField.mapEntry none n p.1 p.2)).foldl CAcc.step a = { a with maps := S ++ [(n, (none, m0 ++ m))] }
  | [], a, S, m0, _, _, h => by simp [← h]
  | (k, v) :: m, a, S, m0, hS, hp, h => by
    have hk := lawStr.refl n
    have hi : BTree.insert Kserd.cmp k v m0 = m0 ++ [(k, v)] := by
      apply insert_end
      intro p hp'
      have := (List.pairwise_append.mp hp).2.2 p hp' (k, v) (by simp)
      rw [cmp_swap, this]; rfl
    have h1 : a.step (.mapEntry none n k v) = { a with maps := S ++ [(n, (none, m0 ++ [(k, v)]))] } := by
      simp only [CAcc.step, h, get_again n _ hk S hS, Option.getD_some, Option.none_or, hi, insert_again n _ _ hk S hS]
    rw [List.map_cons, List.foldl_cons, h1, step_maps n m _ S (m0 ++ [(k, v)]) hS (by simpa using hp) rfl]
    simp

/-- What is collected from the lines. -/
structure Split (F : List (Str × Kserd)) (R : Fields) (S : List (Str × (Option Str × List Kserd))) (M : List (Str × (Option Str × KMap))) : Prop where
  mem : ∀ x, x ∈ F ↔ x ∈ R ∨ (∃ p ∈ S, x = (p.1, seqK p)) ∨ (∃ p ∈ M, x = (p.1, mapK p))
  aR : Ascending cmpStr R
  aS : S.Pairwise fun a b => a.1 ≠ b.1
  aM : M.Pairwise fun a b => a.1 ≠ b.1
  rs : ∀ p ∈ S, ∀ q ∈ R, p.1 ≠ q.1
  rm : ∀ p ∈ M, ∀ q ∈ R, p.1 ≠ q.1
  sm : ∀ p ∈ M, ∀ q ∈ S, p.1 ≠ q.1

theorem Split.finish {F R S M} (h : Split F R S M) (hF : Ascending cmpStr F) (id : Option Str) :
    (CAcc.mk S M R id).finish = .mk id (.cntr F) := by
  have h1 := fold_ins seqK S R h.aR h.aS h.rs
  have h2 := fold_ins mapK M _ h1.1 h.aM (by
    intro p hp q hq
    rcases (h1.2 q).mp hq with hq | ⟨s, hs, rfl⟩
    · exact h.rm p hp q hq
    · exact h.sm p hp s hs)
  have : M.foldl (fun r p => BTree.insert cmpStr p.1 (mapK p) r) (S.foldl (fun r p => BTree.insert cmpStr p.1 (seqK p) r) R) = F := by
    apply Ascending.ext lawStr h2.1 hF
    intro x
    rw [h2.2, h1.2, h.mem, or_assoc]
  rw [CAcc.finish]
  exact congrArg (fun F => Kserd.mk id (.cntr F)) this

theorem coll_fold {F : List (Str × Kserd)} {cs : List CField} (h : Coll F cs) (hF : Ascending cmpStr F) :
    ∀ (R : Fields) (S : List (Str × (Option Str × List Kserd))) (M : List (Str × (Option Str × KMap))) (id : Option Str),
    (∀ x ∈ F, (∀ p ∈ R, cmpStr x.1 p.1 = .gt) ∧ (∀ p ∈ S, cmpStr x.1 p.1 = .gt) ∧ (∀ p ∈ M, cmpStr x.1 p.1 = .gt)) →
    ∃ R' S' M', cs.foldl CAcc.step ⟨S, M, R, id⟩ = ⟨S ++ S', M ++ M', R ++ R', id⟩ ∧ Split F R' S' M' := by
  induction h with
  | nil =>
    intro R S M id _
    exact ⟨[], [], [], by simp, ⟨by simp, by simp [Ascending], by simp, by simp, by simp, by simp, by simp⟩⟩
  | @direct n K F cs _ ih =>
    intro R S M id hlt
    have hF' := List.pairwise_cons.mp hF
    have h0 := hlt (n, K) (by simp)
    have hgt : ∀ x ∈ F, cmpStr x.1 n = .gt := fun x hx => by rw [cmpStr_swap, hF'.1 x hx]; rfl
    obtain ⟨R', S', M', he, hs⟩ := ih hF'.2 (R ++ [(n, K)]) S M id (by
      intro x hx
      have := hlt x (List.mem_cons_of_mem _ hx)
      refine ⟨?_, this.2⟩
      intro p hp
      rcases List.mem_append.mp hp with hp | hp
      · exact this.1 p hp
      · simp at hp; subst hp; exact hgt x hx)
    refine ⟨(n, K) :: R', S', M', ?_, ?_⟩
    · rw [List.foldl_cons]
      have : CAcc.step ⟨S, M, R, id⟩ (.direct n K) = ⟨S, M, R ++ [(n, K)], id⟩ := by
        simp only [CAcc.step, insert_end n K R h0.1]
      rw [this, he]; simp
    · exact direct_split hs hgt
  | @nested n K F cs _ ih =>
    intro R S M id hlt
    have hF' := List.pairwise_cons.mp hF
    have h0 := hlt (n, K) (by simp)
    have hgt : ∀ x ∈ F, cmpStr x.1 n = .gt := fun x hx => by rw [cmpStr_swap, hF'.1 x hx]; rfl
    obtain ⟨R', S', M', he, hs⟩ := ih hF'.2 (R ++ [(n, K)]) S M id (by
      intro x hx
      have := hlt x (List.mem_cons_of_mem _ hx)
      refine ⟨?_, this.2⟩
      intro p hp
      rcases List.mem_append.mp hp with hp | hp
      · exact this.1 p hp
      · simp at hp; subst hp; exact hgt x hx)
    refine ⟨(n, K) :: R', S', M', ?_, ?_⟩
    · rw [List.foldl_cons]
      have : CAcc.step ⟨S, M, R, id⟩ (.nested n K) = ⟨S, M, R ++ [(n, K)], id⟩ := by
        simp only [CAcc.step, insert_end n K R h0.1]
      rw [this, he]; simp
    · exact direct_split hs hgt
  | @seq n l F cs hl _ ih =>
    intro R S M id hlt
    have hF' := List.pairwise_cons.mp hF
    have h0 := hlt _ (List.mem_cons_self ..)
    have hgt : ∀ x ∈ F, cmpStr x.1 n = .gt := fun x hx => by rw [cmpStr_swap, hF'.1 x hx]; rfl
    obtain ⟨R', S', M', he, hs⟩ := ih hF'.2 R (S ++ [(n, (none, l))]) M id (by
      intro x hx
      have := hlt x (List.mem_cons_of_mem _ hx)
      refine ⟨this.1, ?_, this.2.2⟩
      intro p hp
      rcases List.mem_append.mp hp with hp | hp
      · exact this.2.1 p hp
      · simp at hp; subst hp; exact hgt x hx)
    refine ⟨R', (n, (none, l)) :: S', M', ?_, ?_⟩
    · rw [List.foldl_append]
      obtain ⟨x, l', rfl⟩ := List.exists_cons_of_ne_nil hl
      have h1 : CAcc.step ⟨S, M, R, id⟩ (.seqEntry none n x) = ⟨S ++ [(n, (none, [x]))], M, R, id⟩ := by
        simp only [CAcc.step, get_end n S h0.2.1, Option.getD_none, Option.none_or, insert_end n _ S h0.2.1, List.nil_append]
      rw [List.map_cons, List.foldl_cons, h1, step_seqs n l' _ S [x] h0.2.1 rfl, List.singleton_append, he]
      simp
    · have hk := keys_of hs hgt
      have hm := hs.mem
      refine ⟨?_, hs.aR, ?_, hs.aM, ?_, hs.rm, ?_⟩
      · intro x
        simp only [List.mem_cons, hm, exists_eq_or_imp]
        have : seqK (n, (none, l)) = .mk none (.seq l) := rfl
        rw [this]; simp only [or_assoc, or_left_comm]
      · rw [List.pairwise_cons]
        exact ⟨fun p hp => hk.2.1 p hp, hs.aS⟩
      · intro p hp q hq
        rcases List.mem_cons.mp hp with rfl | hp
        · exact hk.1 q hq
        · exact hs.rs p hp q hq
      · intro p hp q hq
        rcases List.mem_cons.mp hq with rfl | hq
        · exact (hk.2.2 p hp).symm
        · exact hs.sm p hp q hq
  | @map n m F cs hm hpw _ ih =>
    intro R S M id hlt
    have hF' := List.pairwise_cons.mp hF
    have h0 := hlt _ (List.mem_cons_self ..)
    have hgt : ∀ x ∈ F, cmpStr x.1 n = .gt := fun x hx => by rw [cmpStr_swap, hF'.1 x hx]; rfl
    obtain ⟨R', S', M', he, hs⟩ := ih hF'.2 R S (M ++ [(n, (none, m))]) id (by
      intro x hx
      have := hlt x (List.mem_cons_of_mem _ hx)
      refine ⟨this.1, this.2.1, ?_⟩
      intro p hp
      rcases List.mem_append.mp hp with hp | hp
      · exact this.2.2 p hp
      · simp at hp; subst hp; exact hgt x hx)
    refine ⟨R', S', (n, (none, m)) :: M', ?_, ?_⟩
    · rw [List.foldl_append]
      obtain ⟨⟨k, v⟩, m', rfl⟩ := List.exists_cons_of_ne_nil hm
      have h1 : CAcc.step ⟨S, M, R, id⟩ (.mapEntry none n k v) = ⟨S, M ++ [(n, (none, [(k, v)]))], R, id⟩ := by
        simp only [CAcc.step, get_end n M h0.2.2, Option.getD_none, Option.none_or, insert_end n _ M h0.2.2]; rfl
      rw [List.map_cons, List.foldl_cons, h1, step_maps n m' _ M [(k, v)] h0.2.2 hpw rfl, List.singleton_append, he]
      simp
    · have hk := keys_of hs hgt
      have hmm := hs.mem
      refine ⟨?_, hs.aR, hs.aS, ?_, hs.rs, ?_, ?_⟩
      · intro x
        simp only [List.mem_cons, hmm, exists_eq_or_imp]
        have : mapK (n, (none, m)) = .mk none (.map m) := rfl
        rw [this]; simp only [or_assoc, or_left_comm]
      · rw [List.pairwise_cons]
        exact ⟨fun p hp => hk.2.2 p hp, hs.aM⟩
      · intro p hp q hq
        rcases List.mem_cons.mp hp with rfl | hp
        · exact hk.1 q hq
        · exact hs.rm p hp q hq
      · intro p hp q hq
        rcases List.mem_cons.mp hp with rfl | hp
        · exact hk.2.1 q hq
        · exact hs.sm p hp q hq
where
  keys_of {n : Str} {F R S M} (h : Split F R S M) (hgt : ∀ x ∈ F, cmpStr x.1 n = .gt) :
      (∀ p ∈ R, n ≠ p.1) ∧ (∀ p ∈ S, n ≠ p.1) ∧ (∀ p ∈ M, n ≠ p.1) := by
    have key : ∀ x ∈ F, n ≠ x.1 := by
      intro x hx e
      have := hgt x hx
      rw [← e, lawStr.refl] at this; cases this
    refine ⟨fun p hp => key p ((h.mem p).mpr (.inl hp)), fun p hp => ?_, fun p hp => ?_⟩
    · exact key (p.1, seqK p) ((h.mem _).mpr (.inr (.inl ⟨p, hp, rfl⟩)))
    · exact key (p.1, mapK p) ((h.mem _).mpr (.inr (.inr ⟨p, hp, rfl⟩)))
  direct_split {n : Str} {K : Kserd} {F R S M} (h : Split F R S M) (hgt : ∀ x ∈ F, cmpStr x.1 n = .gt) : Split ((n, K) :: F) ((n, K) :: R) S M := by
    have hk := keys_of h hgt
    have hm := h.mem
    refine ⟨?_, ?_, h.aS, h.aM, ?_, ?_, h.sm⟩
    · intro x
      simp only [List.mem_cons, hm, or_assoc]
    · rw [Ascending, List.pairwise_cons]
      refine ⟨fun p hp => ?_, h.aR⟩
      have := hgt p ((hm p).mpr (.inl hp))
      simp only
      rw [cmpStr_swap, this]; rfl
    · intro p hp q hq
      rcases List.mem_cons.mp hq with rfl | hq
      · exact (hk.2.1 p hp).symm
      · exact h.rs p hp q hq
    · intro p hp q hq
      rcases List.mem_cons.mp hq with rfl | hq
      · exact (hk.2.2 p hp).symm
      · exact h.rm p hp q hq

/-- The lines of fields in ascending order give those fields. -/
theorem coll_finish {F : List (Str × Kserd)} {cs : List CField} (h : Coll F cs) (hF : Ascending cmpStr F) (id : Option Str) :
    (cs.foldl CAcc.step ⟨[], [], [], id⟩).finish = .mk id (.cntr F) := by
  obtain ⟨R, S, M, he, hs⟩ := coll_fold h hF [] [] [] id (by simp)
  rw [he]
  exact hs.finish hF id

end KS.RT
