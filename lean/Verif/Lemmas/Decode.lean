import Verif.Lemmas.Encode
import Verif.Lemmas.BTree
/-! Decoding what was encoded. -/

namespace KS

open Spec

/-! ## Depth -/

theorem depthL_mem : ∀ {l : List Kserd} {k : Kserd}, k ∈ l → k.depth ≤ depthL l
  | [], _, h => by simp at h
  | a :: r, k, h => by
    rw [depthL]
    rcases List.mem_cons.mp h with rfl | h
    · omega
    · have := depthL_mem h; omega

theorem depthF_mem : ∀ {l : List (Str × Kserd)} {p : Str × Kserd}, p ∈ l → p.2.depth ≤ depthF l
  | [], _, h => by simp at h
  | (n, a) :: r, p, h => by
    rw [depthF]
    rcases List.mem_cons.mp h with rfl | h
    · simp
    · have := depthF_mem h; omega

theorem depthM_mem : ∀ {l : List (Kserd × Kserd)} {p : Kserd × Kserd}, p ∈ l →
    p.1.depth ≤ depthM l ∧ p.2.depth ≤ depthM l
  | [], _, h => by simp at h
  | (n, a) :: r, p, h => by
    rw [depthM]
    rcases List.mem_cons.mp h with rfl | h
    · simp
    · have := depthM_mem h; omega

/-! ## The fuel of `Dec.decode` is only a device -/

section
variable {d1 d2 : Ty → Kserd → Option Ser} {N : Nat} (hd : ∀ t (k : Kserd), k.depth ≤ N → d1 t k = d2 t k)
include hd

theorem tupleOf_congr : ∀ (ts : List Ty) (l : List Kserd), depthL l ≤ N → Dec.tupleOf d1 ts l = Dec.tupleOf d2 ts l
  | [], _, _ => rfl
  | _ :: _, [], _ => rfl
  | t :: ts, k :: ks, h => by
    rw [depthL] at h
    simp only [Dec.tupleOf, hd t k (by omega), tupleOf_congr ts ks (by omega)]

theorem seqOf_congr (t : Ty) : ∀ (l : List Kserd), depthL l ≤ N → Dec.seqOf (d1 t) l = Dec.seqOf (d2 t) l
  | [], _ => rfl
  | k :: ks, h => by
    rw [depthL] at h
    simp only [Dec.seqOf, hd t k (by omega), seqOf_congr t ks (by omega)]

theorem entriesOf_congr (kt vt : Ty) : ∀ (l : KMap), depthM l ≤ N →
    Dec.entriesOf (d1 kt) (d1 vt) l = Dec.entriesOf (d2 kt) (d2 vt) l
  | [], _ => rfl
  | (k, v) :: ks, h => by
    rw [depthM] at h
    simp only [Dec.entriesOf, hd kt k (by omega), hd vt v (by omega), entriesOf_congr kt vt ks (by omega)]

theorem entriesOfF_congr (g : Str → Option Ser) (vt : Ty) : ∀ (l : Fields), depthF l ≤ N →
    Dec.entriesOf g (d1 vt) l = Dec.entriesOf g (d2 vt) l
  | [], _ => rfl
  | (k, v) :: ks, h => by
    rw [depthF] at h
    simp only [Dec.entriesOf, hd vt v (by omega), entriesOfF_congr g vt ks (by omega)]

theorem collect_congr (fs : List (Str × Ty)) : ∀ (l : Fields), depthF l ≤ N →
    Dec.collect d1 fs l = Dec.collect d2 fs l
  | [], _ => rfl
  | (k, v) :: ks, h => by
    rw [depthF] at h
    simp only [Dec.collect, collect_congr fs ks (by omega)]
    split
    · rfl
    · rw [hd _ v (by omega)]

theorem structOf_congr (fs : List (Str × Ty)) (l : Fields) (h : depthF l ≤ N) :
    Dec.structOf d1 fs l = Dec.structOf d2 fs l := by
  unfold Dec.structOf
  rw [collect_congr hd fs l h]

omit hd in
theorem fieldKeys_depth (ns : List Str) : ∀ (m : KMap) (l : Fields), Dec.fieldKeys ns m = some l → depthF l ≤ depthM m
  | [], l, h => by simp only [Dec.fieldKeys, Option.some.injEq] at h; subst h; simp [depthF]
  | (k, v) :: r, l, h => by
    unfold Dec.fieldKeys at h
    split at h
    · rename_i s r' h1 h2
      simp only [Option.some.injEq] at h; subst h
      rw [depthF, depthM]
      have := fieldKeys_depth ns r r' h2
      omega
    · rename_i r' h1 h2
      simp only [Option.some.injEq] at h; subst h
      rw [depthM]
      have := fieldKeys_depth ns r r' h2
      omega
    · cases h

theorem variantOf_congr (i : Str) (d : VarDef) (v : Value) (h : v.depth ≤ N) :
    Dec.variantOf d1 i d v = Dec.variantOf d2 i d v := by
  unfold Dec.variantOf
  split
  · rfl
  · rfl
  · rename_i t x
    rw [Value.depth, depthL] at h
    rw [hd t x (by omega)]
  · rename_i ts l
    rw [Value.depth] at h
    rw [tupleOf_congr hd ts l h]
  · rename_i fs l
    rw [Value.depth] at h
    rw [structOf_congr hd fs l h]
  · rfl

omit hd in
/-- Every visitor argument is a part of the Kserd. -/
theorem visit_depth (k : Kserd) : (match deserializeAny k with
    | .some x => x.depth < k.depth
    | .newtype x => x.depth < k.depth
    | .seq l => depthL l < k.depth
    | .fields f => depthF f < k.depth
    | .map m => depthM m < k.depth
    | _ => True) := by
  rcases k with ⟨id, v⟩
  cases v with
  | num n =>
    cases n with
    | uint n => by_cases h : n < 2 ^ 64 <;> simp only [deserializeAny, h, if_true, if_false]
    | int i => 
      simp only [deserializeAny]
      by_cases h : - 2 ^ 63 ≤ i ∧ i < 2 ^ 63
      · rw [if_pos h]; trivial
      · rw [if_neg h]; trivial
    | float x => trivial
  | tuple l =>
    rcases l with _ | ⟨a, _ | ⟨b, r⟩⟩ <;> rcases id with _ | i
    · simp [deserializeAny, Kserd.depth, Value.depth]
    · by_cases h : i = str "None" <;> simp [deserializeAny, h, Kserd.depth, Value.depth]
    · simp [deserializeAny, Kserd.depth, Value.depth]
    · by_cases h : i = str "Some" <;> simp only [deserializeAny, h, if_true, if_false, Kserd.depth, Value.depth, depthL] <;> omega
    · simp [deserializeAny, Kserd.depth, Value.depth]
    · simp [deserializeAny, Kserd.depth, Value.depth]
  | _ => simp [deserializeAny, Kserd.depth, Value.depth]

theorem defOf_congr (d : TyDef) (k : Kserd) (h : k.depth ≤ N + 1) : Dec.defOf d1 d k = Dec.defOf d2 d k := by
  have hv := visit_depth k
  have hk : k.val.depth ≤ N := by rcases k with ⟨i, v⟩; rw [Kserd.depth] at h; simp; omega
  unfold Dec.defOf
  cases d with
  | unitStruct n => rfl
  | newtype n t =>
    simp only
    split
    · rename_i x hx; rw [hx] at hv; rw [hd t x (by simp only at hv; omega)]
    · rename_i x y hx; rw [hx] at hv; simp only [depthL] at hv; rw [hd t x (by omega)]
    · rfl
  | tupleStruct n ts =>
    simp only
    split
    · rename_i l hx; rw [hx] at hv; simp only at hv; rw [tupleOf_congr hd ts l (by omega)]
    · rfl
  | struct n fs =>
    simp only
    split
    · rename_i l hx; rw [hx] at hv; simp only at hv; rw [structOf_congr hd fs l (by omega)]
    · rename_i l hx; rw [hx] at hv; simp only at hv
      split
      · rename_i l' hl'
        have := fieldKeys_depth _ _ _ hl'
        rw [structOf_congr hd fs l' (by omega)]
      · rfl
    · rename_i l hx; rw [hx] at hv; simp only at hv; rw [tupleOf_congr hd _ l (by omega)]
    · rfl
  | enum vs =>
    simp only
    split
    · rfl
    · split
      · rfl
      · exact variantOf_congr hd _ _ _ hk
theorem step_congr (env : TyEnv) (ty : Ty) (k : Kserd) (h : k.depth ≤ N + 1) :
    Dec.step env d1 ty k = Dec.step env d2 ty k := by
  have hv := visit_depth k
  unfold Dec.step
  cases ty with
  | option t =>
    simp only
    split <;> try rfl
    rename_i x hx; rw [hx] at hv; simp only at hv; rw [hd t x (by omega)]
  | seq t =>
    simp only
    split
    · rename_i x hx; rw [hx] at hv; simp only at hv; rw [seqOf_congr hd t x (by omega)]
    · rfl
  | tuple t =>
    simp only
    split
    · rename_i x hx; rw [hx] at hv; simp only at hv; rw [tupleOf_congr hd t x (by omega)]
    · rfl
  | map kt vt =>
    simp only
    split
    · rename_i x hx; rw [hx] at hv; simp only at hv; rw [entriesOf_congr hd kt vt x (by omega)]
    · rename_i x hx; rw [hx] at hv; simp only at hv; rw [entriesOfF_congr hd _ vt x (by omega)]
    · rfl
  | named n =>
    simp only
    split
    · rfl
    · exact defOf_congr hd _ k h
  | _ => rfl

end

/-- Extra fuel changes nothing. -/
theorem decode_fuel_succ (env : TyEnv) : ∀ (f : Nat) (ty : Ty) (k : Kserd), k.depth ≤ f →
    Dec.decode env (f + 1) ty k = Dec.decode env f ty k
  | 0, _, k, h => by rcases k with ⟨i, v⟩; rw [Kserd.depth] at h; omega
  | f + 1, ty, k, h => step_congr (fun t k h => decode_fuel_succ env f t k h) env ty k h

/-- Any bound on the depth gives the same result. -/
theorem decode_fuel (env : TyEnv) (ty : Ty) (k : Kserd) (f : Nat) (h : k.depth ≤ f) :
    Dec.decode env f ty k = decode env ty k := by
  unfold decode
  induction f, h using Nat.le_induction with
  | base => rfl
  | succ n hn ih => rw [decode_fuel_succ env n ty k hn, ih]

/-- Decoding follows the structure of the Kserd. -/
theorem decode_step (env : TyEnv) (ty : Ty) (k : Kserd) : decode env ty k = Dec.step env (decode env) ty k := by
  rcases k with ⟨i, v⟩
  have hk : (Kserd.mk i v).depth = v.depth + 1 := by rw [Kserd.depth]
  rw [← decode_fuel env ty _ (v.depth + 1) (by omega)]
  change Dec.step env (Dec.decode env v.depth) ty _ = _
  exact step_congr (N := v.depth) (fun t k h => decode_fuel env t k _ h) env ty _ (by omega)

/-! ## Insertion as permutation -/

theorem insert_perm {κ β : Type} (cmp : κ → κ → Ordering) (k : κ) (v : β) : ∀ (L : List (κ × β)),
    (∀ p ∈ L, cmp k p.1 ≠ .eq) → (BTree.insert cmp k v L).Perm ((k, v) :: L)
  | [], _ => List.Perm.refl _
  | (k', v') :: r, h => by
    unfold BTree.insert
    have h0 := h (k', v') (by simp)
    have hr := insert_perm cmp k v r (fun p hp => h p (by simp [hp]))
    split
    · exact List.Perm.refl _
    · rename_i he; exact absurd he h0
    · exact (hr.cons _).trans (List.Perm.swap _ _ _)

theorem foldl_insert_perm {κ β : Type} (cmp : κ → κ → Ordering) : ∀ (es : List (κ × β)) (L : List (κ × β)),
    es.Pairwise (fun a b => cmp b.1 a.1 ≠ .eq) → (∀ e ∈ es, ∀ p ∈ L, cmp e.1 p.1 ≠ .eq) →
    (es.foldl (fun m e => BTree.insert cmp e.1 e.2 m) L).Perm (es.reverse ++ L)
  | [], L, _, _ => by simp
  | e :: es, L, hp, hL => by
    rw [List.pairwise_cons] at hp
    have h1 := insert_perm cmp e.1 e.2 L (fun p hp => hL e (by simp) p hp)
    have h2 := foldl_insert_perm cmp es (BTree.insert cmp e.1 e.2 L) hp.2 (by
      intro e' he' p hpm
      rcases List.mem_cons.mp (h1.mem_iff.mp hpm) with rfl | hpm
      · exact hp.1 e' he'
      · exact hL e' (by simp [he']) p hpm)
    simp only [List.foldl_cons, List.reverse_cons, List.append_assoc, List.singleton_append]
    exact h2.trans (List.Perm.append_left _ h1)

theorem entriesOf_perm {κ : Type} (f : κ → Option Ser) (g : Kserd → Option Ser) {l l' : List (κ × Kserd)}
    (hp : l.Perm l') : ∀ r, Dec.entriesOf f g l = some r → ∃ r', Dec.entriesOf f g l' = some r' ∧ r.Perm r' := by
  induction hp with
  | nil => intro r h; exact ⟨r, h, List.Perm.refl _⟩
  | cons x _ ih =>
    intro r h
    obtain ⟨k, v⟩ := x
    simp only [Dec.entriesOf] at h ⊢
    split at h
    · cases h
    · split at h
      · cases h
      · split at h
        · cases h
        · rename_i r1 h1
          obtain ⟨r2, h2, h3⟩ := ih _ h1
          simp only [Option.some.injEq] at h; subst h
          rw [h2]
          exact ⟨_, rfl, h3.cons _⟩
  | swap x y l =>
    intro r h
    obtain ⟨k, v⟩ := x
    obtain ⟨k', v'⟩ := y
    simp only [Dec.entriesOf] at h ⊢
    cases h1 : f k' <;> cases h2 : g v' <;> cases h3 : f k <;> cases h4 : g v <;>
      cases h5 : Dec.entriesOf f g l <;> simp only [h1, h2, h3, h4, h5, reduceCtorEq] at h ⊢
    simp only [Option.some.injEq] at h; subst h
    exact ⟨_, rfl, List.Perm.swap _ _ _⟩
  | trans _ _ ih1 ih2 =>
    intro r h
    obtain ⟨r1, h1, h2⟩ := ih1 r h
    obtain ⟨r2, h3, h4⟩ := ih2 r1 h1
    exact ⟨r2, h3, h2.trans h4⟩

theorem collect_perm (dec : Ty → Kserd → Option Ser) (fs : List (Str × Ty)) {l l' : List (Str × Kserd)}
    (hp : l.Perm l') : ∀ r, Dec.collect dec fs l = some r → ∃ r', Dec.collect dec fs l' = some r' ∧ r.Perm r' := by
  induction hp with
  | nil => intro r h; exact ⟨r, h, List.Perm.refl _⟩
  | cons x _ ih =>
    intro r h
    obtain ⟨k, v⟩ := x
    simp only [Dec.collect] at h ⊢
    split at h
    · exact ih r h
    · split at h
      · cases h
      · split at h
        · cases h
        · rename_i r1 h1
          obtain ⟨r2, h2, h3⟩ := ih _ h1
          simp only [Option.some.injEq] at h; subst h
          rw [h2]
          exact ⟨_, rfl, h3.cons _⟩
  | swap x y l =>
    intro r h
    obtain ⟨k, v⟩ := x
    obtain ⟨k', v'⟩ := y
    simp only [Dec.collect] at h ⊢
    cases h1 : Dec.fieldTy fs k' with
    | none => simp only [h1] at h ⊢; exact ⟨r, by simpa [h1] using h, List.Perm.refl _⟩
    | some t' =>
      cases h3 : Dec.fieldTy fs k with
      | none => simp only [h1, h3] at h ⊢; exact ⟨r, h, List.Perm.refl _⟩
      | some t =>
        cases h2 : dec t' v' <;> cases h4 : dec t v <;>
          cases h5 : Dec.collect dec fs l <;> simp only [h1, h2, h3, h4, h5, reduceCtorEq] at h ⊢
        simp only [Option.some.injEq] at h; subst h
        exact ⟨_, rfl, List.Perm.swap _ _ _⟩
  | trans _ _ ih1 ih2 =>
    intro r h
    obtain ⟨r1, h1, h2⟩ := ih1 r h
    obtain ⟨r2, h3, h4⟩ := ih2 r1 h1
    exact ⟨r2, h3, h2.trans h4⟩

theorem fieldVal_mem {vs : List (Str × Ser)} (hn : (vs.map Prod.fst).Nodup) {n : Str} {v : Ser} (h : (n, v) ∈ vs) :
    Dec.fieldVal vs n = some v := by
  induction vs with
  | nil => simp at h
  | cons p r ih =>
    obtain ⟨m, w⟩ := p
    simp only [List.map_cons, List.nodup_cons] at hn
    unfold Dec.fieldVal
    rcases List.mem_cons.mp h with h | h
    · simp only [Prod.mk.injEq] at h; rw [if_pos h.1.symm, h.2]
    · rw [if_neg (by
        rintro rfl
        exact hn.1 (List.mem_map.mpr ⟨_, h, rfl⟩)), ih hn.2 h]

theorem fieldTy_mem {vs : List (Str × Ty)} (hn : (vs.map Prod.fst).Nodup) {n : Str} {v : Ty} (h : (n, v) ∈ vs) :
    Dec.fieldTy vs n = some v := by
  induction vs with
  | nil => simp at h
  | cons p r ih =>
    obtain ⟨m, w⟩ := p
    simp only [List.map_cons, List.nodup_cons] at hn
    unfold Dec.fieldTy
    rcases List.mem_cons.mp h with h | h
    · simp only [Prod.mk.injEq] at h; rw [if_pos h.1.symm, h.2]
    · rw [if_neg (by
        rintro rfl
        exact hn.1 (List.mem_map.mpr ⟨_, h, rfl⟩)), ih hn.2 h]

theorem variant_mem {vs : List (Str × VarDef)} (hn : (vs.map Prod.fst).Nodup) {n : Str} {v : VarDef} (h : (n, v) ∈ vs) :
    Dec.variant vs n = some v := by
  induction vs with
  | nil => simp at h
  | cons p r ih =>
    obtain ⟨m, w⟩ := p
    simp only [List.map_cons, List.nodup_cons] at hn
    unfold Dec.variant
    rcases List.mem_cons.mp h with h | h
    · simp only [Prod.mk.injEq] at h; rw [if_pos h.1.symm, h.2]
    · rw [if_neg (by
        rintro rfl
        exact hn.1 (List.mem_map.mpr ⟨_, h, rfl⟩)), ih hn.2 h]

/-- When every field has been collected, the result is the fields in declaration order. -/
theorem assemble_all (vs : List (Str × Ser)) (hn : (vs.map Prod.fst).Nodup) : ∀ (ds : List (Str × Ty))
    (r : List (Str × Ser)), r.map Prod.fst = ds.map Prod.fst → (∀ p ∈ r, p ∈ vs) → Dec.assemble vs ds = some r
  | [], r, h, _ => by
    cases r with
    | nil => rfl
    | cons => simp at h
  | (n, t) :: ds, r, h, hm => by
    cases r with
    | nil => simp at h
    | cons p r =>
      obtain ⟨m, v⟩ := p
      simp only [List.map_cons, List.cons.injEq] at h
      obtain ⟨rfl, h⟩ := h
      unfold Dec.assemble
      rw [fieldVal_mem hn (hm (m, v) (by simp)), assemble_all vs hn ds r h (fun p hp => hm p (by simp [hp]))]

end KS
