import Verif.Spec.DecodeTy
import Verif.Lemmas.Decode
import Verif.Lemmas.F32
import Verif.Lemmas.ParseTotal
import Mathlib.Data.List.Nodup
/-!
# What decoding returns
-/

namespace KS.F32
open F64 (rneDiv rneDiv_le log2_lt_of_lt log2_two_pow)

/-- The rounded magnitude has at most 24 significant bits. -/
theorem roundTo_dvd {n d : Nat} (hd : 0 < d) : 2 ^ ((roundTo n d).log2 - 23) ∣ roundTo n d := by
  unfold roundTo
  have hqd : n * scale < (n * scale / d + 1) * d := by
    have := Nat.div_add_mod (n * scale) d
    have := Nat.mod_lt (n * scale) hd
    rw [add_mul, mul_comm (n * scale / d)]; omega
  generalize hQ : n * scale / d = q at *
  generalize hS : q.log2 - 23 = s at *
  have hp : 0 < 2 ^ s := Nat.pow_pos (by decide)
  have hR : rneDiv (n * scale) (d * 2 ^ s) ≤ 2 ^ 24 := by
    apply rneDiv_le (Nat.mul_pos hd hp)
    have : q + 1 ≤ 2 ^ (s + 24) := by
      refine le_trans (Nat.lt_log2_self (n := q)) (Nat.pow_le_pow_right (by decide) ?_)
      omega
    calc n * scale ≤ (q + 1) * d := hqd.le
      _ ≤ 2 ^ (s + 24) * d := Nat.mul_le_mul_right _ this
      _ = _ := by rw [pow_add]; ring
  generalize rneDiv (n * scale) (d * 2 ^ s) = R at *
  rcases Nat.lt_or_ge R (2 ^ 24) with hlt | hge
  · have : R * 2 ^ s < 2 ^ (24 + s) := by rw [pow_add]; exact Nat.mul_lt_mul_of_pos_right hlt hp
    have := log2_lt_of_lt this (by omega)
    exact dvd_trans (pow_dvd_pow 2 (by omega)) (Dvd.intro_left _ rfl)
  · have hR' : R = 2 ^ 24 := by omega
    subst hR'
    rw [← pow_add, log2_two_pow]
    exact pow_dvd_pow 2 (by omega)

section
attribute [local irreducible] magLimit roundTo
theorem ofRat_WF (neg : Bool) {n d : Nat} (hd : 0 < d) : (ofRat neg n d).WF := by
  rw [ofRat_eq]
  by_cases h : magLimit ≤ roundTo n d
  · rw [if_pos h]
    trivial
  · rw [if_neg h]
    exact ⟨Nat.not_le.mp h, roundTo_dvd hd⟩
end

theorem ofF64_WF (x : F64) : (ofF64 x).WF := by
  cases x with
  | nan s p =>
    have : p / 2 ^ 29 % 2 ^ 22 < 2 ^ 22 := Nat.mod_lt _ (by decide)
    rw [ofF64, WF]
    constructor
    · have : 1 ≤ 2 ^ 22 := by decide
      omega
    · rw [show 2 ^ 23 = 2 ^ 22 + 2 ^ 22 by decide]; omega
  | inf s => trivial
  | fin s m => exact ofRat_WF s F64.scale_pos

end KS.F32

namespace KS.DT
open KS.Spec KS.Dec

section
attribute [local irreducible] F64.magLimit F64.roundTo F64.WF F64.ofRat
theorem asF64_WF {n : Number} (h : n.WF) : n.asF64.WF := by
  cases n with
  | uint x => rw [Number.asF64]; exact F64.ofRat_WF _ Nat.one_pos
  | int x => rw [Number.asF64]; exact F64.ofRat_WF _ Nat.one_pos
  | float x => rw [Number.asF64]; exact h
end

/-! ## Parts -/

variable {env : TyEnv} {dec : Ty → Kserd → Option Ser}

/-- Nested decoding returns values of the type. -/
def Sound (env : TyEnv) (dec : Ty → Kserd → Option Ser) : Prop :=
  ∀ t k s, AllNums Number.WF k → dec t k = some s → HasTy env s t

theorem tuple_sound (hd : Sound env dec) : ∀ (ts : List Ty) (l : List Kserd) (r : List Ser), (∀ k ∈ l, AllNums Number.WF k) →
    tupleOf dec ts l = some r → HasTys env r ts
  | [], _, r, _, h => by
    simp only [tupleOf, Option.some.injEq] at h; subst h; simp [HasTys]
  | _ :: _, [], r, _, h => by simp [tupleOf] at h
  | t :: ts, k :: ks, r, hl, h => by
    rw [tupleOf] at h
    cases h1 : dec t k with
    | none => rw [h1] at h; cases h
    | some v =>
      rw [h1] at h; simp only at h
      cases h2 : tupleOf dec ts ks with
      | none => rw [h2] at h; cases h
      | some vs =>
        rw [h2] at h; cases h
        rw [HasTys]
        exact ⟨hd _ _ _ (hl k (by simp)) h1, tuple_sound hd ts ks vs (fun x hx => hl x (by simp [hx])) h2⟩

theorem seq_sound (hd : Sound env dec) (t : Ty) : ∀ (l : List Kserd) (r : List Ser), (∀ k ∈ l, AllNums Number.WF k) →
    seqOf (dec t) l = some r → HasTyAll env r t
  | [], r, _, h => by
    simp only [seqOf, Option.some.injEq] at h; subst h; simp [HasTyAll]
  | k :: ks, r, hl, h => by
    rw [seqOf] at h
    cases h1 : dec t k with
    | none => rw [h1] at h; cases h
    | some v =>
      rw [h1] at h; simp only at h
      cases h2 : seqOf (dec t) ks with
      | none => rw [h2] at h; cases h
      | some vs =>
        rw [h2] at h; cases h
        rw [HasTyAll]
        exact ⟨hd _ _ _ (hl k (by simp)) h1, seq_sound hd t ks vs (fun x hx => hl x (by simp [hx])) h2⟩

theorem entries_sound {κ : Type} {deck : κ → Option Ser} {kt vt : Ty} (hd : Sound env dec) :
    ∀ (l : List (κ × Kserd)) (r : List MapOp), (∀ p ∈ l, (∀ s, deck p.1 = some s → HasTy env s kt) ∧ AllNums Number.WF p.2) →
    entriesOf deck (dec vt) l = some r → HasEntries env r kt vt
  | [], r, _, h => by
    simp only [entriesOf, Option.some.injEq] at h; subst h; simp [HasEntries]
  | (k, v) :: ks, r, hl, h => by
    rw [entriesOf] at h
    cases h1 : deck k with
    | none => rw [h1] at h; cases h
    | some k' =>
      rw [h1] at h; simp only at h
      cases h3 : dec vt v with
      | none => rw [h3] at h; cases h
      | some v' =>
        rw [h3] at h; simp only at h
        cases h2 : entriesOf deck (dec vt) ks with
        | none => rw [h2] at h; cases h
        | some vs =>
          rw [h2] at h; cases h
          rw [HasEntries, HasEntry]
          exact ⟨⟨(hl (k, v) (by simp)).1 _ h1, hd _ _ _ (hl (k, v) (by simp)).2 h3⟩, entries_sound hd ks vs (fun x hx => hl x (by simp [hx])) h2⟩

theorem fieldTy_mem : ∀ {fs : List (Str × Ty)} {n : Str} {t : Ty}, fieldTy fs n = some t → (n, t) ∈ fs
  | (m, u) :: r, n, t, h => by
    rw [fieldTy] at h
    split at h
    · rename_i e; cases h; subst e; simp
    · exact List.mem_cons_of_mem _ (fieldTy_mem h)

theorem fieldVal_mem : ∀ {fs : List (Str × Ser)} {n : Str} {t : Ser}, fieldVal fs n = some t → (n, t) ∈ fs
  | (m, u) :: r, n, t, h => by
    rw [fieldVal] at h
    split at h
    · rename_i e; cases h; subst e; simp
    · exact List.mem_cons_of_mem _ (fieldVal_mem h)

theorem collect_sound (hd : Sound env dec) {fs : List (Str × Ty)} : ∀ (l : List (Str × Kserd)) (r : List (Str × Ser)),
    (∀ p ∈ l, AllNums Number.WF p.2) → collect dec fs l = some r → ∀ p ∈ r, ∃ t, (p.1, t) ∈ fs ∧ HasTy env p.2 t
  | [], r, _, h => by simp only [collect, Option.some.injEq] at h; subst h; simp
  | (n, k) :: l, r, hl, h => by
    rw [collect] at h
    cases h0 : fieldTy fs n with
    | none => rw [h0] at h; exact collect_sound hd l r (fun x hx => hl x (by simp [hx])) h
    | some t =>
      rw [h0] at h; simp only at h
      cases h1 : dec t k with
      | none => rw [h1] at h; cases h
      | some v =>
        rw [h1] at h; simp only at h
        cases h2 : collect dec fs l with
        | none => rw [h2] at h; cases h
        | some vs =>
          rw [h2] at h; cases h
          intro p hp
          rcases List.mem_cons.mp hp with rfl | hp
          · exact ⟨t, fieldTy_mem h0, hd _ _ _ (hl (n, k) (by simp)) h1⟩
          · exact collect_sound hd l vs (fun x hx => hl x (by simp [hx])) h2 p hp

theorem assemble_sound {vs : List (Str × Ser)} : ∀ (fs : List (Str × Ty)) (r : List (Str × Ser)),
    (∀ n v t, (n, v) ∈ vs → (n, t) ∈ fs → HasTy env v t) → assemble vs fs = some r → HasFields env r fs
  | [], r, _, h => by simp only [assemble, Option.some.injEq] at h; subst h; simp [HasFields]
  | (n, t) :: fs, r, hv, h => by
    have key : ∀ v, (∀ w, (match (Option.some v : Option Ser) with
        | Option.none => Option.none
        | Option.some v => match assemble vs fs with
          | Option.none => Option.none
          | Option.some r' => Option.some ((n, v) :: r')) = some w → HasTy env v t → HasFields env w ((n, t) :: fs)) := by
      intro v w h hvt
      cases h2 : assemble vs fs with
      | none => rw [h2] at h; cases h
      | some r' =>
        rw [h2] at h; cases h
        rw [HasFields]
        exact ⟨rfl, hvt, assemble_sound fs r' (fun n v t h1 h2 => hv n v t h1 (by simp [h2])) h2⟩
    cases h3 : fieldVal vs n with
    | some w =>
      rw [assemble.eq_def] at h; simp only [h3] at h
      exact key w r h (hv n _ t (fieldVal_mem h3) (by simp))
    | none =>
      rw [assemble.eq_def] at h; simp only [h3] at h
      cases t with
      | option u => exact key Ser.none r h (by rw [HasTy]; trivial)
      | _ => cases h

theorem struct_sound (hd : Sound env dec) {fs : List (Str × Ty)} (hf : (fs.map Prod.fst).Nodup) {l : List (Str × Kserd)} {r : List (Str × Ser)}
    (hl : ∀ p ∈ l, AllNums Number.WF p.2) (h : structOf dec fs l = some r) : HasFields env r fs := by
  rw [structOf] at h
  cases h1 : collect dec fs l with
  | none => rw [h1] at h; cases h
  | some vs =>
    rw [h1] at h; simp only at h
    split at h
    · refine assemble_sound fs r ?_ h
      intro n v t hv ht
      obtain ⟨u, hu, ht'⟩ := collect_sound hd l vs hl h1 _ hv
      have : u = t := by
        have := List.inj_on_of_nodup_map hf hu ht rfl
        exact (Prod.ext_iff.mp this).2
      rw [← this]; exact ht'
    · cases h

theorem zip_sound : ∀ (fs : List (Str × Ty)) (vs : List Ser), HasTys env vs (fs.map Prod.snd) → HasFields env ((fs.map Prod.fst).zip vs) fs
  | [], [], _ => by simp [HasFields]
  | [], _ :: _, h => by simp [HasTys] at h
  | _ :: _, [], h => by simp [HasTys] at h
  | (n, t) :: fs, v :: vs, h => by
    simp only [List.map_cons, HasTys] at h
    simp only [List.map_cons, List.zip_cons_cons, HasFields]
    exact ⟨trivial, h.1, zip_sound fs vs h.2⟩

theorem variant_mem : ∀ {vs : List (Str × VarDef)} {n : Str} {d : VarDef}, variant vs n = some d → (n, d) ∈ vs
  | (m, u) :: r, n, t, h => by
    rw [variant] at h
    split at h
    · rename_i e; cases h; subst e; simp
    · exact List.mem_cons_of_mem _ (variant_mem h)

theorem strKey_sound (he : EnvOk env) {t : Ty} {n : Str} {s : Ser} (h : strKey env t n = some s) : HasTy env s t := by
  cases t with
  | string => cases h; rw [HasTy]; trivial
  | bytes => cases h; rw [HasTy]; trivial
  | char =>
    simp only [strKey] at h
    split at h
    · cases h; rw [HasTy]; trivial
    · cases h
  | named m =>
    simp only [strKey] at h
    split at h
    · rename_i vs hv
      split at h
      · rename_i hm; cases h; rw [HasTy]; exact ⟨vs, hv, (he _ _ hv).1, variant_mem hm⟩
      · cases h
    · cases h
  | _ => cases h

theorem fieldKeys_sound {ns : List Str} : ∀ {m : KMap} {l : List (Str × Kserd)}, fieldKeys ns m = some l → ∀ p ∈ l, ∃ k, (k, p.2) ∈ m
  | [], l, h => by simp only [fieldKeys, Option.some.injEq] at h; subst h; simp
  | (k, v) :: r, l, h => by
    rw [fieldKeys] at h
    split at h
    · rename_i s r' h1 h2
      cases h
      intro p hp
      rcases List.mem_cons.mp hp with rfl | hp
      · exact ⟨k, by simp⟩
      · obtain ⟨k', hk⟩ := fieldKeys_sound h2 p hp
        exact ⟨k', by simp [hk]⟩
    · rename_i r' h1 h2
      cases h
      intro p hp
      obtain ⟨k', hk⟩ := fieldKeys_sound h2 p hp
      exact ⟨k', by simp [hk]⟩
    · cases h

/-- The numbers in the parts handed to the visitor. -/
def PartsOk : Visit → Prop
  | .some x => AllNums Number.WF x
  | .newtype x => AllNums Number.WF x
  | .seq l => ∀ x ∈ l, AllNums Number.WF x
  | .fields f => ∀ p ∈ f, AllNums Number.WF p.2
  | .map m => ∀ p ∈ m, AllNums Number.WF p.1 ∧ AllNums Number.WF p.2
  | _ => True

theorem any_parts {k : Kserd} (h : AllNums Number.WF k) : PartsOk (deserializeAny k) := by
  obtain ⟨id, v⟩ := k
  rw [AllNums, All] at h
  have h := h.2
  cases v with
  | unit => trivial
  | bool b => trivial
  | num n =>
    cases n with
    | uint n => simp only [deserializeAny]; split <;> trivial
    | int n => simp only [deserializeAny]; split <;> trivial
    | float x => trivial
  | str s => trivial
  | barr b => trivial
  | tuple l =>
    rw [AllV] at h
    have hl := (PG.allL_iff _ l).mp h
    match l, id with
    | [], none => intro x hx; cases hx
    | [], some i => simp only [deserializeAny]; split <;> simp [PartsOk]
    | [x], none => exact hl
    | [x], some i => simp only [deserializeAny]; split <;> exact hl _ (by simp)
    | x :: y :: r, none => exact hl
    | x :: y :: r, some i => exact hl
  | cntr f => rw [AllV] at h; exact (PG.allF_iff _ f).mp h
  | seq l => rw [AllV] at h; exact (PG.allL_iff _ l).mp h
  | map m => rw [AllV] at h; exact (PG.allM_iff _ m).mp h

theorem def_sound (he : EnvOk env) (hd : Sound env dec) {m : Str} {d : TyDef} (hm : env m = some d) {k : Kserd} (hk : AllNums Number.WF k) {s : Ser}
    (h : defOf dec d k = some s) : HasTy env s (.named m) := by
  have hdo := he m d hm
  have hp := any_parts hk
  cases d with
  | unitStruct n =>
    simp only [defOf] at h
    split at h
    · cases h; rw [HasTy]; exact hm
    · cases h
  | newtype n t =>
    simp only [defOf] at h
    split at h
    · rename_i x hx
      rw [hx] at hp
      obtain ⟨v, hv, rfl⟩ := Option.map_eq_some_iff.mp h
      rw [HasTy]; exact ⟨t, hm, hd _ _ _ hp hv⟩
    · rename_i x r hx
      rw [hx] at hp
      obtain ⟨v, hv, rfl⟩ := Option.map_eq_some_iff.mp h
      rw [HasTy]; exact ⟨t, hm, hd _ _ _ (hp x (by simp)) hv⟩
    · cases h
  | tupleStruct n ts =>
    simp only [defOf] at h
    split at h
    · rename_i l hx
      rw [hx] at hp
      obtain ⟨v, hv, rfl⟩ := Option.map_eq_some_iff.mp h
      rw [HasTy]; exact ⟨ts, hm, hdo, tuple_sound hd ts l v hp hv⟩
    · cases h
  | struct n fs =>
    simp only [defOf] at h
    split at h
    · rename_i l hx
      rw [hx] at hp
      obtain ⟨v, hv, rfl⟩ := Option.map_eq_some_iff.mp h
      rw [HasTy]; exact ⟨fs, hm, hdo, struct_sound hd hdo hp hv⟩
    · rename_i l hx
      rw [hx] at hp
      split at h
      · rename_i l' hl'
        obtain ⟨v, hv, rfl⟩ := Option.map_eq_some_iff.mp h
        rw [HasTy]; refine ⟨fs, hm, hdo, struct_sound hd hdo ?_ hv⟩
        intro p hpl
        obtain ⟨k', hk'⟩ := fieldKeys_sound hl' p hpl
        exact (hp _ hk').2
      · cases h
    · rename_i l hx
      rw [hx] at hp
      obtain ⟨v, hv, rfl⟩ := Option.map_eq_some_iff.mp h
      rw [HasTy]; exact ⟨fs, hm, hdo, zip_sound fs v (tuple_sound hd _ l v hp hv)⟩
    · cases h
  | enum vs =>
    simp only [defOf] at h
    split at h
    · cases h
    · rename_i i hi
      split at h
      · cases h
      · rename_i d' hd'
        have hmem := variant_mem hd'
        obtain ⟨id, v⟩ := k
        rw [AllNums, All] at hk
        have hk := hk.2
        simp only [Kserd.val_mk] at h
        cases d' with
        | unit =>
          simp only [variantOf] at h
          split at h
          · cases h; rw [HasTy]; exact ⟨vs, hm, hdo.1, hmem⟩
          · cases h; rw [HasTy]; exact ⟨vs, hm, hdo.1, hmem⟩
          all_goals first | cases h | (rename_i heq _; cases heq) | skip
        | newtype t =>
          simp only [variantOf] at h
          split at h
          all_goals first | (rename_i heq _; cases heq; done) | cases h | skip
          rename_i _ x e1 heq
          cases e1
          cases heq
          obtain ⟨v, hv, rfl⟩ := Option.map_eq_some_iff.mp h
          rw [AllV, PG.allL_iff] at hk
          rw [HasTy]; exact ⟨vs, t, hm, hdo.1, hmem, hd _ _ _ (hk x (by simp)) hv⟩
        | tuple ts =>
          simp only [variantOf] at h
          split at h
          all_goals first | (rename_i heq _; cases heq; done) | cases h | skip
          rename_i _ l e1 heq
          cases e1
          cases heq
          split at h
          · obtain ⟨v, hv, rfl⟩ := Option.map_eq_some_iff.mp h
            rw [AllV, PG.allL_iff] at hk
            rw [HasTy]; exact ⟨vs, ts, hm, hdo.1, hmem, tuple_sound hd ts l v hk hv⟩
          · cases h
        | struct fs =>
          simp only [variantOf] at h
          split at h
          all_goals first | (rename_i heq _; cases heq; done) | cases h | skip
          rename_i _ l e1 heq
          cases e1
          cases heq
          obtain ⟨v, hv, rfl⟩ := Option.map_eq_some_iff.mp h
          rw [AllV, PG.allF_iff] at hk
          rw [HasTy]; exact ⟨vs, fs, hm, hdo.1, hmem, hdo.2 _ _ hmem, struct_sound hd (hdo.2 _ _ hmem) hk hv⟩

theorem decodeInt_sound {t : IntTy} {n : Number} {v : Int} (h : decodeInt t n = some v) : t.lo ≤ v ∧ v ≤ t.hi := by
  rw [decodeInt] at h
  cases hs : t.signed with
  | true =>
    rw [hs, if_pos rfl] at h
    split at h
    · split at h
      · rename_i hh; cases h; exact hh
      · cases h
    · cases h
  | false =>
    rw [hs, if_neg (by decide)] at h
    split at h
    · rename_i x _
      split at h
      · rename_i hh; cases h
        refine ⟨?_, hh⟩
        unfold IntTy.lo; rw [hs]; simp
      · cases h
    · cases h

theorem step_sound (he : EnvOk env) (hd : Sound env dec) : Sound env (step env dec) := by
  intro ty k s hk h
  have hp := any_parts hk
  have hnum : ∀ n, k.val = .num n → n.WF := by
    intro n hn
    obtain ⟨id, v⟩ := k
    rw [AllNums, All] at hk
    have := hk.1
    simp only [Kserd.val_mk] at hn
    subst hn
    exact this
  cases ty with
  | unit => simp only [step] at h; split at h <;> cases h; rw [HasTy]; trivial
  | bool => simp only [step] at h; split at h <;> cases h; rw [HasTy]; trivial
  | int t =>
    simp only [step] at h
    split at h
    · obtain ⟨v, hv, rfl⟩ := Option.map_eq_some_iff.mp h
      rw [HasTy]; exact ⟨rfl, decodeInt_sound hv⟩
    · cases h
  | f32 =>
    simp only [step] at h
    split at h
    · cases h; rw [HasTy]; exact F32.ofF64_WF _
    · cases h
  | f64 =>
    simp only [step] at h
    split at h
    · rename_i n hn; cases h; rw [HasTy]; exact asF64_WF (hnum n hn)
    · cases h
  | char => simp only [step] at h; split at h <;> cases h; rw [HasTy]; trivial
  | string =>
    simp only [step] at h
    split at h
    · cases h; rw [HasTy]; trivial
    · obtain ⟨v, _, rfl⟩ := Option.map_eq_some_iff.mp h; rw [HasTy]; trivial
    · cases h
  | bytes => simp only [step] at h; split at h <;> cases h <;> rw [HasTy] <;> trivial
  | option t =>
    simp only [step] at h
    split at h
    · cases h; rw [HasTy]; trivial
    · cases h; rw [HasTy]; trivial
    · rename_i x hx
      rw [hx] at hp
      obtain ⟨v, hv, rfl⟩ := Option.map_eq_some_iff.mp h
      rw [HasTy]; exact hd _ _ _ hp hv
    · cases h
  | seq t =>
    simp only [step] at h
    split at h
    · rename_i l hx
      rw [hx] at hp
      obtain ⟨v, hv, rfl⟩ := Option.map_eq_some_iff.mp h
      rw [HasTy]; exact seq_sound hd t l v hp hv
    · cases h
  | tuple ts =>
    simp only [step] at h
    split at h
    · rename_i l hx
      rw [hx] at hp
      obtain ⟨v, hv, rfl⟩ := Option.map_eq_some_iff.mp h
      rw [HasTy]; exact tuple_sound hd ts l v hp hv
    · cases h
  | map kt vt =>
    simp only [step] at h
    split at h
    · rename_i m hx
      rw [hx] at hp
      obtain ⟨v, hv, rfl⟩ := Option.map_eq_some_iff.mp h
      rw [HasTy]; exact entries_sound hd m v (fun p hpm => ⟨fun s hs => hd _ _ _ (hp p hpm).1 hs, (hp p hpm).2⟩) hv
    · rename_i m hx
      rw [hx] at hp
      obtain ⟨v, hv, rfl⟩ := Option.map_eq_some_iff.mp h
      rw [HasTy]; exact entries_sound hd m v (fun p hpm => ⟨fun s hs => strKey_sound he hs, hp p hpm⟩) hv
    · cases h
  | named n =>
    simp only [step] at h
    split at h
    · cases h
    · rename_i d hm; exact def_sound he hd hm hk h

theorem decode_sound (he : EnvOk env) : ∀ f, Sound env (Dec.decode env f)
  | 0 => by intro t k s _ h; cases h
  | f + 1 => by
    intro t k s hk h
    rw [Dec.decode] at h
    exact step_sound he (decode_sound he f) t k s hk h

/-! ## What holds of every value of a type holds inside -/

mutual
theorem all_hasTy {P : Ser → Prop} (hP : ∀ s t, HasTy env s t → P s) : ∀ (s : Ser) (t : Ty), HasTy env s t → SerAll P s
  | .unit, t, h => by rw [SerAll]; exact hP _ t h
  | .bool _, t, h => by rw [SerAll]; exact hP _ t h
  | .int _ _, t, h => by rw [SerAll]; exact hP _ t h
  | .f32 _, t, h => by rw [SerAll]; exact hP _ t h
  | .f64 _, t, h => by rw [SerAll]; exact hP _ t h
  | .char _, t, h => by rw [SerAll]; exact hP _ t h
  | .str _, t, h => by rw [SerAll]; exact hP _ t h
  | .bytes _, t, h => by rw [SerAll]; exact hP _ t h
  | .none, t, h => by rw [SerAll]; exact hP _ t h
  | .unitStruct _, t, h => by rw [SerAll]; exact hP _ t h
  | .unitVariant _, t, h => by rw [SerAll]; exact hP _ t h
  | .fail _, t, h => by cases t <;> simp [HasTy] at h
  | .some v, t, h => by
    rw [SerAll]; refine ⟨hP _ t h, ?_⟩
    cases t <;> simp only [HasTy] at h
    exact all_hasTy hP v _ h
  | .newtypeStruct n v, t, h => by
    rw [SerAll]; refine ⟨hP _ t h, ?_⟩
    cases t <;> simp only [HasTy] at h
    obtain ⟨_, _, h⟩ := h
    exact all_hasTy hP v _ h
  | .newtypeVariant n v, t, h => by
    rw [SerAll]; refine ⟨hP _ t h, ?_⟩
    cases t <;> simp only [HasTy] at h
    obtain ⟨_, _, _, _, _, h⟩ := h
    exact all_hasTy hP v _ h
  | .seq l, t, h => by
    rw [SerAll]; refine ⟨hP _ t h, ?_⟩
    cases t <;> simp only [HasTy] at h
    exact all_hasTyAll hP l _ h
  | .tuple l, t, h => by
    rw [SerAll]; refine ⟨hP _ t h, ?_⟩
    cases t <;> simp only [HasTy] at h
    exact all_hasTys hP l _ h
  | .tupleStruct n l, t, h => by
    rw [SerAll]; refine ⟨hP _ t h, ?_⟩
    cases t <;> simp only [HasTy] at h
    obtain ⟨_, _, _, h⟩ := h
    exact all_hasTys hP l _ h
  | .tupleVariant n l, t, h => by
    rw [SerAll]; refine ⟨hP _ t h, ?_⟩
    cases t <;> simp only [HasTy] at h
    obtain ⟨_, _, _, _, _, h⟩ := h
    exact all_hasTys hP l _ h
  | .map ops, t, h => by
    rw [SerAll]; refine ⟨hP _ t h, ?_⟩
    cases t <;> simp only [HasTy] at h
    exact all_entries hP ops _ _ h
  | .struct n fs, t, h => by
    rw [SerAll]; refine ⟨hP _ t h, ?_⟩
    cases t <;> simp only [HasTy] at h
    obtain ⟨_, _, _, h⟩ := h
    exact all_fields hP fs _ h
  | .structVariant n fs, t, h => by
    rw [SerAll]; refine ⟨hP _ t h, ?_⟩
    cases t <;> simp only [HasTy] at h
    obtain ⟨_, _, _, _, _, _, h⟩ := h
    exact all_fields hP fs _ h
termination_by structural s => s
theorem all_hasTyAll {P : Ser → Prop} (hP : ∀ s t, HasTy env s t → P s) : ∀ (l : List Ser) (t : Ty), HasTyAll env l t → SerAllL P l
  | [], _, _ => by simp [SerAllL]
  | v :: r, t, h => by
    rw [HasTyAll] at h
    rw [SerAllL]; exact ⟨all_hasTy hP v t h.1, all_hasTyAll hP r t h.2⟩
termination_by structural s => s
theorem all_hasTys {P : Ser → Prop} (hP : ∀ s t, HasTy env s t → P s) : ∀ (l : List Ser) (ts : List Ty), HasTys env l ts → SerAllL P l
  | [], _, _ => by simp [SerAllL]
  | v :: r, [], h => by simp [HasTys] at h
  | v :: r, t :: ts, h => by
    rw [HasTys] at h
    rw [SerAllL]; exact ⟨all_hasTy hP v t h.1, all_hasTys hP r ts h.2⟩
termination_by structural s => s
theorem all_fields {P : Ser → Prop} (hP : ∀ s t, HasTy env s t → P s) : ∀ (l : List (Str × Ser)) (ts : List (Str × Ty)), HasFields env l ts → SerAllF P l
  | [], _, _ => by simp [SerAllF]
  | v :: r, [], h => by simp [HasFields] at h
  | (n, v) :: r, (m, t) :: ts, h => by
    rw [HasFields] at h
    rw [SerAllF]; exact ⟨all_hasTy hP v t h.2.1, all_fields hP r ts h.2.2⟩
termination_by structural s => s
theorem all_entries {P : Ser → Prop} (hP : ∀ s t, HasTy env s t → P s) : ∀ (l : List MapOp) (kt vt : Ty), HasEntries env l kt vt → SerAllO P l
  | [], _, _, _ => by simp [SerAllO]
  | o :: r, kt, vt, h => by
    rw [HasEntries] at h
    rw [SerAllO]; exact ⟨all_entry hP o kt vt h.1, all_entries hP r kt vt h.2⟩
termination_by structural s => s
theorem all_entry {P : Ser → Prop} (hP : ∀ s t, HasTy env s t → P s) : ∀ (o : MapOp) (kt vt : Ty), HasEntry env o kt vt → SerAllOp P o
  | .key _, _, _, h => by simp [HasEntry] at h
  | .value _, _, _, h => by simp [HasEntry] at h
  | .entry k v, kt, vt, h => by
    rw [HasEntry] at h
    rw [SerAllOp]; exact ⟨all_hasTy hP k kt h.1, all_hasTy hP v vt h.2⟩
termination_by structural s => s
end

mutual
theorem serAll_mp {P Q : Ser → Prop} : ∀ s : Ser, SerAll (fun s => P s → Q s) s → SerAll P s → SerAll Q s
  | .some v, h, hs => ⟨h.1 hs.1, serAll_mp v h.2 hs.2⟩
  | .newtypeStruct n v, h, hs => ⟨h.1 hs.1, serAll_mp v h.2 hs.2⟩
  | .newtypeVariant n v, h, hs => ⟨h.1 hs.1, serAll_mp v h.2 hs.2⟩
  | .seq l, h, hs => ⟨h.1 hs.1, serAllL_mp l h.2 hs.2⟩
  | .tuple l, h, hs => ⟨h.1 hs.1, serAllL_mp l h.2 hs.2⟩
  | .tupleStruct n l, h, hs => ⟨h.1 hs.1, serAllL_mp l h.2 hs.2⟩
  | .tupleVariant n l, h, hs => ⟨h.1 hs.1, serAllL_mp l h.2 hs.2⟩
  | .map l, h, hs => ⟨h.1 hs.1, serAllO_mp l h.2 hs.2⟩
  | .struct n l, h, hs => ⟨h.1 hs.1, serAllF_mp l h.2 hs.2⟩
  | .structVariant n l, h, hs => ⟨h.1 hs.1, serAllF_mp l h.2 hs.2⟩
  | .unitStruct _, h, hs => h hs
  | .unitVariant _, h, hs => h hs
  | .fail _, h, hs => h hs
  | .bool _, h, hs => h hs
  | .int _ _, h, hs => h hs
  | .f32 _, h, hs => h hs
  | .f64 _, h, hs => h hs
  | .char _, h, hs => h hs
  | .str _, h, hs => h hs
  | .bytes _, h, hs => h hs
  | .none, h, hs => h hs
  | .unit, h, hs => h hs
termination_by structural s => s
theorem serAllL_mp {P Q : Ser → Prop} : ∀ l : List Ser, SerAllL (fun s => P s → Q s) l → SerAllL P l → SerAllL Q l
  | [], _, _ => trivial
  | v :: r, h, hs => ⟨serAll_mp v h.1 hs.1, serAllL_mp r h.2 hs.2⟩
termination_by structural l => l
theorem serAllF_mp {P Q : Ser → Prop} : ∀ l : List (Str × Ser), SerAllF (fun s => P s → Q s) l → SerAllF P l → SerAllF Q l
  | [], _, _ => trivial
  | (_, v) :: r, h, hs => ⟨serAll_mp v h.1 hs.1, serAllF_mp r h.2 hs.2⟩
termination_by structural l => l
theorem serAllO_mp {P Q : Ser → Prop} : ∀ l : List MapOp, SerAllO (fun s => P s → Q s) l → SerAllO P l → SerAllO Q l
  | [], _, _ => trivial
  | o :: r, h, hs => ⟨serAllOp_mp o h.1 hs.1, serAllO_mp r h.2 hs.2⟩
termination_by structural l => l
theorem serAllOp_mp {P Q : Ser → Prop} : ∀ o : MapOp, SerAllOp (fun s => P s → Q s) o → SerAllOp P o → SerAllOp Q o
  | .key k, h, hs => serAll_mp k h hs
  | .value v, h, hs => serAll_mp v h hs
  | .entry k v, h, hs => ⟨serAll_mp k h.1 hs.1, serAll_mp v h.2 hs.2⟩
termination_by structural o => o
end

end KS.DT
