import Verif.Lemmas.Decode
import Verif.Lemmas.Encode
import Verif.Lemmas.BTree
import Verif.Lemmas.Num
import Verif.Props.Float32Exact
/-! The induction behind the serde round trip. -/

namespace KS

open Spec

/-- Encodes to `k`, and `k` decodes at `ty` to a value that is the same. -/
def Rt (env : TyEnv) (s : Ser) (ty : Ty) : Prop :=
  ∃ k s', s.encode = .ok k ∧ (∀ f, k.depth ≤ f → Dec.decode env f ty k = some s') ∧ Same s s'

theorem step_of {env : TyEnv} {ty : Ty} {k : Kserd} {s' : Ser}
    (h : ∀ f, k.val.depth ≤ f → Dec.step env (Dec.decode env f) ty k = some s') :
    ∀ f, k.depth ≤ f → Dec.decode env f ty k = some s' := by
  intro f hf
  rcases k with ⟨i, v⟩
  rw [Kserd.depth] at hf
  cases f with
  | zero => omega
  | succ f => exact h f (by simpa using by omega)

theorem asU128_uint (n : Nat) : Number.asU128 (.uint n) = some n := rfl
theorem asI128_int (n : Int) : Number.asI128 (.int n) = some n := rfl

theorem decodeInt_enc (t : IntTy) (v : Int) (h1 : t.lo ≤ v) (h2 : v ≤ t.hi) :
    decodeInt t (Ser.intNumber t v) = some v := by
  unfold decodeInt Ser.intNumber
  cases hs : t.signed with
  | true => simp [Number.asI128, h1, h2]
  | false =>
    have : 0 ≤ v := by unfold IntTy.lo at h1; rw [hs] at h1; simpa using h1
    simp [Number.asU128, Int.toNat_of_nonneg this, h2]

/-- Elements of a sequence. -/
def RtL (env : TyEnv) (l : List Ser) (t : Ty) : Prop :=
  ∃ ks l', Ser.encodeL l = .ok ks ∧ (∀ f, depthL ks ≤ f → Dec.seqOf (Dec.decode env f t) ks = some l') ∧ SameL l l'

/-- Elements of a tuple. -/
def RtT (env : TyEnv) (l : List Ser) (ts : List Ty) : Prop :=
  ∃ ks l', Ser.encodeL l = .ok ks ∧ ks.length = ts.length ∧
    (∀ f, depthL ks ≤ f → Dec.tupleOf (Dec.decode env f) ts ks = some l') ∧ SameL l l'

/-- Fields: encoded one by one to `es`, which are then inserted; collected, they are the fields again. -/
def RtF (env : TyEnv) (l : List (Str × Ser)) (ds : List (Str × Ty)) : Prop :=
  ∃ es l', (∀ m, Ser.encodeF l m = .ok (es.foldl (fun m e => BTree.insert cmpStr e.1 e.2 m) m)) ∧
    es.map Prod.fst = ds.map Prod.fst ∧ l'.map Prod.fst = ds.map Prod.fst ∧
    (∀ full : List (Str × Ty), (∀ p ∈ ds, Dec.fieldTy full p.1 = some p.2) → ∀ f, (∀ e ∈ es, e.2.depth ≤ f) →
      Dec.collect (Dec.decode env f) full es = some l') ∧ SameF l l'

/-- Entries of a map. -/
def RtM (env : TyEnv) (l : List MapOp) (kt vt : Ty) : Prop :=
  ∃ es l', (∀ key m, Ser.encodeOps l key m = .ok (es.foldl (fun m e => BTree.insert Kserd.cmp e.1 e.2 m) m)) ∧
    (opKeys l).map Ser.encode = es.map (fun e => .ok e.1) ∧
    (∀ f, (∀ e ∈ es, e.1.depth ≤ f ∧ e.2.depth ≤ f) →
      Dec.entriesOf (Dec.decode env f kt) (Dec.decode env f vt) es = some l') ∧ SameO l l'

theorem depthL_le {l : List Kserd} {f : Nat} (h : depthL l ≤ f) : ∀ k ∈ l, k.depth ≤ f :=
  fun _ hk => le_trans (depthL_mem hk) h

/-- A struct body goes through the sorted container and comes back in declaration order. -/
theorem rt_struct {env : TyEnv} {fs : List (Str × Ser)} {ds : List (Str × Ty)} (h : RtF env fs ds)
    (hn : (ds.map Prod.fst).Nodup) :
    ∃ m l', Ser.encodeF fs [] = .ok m ∧ (∀ f, depthF m ≤ f → Dec.structOf (Dec.decode env f) ds m = some l') ∧
      SameF fs l' := by
  obtain ⟨es, l', h1, h2, h3, h4, h5⟩ := h
  refine ⟨_, l', h1 [], ?_, h5⟩
  have hperm := foldl_insert_perm cmpStr es [] (by
    have : (es.map Prod.fst).Nodup := by rw [h2]; exact hn
    rw [List.nodup_iff_pairwise_ne, List.pairwise_map] at this
    refine this.imp ?_
    intro a b hab hc
    exact hab ((cmpStr_eq _ _).mp hc).symm) (by simp)
  rw [List.append_nil] at hperm
  have hperm := hperm.trans (List.reverse_perm es)
  intro f hf
  have hcol := h4 ds (fun p hp => fieldTy_mem hn (by simpa using hp)) f (by
    intro e he
    exact le_trans (depthF_mem (hperm.mem_iff.mpr he)) hf)
  obtain ⟨r', hr, hp⟩ := collect_perm (Dec.decode env f) ds hperm.symm _ hcol
  unfold Dec.structOf
  rw [hr]
  have hnd : (r'.map Prod.fst).Nodup := by
    have : (l'.map Prod.fst).Nodup := by rw [h3]; exact hn
    exact (hp.map Prod.fst).nodup_iff.mp this
  simp only [hnd, if_true]
  exact assemble_all r' hnd ds l' h3 (fun p hp' => hp.mem_iff.mp hp')

theorem rt_map {env : TyEnv} {ops : List MapOp} {kt vt : Ty} (h : RtM env ops kt vt)
    (hd : (opKeys ops).Pairwise (fun a b => ∀ ka kb, a.encode = .ok ka → b.encode = .ok kb →
      Kserd.cmp kb ka ≠ .eq)) :
    ∃ m r, Ser.encodeOps ops Option.none [] = .ok m ∧
      (∀ f, depthM m ≤ f → Dec.entriesOf (Dec.decode env f kt) (Dec.decode env f vt) m = some r) ∧
      ∃ l', SameO ops l' ∧ l'.Perm r := by
  obtain ⟨es, l', h1, h2, h3, h4⟩ := h
  refine ⟨es.foldl (fun m e => BTree.insert Kserd.cmp e.1 e.2 m) [], ?_⟩
  have hpw : es.Pairwise (fun a b => Kserd.cmp b.1 a.1 ≠ .eq) := by
    have key : ∀ (ks : List Ser) (es : List (Kserd × Kserd)), ks.map Ser.encode = es.map (fun e => .ok e.1) →
        ks.Pairwise (fun a b => ∀ ka kb, a.encode = .ok ka → b.encode = .ok kb → Kserd.cmp kb ka ≠ .eq) →
        es.Pairwise (fun a b => Kserd.cmp b.1 a.1 ≠ .eq) := by
      intro ks
      induction ks with
      | nil => intro es h _; cases es with
        | nil => exact List.Pairwise.nil
        | cons => simp at h
      | cons k ks ih =>
        intro es h hp
        cases es with
        | nil => simp at h
        | cons e es =>
          simp only [List.map_cons, List.cons.injEq] at h
          rw [List.pairwise_cons] at hp ⊢
          refine ⟨?_, ih es h.2 hp.2⟩
          intro b hb
          have : (.ok b.1 : Except EncErr Kserd) ∈ ks.map Ser.encode := by
            rw [h.2]; exact List.mem_map.mpr ⟨b, hb, rfl⟩
          obtain ⟨s, hs, hs'⟩ := List.mem_map.mp this
          exact hp.1 s hs _ _ h.1 hs'
    exact key _ _ h2 hd
  have hperm := foldl_insert_perm Kserd.cmp es [] hpw (by simp)
  rw [List.append_nil] at hperm
  have hperm := hperm.trans (List.reverse_perm es)
  have hent := h3 (depthM (es.foldl (fun m e => BTree.insert Kserd.cmp e.1 e.2 m) [])) (by
    intro e he
    have := depthM_mem (hperm.mem_iff.mpr he)
    omega)
  obtain ⟨r, h5, h6⟩ := entriesOf_perm _ _ hperm.symm _ hent
  refine ⟨r, h1 Option.none [], ?_, l', h4, h6⟩
  intro f hf
  rw [← h5]
  apply entriesOf_congr (d1 := Dec.decode env f) (d2 := Dec.decode env _)
    (N := depthM (es.foldl (fun m e => BTree.insert Kserd.cmp e.1 e.2 m) [])) ?_ kt vt _ le_rfl
  intro t k hk
  rw [decode_fuel env t k f (le_trans hk hf), decode_fuel env t k _ hk]

theorem step_named {env : TyEnv} {m : Str} {d : TyDef} (h : env m = some d) (dec : Ty → Kserd → Option Ser) (k : Kserd) :
    Dec.step env dec (.named m) k = Dec.defOf dec d k := by
  simp only [Dec.step, h]

theorem some_visit (i : Str) (k : Kserd) : deserializeAny (.mk (some i) (.tuple [k])) =
    if i = str "Some" then .some k else .newtype k := rfl

theorem tuple_visit {id : Option Str} {l : List Kserd} (h : id = none ∨ l.length ≠ 1)
    (h2 : ¬ (id = some (str "None") ∧ l = [])) : deserializeAny (.mk id (.tuple l)) = .seq l := by
  rcases l with _ | ⟨a, _ | ⟨b, r⟩⟩ <;> rcases id with _ | i
  · rfl
  · have : i ≠ str "None" := by rintro rfl; exact h2 ⟨rfl, rfl⟩
    simp [deserializeAny, this]
  · rfl
  · simp at h
  · rfl
  · rfl

mutual
theorem rt_ser (env : TyEnv) : ∀ (s : Ser) (ty : Ty), HasTy env s ty → NamesOk s → Plain s → Rt env s ty
  | .unit, ty, h, _, _ => by
    cases ty <;> simp only [HasTy] at h
    exact ⟨_, .unit, rfl, step_of (fun f _ => rfl), trivial⟩
  | .bool b, ty, h, _, _ => by
    cases ty <;> simp only [HasTy] at h
    exact ⟨_, .bool b, rfl, step_of (fun f _ => rfl), rfl⟩
  | .int t v, ty, h, _, _ => by
    cases ty <;> simp only [HasTy] at h
    obtain ⟨rfl, h1, h2⟩ := h
    refine ⟨_, .int t v, rfl, step_of (fun f _ => ?_), rfl, rfl⟩
    simp only [Dec.step, Kserd.withIdUnchk, Kserd.val_mk, decodeInt_enc t v h1 h2, Option.map_some]
  | .f32 x, ty, h, _, hp => by
    cases ty <;> simp only [HasTy] at h
    simp only [Plain, SerAll] at hp
    refine ⟨_, .f32 (F32.ofF64 (F32.toF64 x)), rfl, step_of (fun f _ => rfl), ?_⟩
    simp only [Same]
    rcases Props.plain32 h hp with ⟨s, p, rfl⟩ | hp
    · exact Or.inr ⟨⟨_, _, rfl⟩, _, _, rfl⟩
    · exact Or.inl hp.symm
  | .f64 x, ty, h, _, _ => by
    cases ty <;> simp only [HasTy] at h
    exact ⟨_, .f64 x, rfl, step_of (fun f _ => rfl), rfl⟩
  | .char c, ty, h, _, _ => by
    cases ty <;> simp only [HasTy] at h
    exact ⟨_, .char c, rfl, step_of (fun f _ => rfl), rfl⟩
  | .str c, ty, h, _, _ => by
    cases ty <;> simp only [HasTy] at h
    exact ⟨_, .str c, rfl, step_of (fun f _ => rfl), rfl⟩
  | .bytes c, ty, h, _, _ => by
    cases ty <;> simp only [HasTy] at h
    exact ⟨_, .bytes c, rfl, step_of (fun f _ => rfl), rfl⟩
  | .none, ty, h, _, _ => by
    cases ty <;> simp only [HasTy] at h
    exact ⟨_, .none, rfl, step_of (fun f _ => rfl), trivial⟩
  | .some v, ty, h, hn, hp => by
    cases ty <;> simp only [HasTy] at h
    rename_i t
    obtain ⟨k, s', h1, h2, h3⟩ := rt_ser env v t h hn.2 hp.2
    refine ⟨.mk (some (str "Some")) (.tuple [k]), .some s', by simp only [Ser.encode, h1]; rfl, step_of (fun f hf => ?_), h3⟩
    simp only [Kserd.val_mk, Value.depth, depthL] at hf
    simp only [Dec.step, some_visit, if_true]
    rw [h2 f (by omega)]; rfl
  | .fail _, ty, h, _, _ => by cases ty <;> simp only [HasTy] at h
  | .seq l, ty, h, hn, hp => by
    cases ty <;> simp only [HasTy] at h
    rename_i t
    obtain ⟨ks, l', h1, h2, h3⟩ := rt_list env l t h hn.2 hp.2
    refine ⟨.mk none (.seq ks), .seq l', by simp only [Ser.encode, h1]; rfl, step_of (fun f hf => ?_), h3⟩
    simp only [Kserd.val_mk, Value.depth] at hf
    simp only [Dec.step, deserializeAny, h2 f hf, Option.map_some]
  | .tuple l, ty, h, hn, hp => by
    cases ty <;> simp only [HasTy] at h
    rename_i ts
    obtain ⟨ks, l', h1, _, h2, h3⟩ := rt_tuple env l ts h hn.2 hp.2
    refine ⟨.mk none (.tuple ks), .tuple l', by simp only [Ser.encode, h1]; rfl, step_of (fun f hf => ?_), h3⟩
    simp only [Kserd.val_mk, Value.depth] at hf
    simp only [Dec.step, tuple_visit (id := none) (l := ks) (Or.inl rfl) (by simp), h2 f hf, Option.map_some]
  | .map ops, ty, h, hn, hp => by
    cases ty <;> simp only [HasTy] at h
    rename_i kt vt
    obtain ⟨m, r, h1, h2, h3⟩ := rt_map (rt_ops env ops kt vt h hn.2 hp.2) hp.1
    refine ⟨.mk none (.map m), .map r, by simp only [Ser.encode, h1]; rfl, step_of (fun f hf => ?_), h3⟩
    simp only [Kserd.val_mk, Value.depth] at hf
    simp only [Dec.step, deserializeAny, h2 f hf, Option.map_some]
  | .unitStruct n, ty, h, hn, hp => by
    cases ty <;> simp only [HasTy] at h
    refine ⟨_, .unitStruct n, encId_ok _ hn, step_of (fun f hf => ?_), rfl⟩
    rw [step_named h]; rfl
  | .unitVariant n, ty, h, hn, hp => by
    cases ty <;> simp only [HasTy] at h
    obtain ⟨vs, h, h1, h2⟩ := h
    refine ⟨_, .unitVariant n, encId_ok _ hn, step_of (fun f hf => ?_), rfl⟩
    rw [step_named h]
    simp only [Dec.defOf, Kserd.id_mk, variant_mem h1 h2, Kserd.val_mk, Dec.variantOf]
  | .newtypeStruct n v, ty, h, hn, hp => by
    cases ty <;> simp only [HasTy] at h
    obtain ⟨t, h, ht⟩ := h
    obtain ⟨k, s', h1, h2, h3⟩ := rt_ser env v t ht hn.2 hp.2
    refine ⟨_, .newtypeStruct n s', by simp only [Ser.encode, h1]; exact encId_ok _ hn.1, step_of (fun f hf => ?_), rfl, h3⟩
    simp only [Kserd.val_mk, Value.depth, depthL] at hf
    rw [step_named h]
    have : n ≠ str "Some" := hp.1
    simp only [Dec.defOf, some_visit, this, if_false, h2 f (by omega), Option.map_some]
  | .newtypeVariant n v, ty, h, hn, hp => by
    cases ty <;> simp only [HasTy] at h
    obtain ⟨vs, t, h, h4, h5, ht⟩ := h
    obtain ⟨k, s', h1, h2, h3⟩ := rt_ser env v t ht hn.2 hp.2
    refine ⟨_, .newtypeVariant n s', by simp only [Ser.encode, h1]; exact encId_ok _ hn.1, step_of (fun f hf => ?_), rfl, h3⟩
    simp only [Kserd.val_mk, Value.depth, depthL] at hf
    rw [step_named h]
    simp only [Dec.defOf, Kserd.id_mk, variant_mem h4 h5, Kserd.val_mk, Dec.variantOf, h2 f (by omega), Option.map_some]
  | .tupleStruct n l, ty, h, hn, hp => by
    cases ty <;> simp only [HasTy] at h
    obtain ⟨ts, h, hlen, ht⟩ := h
    obtain ⟨ks, l', h1, hl, h2, h3⟩ := rt_tuple env l ts ht hn.2 hp.2
    refine ⟨.mk (some n) (.tuple ks), .tupleStruct n l', by
      simp only [Ser.encode, h1, encId_ok _ hn.1]; rfl, step_of (fun f hf => ?_), rfl, h3⟩
    simp only [Kserd.val_mk, Value.depth] at hf
    rw [step_named h]
    simp only [Dec.defOf]
    rw [tuple_visit (Or.inr (by omega)) (by
      rintro ⟨h6, rfl⟩
      simp only [Option.some.injEq] at h6
      have : l = [] := by
        cases l with
        | nil => rfl
        | cons a r =>
          simp only [Ser.encodeL] at h1
          split at h1
          · cases h1
          · split at h1 <;> simp at h1
      exact hp.1 ⟨h6, this⟩)]
    simp only [h2 f hf, Option.map_some]
  | .tupleVariant n l, ty, h, hn, hp => by
    cases ty <;> simp only [HasTy] at h
    obtain ⟨vs, ts, h, h4, h5, ht⟩ := h
    obtain ⟨ks, l', h1, hl, h2, h3⟩ := rt_tuple env l ts ht hn.2 hp.2
    refine ⟨.mk (some n) (.tuple ks), .tupleVariant n l', by
      simp only [Ser.encode, h1, encId_ok _ hn.1]; rfl, step_of (fun f hf => ?_), rfl, h3⟩
    simp only [Kserd.val_mk, Value.depth] at hf
    rw [step_named h]
    simp only [Dec.defOf, Kserd.id_mk, variant_mem h4 h5, Kserd.val_mk, Dec.variantOf, hl, if_true, h2 f hf, Option.map_some]
  | .struct n fs, ty, h, hn, hp => by
    cases ty <;> simp only [HasTy] at h
    obtain ⟨ds, h, hnd, ht⟩ := h
    obtain ⟨m, l', h1, h2, h3⟩ := rt_struct (rt_fields env fs ds ht hn.2 hp.2) hnd
    refine ⟨.mk (some n) (.cntr m), .struct n l', by
      simp only [Ser.encode, h1, encId_ok _ hn.1]; rfl, step_of (fun f hf => ?_), rfl, h3⟩
    simp only [Kserd.val_mk, Value.depth] at hf
    rw [step_named h]
    simp only [Dec.defOf, deserializeAny, h2 f hf, Option.map_some]
  | .structVariant n fs, ty, h, hn, hp => by
    cases ty <;> simp only [HasTy] at h
    obtain ⟨vs, ds, h, h4, h5, hnd, ht⟩ := h
    obtain ⟨m, l', h1, h2, h3⟩ := rt_struct (rt_fields env fs ds ht hn.2 hp.2) hnd
    refine ⟨.mk (some n) (.cntr m), .structVariant n l', by
      simp only [Ser.encode, h1, encId_ok _ hn.1]; rfl, step_of (fun f hf => ?_), rfl, h3⟩
    simp only [Kserd.val_mk, Value.depth] at hf
    rw [step_named h]
    simp only [Dec.defOf, Kserd.id_mk, variant_mem h4 h5, Kserd.val_mk, Dec.variantOf, h2 f hf, Option.map_some]
theorem rt_list (env : TyEnv) : ∀ (l : List Ser) (t : Ty), HasTyAll env l t → SerAllL nameOk l →
    SerAllL plainHere l → RtL env l t
  | [], t, _, _, _ => ⟨[], [], rfl, fun _ _ => rfl, trivial⟩
  | v :: r, t, h, hn, hp => by
    obtain ⟨k, s', h1, h2, h3⟩ := rt_ser env v t h.1 hn.1 hp.1
    obtain ⟨ks, l', h4, h5, h6⟩ := rt_list env r t h.2 hn.2 hp.2
    refine ⟨k :: ks, s' :: l', by simp only [Ser.encodeL, h1, h4], ?_, h3, h6⟩
    intro f hf
    rw [depthL] at hf
    simp only [Dec.seqOf, h2 f (by omega), h5 f (by omega)]
theorem rt_tuple (env : TyEnv) : ∀ (l : List Ser) (ts : List Ty), HasTys env l ts → SerAllL nameOk l →
    SerAllL plainHere l → RtT env l ts
  | [], [], _, _, _ => ⟨[], [], rfl, rfl, fun _ _ => rfl, trivial⟩
  | [], _ :: _, h, _, _ => by simp only [HasTys] at h
  | _ :: _, [], h, _, _ => by simp only [HasTys] at h
  | v :: r, t :: ts, h, hn, hp => by
    obtain ⟨k, s', h1, h2, h3⟩ := rt_ser env v t h.1 hn.1 hp.1
    obtain ⟨ks, l', h4, hl, h5, h6⟩ := rt_tuple env r ts h.2 hn.2 hp.2
    refine ⟨k :: ks, s' :: l', by simp only [Ser.encodeL, h1, h4], by simp [hl], ?_, h3, h6⟩
    intro f hf
    rw [depthL] at hf
    simp only [Dec.tupleOf, h2 f (by omega), h5 f (by omega)]
theorem rt_fields (env : TyEnv) : ∀ (l : List (Str × Ser)) (ds : List (Str × Ty)), HasFields env l ds →
    SerAllF nameOk l → SerAllF plainHere l → RtF env l ds
  | [], [], _, _, _ => ⟨[], [], fun _ => rfl, rfl, rfl, fun _ _ _ _ => rfl, trivial⟩
  | [], _ :: _, h, _, _ => by simp only [HasFields] at h
  | _ :: _, [], h, _, _ => by simp only [HasFields] at h
  | (n, v) :: r, (m, t) :: ts, h, hn, hp => by
    obtain ⟨rfl, hv, hr⟩ := h
    obtain ⟨k, s', h1, h2, h3⟩ := rt_ser env v t hv hn.1 hp.1
    obtain ⟨es, l', h4, h5, h6, h7, h8⟩ := rt_fields env r ts hr hn.2 hp.2
    refine ⟨(n, k) :: es, (n, s') :: l', ?_, by simp [h5], by simp [h6], ?_, rfl, h3, h8⟩
    · intro M; simp only [Ser.encodeF, h1, h4, List.foldl_cons]
    · intro full hf f hd
      have e1 := hf (n, t) (by simp)
      simp only at e1
      simp only [Dec.collect, e1, h2 f (hd (n, k) (by simp)),
        h7 full (fun p hp => hf p (by simp [hp])) f (fun e he => hd e (by simp [he]))]
theorem rt_ops (env : TyEnv) : ∀ (l : List MapOp) (kt vt : Ty), HasEntries env l kt vt →
    SerAllO nameOk l → SerAllO plainHere l → RtM env l kt vt
  | [], _, _, _, _, _ => ⟨[], [], fun _ _ => rfl, rfl, fun _ _ => rfl, trivial⟩
  | o :: r, kt, vt, h, hn, hp => by
    obtain ⟨k, v, k', v', h1, h2, h3, h4, h5⟩ := rt_op env o kt vt h.1 hn.1 hp.1
    obtain ⟨es, l', h6, h7, h8, h9⟩ := rt_ops env r kt vt h.2 hn.2 hp.2
    refine ⟨(k, v) :: es, .entry k' v' :: l', ?_, ?_, ?_, h5, h9⟩
    · intro key M; simp only [Ser.encodeOps, h1, h6, List.foldl_cons]
    · cases o with
      | key a => exact (h.1).elim
      | value a => exact (h.1).elim
      | entry a b =>
        simp only [opKeys, List.map_cons, h7, h2 _ _ rfl]
    · intro f hd
      have := hd (k, v) (by simp)
      simp only [Dec.entriesOf, h3 f this.1, h4 f this.2, h8 f (fun e he => hd e (by simp [he]))]
theorem rt_op (env : TyEnv) : ∀ (o : MapOp) (kt vt : Ty), HasEntry env o kt vt →
    SerAllOp nameOk o → SerAllOp plainHere o → 
    ∃ k v k' v', (∀ key m, Ser.encodeOp o key m = .ok (key, BTree.insert Kserd.cmp k v m)) ∧
      (∀ a b, o = .entry a b → a.encode = .ok k) ∧
      (∀ f, k.depth ≤ f → Dec.decode env f kt k = some k') ∧
      (∀ f, v.depth ≤ f → Dec.decode env f vt v = some v') ∧ SameOp o (.entry k' v')
  | .key _, _, _, h, _, _ => h.elim
  | .value _, _, _, h, _, _ => h.elim
  | .entry a b, kt, vt, h, hn, hp => by
    obtain ⟨k, k', h1, h2, h3⟩ := rt_ser env a kt h.1 hn.1 hp.1
    obtain ⟨v, v', h4, h5, h6⟩ := rt_ser env b vt h.2 hn.2 hp.2
    refine ⟨k, v, k', v', ?_, ?_, h2, h5, h3, h6⟩
    · intro key m; simp only [Ser.encodeOp, h1, h4]
    · intro a' b' he
      injection he with e1 e2
      rw [← e1]; exact h1
end

end KS
