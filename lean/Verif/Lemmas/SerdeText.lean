import Verif.Lemmas.Serde
import Verif.Spec.SerdeText
import Verif.Props.NumText
import Verif.Props.Float32
/-! The induction behind the round trip of serde values through text. -/

namespace KS.ST

open Spec F64 KS.Props

/-- The Kserd that the text of `k` reads as. -/
def tr (c : FormattingConfig) (k : Kserd) : Kserd := rereadK (hideIds c k)

theorem reread_L {l : List Kserd} : rereadL l = l.map rereadK := by
  induction l with
  | nil => rfl
  | cons a r ih => rw [rereadL, ih]; rfl

theorem reread_F {l : List (Str × Kserd)} : rereadF l = l.map (fun p => (p.1, rereadK p.2)) := by
  induction l with
  | nil => rfl
  | cons a r ih => obtain ⟨n, k⟩ := a; rw [rereadF, ih]; rfl

theorem reread_M {l : List (Kserd × Kserd)} : rereadM l = l.map (fun p => (rereadK p.1, rereadK p.2)) := by
  induction l with
  | nil => rfl
  | cons a r ih => obtain ⟨n, k⟩ := a; rw [rereadM, ih]; rfl

theorem hide_L {c : FormattingConfig} {l : List Kserd} : hideIdsL c l = l.map (hideIds c) := by
  induction l with
  | nil => rfl
  | cons a r ih => rw [hideIdsL, ih]; rfl

theorem hide_F {c : FormattingConfig} {l : List (Str × Kserd)} : hideIdsF c l = l.map (fun p => (p.1, hideIds c p.2)) := by
  induction l with
  | nil => rfl
  | cons a r ih => obtain ⟨n, k⟩ := a; rw [hideIdsF, ih]; rfl

theorem hide_M {c : FormattingConfig} {l : List (Kserd × Kserd)} :
    hideIdsM c l = l.map (fun p => (hideIds c p.1, hideIds c p.2)) := by
  induction l with
  | nil => rfl
  | cons a r ih => obtain ⟨n, k⟩ := a; rw [hideIdsM, ih]; rfl

/-- The configuration shows the identities that carry meaning for serde. -/
structure Names (c : FormattingConfig) : Prop where
  tuples : c.idOnTuples = true
  containers : c.idOnContainers = true

variable {c : FormattingConfig}

theorem tr_tuple (hc : Names c) (id : Option Str) (l : List Kserd) :
    tr c (.mk id (.tuple l)) = .mk id (.tuple (l.map (tr c))) := by
  simp only [tr, hideIds, hideIdsV, rereadK, rereadV, shownId, showsId, hc.tuples, if_true, reread_L, hide_L, List.map_map]
  rfl

theorem tr_seq (id : Option Str) (l : List Kserd) :
    ∃ id', tr c (.mk id (.seq l)) = .mk id' (.seq (l.map (tr c))) := by
  simp only [tr, hideIds, hideIdsV, rereadK, rereadV, reread_L, hide_L, List.map_map]
  exact ⟨_, rfl⟩

theorem tr_map (id : Option Str) (m : List (Kserd × Kserd)) :
    ∃ id', tr c (.mk id (.map m)) = .mk id' (.map (m.map (fun p => (tr c p.1, tr c p.2)))) := by
  simp only [tr, hideIds, hideIdsV, rereadK, rereadV, reread_M, hide_M, List.map_map]
  exact ⟨_, rfl⟩

theorem tr_cntr (hc : Names c) (id : Option Str) (f : List (Str × Kserd)) (hf : f ≠ []) :
    tr c (.mk id (.cntr f)) = .mk id (.cntr (f.map (fun p => (p.1, tr c p.2)))) := by
  have : (hideIdsF c f).isEmpty = false := by
    rw [hide_F]; cases f with
    | nil => exact absurd rfl hf
    | cons => rfl
  simp only [tr, hideIds, hideIdsV, rereadK, rereadV, this, Bool.false_eq_true, if_false, shownId, showsId, hc.containers,
    if_true]
  rw [reread_F, hide_F, List.map_map]
  rfl

theorem tr_cntr_nil (hc : Names c) (id : Option Str) : tr c (.mk id (.cntr [])) = .mk id (.tuple []) := by
  simp [tr, hideIds, hideIdsV, hideIdsF, rereadK, rereadV, shownId, showsId, hc.containers]

theorem tr_num (id : Option Str) (n : Number) : ∃ id', tr c (.mk id (.num n)) = .mk id' (.num (reread n)) := ⟨_, rfl⟩

/-! ## Numbers -/

theorem survive {x : F64} (hx : x.WF) (h : textHere (.f64 x)) : (reread (.float x)).asF64 = x := by
  obtain ⟨h0, hn⟩ := h
  cases x with
  | nan s p =>
    have := hn s p rfl
    simp only [F64.nan.injEq] at this
    obtain ⟨rfl, rfl⟩ := this
    decide +kernel
  | inf s => cases s <;> decide +kernel
  | fin s m =>
    unfold reread
    rcases read_fin s m hx with hr | ⟨d, hd, hr⟩
    · rw [hr]; rfl
    · rw [hr]
      cases s with
      | false =>
        simp only [Bool.false_eq_true, if_false]
        split
        · exact hd
        · rfl
      | true =>
        simp only [if_true]
        split
        · simp only [Option.getD_some, Number.asF64, F64.ofInt]
          have hd0 : d ≠ 0 := by
            rintro rfl
            apply h0
            rw [← hd]
            decide +kernel
          rw [Int.natAbs_neg, Int.natAbs_natCast, decide_eq_true (by omega), hd]
        · rfl

section
attribute [local irreducible] F64.magLimit F64.roundTo F64.WF
theorem ofRat_WF' {s : Bool} {n d : Nat} (h : 0 < d) : (F64.ofRat s n d).WF := F64.ofRat_WF s h
end

section
attribute [local irreducible] F64.magLimit F64.roundTo
theorem toF64_wf {x : F32} : (F32.toF64 x).WF := by
  cases x with
  | nan s p =>
    have : F32.toF64 (.nan s p) = .nan false (2 ^ 51) := rfl
    rw [this]
    decide +kernel
  | inf s => cases s <;> decide +kernel
  | fin s m =>
    have : F32.toF64 (.fin s m) = F64.ofRat s (F32.shortest m) F32.decScale := by
      unfold F32.toF64
      rw [F32.toF64?_fin, Option.getD_some]
    rw [this]
    exact ofRat_WF' F32.decScale_pos
end

theorem toF64_nan {x : F32} {s : Bool} {p : Nat} (h : F32.toF64 x = .nan s p) : ∃ s p, x = .nan s p := by
  cases x with
  | nan s p => exact ⟨_, _, rfl⟩
  | inf s =>
    have : F32.toF64 (.inf s) = .inf s := by cases s <;> decide +kernel
    rw [this] at h; cases h
  | fin s m =>
    exfalso
    unfold F32.toF64 at h
    rw [F32.toF64?_fin, Option.getD_some, F64.ofRat_eq] at h
    split at h <;> cases h

theorem survive32 {x : F32} (hx : x.WF) (h : textHere (.f32 x)) (hp : plainHere (.f32 x)) :
    Same (.f32 x) (.f32 (F32.ofF64 (reread (.float x.toF64)).asF64)) := by
  simp only [Same]
  rcases plain32 hx hp with ⟨s, p, rfl⟩ | hp
  · right
    refine ⟨⟨_, _, rfl⟩, ?_⟩
    have : F32.toF64 (.nan s p) = .nan false (2 ^ 51) := rfl
    rw [this]
    exact ⟨_, _, (by decide +kernel : F32.ofF64 (reread (.float (.nan false (2 ^ 51)))).asF64 = .nan false (2 ^ 22))⟩
  · by_cases hnan : ∃ s p, F32.toF64 x = .nan s p
    · obtain ⟨s, p, hs⟩ := hnan
      obtain ⟨s, p, rfl⟩ := toF64_nan hs
      right
      refine ⟨⟨_, _, rfl⟩, ?_⟩
      have : F32.toF64 (.nan s p) = .nan false (2 ^ 51) := rfl
      rw [this]
      exact ⟨_, _, (by decide +kernel : F32.ofF64 (reread (.float (.nan false (2 ^ 51)))).asF64 = .nan false (2 ^ 22))⟩
    · left
      rw [survive toF64_wf, hp]
      refine ⟨?_, fun s p hs => (hnan ⟨s, p, hs⟩).elim⟩
      intro h0
      rw [h0] at hp
      apply h
      rw [← hp]
      decide +kernel

theorem decodeInt_text (t : IntTy) (v : Int) (h1 : t.lo ≤ v) (h2 : v ≤ t.hi) :
    decodeInt t (reread (Ser.intNumber t v)) = some v := by
  have hb : t.signed = true → - 2 ^ 127 ≤ t.lo ∧ t.hi ≤ 2 ^ 127 - 1 := by cases t <;> decide
  have hbu : t.signed = false → t.lo = 0 ∧ t.hi ≤ 2 ^ 128 - 1 := by cases t <;> decide
  have hL : i128Min = - 2 ^ 127 := rfl
  have hM : i128Max = 2 ^ 127 - 1 := rfl
  have hU : u128Max = 2 ^ 128 - 1 := rfl
  unfold reread Ser.intNumber
  cases hs : t.signed with
  | true =>
    have := hb hs
    simp only [if_true]
    rw [C07_int v ⟨by omega, by omega⟩, Option.getD_some]
    by_cases hv : v < 0
    · rw [if_pos hv]
      simp [decodeInt, hs, Number.asI128, h1, h2]
    · rw [if_neg hv]
      have e : Number.asI128 (.uint v.toNat) = some v := by
        simp only [Number.asI128, Number.tryI128OfNat]
        rw [if_pos (by omega)]
        congr 1; omega
      simp [decodeInt, hs, e, h1, h2]
  | false =>
    have := hbu hs
    simp only [Bool.false_eq_true, if_false]
    rw [C07_uint v.toNat (by show _ ≤ _; omega), Option.getD_some]
    have e : ((v.toNat : Nat) : Int) = v := Int.toNat_of_nonneg (by omega)
    simp [decodeInt, hs, Number.asU128, e, h2]

/-! ## The induction -/

/-- Encodes to `k`, and what the text of `k` reads as decodes at `ty` to a value that is the same. -/
def Rt (c : FormattingConfig) (env : TyEnv) (s : Ser) (ty : Ty) : Prop :=
  ∃ k s', s.encode = .ok k ∧ decode env ty (tr c k) = some s' ∧ Same s s'

def RtL (c : FormattingConfig) (env : TyEnv) (l : List Ser) (t : Ty) : Prop :=
  ∃ ks l', Ser.encodeL l = .ok ks ∧ Dec.seqOf (decode env t) (ks.map (tr c)) = some l' ∧ SameL l l'

def RtT (c : FormattingConfig) (env : TyEnv) (l : List Ser) (ts : List Ty) : Prop :=
  ∃ ks l', Ser.encodeL l = .ok ks ∧ ks.length = ts.length ∧ ks.length = l.length ∧
    Dec.tupleOf (decode env) ts (ks.map (tr c)) = some l' ∧ SameL l l'

def RtF (c : FormattingConfig) (env : TyEnv) (l : List (Str × Ser)) (ds : List (Str × Ty)) : Prop :=
  ∃ (es : List (Str × Kserd)) (l' : List (Str × Ser)), (∀ m, Ser.encodeF l m = .ok (es.foldl (fun m e => BTree.insert cmpStr e.1 e.2 m) m)) ∧
    es.length = l.length ∧
    es.map Prod.fst = ds.map Prod.fst ∧ l'.map Prod.fst = ds.map Prod.fst ∧
    (∀ full : List (Str × Ty), (∀ p ∈ ds, Dec.fieldTy full p.1 = some p.2) →
      Dec.collect (decode env) full (es.map (fun p => (p.1, tr c p.2))) = some l') ∧ SameF l l'

def RtM (c : FormattingConfig) (env : TyEnv) (l : List MapOp) (kt vt : Ty) : Prop :=
  ∃ (es : List (Kserd × Kserd)) (l' : List MapOp), (∀ key m, Ser.encodeOps l key m = .ok (es.foldl (fun m e => BTree.insert Kserd.cmp e.1 e.2 m) m)) ∧
    (opKeys l).map Ser.encode = es.map (fun e => .ok e.1) ∧
    Dec.entriesOf (decode env kt) (decode env vt) (es.map (fun p => (tr c p.1, tr c p.2))) = some l' ∧ SameO l l'

theorem rt_struct {env : TyEnv} {fs : List (Str × Ser)} {ds : List (Str × Ty)} (h : RtF c env fs ds)
    (hn : (ds.map Prod.fst).Nodup) :
    ∃ m l', Ser.encodeF fs [] = .ok m ∧ m.length = fs.length ∧
      Dec.structOf (decode env) ds (m.map (fun p => (p.1, tr c p.2))) = some l' ∧ SameF fs l' := by
  obtain ⟨es, l', h1, hlen, h2, h3, h4, h5⟩ := h
  refine ⟨_, l', h1 [], ?_, ?_, h5⟩
  all_goals
    have hperm := foldl_insert_perm cmpStr es [] (by
      have : (es.map Prod.fst).Nodup := by rw [h2]; exact hn
      rw [List.nodup_iff_pairwise_ne, List.pairwise_map] at this
      refine this.imp ?_
      intro a b hab hc
      exact hab ((cmpStr_eq _ _).mp hc).symm) (by simp)
    rw [List.append_nil] at hperm
    have hperm := hperm.trans (List.reverse_perm es)
  · rw [hperm.length_eq, hlen]
  · have hcol := h4 ds (fun p hp => fieldTy_mem hn (by simpa using hp))
    obtain ⟨r', hr, hp⟩ := collect_perm (decode env) ds (hperm.symm.map (fun p => (p.1, tr c p.2))) _ hcol
    unfold Dec.structOf
    rw [hr]
    have hnd : (r'.map Prod.fst).Nodup := by
      have : (l'.map Prod.fst).Nodup := by rw [h3]; exact hn
      exact (hp.map Prod.fst).nodup_iff.mp this
    simp only [hnd, if_true]
    exact assemble_all r' hnd ds l' h3 (fun p hp' => hp.mem_iff.mp hp')

theorem rt_map {env : TyEnv} {ops : List MapOp} {kt vt : Ty} (h : RtM c env ops kt vt)
    (hd : (opKeys ops).Pairwise (fun a b => ∀ ka kb, a.encode = .ok ka → b.encode = .ok kb →
      Kserd.cmp kb ka ≠ .eq)) :
    ∃ m r, Ser.encodeOps ops Option.none [] = .ok m ∧
      Dec.entriesOf (decode env kt) (decode env vt) (m.map (fun p => (tr c p.1, tr c p.2))) = some r ∧
      ∃ l', SameO ops l' ∧ l'.Perm r := by
  obtain ⟨es, l', h1, h2, h3, h4⟩ := h
  refine ⟨es.foldl (fun m e => BTree.insert Kserd.cmp e.1 e.2 m) [], ?_⟩
  have hpw : es.Pairwise (fun a b => Kserd.cmp b.1 a.1 ≠ .eq) := by
    have key : ∀ (ks : List Ser) (es : List (Kserd × Kserd)), ks.map Ser.encode = es.map (fun e => .ok e.1) →
        ks.Pairwise (fun a b => ∀ ka kb, a.encode = .ok ka → b.encode = .ok kb → Kserd.cmp kb ka ≠ .eq) →
        es.Pairwise (fun a b => Kserd.cmp b.1 a.1 ≠ .eq) := by
      intro ks
      induction ks with
      | nil => intro es h _; cases es with
        | nil => exact List.Pairwise.nil
        | cons => simp at h
      | cons k ks ih =>
        intro es h hp
        cases es with
        | nil => simp at h
        | cons e es =>
          simp only [List.map_cons, List.cons.injEq] at h
          rw [List.pairwise_cons] at hp ⊢
          refine ⟨?_, ih es h.2 hp.2⟩
          intro b hb
          have : (.ok b.1 : Except EncErr Kserd) ∈ ks.map Ser.encode := by
            rw [h.2]; exact List.mem_map.mpr ⟨b, hb, rfl⟩
          obtain ⟨s, hs, hs'⟩ := List.mem_map.mp this
          exact hp.1 s hs _ _ h.1 hs'
    exact key _ _ h2 hd
  have hperm := foldl_insert_perm Kserd.cmp es [] hpw (by simp)
  rw [List.append_nil] at hperm
  have hperm := hperm.trans (List.reverse_perm es)
  obtain ⟨r, h5, h6⟩ := entriesOf_perm _ _ (hperm.symm.map (fun p => (tr c p.1, tr c p.2))) _ h3
  exact ⟨r, h1 Option.none [], h5, l', h4, h6⟩

mutual
theorem rt_ser (hc : Names c) (env : TyEnv) : ∀ (s : Ser) (ty : Ty), HasTy env s ty → NamesOk s → Plain s → TextPlain s →
    Rt c env s ty
  | .unit, ty, h, _, _, _ => by
    cases ty <;> simp only [HasTy] at h
    exact ⟨_, .unit, rfl, by rw [decode_step]; rfl, trivial⟩
  | .bool b, ty, h, _, _, _ => by
    cases ty <;> simp only [HasTy] at h
    exact ⟨_, .bool b, rfl, by rw [decode_step]; rfl, rfl⟩
  | .int t v, ty, h, _, _, _ => by
    cases ty <;> simp only [HasTy] at h
    obtain ⟨rfl, h1, h2⟩ := h
    refine ⟨_, .int t v, rfl, ?_, rfl, rfl⟩
    obtain ⟨id, hid⟩ := tr_num (c := c) (some t.identity) (Ser.intNumber t v)
    rw [decode_step, Kserd.withIdUnchk, hid]
    simp only [Dec.step, Kserd.val_mk, decodeInt_text t v h1 h2, Option.map_some]
  | .f32 x, ty, h, _, hp, ht => by
    cases ty <;> simp only [HasTy] at h
    simp only [Plain, SerAll] at hp
    simp only [TextPlain, SerAll] at ht
    refine ⟨_, .f32 (F32.ofF64 (reread (.float x.toF64)).asF64), rfl, ?_, survive32 h ht hp⟩
    obtain ⟨id, hid⟩ := tr_num (c := c) (some (str "f32")) (.float x.toF64)
    rw [decode_step, Kserd.withIdUnchk, hid]
    simp only [Dec.step, Kserd.val_mk]
  | .f64 x, ty, h, _, _, ht => by
    cases ty <;> simp only [HasTy] at h
    simp only [TextPlain, SerAll] at ht
    refine ⟨_, .f64 x, rfl, ?_, rfl⟩
    obtain ⟨id, hid⟩ := tr_num (c := c) (some (str "f64")) (.float x)
    rw [decode_step, Kserd.withIdUnchk, hid]
    simp only [Dec.step, Kserd.val_mk, survive h ht]
  | .char a, ty, h, _, _, _ => by
    cases ty <;> simp only [HasTy] at h
    exact ⟨_, .char a, rfl, by rw [decode_step]; rfl, rfl⟩
  | .str a, ty, h, _, _, _ => by
    cases ty <;> simp only [HasTy] at h
    exact ⟨_, .str a, rfl, by rw [decode_step]; rfl, rfl⟩
  | .bytes a, ty, h, _, _, _ => by
    cases ty <;> simp only [HasTy] at h
    exact ⟨_, .bytes a, rfl, by rw [decode_step]; rfl, rfl⟩
  | .none, ty, h, _, _, _ => by
    cases ty <;> simp only [HasTy] at h
    refine ⟨_, .none, rfl, ?_, trivial⟩
    rw [decode_step, Kserd.withIdUnchk, tr_tuple hc]; rfl
  | .some v, ty, h, hn, hp, ht => by
    cases ty <;> simp only [HasTy] at h
    rename_i t
    obtain ⟨k, s', h1, h2, h3⟩ := rt_ser hc env v t h hn.2 hp.2 ht.2
    refine ⟨.mk (some (str "Some")) (.tuple [k]), .some s', by simp only [Ser.encode, h1]; rfl, ?_, h3⟩
    rw [decode_step, tr_tuple hc, List.map_singleton]
    simp only [Dec.step, some_visit, if_true]
    rw [h2]; rfl
  | .fail _, ty, h, _, _, _ => by cases ty <;> simp only [HasTy] at h
  | .seq l, ty, h, hn, hp, ht => by
    cases ty <;> simp only [HasTy] at h
    rename_i t
    obtain ⟨ks, l', h1, h2, h3⟩ := rt_list hc env l t h hn.2 hp.2 ht.2
    refine ⟨.mk none (.seq ks), .seq l', by simp only [Ser.encode, h1]; rfl, ?_, h3⟩
    obtain ⟨id, hid⟩ := tr_seq (c := c) none ks
    rw [decode_step, hid]
    simp only [Dec.step, deserializeAny, h2, Option.map_some]
  | .tuple l, ty, h, hn, hp, ht => by
    cases ty <;> simp only [HasTy] at h
    rename_i ts
    obtain ⟨ks, l', h1, _, _, h2, h3⟩ := rt_tuple hc env l ts h hn.2 hp.2 ht.2
    refine ⟨.mk none (.tuple ks), .tuple l', by simp only [Ser.encode, h1]; rfl, ?_, h3⟩
    rw [decode_step, tr_tuple hc]
    simp only [Dec.step, tuple_visit (id := none) (l := ks.map (tr c)) (Or.inl rfl) (by simp), h2, Option.map_some]
  | .map ops, ty, h, hn, hp, ht => by
    cases ty <;> simp only [HasTy] at h
    rename_i kt vt
    obtain ⟨m, r, h1, h2, h3⟩ := rt_map (rt_ops hc env ops kt vt h hn.2 hp.2 ht.2) hp.1
    refine ⟨.mk none (.map m), .map r, by simp only [Ser.encode, h1]; rfl, ?_, h3⟩
    obtain ⟨id, hid⟩ := tr_map (c := c) none m
    rw [decode_step, hid]
    simp only [Dec.step, deserializeAny, h2, Option.map_some]
  | .unitStruct n, ty, h, hn, hp, _ => by
    cases ty <;> simp only [HasTy] at h
    refine ⟨_, .unitStruct n, encId_ok _ hn, ?_, rfl⟩
    rw [decode_step, tr_tuple hc, step_named h]; rfl
  | .unitVariant n, ty, h, hn, hp, _ => by
    cases ty <;> simp only [HasTy] at h
    obtain ⟨vs, h, h1, h2⟩ := h
    refine ⟨_, .unitVariant n, encId_ok _ hn, ?_, rfl⟩
    rw [decode_step, tr_tuple hc, step_named h]
    simp only [Dec.defOf, Kserd.id_mk, variant_mem h1 h2, Kserd.val_mk, List.map_nil, Dec.variantOf]
  | .newtypeStruct n v, ty, h, hn, hp, ht => by
    cases ty <;> simp only [HasTy] at h
    obtain ⟨t, h, hty⟩ := h
    obtain ⟨k, s', h1, h2, h3⟩ := rt_ser hc env v t hty hn.2 hp.2 ht.2
    refine ⟨_, .newtypeStruct n s', by simp only [Ser.encode, h1]; exact encId_ok _ hn.1, ?_, rfl, h3⟩
    rw [decode_step, tr_tuple hc, List.map_singleton, step_named h]
    have : n ≠ str "Some" := hp.1
    simp only [Dec.defOf, some_visit, this, if_false, h2, Option.map_some]
  | .newtypeVariant n v, ty, h, hn, hp, ht => by
    cases ty <;> simp only [HasTy] at h
    obtain ⟨vs, t, h, h4, h5, hty⟩ := h
    obtain ⟨k, s', h1, h2, h3⟩ := rt_ser hc env v t hty hn.2 hp.2 ht.2
    refine ⟨_, .newtypeVariant n s', by simp only [Ser.encode, h1]; exact encId_ok _ hn.1, ?_, rfl, h3⟩
    rw [decode_step, tr_tuple hc, List.map_singleton, step_named h]
    simp only [Dec.defOf, Kserd.id_mk, variant_mem h4 h5, Kserd.val_mk, Dec.variantOf, h2, Option.map_some]
  | .tupleStruct n l, ty, h, hn, hp, ht => by
    cases ty <;> simp only [HasTy] at h
    obtain ⟨ts, h, hlen, hty⟩ := h
    obtain ⟨ks, l', h1, hl, hl2, h2, h3⟩ := rt_tuple hc env l ts hty hn.2 hp.2 ht.2
    refine ⟨.mk (some n) (.tuple ks), .tupleStruct n l', by
      simp only [Ser.encode, h1, encId_ok _ hn.1]; rfl, ?_, rfl, h3⟩
    rw [decode_step, tr_tuple hc, step_named h]
    simp only [Dec.defOf]
    rw [tuple_visit (Or.inr (by rw [List.length_map]; omega)) (by
      rintro ⟨h6, h7⟩
      simp only [Option.some.injEq] at h6
      have h8 := congrArg List.length h7
      rw [List.length_map, List.length_nil, hl2] at h8
      exact hp.1 ⟨h6, List.length_eq_zero_iff.mp h8⟩)]
    simp only [h2, Option.map_some]
  | .tupleVariant n l, ty, h, hn, hp, ht => by
    cases ty <;> simp only [HasTy] at h
    obtain ⟨vs, ts, h, h4, h5, hty⟩ := h
    obtain ⟨ks, l', h1, hl, _, h2, h3⟩ := rt_tuple hc env l ts hty hn.2 hp.2 ht.2
    refine ⟨.mk (some n) (.tuple ks), .tupleVariant n l', by
      simp only [Ser.encode, h1, encId_ok _ hn.1]; rfl, ?_, rfl, h3⟩
    rw [decode_step, tr_tuple hc, step_named h]
    simp only [Dec.defOf, Kserd.id_mk, variant_mem h4 h5, Kserd.val_mk, Dec.variantOf, List.length_map, hl, if_true, h2, Option.map_some]
  | .struct n fs, ty, h, hn, hp, ht => by
    cases ty <;> simp only [HasTy] at h
    obtain ⟨ds, h, hnd, hty⟩ := h
    obtain ⟨m, l', h1, hl, h2, h3⟩ := rt_struct (rt_fields hc env fs ds hty hn.2 hp.2 ht.2) hnd
    refine ⟨.mk (some n) (.cntr m), .struct n l', by
      simp only [Ser.encode, h1, encId_ok _ hn.1]; rfl, ?_, rfl, h3⟩
    by_cases hm : m = []
    · subst hm
      have hfs : fs = [] := List.length_eq_zero_iff.mp hl.symm
      subst hfs
      cases ds with
      | cons a r => simp [HasFields] at hty
      | nil =>
        cases l' with
        | cons a r => simp [SameF] at h3
        | nil =>
          rw [decode_step, tr_cntr_nil hc, step_named h]
          have : n ≠ str "None" := fun e => ht.1 ⟨e, rfl⟩
          simp only [Dec.defOf]
          rw [tuple_visit (Or.inr (by simp)) (by simpa using this)]
          rfl
    · rw [decode_step, tr_cntr hc _ _ hm, step_named h]
      simp only [Dec.defOf, deserializeAny, h2, Option.map_some]
  | .structVariant n fs, ty, h, hn, hp, ht => by
    cases ty <;> simp only [HasTy] at h
    obtain ⟨vs, ds, h, h4, h5, hnd, hty⟩ := h
    obtain ⟨m, l', h1, hl, h2, h3⟩ := rt_struct (rt_fields hc env fs ds hty hn.2 hp.2 ht.2) hnd
    refine ⟨.mk (some n) (.cntr m), .structVariant n l', by
      simp only [Ser.encode, h1, encId_ok _ hn.1]; rfl, ?_, rfl, h3⟩
    have hm : m ≠ [] := by
      rintro rfl
      exact ht.1 (List.length_eq_zero_iff.mp hl.symm)
    rw [decode_step, tr_cntr hc _ _ hm, step_named h]
    simp only [Dec.defOf, Kserd.id_mk, variant_mem h4 h5, Kserd.val_mk, Dec.variantOf, h2, Option.map_some]
theorem rt_list (hc : Names c) (env : TyEnv) : ∀ (l : List Ser) (t : Ty), HasTyAll env l t → SerAllL nameOk l →
    SerAllL plainHere l → SerAllL textHere l → RtL c env l t
  | [], t, _, _, _, _ => ⟨[], [], rfl, rfl, trivial⟩
  | v :: r, t, h, hn, hp, ht => by
    obtain ⟨k, s', h1, h2, h3⟩ := rt_ser hc env v t h.1 hn.1 hp.1 ht.1
    obtain ⟨ks, l', h4, h5, h6⟩ := rt_list hc env r t h.2 hn.2 hp.2 ht.2
    refine ⟨k :: ks, s' :: l', by simp only [Ser.encodeL, h1, h4], ?_, h3, h6⟩
    simp only [List.map_cons, Dec.seqOf, h2, h5]
theorem rt_tuple (hc : Names c) (env : TyEnv) : ∀ (l : List Ser) (ts : List Ty), HasTys env l ts → SerAllL nameOk l →
    SerAllL plainHere l → SerAllL textHere l → RtT c env l ts
  | [], [], _, _, _, _ => ⟨[], [], rfl, rfl, rfl, rfl, trivial⟩
  | [], _ :: _, h, _, _, _ => by simp only [HasTys] at h
  | _ :: _, [], h, _, _, _ => by simp only [HasTys] at h
  | v :: r, t :: ts, h, hn, hp, ht => by
    obtain ⟨k, s', h1, h2, h3⟩ := rt_ser hc env v t h.1 hn.1 hp.1 ht.1
    obtain ⟨ks, l', h4, hl, hl2, h5, h6⟩ := rt_tuple hc env r ts h.2 hn.2 hp.2 ht.2
    refine ⟨k :: ks, s' :: l', by simp only [Ser.encodeL, h1, h4], by simp [hl], by simp [hl2], ?_, h3, h6⟩
    simp only [List.map_cons, Dec.tupleOf, h2, h5]
theorem rt_fields (hc : Names c) (env : TyEnv) : ∀ (l : List (Str × Ser)) (ds : List (Str × Ty)), HasFields env l ds →
    SerAllF nameOk l → SerAllF plainHere l → SerAllF textHere l → RtF c env l ds
  | [], [], _, _, _, _ => ⟨[], [], fun _ => rfl, rfl, rfl, rfl, fun _ _ => rfl, trivial⟩
  | [], _ :: _, h, _, _, _ => by simp only [HasFields] at h
  | _ :: _, [], h, _, _, _ => by simp only [HasFields] at h
  | (n, v) :: r, (m, t) :: ts, h, hn, hp, ht => by
    obtain ⟨rfl, hv, hr⟩ := h
    obtain ⟨k, s', h1, h2, h3⟩ := rt_ser hc env v t hv hn.1 hp.1 ht.1
    obtain ⟨es, l', h4, hl, h5, h6, h7, h8⟩ := rt_fields hc env r ts hr hn.2 hp.2 ht.2
    refine ⟨(n, k) :: es, (n, s') :: l', ?_, by simp [hl], by simp [h5], by simp [h6], ?_, rfl, h3, h8⟩
    · intro M; simp only [Ser.encodeF, h1, h4, List.foldl_cons]
    · intro full hf
      have e1 := hf (n, t) (by simp)
      simp only at e1
      simp only [List.map_cons, Dec.collect, e1, h2, h7 full (fun p hp => hf p (by simp [hp]))]
theorem rt_ops (hc : Names c) (env : TyEnv) : ∀ (l : List MapOp) (kt vt : Ty), HasEntries env l kt vt →
    SerAllO nameOk l → SerAllO plainHere l → SerAllO textHere l → RtM c env l kt vt
  | [], _, _, _, _, _, _ => ⟨[], [], fun _ _ => rfl, rfl, rfl, trivial⟩
  | o :: r, kt, vt, h, hn, hp, ht => by
    obtain ⟨k, v, k', v', h1, h2, h3, h4, h5⟩ := rt_op hc env o kt vt h.1 hn.1 hp.1 ht.1
    obtain ⟨es, l', h6, h7, h8, h9⟩ := rt_ops hc env r kt vt h.2 hn.2 hp.2 ht.2
    refine ⟨(k, v) :: es, .entry k' v' :: l', ?_, ?_, ?_, h5, h9⟩
    · intro key M; simp only [Ser.encodeOps, h1, h6, List.foldl_cons]
    · cases o with
      | key a => exact (h.1).elim
      | value a => exact (h.1).elim
      | entry a b =>
        simp only [opKeys, List.map_cons, h7, h2 _ _ rfl]
    · simp only [List.map_cons, Dec.entriesOf, h3, h4, h8]
theorem rt_op (hc : Names c) (env : TyEnv) : ∀ (o : MapOp) (kt vt : Ty), HasEntry env o kt vt →
    SerAllOp nameOk o → SerAllOp plainHere o → SerAllOp textHere o →
    ∃ k v k' v', (∀ key m, Ser.encodeOp o key m = .ok (key, BTree.insert Kserd.cmp k v m)) ∧
      (∀ a b, o = .entry a b → a.encode = .ok k) ∧
      decode env kt (tr c k) = some k' ∧ decode env vt (tr c v) = some v' ∧ SameOp o (.entry k' v')
  | .key _, _, _, h, _, _, _ => h.elim
  | .value _, _, _, h, _, _, _ => h.elim
  | .entry a b, kt, vt, h, hn, hp, ht => by
    obtain ⟨k, k', h1, h2, h3⟩ := rt_ser hc env a kt h.1 hn.1 hp.1 ht.1
    obtain ⟨v, v', h4, h5, h6⟩ := rt_ser hc env b vt h.2 hn.2 hp.2 ht.2
    refine ⟨k, v, k', v', ?_, ?_, h2, h5, h3, h6⟩
    · intro key m; simp only [Ser.encodeOp, h1, h4]
    · intro a' b' he
      injection he with e1 e2
      rw [← e1]; exact h1
end

end KS.ST
