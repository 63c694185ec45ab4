import Verif.Lemmas.Order
/-! Order and equality of Kserds. -/

namespace KS

open Spec

/-! ### Identities do not matter -/

mutual
theorem eq_erase : ∀ a b : Kserd, Kserd.eq (eraseIds a) (eraseIds b) = Kserd.eq a b
  | .mk _ v, .mk _ w => by simp only [eraseIds, Kserd.eq]; exact eqV_erase v w
theorem eqV_erase : ∀ a b : Value, Kserd.eqV (eraseIdsV a) (eraseIdsV b) = Kserd.eqV a b
  | .unit, b => by cases b <;> simp only [eraseIdsV, Kserd.eqV]
  | .bool _, b => by cases b <;> simp only [eraseIdsV, Kserd.eqV]
  | .num _, b => by cases b <;> simp only [eraseIdsV, Kserd.eqV]
  | .str _, b => by cases b <;> simp only [eraseIdsV, Kserd.eqV]
  | .barr _, b => by cases b <;> simp only [eraseIdsV, Kserd.eqV]
  | .tuple l, b => by
    cases b <;> simp only [eraseIdsV, Kserd.eqV]
    · exact eqL_erase l _
    · rename_i f; cases l <;> cases f <;> simp [eraseIdsL, eraseIdsF]
  | .cntr l, b => by
    cases b <;> simp only [eraseIdsV, Kserd.eqV]
    · rename_i f; cases l <;> cases f <;> simp [eraseIdsL, eraseIdsF]
    · exact eqF_erase l _
  | .seq l, b => by cases b <;> simp only [eraseIdsV, Kserd.eqV]; exact eqL_erase l _
  | .map l, b => by cases b <;> simp only [eraseIdsV, Kserd.eqV]; exact eqM_erase l _
theorem eqL_erase : ∀ a b : List Kserd, Kserd.eqList (eraseIdsL a) (eraseIdsL b) = Kserd.eqList a b
  | [], [] => rfl
  | [], _ :: _ => rfl
  | _ :: _, [] => rfl
  | a :: r, b :: s => by simp only [eraseIdsL, Kserd.eqList, eq_erase a b, eqL_erase r s]
theorem eqF_erase : ∀ a b : List (Str × Kserd), Kserd.eqFields (eraseIdsF a) (eraseIdsF b) = Kserd.eqFields a b
  | [], [] => rfl
  | [], _ :: _ => rfl
  | _ :: _, [] => rfl
  | (n, a) :: r, (m, b) :: s => by simp only [eraseIdsF, Kserd.eqFields, eq_erase a b, eqF_erase r s]
theorem eqM_erase : ∀ a b : List (Kserd × Kserd), Kserd.eqMap (eraseIdsM a) (eraseIdsM b) = Kserd.eqMap a b
  | [], [] => rfl
  | [], _ :: _ => rfl
  | _ :: _, [] => rfl
  | (n, a) :: r, (m, b) :: s => by
    simp only [eraseIdsM, Kserd.eqMap, eq_erase n m, eq_erase a b, eqM_erase r s]
end

mutual
theorem cmp_erase : ∀ a b : Kserd, Kserd.cmp (eraseIds a) (eraseIds b) = Kserd.cmp a b
  | .mk _ v, .mk _ w => by simp only [eraseIds, Kserd.cmp]; exact cmpV_erase v w
theorem cmpV_erase : ∀ a b : Value, Kserd.cmpV (eraseIdsV a) (eraseIdsV b) = Kserd.cmpV a b
  | .unit, b => by cases b <;> simp only [eraseIdsV, Kserd.cmpV, Kserd.rankV]
  | .bool _, b => by cases b <;> simp only [eraseIdsV, Kserd.cmpV, Kserd.rankV]
  | .num _, b => by cases b <;> simp only [eraseIdsV, Kserd.cmpV, Kserd.rankV]
  | .str _, b => by cases b <;> simp only [eraseIdsV, Kserd.cmpV, Kserd.rankV]
  | .barr _, b => by cases b <;> simp only [eraseIdsV, Kserd.cmpV, Kserd.rankV]
  | .tuple l, b => by
    cases b <;> simp only [eraseIdsV, Kserd.cmpV, Kserd.rankV]
    exact cmpL_erase l _
  | .cntr l, b => by
    cases b <;> simp only [eraseIdsV, Kserd.cmpV, Kserd.rankV]
    exact cmpF_erase l _
  | .seq l, b => by cases b <;> simp only [eraseIdsV, Kserd.cmpV, Kserd.rankV]; exact cmpL_erase l _
  | .map l, b => by cases b <;> simp only [eraseIdsV, Kserd.cmpV, Kserd.rankV]; exact cmpM_erase l _
theorem cmpL_erase : ∀ a b : List Kserd, Kserd.cmpList (eraseIdsL a) (eraseIdsL b) = Kserd.cmpList a b
  | [], [] => rfl
  | [], _ :: _ => rfl
  | _ :: _, [] => rfl
  | a :: r, b :: s => by simp only [eraseIdsL, Kserd.cmpList, cmp_erase a b, cmpL_erase r s]
theorem cmpF_erase : ∀ a b : List (Str × Kserd), Kserd.cmpFields (eraseIdsF a) (eraseIdsF b) = Kserd.cmpFields a b
  | [], [] => rfl
  | [], _ :: _ => rfl
  | _ :: _, [] => rfl
  | (n, a) :: r, (m, b) :: s => by simp only [eraseIdsF, Kserd.cmpFields, cmp_erase a b, cmpF_erase r s]
theorem cmpM_erase : ∀ a b : List (Kserd × Kserd), Kserd.cmpMap (eraseIdsM a) (eraseIdsM b) = Kserd.cmpMap a b
  | [], [] => rfl
  | [], _ :: _ => rfl
  | _ :: _, [] => rfl
  | (n, a) :: r, (m, b) :: s => by
    simp only [eraseIdsM, Kserd.cmpMap, cmp_erase n m, cmp_erase a b, cmpM_erase r s]
end

/-! ### Representatives -/

mutual
/-- Forget identities and how numbers are represented; `c` also identifies the empty container with the
empty tuple. -/
def rep (c : Bool) : Kserd → Kserd
  | .mk _ v => .mk none (repV c v)
termination_by structural a => a
def repV (c : Bool) : Value → Value
  | .unit => .unit
  | .bool b => .bool b
  | .num n => .num (.uint (encPlace (place n)))
  | .str s => .str s
  | .barr b => .barr b
  | .tuple l => .tuple (repL c l)
  | .cntr l => if c && l.isEmpty then .tuple [] else .cntr (repF c l)
  | .seq l => .seq (repL c l)
  | .map l => .map (repM c l)
termination_by structural a => a
def repL (c : Bool) : List Kserd → List Kserd
  | [] => []
  | k :: r => rep c k :: repL c r
termination_by structural a => a
def repF (c : Bool) : List (Str × Kserd) → List (Str × Kserd)
  | [] => []
  | (n, k) :: r => (n, rep c k) :: repF c r
termination_by structural a => a
def repM (c : Bool) : List (Kserd × Kserd) → List (Kserd × Kserd)
  | [] => []
  | (k, v) :: r => (rep c k, rep c v) :: repM c r
termination_by structural a => a
end

/-- The predicate of `AllNums lawful`. -/
abbrev lawP : Kserd → Prop := fun k => match k.val with | .num n => lawful n | _ => True

theorem lawNum {i n} (h : All lawP (.mk i (.num n))) : lawful n := by
  simp only [All] at h; exact h.1

mutual
theorem eq_rep : ∀ a b : Kserd, All lawP a → All lawP b → (Kserd.eq a b = true ↔ rep true a = rep true b)
  | .mk i v, .mk j w, ha, hb => by
    simp only [rep, Kserd.eq, Kserd.mk.injEq, true_and]
    cases v with
    | num n => cases w with
      | num m =>
        simp only [Kserd.eqV, repV, Value.num.injEq, Number.uint.injEq, encPlace_inj]
        exact lawful_eq (lawNum ha) (lawNum hb)
      | cntr f => cases f <;> simp [Kserd.eqV, repV]
      | _ => simp [Kserd.eqV, repV]
    | unit => cases w with
      | cntr f => cases f <;> simp [Kserd.eqV, repV]
      | _ => simp [Kserd.eqV, repV]
    | bool b => cases w with
      | cntr f => cases f <;> simp [Kserd.eqV, repV]
      | _ => simp [Kserd.eqV, repV]
    | str b => cases w with
      | cntr f => cases f <;> simp [Kserd.eqV, repV]
      | _ => simp [Kserd.eqV, repV]
    | barr b => cases w with
      | cntr f => cases f <;> simp [Kserd.eqV, repV]
      | _ => simp [Kserd.eqV, repV]
    | tuple l => cases w with
      | cntr f => cases l <;> cases f <;> simp [Kserd.eqV, repV, repL]
      | tuple m =>
        simp only [All, AllV] at ha hb
        simp only [Kserd.eqV, repV, Value.tuple.injEq]; exact eqL_rep l m ha.2 hb.2
      | _ => simp [Kserd.eqV, repV]
    | seq l => cases w with
      | cntr f => cases f <;> simp [Kserd.eqV, repV]
      | seq m =>
        simp only [All, AllV] at ha hb
        simp only [Kserd.eqV, repV, Value.seq.injEq]; exact eqL_rep l m ha.2 hb.2
      | _ => simp [Kserd.eqV, repV]
    | cntr l => cases w with
      | cntr m =>
        simp only [All, AllV] at ha hb
        have := eqF_rep l m ha.2 hb.2
        cases l <;> cases m <;> simp_all [Kserd.eqV, repV, repF, Kserd.eqFields]
      | tuple m => cases l <;> cases m <;> simp [Kserd.eqV, repV, repL]
      | _ => cases l <;> simp [Kserd.eqV, repV]
    | map l => cases w with
      | cntr f => cases f <;> simp [Kserd.eqV, repV]
      | map m =>
        simp only [All, AllV] at ha hb
        simp only [Kserd.eqV, repV, Value.map.injEq]; exact eqM_rep l m ha.2 hb.2
      | _ => simp [Kserd.eqV, repV]
theorem eqL_rep : ∀ a b : List Kserd, AllL lawP a → AllL lawP b →
    (Kserd.eqList a b = true ↔ repL true a = repL true b)
  | [], [], _, _ => by simp [Kserd.eqList]
  | [], _ :: _, _, _ => by simp [Kserd.eqList, repL]
  | _ :: _, [], _, _ => by simp [Kserd.eqList, repL]
  | a :: r, b :: s, ha, hb => by
    simp only [AllL] at ha hb
    simp only [Kserd.eqList, repL, Bool.and_eq_true, eq_rep a b ha.1 hb.1, eqL_rep r s ha.2 hb.2, List.cons.injEq]
theorem eqF_rep : ∀ a b : List (Str × Kserd), AllF lawP a → AllF lawP b →
    (Kserd.eqFields a b = true ↔ repF true a = repF true b)
  | [], [], _, _ => by simp [Kserd.eqFields]
  | [], _ :: _, _, _ => by simp [Kserd.eqFields, repF]
  | _ :: _, [], _, _ => by simp [Kserd.eqFields, repF]
  | (n, a) :: r, (m, b) :: s, ha, hb => by
    simp only [AllF] at ha hb
    simp only [Kserd.eqFields, repF, Bool.and_eq_true, eq_rep a b ha.1 hb.1, eqF_rep r s ha.2 hb.2, List.cons.injEq,
      Prod.mk.injEq, beq_iff_eq]
theorem eqM_rep : ∀ a b : List (Kserd × Kserd), AllM lawP a → AllM lawP b →
    (Kserd.eqMap a b = true ↔ repM true a = repM true b)
  | [], [], _, _ => by simp [Kserd.eqMap]
  | [], _ :: _, _, _ => by simp [Kserd.eqMap, repM]
  | _ :: _, [], _, _ => by simp [Kserd.eqMap, repM]
  | (n, a) :: r, (m, b) :: s, ha, hb => by
    simp only [AllM] at ha hb
    simp only [Kserd.eqMap, repM, Bool.and_eq_true, eq_rep n m ha.1 hb.1, eq_rep a b ha.2.1 hb.2.1,
      eqM_rep r s ha.2.2 hb.2.2, List.cons.injEq, Prod.mk.injEq]
end

theorem compare_bool_eq (a b : Bool) : compare a.toNat b.toNat = .eq ↔ a = b := by
  cases a <;> cases b <;> decide

theorem cmpV_rank_ne (v w : Value) (h : Kserd.rankV v ≠ Kserd.rankV w) :
    Kserd.cmpV v w = compare (Kserd.rankV v) (Kserd.rankV w) := by
  cases v <;> cases w <;> simp only [Kserd.cmpV] <;> exact absurd rfl h

theorem repV_rank (v : Value) : Kserd.rankV (repV false v) = Kserd.rankV v := by
  cases v <;> simp [repV, Kserd.rankV]

mutual
theorem cmp_rep : ∀ a b : Kserd, All lawP a → All lawP b → (Kserd.cmp a b = .eq ↔ rep false a = rep false b)
  | .mk i v, .mk j w, ha, hb => by
    simp only [rep, Kserd.cmp, Kserd.mk.injEq, true_and]
    by_cases hr : Kserd.rankV v = Kserd.rankV w
    · cases v <;> cases w <;> simp only [Kserd.rankV, reduceCtorEq] at hr <;> try omega
      case unit.unit => simp [Kserd.cmpV]
      case bool.bool a b =>
        simp only [Kserd.cmpV, repV, Value.bool.injEq]; exact compare_bool_eq a b
      case num.num n m =>
        simp only [Kserd.cmpV, repV, Value.num.injEq, Number.uint.injEq, encPlace_inj]
        rw [lawful_cmp (lawNum ha) (lawNum hb), Place.cmp_eq_iff]
      case str.str a b => simp only [Kserd.cmpV, repV, Value.str.injEq]; exact cmpStr_eq a b
      case barr.barr a b => simp only [Kserd.cmpV, repV, Value.barr.injEq]; exact cmpBytes_eq a b
      case tuple.tuple l m =>
        simp only [All, AllV] at ha hb
        simp only [Kserd.cmpV, repV, Value.tuple.injEq]; exact cmpL_rep l m ha.2 hb.2
      case cntr.cntr l m =>
        simp only [All, AllV] at ha hb
        simp only [Kserd.cmpV, repV, Bool.false_and, Bool.false_eq_true, if_false, Value.cntr.injEq]
        exact cmpF_rep l m ha.2 hb.2
      case seq.seq l m =>
        simp only [All, AllV] at ha hb
        simp only [Kserd.cmpV, repV, Value.seq.injEq]; exact cmpL_rep l m ha.2 hb.2
      case map.map l m =>
        simp only [All, AllV] at ha hb
        simp only [Kserd.cmpV, repV, Value.map.injEq]; exact cmpM_rep l m ha.2 hb.2
    · rw [cmpV_rank_ne v w hr, eq_nat]
      constructor
      · intro h; exact absurd h hr
      · intro h; rw [← repV_rank v, ← repV_rank w, h]
theorem cmpL_rep : ∀ a b : List Kserd, AllL lawP a → AllL lawP b →
    (Kserd.cmpList a b = .eq ↔ repL false a = repL false b)
  | [], [], _, _ => by simp [Kserd.cmpList]
  | [], _ :: _, _, _ => by simp [Kserd.cmpList, repL]
  | _ :: _, [], _, _ => by simp [Kserd.cmpList, repL]
  | a :: r, b :: s, ha, hb => by
    simp only [AllL] at ha hb
    simp only [Kserd.cmpList, repL, then_eq_iff, cmp_rep a b ha.1 hb.1, cmpL_rep r s ha.2 hb.2, List.cons.injEq]
theorem cmpF_rep : ∀ a b : List (Str × Kserd), AllF lawP a → AllF lawP b →
    (Kserd.cmpFields a b = .eq ↔ repF false a = repF false b)
  | [], [], _, _ => by simp [Kserd.cmpFields]
  | [], _ :: _, _, _ => by simp [Kserd.cmpFields, repF]
  | _ :: _, [], _, _ => by simp [Kserd.cmpFields, repF]
  | (n, a) :: r, (m, b) :: s, ha, hb => by
    simp only [AllF] at ha hb
    simp only [Kserd.cmpFields, repF, then_eq_iff, cmp_rep a b ha.1 hb.1, cmpF_rep r s ha.2 hb.2, List.cons.injEq,
      Prod.mk.injEq, cmpStr_eq]
theorem cmpM_rep : ∀ a b : List (Kserd × Kserd), AllM lawP a → AllM lawP b →
    (Kserd.cmpMap a b = .eq ↔ repM false a = repM false b)
  | [], [], _, _ => by simp [Kserd.cmpMap]
  | [], _ :: _, _, _ => by simp [Kserd.cmpMap, repM]
  | _ :: _, [], _, _ => by simp [Kserd.cmpMap, repM]
  | (n, a) :: r, (m, b) :: s, ha, hb => by
    simp only [AllM] at ha hb
    simp only [Kserd.cmpMap, repM, then_eq_iff, cmp_rep n m ha.1 hb.1, cmp_rep a b ha.2.1 hb.2.1,
      cmpM_rep r s ha.2.2 hb.2.2, List.cons.injEq, Prod.mk.injEq]
end

mutual
/-- Equality's representative is a function of order's. -/
theorem rep_collapse : ∀ a b : Kserd, rep false a = rep false b → rep true a = rep true b
  | .mk i v, .mk j w, h => by
    simp only [rep, Kserd.mk.injEq, true_and] at h ⊢
    have hr : Kserd.rankV v = Kserd.rankV w := by rw [← repV_rank v, ← repV_rank w, h]
    cases v <;> cases w <;> simp only [Kserd.rankV, reduceCtorEq] at hr <;> try omega
    case unit.unit => rfl
    case bool.bool a b => simpa [repV] using h
    case num.num n m => simpa [repV] using h
    case str.str a b => simpa [repV] using h
    case barr.barr a b => simpa [repV] using h
    case tuple.tuple l m => simp only [repV, Value.tuple.injEq] at h ⊢; exact repL_collapse l m h
    case cntr.cntr l m =>
      simp only [repV, Bool.false_and, Bool.false_eq_true, if_false, Value.cntr.injEq] at h
      have := repF_collapse l m h
      cases l with
      | nil => cases m with
        | nil => rfl
        | cons y s => simp [repF] at h
      | cons x r => cases m with
        | nil => simp [repF] at h
        | cons y s => simpa [repV] using this
    case seq.seq l m => simp only [repV, Value.seq.injEq] at h ⊢; exact repL_collapse l m h
    case map.map l m => simp only [repV, Value.map.injEq] at h ⊢; exact repM_collapse l m h
theorem repL_collapse : ∀ a b : List Kserd, repL false a = repL false b → repL true a = repL true b
  | [], [], _ => rfl
  | [], _ :: _, h => by simp [repL] at h
  | _ :: _, [], h => by simp [repL] at h
  | a :: r, b :: s, h => by
    simp only [repL, List.cons.injEq] at h ⊢
    exact ⟨rep_collapse a b h.1, repL_collapse r s h.2⟩
theorem repF_collapse : ∀ a b : List (Str × Kserd), repF false a = repF false b → repF true a = repF true b
  | [], [], _ => rfl
  | [], _ :: _, h => by simp [repF] at h
  | _ :: _, [], h => by simp [repF] at h
  | (n, a) :: r, (m, b) :: s, h => by
    simp only [repF, List.cons.injEq, Prod.mk.injEq] at h ⊢
    exact ⟨⟨h.1.1, rep_collapse a b h.1.2⟩, repF_collapse r s h.2⟩
theorem repM_collapse : ∀ a b : List (Kserd × Kserd), repM false a = repM false b → repM true a = repM true b
  | [], [], _ => rfl
  | [], _ :: _, h => by simp [repM] at h
  | _ :: _, [], h => by simp [repM] at h
  | (n, a) :: r, (m, b) :: s, h => by
    simp only [repM, List.cons.injEq, Prod.mk.injEq] at h ⊢
    exact ⟨⟨rep_collapse n m h.1.1, rep_collapse a b h.1.2⟩, repM_collapse r s h.2⟩
end

/-- The predicate of `NoEmptyCntr`. -/
abbrev neP : Kserd → Prop := fun k => match k.val with | .cntr f => f ≠ [] | _ => True

mutual
theorem rep_nonempty : ∀ a : Kserd, All neP a → rep true a = rep false a
  | .mk i v, h => by
    simp only [rep, Kserd.mk.injEq, true_and]
    simp only [All] at h
    cases v <;> simp only [repV]
    case tuple l => rw [repL_nonempty l h.2]
    case seq l => rw [repL_nonempty l h.2]
    case map l => rw [repM_nonempty l h.2]
    case cntr l =>
      have h1 : l ≠ [] := h.1
      have h2 := repF_nonempty l h.2
      cases l with
      | nil => exact absurd rfl h1
      | cons x r => simpa using h2
theorem repL_nonempty : ∀ a : List Kserd, AllL neP a → repL true a = repL false a
  | [], _ => rfl
  | a :: r, h => by simp only [AllL] at h; simp only [repL, rep_nonempty a h.1, repL_nonempty r h.2]
theorem repF_nonempty : ∀ a : List (Str × Kserd), AllF neP a → repF true a = repF false a
  | [], _ => rfl
  | (n, a) :: r, h => by simp only [AllF] at h; simp only [repF, rep_nonempty a h.1, repF_nonempty r h.2]
theorem repM_nonempty : ∀ a : List (Kserd × Kserd), AllM neP a → repM true a = repM false a
  | [], _ => rfl
  | (n, a) :: r, h => by
    simp only [AllM] at h
    simp only [repM, rep_nonempty n h.1, rep_nonempty a h.2.1, repM_nonempty r h.2.2]
end

mutual
theorem rep_emptied : ∀ a : Kserd, rep false (emptied a) = rep true a
  | .mk i v => by
    simp only [emptied, rep, Kserd.mk.injEq, true_and]
    cases v with
    | tuple l => simp only [emptiedV, repV, repL_emptied l]
    | seq l => simp only [emptiedV, repV, repL_emptied l]
    | map l => simp only [emptiedV, repV, repM_emptied l]
    | cntr l =>
      have h := repF_emptied l
      cases l with
      | nil => rfl
      | cons x r => simpa [emptiedV, repV] using h
    | _ => rfl
theorem repL_emptied : ∀ a : List Kserd, repL false (emptiedL a) = repL true a
  | [] => rfl
  | a :: r => by simp only [emptiedL, repL, rep_emptied a, repL_emptied r]
theorem repF_emptied : ∀ a : List (Str × Kserd), repF false (emptiedF a) = repF true a
  | [] => rfl
  | (n, a) :: r => by simp only [emptiedF, repF, rep_emptied a, repF_emptied r]
theorem repM_emptied : ∀ a : List (Kserd × Kserd), repM false (emptiedM a) = repM true a
  | [] => rfl
  | (n, a) :: r => by simp only [emptiedM, repM, rep_emptied n, rep_emptied a, repM_emptied r]
end

mutual
theorem law_emptied : ∀ a : Kserd, All lawP a → All lawP (emptied a)
  | .mk i v, h => by
    simp only [All] at h
    cases v with
    | tuple l => exact ⟨trivial, lawL_emptied l h.2⟩
    | seq l => exact ⟨trivial, lawL_emptied l h.2⟩
    | map l => exact ⟨trivial, lawM_emptied l h.2⟩
    | cntr l =>
      have h := lawF_emptied l h.2
      cases l with
      | nil => exact ⟨trivial, trivial⟩
      | cons x r => exact ⟨trivial, h⟩
    | num n => exact ⟨h.1, trivial⟩
    | _ => exact ⟨trivial, trivial⟩
theorem lawL_emptied : ∀ a : List Kserd, AllL lawP a → AllL lawP (emptiedL a)
  | [], _ => trivial
  | a :: r, h => ⟨law_emptied a h.1, lawL_emptied r h.2⟩
theorem lawF_emptied : ∀ a : List (Str × Kserd), AllF lawP a → AllF lawP (emptiedF a)
  | [], _ => trivial
  | (_, a) :: r, h => ⟨law_emptied a h.1, lawF_emptied r h.2⟩
theorem lawM_emptied : ∀ a : List (Kserd × Kserd), AllM lawP a → AllM lawP (emptiedM a)
  | [], _ => trivial
  | (n, a) :: r, h => ⟨law_emptied n h.1, law_emptied a h.2.1, lawM_emptied r h.2.2⟩
end

/-! ### `cmp` is a lawful order -/

mutual
theorem cmp_swap : ∀ a b : Kserd, Kserd.cmp b a = (Kserd.cmp a b).swap
  | .mk i v, .mk j w => by
    simp only [Kserd.cmp]
    by_cases hr : Kserd.rankV v = Kserd.rankV w
    · cases v <;> cases w <;> simp only [Kserd.rankV, reduceCtorEq] at hr <;> try omega
      case unit.unit => simp [Kserd.cmpV]
      case bool.bool a b => simp only [Kserd.cmpV]; exact swap_nat _ _
      case num.num n m => simp only [Kserd.cmpV]; exact Number.cmp_swap _ _
      case str.str a b => simp only [Kserd.cmpV]; exact cmpStr_swap a b
      case barr.barr a b => simp only [Kserd.cmpV]; exact cmpBytes_swap a b
      case tuple.tuple l m => simp only [Kserd.cmpV]; exact cmpL_swap l m
      case cntr.cntr l m => simp only [Kserd.cmpV]; exact cmpF_swap l m
      case seq.seq l m => simp only [Kserd.cmpV]; exact cmpL_swap l m
      case map.map l m => simp only [Kserd.cmpV]; exact cmpM_swap l m
    · rw [cmpV_rank_ne v w hr, cmpV_rank_ne w v (Ne.symm hr)]; exact swap_nat _ _
theorem cmpL_swap : ∀ a b : List Kserd, Kserd.cmpList b a = (Kserd.cmpList a b).swap
  | [], [] => by simp [Kserd.cmpList]
  | [], _ :: _ => by simp [Kserd.cmpList]
  | _ :: _, [] => by simp [Kserd.cmpList]
  | a :: r, b :: s => by simp only [Kserd.cmpList, swap_then, cmp_swap a b, cmpL_swap r s]
theorem cmpF_swap : ∀ a b : List (Str × Kserd), Kserd.cmpFields b a = (Kserd.cmpFields a b).swap
  | [], [] => by simp [Kserd.cmpFields]
  | [], _ :: _ => by simp [Kserd.cmpFields]
  | _ :: _, [] => by simp [Kserd.cmpFields]
  | (n, a) :: r, (m, b) :: s => by
    simp only [Kserd.cmpFields, swap_then, cmpStr_swap n m, cmp_swap a b, cmpF_swap r s]
theorem cmpM_swap : ∀ a b : List (Kserd × Kserd), Kserd.cmpMap b a = (Kserd.cmpMap a b).swap
  | [], [] => by simp [Kserd.cmpMap]
  | [], _ :: _ => by simp [Kserd.cmpMap]
  | _ :: _, [] => by simp [Kserd.cmpMap]
  | (n, a) :: r, (m, b) :: s => by
    simp only [Kserd.cmpMap, swap_then, cmp_swap n m, cmp_swap a b, cmpM_swap r s]
end

theorem Tr_any_lt (o : Ordering) : Tr o .lt .lt := by cases o <;> simp [Tr]
theorem Tr_any_gt (o : Ordering) : Tr o .gt .gt := by cases o <;> simp [Tr]
theorem Tr_lt_any (o : Ordering) : Tr .lt o .lt := by cases o <;> simp [Tr]
theorem Tr_gt_any (o : Ordering) : Tr .gt o .gt := by cases o <;> simp [Tr]

theorem cmpV_tr_mixed (u v w : Value) (h : Kserd.rankV u ≠ Kserd.rankV v ∨ Kserd.rankV v ≠ Kserd.rankV w) :
    Tr (Kserd.cmpV u v) (Kserd.cmpV v w) (Kserd.cmpV u w) := by
  by_cases h1 : Kserd.rankV u = Kserd.rankV v
  · have h2 : Kserd.rankV v ≠ Kserd.rankV w := by rcases h with h | h <;> [exact absurd h1 h; exact h]
    rw [cmpV_rank_ne v w h2, cmpV_rank_ne u w (by rw [h1]; exact h2), h1]
    rcases Nat.lt_or_gt_of_ne h2 with h3 | h3
    · rw [ncompare_lt h3]; exact Tr_any_lt _
    · rw [ncompare_gt h3]; exact Tr_any_gt _
  · rw [cmpV_rank_ne u v h1]
    by_cases h2 : Kserd.rankV v = Kserd.rankV w
    · rw [cmpV_rank_ne u w (by rw [← h2]; exact h1), ← h2]
      rcases Nat.lt_or_gt_of_ne h1 with h3 | h3
      · rw [ncompare_lt h3]; exact Tr_lt_any _
      · rw [ncompare_gt h3]; exact Tr_gt_any _
    · rw [cmpV_rank_ne v w h2]
      by_cases h3 : Kserd.rankV u = Kserd.rankV w
      · rw [h3]
        rcases Nat.lt_or_gt_of_ne h2 with h4 | h4
        · rw [ncompare_lt h4, ncompare_gt h4]; exact trivial
        · rw [ncompare_gt h4, ncompare_lt h4]; exact trivial
      · rw [cmpV_rank_ne u w h3]; exact Tr_nat _ _ _

mutual
theorem cmp_tr : ∀ a b c : Kserd, All lawP a → All lawP b → All lawP c →
    Tr (Kserd.cmp a b) (Kserd.cmp b c) (Kserd.cmp a c)
  | .mk i u, .mk j v, .mk l w, ha, hb, hc => by
    simp only [Kserd.cmp]
    by_cases h1 : Kserd.rankV u = Kserd.rankV v
    · by_cases h2 : Kserd.rankV v = Kserd.rankV w
      · cases u <;> cases v <;> simp only [Kserd.rankV, reduceCtorEq] at h1 <;> (try omega) <;>
          cases w <;> simp only [Kserd.rankV, reduceCtorEq] at h2 <;> try omega
        case unit.unit.unit => simp [Kserd.cmpV, Tr]
        case bool.bool.bool => simp only [Kserd.cmpV]; exact Tr_nat _ _ _
        case num.num.num x y z =>
          simp only [Kserd.cmpV]
          rw [lawful_cmp (lawNum ha) (lawNum hb), lawful_cmp (lawNum hb) (lawNum hc), lawful_cmp (lawNum ha) (lawNum hc)]
          exact Place_tr _ _ _
        case str.str.str => simp only [Kserd.cmpV]; exact cmpStr_tr _ _ _
        case barr.barr.barr => simp only [Kserd.cmpV]; exact cmpBytes_tr _ _ _
        case tuple.tuple.tuple x y z =>
          simp only [All, AllV] at ha hb hc
          simp only [Kserd.cmpV]; exact cmpL_tr x y z ha.2 hb.2 hc.2
        case cntr.cntr.cntr x y z =>
          simp only [All, AllV] at ha hb hc
          simp only [Kserd.cmpV]; exact cmpF_tr x y z ha.2 hb.2 hc.2
        case seq.seq.seq x y z =>
          simp only [All, AllV] at ha hb hc
          simp only [Kserd.cmpV]; exact cmpL_tr x y z ha.2 hb.2 hc.2
        case map.map.map x y z =>
          simp only [All, AllV] at ha hb hc
          simp only [Kserd.cmpV]; exact cmpM_tr x y z ha.2 hb.2 hc.2
      · exact cmpV_tr_mixed u v w (Or.inr h2)
    · exact cmpV_tr_mixed u v w (Or.inl h1)
theorem cmpL_tr : ∀ a b c : List Kserd, AllL lawP a → AllL lawP b → AllL lawP c →
    Tr (Kserd.cmpList a b) (Kserd.cmpList b c) (Kserd.cmpList a c)
  | [], [], [], _, _, _ => by simp [Kserd.cmpList, Tr]
  | [], [], _ :: _, _, _, _ => by simp [Kserd.cmpList, Tr]
  | [], _ :: _, [], _, _, _ => by simp [Kserd.cmpList, Tr]
  | [], _ :: _, _ :: _, _, _, _ => by simp only [Kserd.cmpList]; exact Tr_lt_any _
  | _ :: _, [], [], _, _, _ => by simp [Kserd.cmpList, Tr]
  | _ :: _, [], _ :: _, _, _, _ => by simp [Kserd.cmpList, Tr]
  | _ :: _, _ :: _, [], _, _, _ => by simp only [Kserd.cmpList]; exact Tr_any_gt _
  | a :: r, b :: s, c :: t, ha, hb, hc => by
    simp only [AllL] at ha hb hc
    simp only [Kserd.cmpList]
    exact Tr_then (cmp_tr a b c ha.1 hb.1 hc.1) (cmpL_tr r s t ha.2 hb.2 hc.2)
theorem cmpF_tr : ∀ a b c : List (Str × Kserd), AllF lawP a → AllF lawP b → AllF lawP c →
    Tr (Kserd.cmpFields a b) (Kserd.cmpFields b c) (Kserd.cmpFields a c)
  | [], [], [], _, _, _ => by simp [Kserd.cmpFields, Tr]
  | [], [], _ :: _, _, _, _ => by simp [Kserd.cmpFields, Tr]
  | [], _ :: _, [], _, _, _ => by simp [Kserd.cmpFields, Tr]
  | [], _ :: _, _ :: _, _, _, _ => by simp only [Kserd.cmpFields]; exact Tr_lt_any _
  | _ :: _, [], [], _, _, _ => by simp [Kserd.cmpFields, Tr]
  | _ :: _, [], _ :: _, _, _, _ => by simp [Kserd.cmpFields, Tr]
  | _ :: _, _ :: _, [], _, _, _ => by simp only [Kserd.cmpFields]; exact Tr_any_gt _
  | (l, a) :: r, (m, b) :: s, (n, c) :: t, ha, hb, hc => by
    simp only [AllF] at ha hb hc
    simp only [Kserd.cmpFields]
    exact Tr_then (Tr_then (cmpStr_tr l m n) (cmp_tr a b c ha.1 hb.1 hc.1)) (cmpF_tr r s t ha.2 hb.2 hc.2)
theorem cmpM_tr : ∀ a b c : List (Kserd × Kserd), AllM lawP a → AllM lawP b → AllM lawP c →
    Tr (Kserd.cmpMap a b) (Kserd.cmpMap b c) (Kserd.cmpMap a c)
  | [], [], [], _, _, _ => by simp [Kserd.cmpMap, Tr]
  | [], [], _ :: _, _, _, _ => by simp [Kserd.cmpMap, Tr]
  | [], _ :: _, [], _, _, _ => by simp [Kserd.cmpMap, Tr]
  | [], _ :: _, _ :: _, _, _, _ => by simp only [Kserd.cmpMap]; exact Tr_lt_any _
  | _ :: _, [], [], _, _, _ => by simp [Kserd.cmpMap, Tr]
  | _ :: _, [], _ :: _, _, _, _ => by simp [Kserd.cmpMap, Tr]
  | _ :: _, _ :: _, [], _, _, _ => by simp only [Kserd.cmpMap]; exact Tr_any_gt _
  | (l, a) :: r, (m, b) :: s, (n, c) :: t, ha, hb, hc => by
    simp only [AllM] at ha hb hc
    simp only [Kserd.cmpMap]
    exact Tr_then (Tr_then (cmp_tr l m n ha.1 hb.1 hc.1) (cmp_tr a b c ha.2.1 hb.2.1 hc.2.1))
      (cmpM_tr r s t ha.2.2 hb.2.2 hc.2.2)
end

end KS
