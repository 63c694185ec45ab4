import Verif.Spec.DecodeFirst
import Verif.Lemmas.DecodeErr
import Verif.Lemmas.DecodeIff
import Verif.Lemmas.Utf8
import Verif.Props.Numbers
/-! Where an error of the decoder comes from. -/

namespace KS.DE

open Spec Spec.De Props

/-! ## Shapes -/

/-- What a visit tells. -/
def Shape (k : Kserd) : Visit → Prop
  | .unit => k.val = .unit
  | .bool b => k.val = .bool b
  | .u64 n => k.val = .num (.uint n)
  | .u128 n => k.val = .num (.uint n)
  | .i64 i => k.val = .num (.int i)
  | .i128 i => k.val = .num (.int i)
  | .f64 x => k.val = .num (.float x)
  | .str s => k.val = .str s
  | .bytes b => k.val = .barr b
  | .none => IsNone k
  | .some x => IsSome k x
  | .newtype x => IsNew k x
  | .seq l => Elems k l
  | .fields l => k.val = .cntr l
  | .map m => k.val = .map m

theorem any_shape (k : Kserd) : Shape k (deserializeAny k) := by
  obtain ⟨i, v⟩ := k
  cases v with
  | num n =>
    cases n with
    | uint n => simp only [deserializeAny]; split <;> rfl
    | int n => simp only [deserializeAny]; split <;> rfl
    | float n => rfl
  | tuple l =>
    rcases l with _ | ⟨x, _ | ⟨y, r⟩⟩
    · cases i with
      | none => exact .inr ⟨rfl, (by rintro ⟨_, h⟩; cases h), (by rintro x ⟨h, _⟩; cases h), (by rintro x ⟨h, _⟩; cases h)⟩
      | some i =>
        simp only [deserializeAny]
        split
        · rename_i h; subst h; exact ⟨rfl, rfl⟩
        · rename_i h
          exact .inr ⟨rfl, (by rintro ⟨_, h'⟩; cases h'; exact h rfl), (by rintro x ⟨h, _⟩; cases h), (by rintro x ⟨h, _⟩; cases h)⟩
    · cases i with
      | none => exact .inr ⟨rfl, (by rintro ⟨h, _⟩; cases h), (by rintro x ⟨_, h⟩; cases h), (by rintro x ⟨_, i, h, _⟩; cases h)⟩
      | some i =>
        simp only [deserializeAny]
        split
        · rename_i h; subst h; exact ⟨rfl, rfl⟩
        · rename_i h; exact ⟨rfl, i, rfl, h⟩
    · refine .inr ⟨?_, (by rintro ⟨h, _⟩; cases h), (by rintro x ⟨h, _⟩; cases h), (by rintro x ⟨h, _⟩; cases h)⟩
      rfl
  | seq l => exact .inl rfl
  | _ => rfl

/-- Shapes exclude each other. -/
theorem any_elems {k : Kserd} {l : List Kserd} (h : Elems k l) : deserializeAny k = .seq l := by
  have hs := any_shape k
  cases hd : deserializeAny k <;> rw [hd] at hs <;> simp only [Shape] at hs <;>
    first
    | (rcases h with h | ⟨h, _⟩ <;> rw [h] at hs <;> cases hs)
    | skip
  · rcases h with h | ⟨h, h1, _⟩
    · rw [hs.1] at h; cases h
    · exact absurd hs h1
  · rcases h with h | ⟨h, _, h1, _⟩
    · rw [hs.1] at h; cases h
    · exact absurd hs (h1 _)
  · rcases h with h | ⟨h, _, _, h1⟩
    · rw [hs.1] at h; cases h
    · exact absurd hs (h1 _)
  · rename_i l'
    rcases h with h | ⟨h, _⟩ <;> rcases hs with hs | ⟨hs, _⟩ <;> rw [hs] at h <;> cases h <;> rfl

theorem any_isNone {k : Kserd} (h : IsNone k) : deserializeAny k = .none := by
  obtain ⟨i, v⟩ := k
  obtain ⟨h1, h2⟩ := h
  simp only [Kserd.val_mk, Kserd.id_mk] at h1 h2
  subst h1; subst h2
  simp [deserializeAny]

theorem any_isSome {k x : Kserd} (h : IsSome k x) : deserializeAny k = .some x := by
  obtain ⟨i, v⟩ := k
  obtain ⟨h1, h2⟩ := h
  simp only [Kserd.val_mk, Kserd.id_mk] at h1 h2
  subst h1; subst h2
  simp [deserializeAny]

theorem any_isNew {k x : Kserd} (h : IsNew k x) : deserializeAny k = .newtype x := by
  obtain ⟨i, v⟩ := k
  obtain ⟨h1, j, h2, h3⟩ := h
  simp only [Kserd.val_mk, Kserd.id_mk] at h1 h2
  subst h1; subst h2
  simp [deserializeAny, h3]

theorem any_unit {k : Kserd} (h : k.val = .unit) : deserializeAny k = .unit := by
  obtain ⟨i, v⟩ := k; cases h; rfl
theorem any_bool {k : Kserd} {b} (h : k.val = .bool b) : deserializeAny k = .bool b := by
  obtain ⟨i, v⟩ := k; cases h; rfl
theorem any_str {k : Kserd} {b} (h : k.val = .str b) : deserializeAny k = .str b := by
  obtain ⟨i, v⟩ := k; cases h; rfl
theorem any_barr {k : Kserd} {b} (h : k.val = .barr b) : deserializeAny k = .bytes b := by
  obtain ⟨i, v⟩ := k; cases h; rfl
theorem any_cntr {k : Kserd} {b} (h : k.val = .cntr b) : deserializeAny k = .fields b := by
  obtain ⟨i, v⟩ := k; cases h; rfl
theorem any_map {k : Kserd} {b} (h : k.val = .map b) : deserializeAny k = .map b := by
  obtain ⟨i, v⟩ := k; cases h; rfl

/-- A refused visit is described truly. -/
theorem refused_describes (k : Kserd) : Describes (deserializeAny k).refused k := by
  have h := any_shape k
  cases hd : deserializeAny k <;> rw [hd] at h <;> simp only [Shape] at h
  · exact .unit h
  · exact .bool h
  · exact .unsigned h
  · exact .wide h
  · exact .signed h
  · have := Describes.wideSigned h
    simpa only [Visit.refused, intText, List.append_assoc] using this
  · exact .float h
  · exact .str h
  · exact .bytes h
  · exact .none h
  · exact .some h
  · exact .newtype h
  · exact .seq h
  · exact .fields h
  · exact .map h

/-- `unexp_err` describes truly, except integers beyond 64 bits. -/
theorem unexpErr_describes (k : Kserd) :
    (Describes (unexpErr k.val) k ∧ ∀ n, k.val = .num n → ¬ Mistaken (unexpErr k.val) k) ∨ Mistaken (unexpErr k.val) k := by
  by_cases hm : Mistaken (unexpErr k.val) k
  · exact .inr hm
  refine .inl ⟨?_, fun _ _ => hm⟩
  cases hv : k.val with
  | unit => exact .unit hv
  | bool b => exact .bool hv
  | num n =>
    cases n with
    | uint n =>
      simp only [unexpErr]
      by_cases h : n < 2 ^ 64
      · rw [if_pos h]; exact .unsigned hv
      · exact absurd (by simp only [hv, unexpErr, if_neg h]; exact .unsigned hv (by omega)) hm
    | int i =>
      simp only [unexpErr]
      by_cases h : - 2 ^ 63 ≤ i ∧ i < 2 ^ 63
      · rw [if_pos h]; exact .signed hv
      · exact absurd (by simp only [hv, unexpErr, if_neg h]; exact .signed hv (by omega)) hm
    | float x => exact .float hv
  | str s => exact .str hv
  | barr b => exact .bytes hv
  | tuple l => exact .tuple hv
  | cntr l => exact .container hv
  | seq l => exact .seq (.inl hv)
  | map m => exact .map hv

/-! ## Where errors come from -/

theorem tupleOf_err {dec : Ty → Kserd → Except DErr Ser} {w : Str} {e : DErr} : ∀ {a : Nat} {ts : List Ty} {l : List Kserd},
    DecE.tupleOf dec w a ts l = .error e →
      (∃ (i : Nat) (t : Ty) (x : Kserd), ts[i]? = some t ∧ l[i]? = some x ∧ dec t x = .error e) ∨
        (l.length < ts.length ∧ e = .length (a + l.length) w)
  | _, [], _, h => by cases h
  | _, t :: ts, [], h => by
    simp only [DecE.tupleOf, Except.error.injEq] at h
    exact .inr ⟨by simp, by simpa using h.symm⟩
  | a, t :: ts, k :: ks, h => by
    simp only [DecE.tupleOf] at h
    cases hk : dec t k with
    | error e' => rw [hk] at h; cases h; exact .inl ⟨0, t, k, rfl, rfl, hk⟩
    | ok v =>
      rw [hk] at h
      simp only at h
      cases hr : DecE.tupleOf dec w (a + 1) ts ks with
      | ok vs => rw [hr] at h; cases h
      | error e' =>
        rw [hr] at h; cases h
        rcases tupleOf_err hr with ⟨i, t, x, h1, h2, h3⟩ | ⟨h1, h2⟩
        · exact .inl ⟨i + 1, t, x, by simpa using h1, by simpa using h2, h3⟩
        · exact .inr ⟨by simpa using h1, by rw [h2]; simp only [List.length_cons]; congr 1; omega⟩

theorem seqOf_err {dec : Kserd → Except DErr Ser} {e : DErr} : ∀ {l : List Kserd},
    DecE.seqOf dec l = .error e → ∃ x ∈ l, dec x = .error e
  | [], h => by cases h
  | k :: ks, h => by
    simp only [DecE.seqOf] at h
    cases hk : dec k with
    | error e' => rw [hk] at h; cases h; exact ⟨k, by simp, hk⟩
    | ok v =>
      rw [hk] at h
      simp only at h
      cases hr : DecE.seqOf dec ks with
      | ok vs => rw [hr] at h; cases h
      | error e' =>
        rw [hr] at h; cases h
        obtain ⟨x, h1, h2⟩ := seqOf_err hr
        exact ⟨x, by simp [h1], h2⟩

theorem entriesOf_err {κ : Type} {deck : κ → Except DErr Ser} {dec : Kserd → Except DErr Ser} {e : DErr} :
    ∀ {l : List (κ × Kserd)}, DecE.entriesOf deck dec l = .error e →
      ∃ p ∈ l, deck p.1 = .error e ∨ dec p.2 = .error e
  | [], h => by cases h
  | (k, v) :: ks, h => by
    simp only [DecE.entriesOf] at h
    cases hk : deck k with
    | error e' => rw [hk] at h; cases h; exact ⟨(k, v), by simp, .inl hk⟩
    | ok k' =>
      rw [hk] at h
      simp only at h
      cases hv : dec v with
      | error e' => rw [hv] at h; cases h; exact ⟨(k, v), by simp, .inr hv⟩
      | ok v' =>
        rw [hv] at h
        simp only at h
        cases hr : DecE.entriesOf deck dec ks with
        | ok vs => rw [hr] at h; cases h
        | error e' =>
          rw [hr] at h; cases h
          obtain ⟨x, h1, h2⟩ := entriesOf_err hr
          exact ⟨x, by simp [h1], h2⟩

/-- The names among the keys. -/
def named {κ : Type} (name : κ → Except DErr (Option Str)) (l : List (κ × Kserd)) : List Str :=
  l.filterMap (fun p => (opt (name p.1)).join)

theorem collect_err {κ : Type} {name : κ → Except DErr (Option Str)} {dec : Ty → Kserd → Except DErr Ser} {fs : List (Str × Ty)}
    {e : DErr} : ∀ {seen : List Str} {l : List (κ × Kserd)}, DecE.collect name dec fs seen l = .error e →
      (∃ p ∈ l, name p.1 = .error e) ∨
      (∃ p ∈ l, ∃ n t, name p.1 = .ok (some n) ∧ Dec.fieldTy fs n = some t ∧ dec t p.2 = .error e) ∨
      ∃ n t, e = .duplicate n ∧ (n, t) ∈ fs ∧ 2 ≤ (if n ∈ seen then 1 else 0) + (named name l).count n
  | _, [], h => by cases h
  | seen, (key, k) :: r, h => by
    simp only [DecE.collect] at h
    cases hn : name key with
    | error e' => rw [hn] at h; cases h; exact .inl ⟨(key, k), by simp, hn⟩
    | ok o =>
    cases o with
    | none =>
      have hc : named name ((key, k) :: r) = named name r := by simp [named, hn]
      rw [hn] at h
      simp only at h
      rw [hc]
      rcases collect_err h with ⟨p, h1, h2⟩ | ⟨p, h1, h2⟩ | h3
      · exact .inl ⟨p, by simp [h1], h2⟩
      · exact .inr (.inl ⟨p, by simp [h1], h2⟩)
      · exact .inr (.inr h3)
    | some n =>
      have hc : named name ((key, k) :: r) = n :: named name r := by simp [named, hn]
      rw [hn] at h
      simp only at h
      cases hf : Dec.fieldTy fs n with
      | none =>
        rw [hf] at h
        rcases collect_err h with ⟨p, h1, h2⟩ | ⟨p, h1, h2⟩ | ⟨m, t, h1, h2, h3⟩
        · exact .inl ⟨p, by simp [h1], h2⟩
        · exact .inr (.inl ⟨p, by simp [h1], h2⟩)
        · refine .inr (.inr ⟨m, t, h1, h2, ?_⟩)
          rw [hc]
          have := List.count_le_count_cons (a := m) (b := n) (l := named name r)
          omega
      | some t =>
        rw [hf] at h
        simp only at h
        have hm := fieldTy_some hf
        by_cases hs : n ∈ seen
        · rw [if_pos hs] at h; cases h
          refine .inr (.inr ⟨n, t, rfl, hm, ?_⟩)
          rw [hc, if_pos hs]; simp; omega
        · rw [if_neg hs] at h
          cases hd : dec t k with
          | error e' => rw [hd] at h; cases h; exact .inr (.inl ⟨(key, k), by simp, n, t, hn, hf, hd⟩)
          | ok v =>
            rw [hd] at h
            simp only at h
            cases hr : DecE.collect name dec fs (n :: seen) r with
            | ok vs => rw [hr] at h; cases h
            | error e' =>
              rw [hr] at h; cases h
              rcases collect_err hr with ⟨p, h1, h2⟩ | ⟨p, h1, h2⟩ | ⟨m, u, h1, h2, h3⟩
              · exact .inl ⟨p, by simp [h1], h2⟩
              · exact .inr (.inl ⟨p, by simp [h1], h2⟩)
              · refine .inr (.inr ⟨m, u, h1, h2, ?_⟩)
                rw [hc]
                by_cases hmn : m = n
                · subst hmn
                  rw [List.count_cons_self]
                  simp only [List.mem_cons, true_or, if_true, hs, if_false] at h3 ⊢
                  omega
                · rw [List.count_cons_of_ne (by exact fun h => hmn h.symm)]
                  simpa [List.mem_cons, hmn] using h3

theorem collect_names {κ : Type} {name : κ → Except DErr (Option Str)} {dec : Ty → Kserd → Except DErr Ser} {fs : List (Str × Ty)}
    {n : Str} (hf : Dec.fieldTy fs n ≠ none) : ∀ {seen : List Str} {l : List (κ × Kserd)} {vs : List (Str × Ser)},
      DecE.collect name dec fs seen l = .ok vs → n ∈ named name l → ∃ v, (n, v) ∈ vs
  | _, [], _, _, hn => by simp [named] at hn
  | seen, (key, k) :: r, vs, h, hn => by
    simp only [DecE.collect] at h
    cases hk : name key with
    | error e' => rw [hk] at h; cases h
    | ok o =>
    cases o with
    | none =>
      have hc : named name ((key, k) :: r) = named name r := by simp [named, hk]
      rw [hk] at h
      rw [hc] at hn
      exact collect_names hf h hn
    | some m =>
      have hc : named name ((key, k) :: r) = m :: named name r := by simp [named, hk]
      rw [hc] at hn
      rw [hk] at h
      simp only at h
      cases ht : Dec.fieldTy fs m with
      | none =>
        rw [ht] at h
        rcases List.mem_cons.mp hn with rfl | hn
        · exact absurd ht hf
        · exact collect_names hf h hn
      | some t =>
        rw [ht] at h
        simp only at h
        split at h
        · cases h
        · cases hd : dec t k with
          | error e' => rw [hd] at h; cases h
          | ok v =>
            rw [hd] at h
            simp only at h
            cases hr : DecE.collect name dec fs (m :: seen) r with
            | error e' => rw [hr] at h; cases h
            | ok ws =>
              rw [hr] at h; cases h
              rcases List.mem_cons.mp hn with rfl | hn
              · exact ⟨v, by simp⟩
              · obtain ⟨v', hv'⟩ := collect_names hf hr hn
                exact ⟨v', by simp [hv']⟩

theorem collect_sub {κ : Type} {name : κ → Except DErr (Option Str)} {dec : Ty → Kserd → Except DErr Ser} {fs : List (Str × Ty)} :
    ∀ {seen : List Str} {l : List (κ × Kserd)} {vs : List (Str × Ser)}, DecE.collect name dec fs seen l = .ok vs →
      ∀ {n : Str} {v : Ser}, (n, v) ∈ vs → n ∈ named name l
  | _, [], _, h, n, v, hn => by cases h; simp at hn
  | seen, (key, k) :: r, vs, h, n, v, hn => by
    simp only [DecE.collect] at h
    cases hk : name key with
    | error e' => rw [hk] at h; cases h
    | ok o =>
    cases o with
    | none =>
      have hc : named name ((key, k) :: r) = named name r := by simp [named, hk]
      rw [hk] at h
      rw [hc]
      exact collect_sub h hn
    | some m =>
      have hc : named name ((key, k) :: r) = m :: named name r := by simp [named, hk]
      rw [hk] at h
      rw [hc]
      simp only at h
      cases hf : Dec.fieldTy fs m with
      | none => rw [hf] at h; exact List.mem_cons_of_mem _ (collect_sub h hn)
      | some t =>
        rw [hf] at h
        simp only at h
        split at h
        · cases h
        · cases hd : dec t k with
          | error e' => rw [hd] at h; cases h
          | ok w =>
            rw [hd] at h
            simp only at h
            cases hr : DecE.collect name dec fs (m :: seen) r with
            | error e' => rw [hr] at h; cases h
            | ok ws =>
              rw [hr] at h; cases h
              rcases List.mem_cons.mp hn with h1 | h1
              · cases h1; simp
              · exact List.mem_cons_of_mem _ (collect_sub hr h1)

theorem fieldTy_lookup (fs : List (Str × Ty)) (n : Str) : Dec.fieldTy fs n = fs.lookup n := by
  induction fs with
  | nil => rfl
  | cons p r ih =>
    obtain ⟨m, t⟩ := p
    rw [Dec.fieldTy, List.lookup_cons, ih]
    by_cases h : m = n
    · subst h; simp
    · rw [if_neg h, beq_false_of_ne (fun h' => h h'.symm)]

theorem variant_lookup (vs : List (Str × VarDef)) (n : Str) : Dec.variant vs n = vs.lookup n := by
  induction vs with
  | nil => rfl
  | cons p r ih =>
    obtain ⟨m, t⟩ := p
    rw [Dec.variant, List.lookup_cons, ih]
    by_cases h : m = n
    · subst h; simp
    · rw [if_neg h, beq_false_of_ne (fun h' => h h'.symm)]

theorem fieldTy_ne {fs : List (Str × Ty)} {n : Str} {t : Ty} (h : (n, t) ∈ fs) : Dec.fieldTy fs n ≠ none := by
  induction fs with
  | nil => cases h
  | cons p r ih =>
    obtain ⟨m, u⟩ := p
    simp only [Dec.fieldTy]
    split
    · simp
    · rename_i hne
      rcases List.mem_cons.mp h with h | h
      · cases h; exact absurd rfl hne
      · exact ih h

theorem variant_ne {vs : List (Str × VarDef)} {n : Str} {t : VarDef} (h : (n, t) ∈ vs) : Dec.variant vs n ≠ none := by
  induction vs with
  | nil => cases h
  | cons p r ih =>
    obtain ⟨m, u⟩ := p
    simp only [Dec.variant]
    split
    · simp
    · rename_i hne
      rcases List.mem_cons.mp h with h | h
      · cases h; exact absurd rfl hne
      · exact ih h

theorem assemble_err {vs : List (Str × Ser)} {e : DErr} : ∀ {fs : List (Str × Ty)}, DecE.assemble vs fs = .error e →
    ∃ n t a b, fs = a ++ (n, t) :: b ∧ (∀ u, t ≠ .option u) ∧ (∀ v, (n, v) ∉ vs) ∧ e = .missing n ∧
      ∀ p ∈ a, (∃ u, p.2 = .option u) ∨ ∃ v, (p.1, v) ∈ vs
  | [], h => by cases h
  | (n, t) :: r, h => by
    simp only [DecE.assemble] at h
    cases hv : Dec.fieldVal vs n with
    | some v =>
      rw [hv] at h
      simp only at h
      cases hr : DecE.assemble vs r with
      | ok r' => rw [hr] at h; cases h
      | error e' =>
        rw [hr] at h; cases h
        obtain ⟨m, u, a, b, h1, h2, h3, h4, h5⟩ := assemble_err hr
        refine ⟨m, u, (n, t) :: a, b, by simp [h1], h2, h3, h4, fun p hp => ?_⟩
        rcases List.mem_cons.mp hp with rfl | hp
        · exact .inr ⟨v, fieldVal_some hv⟩
        · exact h5 p hp
    | none =>
      rw [hv] at h
      by_cases ho : ∃ u, t = .option u
      · obtain ⟨u, rfl⟩ := ho
        simp only at h
        cases hr : DecE.assemble vs r with
        | ok r' => rw [hr] at h; cases h
        | error e' =>
          rw [hr] at h; cases h
          obtain ⟨m, u', a, b, h1, h2, h3, h4, h5⟩ := assemble_err hr
          refine ⟨m, u', (n, .option u) :: a, b, by simp [h1], h2, h3, h4, fun p hp => ?_⟩
          rcases List.mem_cons.mp hp with rfl | hp
          · exact .inl ⟨u, rfl⟩
          · exact h5 p hp
      · refine ⟨n, t, [], r, rfl, fun u hu => ho ⟨u, hu⟩, fieldVal_none.1 hv, ?_, by simp⟩
        cases t <;> first | (cases h; rfl) | exact absurd ⟨_, rfl⟩ ho

theorem structOf_err {κ : Type} {name : κ → Except DErr (Option Str)} {dec : Ty → Kserd → Except DErr Ser} {fs : List (Str × Ty)}
    {e : DErr} {l : List (κ × Kserd)} (h : DecE.structOf name dec fs l = .error e) :
      (∃ p ∈ l, name p.1 = .error e) ∨
      (∃ p ∈ l, ∃ n t, name p.1 = .ok (some n) ∧ Dec.fieldTy fs n = some t ∧ dec t p.2 = .error e) ∨
      (∃ n t, e = .duplicate n ∧ (n, t) ∈ fs ∧ 2 ≤ (named name l).count n) ∨
      ∃ n t a b, e = .missing n ∧ fs = a ++ (n, t) :: b ∧ (∀ u, t ≠ .option u) ∧ n ∉ named name l ∧
        ∀ p ∈ a, (∃ u, p.2 = .option u) ∨ p.1 ∈ named name l := by
  unfold DecE.structOf at h
  cases hc : DecE.collect name dec fs [] l with
  | error e' =>
    rw [hc] at h; cases h
    rcases collect_err hc with h | h | ⟨n, t, h1, h2, h3⟩
    · exact .inl h
    · exact .inr (.inl h)
    · exact .inr (.inr (.inl ⟨n, t, h1, h2, by simpa using h3⟩))
  | ok vs =>
    rw [hc] at h
    obtain ⟨n, t, a, b, h1, h2, h3, h4, h5⟩ := assemble_err h
    refine .inr (.inr (.inr ⟨n, t, a, b, h4, h1, h2, fun hn => ?_, fun p hp => (h5 p hp).imp_right ?_⟩))
    · obtain ⟨v, hv⟩ := collect_names (fieldTy_ne (t := t) (by simp [h1])) hc hn
      exact h3 v hv
    · rintro ⟨v, hv⟩
      exact collect_sub hc hv

/-! ## One level -/

/-- The error alone. -/
def errOf {α : Type} : Except DErr α → Option DErr
  | .ok _ => none
  | .error e => some e

theorem errOf_error {α : Type} {x : Except DErr α} {e : DErr} (h : x = .error e) : errOf x = some e := by rw [h]; rfl

theorem errOf_some {α : Type} {x : Except DErr α} {e : DErr} (h : errOf x = some e) : x = .error e := by
  cases x with
  | ok a => cases h
  | error e' => cases h; rfl

/-- The error is true, or calls an integer beyond 64 bits 0. -/
def SaysOr (env : TyEnv) (e : DErr) (t : Ty) (k : Kserd) : Prop :=
  Says env e (.value t k) ∨ ∃ u w, e = .type u w ∧ Mistaken u k ∧ Misfit env t k w

/-- The error of one thing that is looked at. -/
def stepErr (env : TyEnv) (dec : Ty → Kserd → Except DErr Ser) : Step → Option DErr
  | .look (.value t k) => errOf (dec t k)
  | .look (.key t s) => errOf (DecE.strKey env t s)
  | .look (.field k) => errOf (DecE.fieldKey [] k)
  | .again f => some (.duplicate f)

/-- The names looked at directly. -/
inductive Direct (env : TyEnv) : Ty → Kserd → Subject → Prop
  | key {kt vt k l n v} : k.val = .cntr l → (n, v) ∈ l → Direct env (.map kt vt) k (.key kt n)
  | field {n m fs k l x v} : env n = some (.struct m fs) → k.val = .map l → (x, v) ∈ l → Direct env (.named n) k (.field x)

/-- Where the error of one level comes from. -/
def Source (env : TyEnv) (dec : Ty → Kserd → Except DErr Ser) (e : DErr) (t : Ty) (k : Kserd) : Prop :=
  (∃ u x, Child env t k u x ∧ dec u x = .error e) ∨
  (∃ s, Direct env t k s ∧ stepErr env dec (.look s) = some e ∧ Says env e s) ∨ SaysOr env e t k

variable {env : TyEnv} {dec : Ty → Kserd → Except DErr Ser} {e : DErr} {t : Ty} {k : Kserd}

theorem map_err {α β : Type} {f : α → β} {x : Except DErr α} (h : x.map f = .error e) : x = .error e := by
  cases x with
  | ok a => cases h
  | error e' => cases h; rfl

theorem refuse {w : Str} (h : Except.error (ε := DErr) (α := Ser) (.type (deserializeAny k).refused w) = .error e)
    (hm : Misfit env t k w) : Source env dec e t k := by
  cases h
  exact .inr (.inr (.inl (.type (refused_describes k) hm)))

theorem unexp {w : Str} (h : Except.error (ε := DErr) (α := Ser) (.type (unexpErr k.val) w) = .error e)
    (hm : Misfit env t k w) : Source env dec e t k := by
  cases h
  rcases unexpErr_describes k with hd | hd
  · exact .inr (.inr (.inl (.type hd.1 hm)))
  · exact .inr (.inr (.inr ⟨_, _, rfl, hd, hm⟩))

/-- No visit of a shape other than the one found. -/
theorem notElems {v : Visit} (hd : deserializeAny k = v) (hv : ∀ l, v ≠ .seq l) : ∀ l, ¬ Elems k l :=
  fun l hl => hv l (hd.symm.trans (any_elems hl))

theorem strKey_err {s : Str} (h : DecE.strKey env t s = .error e) : Says env e (.key t s) := by
  have hid : ∀ t : IntTy, t.identity = intName t := by intro t; cases t <;> decide
  cases t with
  | string => cases h
  | char =>
    simp only [DecE.strKey] at h
    split at h
    · cases h
    · rename_i hs
      cases h
      refine .keyChar fun hl => ?_
      match s, hl with
      | [c], _ => exact hs c rfl
  | named n =>
    simp only [DecE.strKey] at h
    cases hn : env n with
    | none => rw [hn] at h; cases h; exact .keyNoType hn
    | some d =>
      rw [hn] at h
      cases d with
      | unitStruct m => cases h; exact .key (.unitStruct hn)
      | newtype m t => cases h; exact .key (.newtype hn)
      | tupleStruct m t => cases h; exact .key (.tupleStruct hn)
      | struct m t => cases h; exact .key (.struct hn)
      | enum vs =>
        simp only at h
        cases hv : Dec.variant vs s with
        | none =>
          rw [hv] at h; cases h
          refine .keyUnknown hn fun hm => ?_
          obtain ⟨⟨m, d⟩, hp, rfl⟩ := List.mem_map.mp hm
          exact variant_ne hp hv
        | some v =>
          rw [hv] at h
          have := variant_some hv
          cases v with
          | unit => cases h
          | newtype t => cases h; exact .keyNewtype hn this
          | tuple t => cases h; exact .keyTuple hn this
          | struct t => cases h; exact .keyStruct hn this
  | int t =>
    have he : DecE.strKey env (.int t) s = .error (.type (.str s) t.identity) := rfl
    rw [he, hid] at h
    generalize hw : intName t = w at h
    cases h
    rw [← hw]
    exact .key .int
  | unit => cases h; exact .key .unit
  | bool => cases h; exact .key .bool
  | f32 => cases h; exact .key .f32
  | f64 => cases h; exact .key .f64
  | bytes => cases h
  | option => cases h; exact .key .option
  | seq => cases h; exact .key .seq
  | tuple => cases h; exact .key .tuple
  | map => cases h; exact .key .map

theorem named_names (fs : List (Str × Ty)) (l : Fields) : named DecE.nameKey l = namesIn fs (.cntr l) := by
  induction l with
  | nil => rfl
  | cons p r ih => simp only [named, namesIn, List.filterMap_cons, DecE.nameKey, opt_ok, Option.join_some, List.map_cons] at ih ⊢; rw [ih]

theorem fieldKey_cases (ns : List Str) (k : Kserd) : (DecE.fieldKey ns k = .ok (nameOf ns k)) ∨
    (nameOf ns k = none ∧ DecE.fieldKey ns k = .error (.type (deserializeAny k).refused (KS.str "field identifier")) ∧
      (∀ s, k.val ≠ .str s) ∧ (∀ b, k.val ≠ .barr b) ∧ ∀ n, n < 2 ^ 64 → k.val ≠ .num (.uint n)) := by
  have hs := any_shape k
  unfold DecE.fieldKey nameOf
  obtain ⟨i, v⟩ := k
  cases v with
  | str s => exact .inl rfl
  | barr b => exact .inl rfl
  | num n =>
    cases n with
    | uint n =>
      simp only [deserializeAny, Kserd.val_mk]
      by_cases h : n < 2 ^ 64
      · rw [if_pos h, if_pos h]; exact .inl rfl
      · rw [if_neg h, if_neg h]
        refine .inr ⟨rfl, rfl, by simp, by simp, ?_⟩
        rintro m hm ⟨⟩
        exact h hm
    | int n =>
      simp only [deserializeAny, Kserd.val_mk]
      by_cases h : - 2 ^ 63 ≤ n ∧ n < 2 ^ 63
      · rw [if_pos h]; exact .inr ⟨trivial, rfl, by simp, by simp, by simp⟩
      · rw [if_neg h]; exact .inr ⟨trivial, rfl, by simp, by simp, by simp⟩
    | float f => exact .inr ⟨rfl, rfl, by simp, by simp, by simp⟩
  | tuple l =>
    refine .inr ⟨rfl, ?_, by simp, by simp, by simp⟩
    generalize deserializeAny (Kserd.mk i (.tuple l)) = o at hs
    cases o <;> first | rfl | cases hs
  | _ => exact .inr ⟨rfl, rfl, by simp, by simp, by simp⟩

theorem fieldKey_errOf (ns : List Str) (k : Kserd) : errOf (DecE.fieldKey ns k) = errOf (DecE.fieldKey [] k) := by
  unfold DecE.fieldKey
  split <;> first | rfl | (split <;> first | rfl | simp_all)

theorem named_keys (fs : List (Str × Ty)) (m : KMap) : named (DecE.fieldKey (fs.map Prod.fst)) m = namesIn fs (.map m) := by
  simp only [named, namesIn]
  congr 1
  funext p
  rcases fieldKey_cases (fs.map Prod.fst) p.1 with h | ⟨h1, h2, _⟩
  · rw [h]; rfl
  · rw [h1, h2]; rfl

theorem struct_err {n : Str} {fs : List (Str × Ty)} {l : Fields} (hf : FieldsOf env n k fs) (hk : k.val = .cntr l)
    (h : DecE.structOf DecE.nameKey dec fs l = .error e) : Source env dec e (.named n) k := by
  rcases structOf_err h with ⟨p, _, h1⟩ | ⟨p, hp, m, t, h1, h2, h3⟩ | ⟨m, t, rfl, h2, h3⟩ | ⟨m, t, a, b, rfl, h2, h3, h4, h5⟩
  · cases h1
  · cases h1
    rw [fieldTy_lookup] at h2
    exact .inl ⟨t, p.2, .field hf h2 (.inl ⟨l, hk, hp⟩), h3⟩
  · rw [named_names fs, ← hk] at h3
    exact .inr (.inr (.inl (.duplicate hf h2 h3)))
  · rw [named_names fs, ← hk] at h4 h5
    exact .inr (.inr (.inl (.missing hf h2 h3 h4 h5)))

theorem eps_one : (F64.eps : Int) < one ∧ 0 < F64.eps := by
  constructor
  · have h1 := eps_lt
    have h2 := scale_even
    rw [← scale_one]; omega
  · decide +kernel

theorem mul_one_inj {a b : Int} (h : a * one = b * one) : a = b :=
  Int.eq_of_mul_eq_mul_right (by have := one_pos; omega) h

theorem asI128_none {a : Number} {j : Int} (h : a.asI128 = none) (h1 : - 2 ^ 127 ≤ j) (h2 : j < 2 ^ 127) :
    place a ≠ .fin (j * one) := by
  intro hp
  cases a with
  | uint n =>
    have hM : i128Max = 2 ^ 127 - 1 := rfl
    simp only [place, Place.fin.injEq] at hp
    have := mul_one_inj hp
    simp only [Number.asI128, Number.tryI128OfNat] at h
    split at h
    · cases h
    · omega
  | int i => cases h
  | float f =>
    have : Number.asI128 (.float f) = some j := (C06_float_i128 f j).2
      ⟨j * one, j, hp, by have := eps_one.2; simpa using this, by omega⟩
    rw [h] at this; cases this

theorem asU128_none {a : Number} {j : Int} (h : a.asU128 = none) (h1 : 0 ≤ j) (h2 : j < 2 ^ 128) :
    place a ≠ .fin (j * one) := by
  intro hp
  obtain ⟨n, rfl⟩ := Int.eq_ofNat_of_zero_le h1
  cases a with
  | uint n => cases h
  | int i =>
    simp only [place, Place.fin.injEq] at hp
    have := mul_one_inj hp
    simp only [Number.asU128, Number.tryU128OfInt] at h
    split at h
    · cases h
    · omega
  | float f =>
    have : Number.asU128 (.float f) = some n := (C06_float_u128 f n).2
      ⟨(n : Int) * one, n, hp, Int.mul_nonneg h1 (by have := one_pos; omega), by have := eps_one.2; simpa using this, by omega⟩
    rw [h] at this; cases this

theorem asI128_about {a : Number} {j : Int} (h : a.asI128 = some j) : About true a j := by
  have ho := one_pos
  cases a with
  | uint n =>
    simp only [Number.asI128, Number.tryI128OfNat] at h
    split at h
    · cases h
      exact ⟨_, n, rfl, by simpa using ho, .inl rfl⟩
    · cases h
  | int i =>
    cases h
    exact ⟨_, _, rfl, by simpa using ho, .inl rfl⟩
  | float f =>
    obtain ⟨x, r, h1, h2, h3⟩ := (C06_float_i128 f j).1 h
    have := eps_one.1
    refine ⟨x, r, h1, by omega, ?_⟩
    simp only [if_true]
    omega

theorem asU128_about {a : Number} {j : Nat} (h : a.asU128 = some j) : About false a j := by
  have ho := one_pos
  cases a with
  | uint n =>
    simp only [Number.asU128, Option.some.injEq] at h
    subst h
    exact ⟨_, (n : Int), rfl, by simpa using ho, .inl rfl⟩
  | int i =>
    simp only [Number.asU128, Number.tryU128OfInt] at h
    split at h
    · cases h
      exact ⟨_, i, rfl, by simpa using ho, .inl (by omega)⟩
    · cases h
  | float f =>
    obtain ⟨x, r, h1, h0, h2, h3⟩ := (C06_float_u128 f j).1 h
    have := eps_one.1
    refine ⟨x, r, h1, by omega, ?_⟩
    simp only [Bool.false_eq_true, if_false]
    omega

theorem int_err {ty : IntTy} (h : DecE.int ty k.val = .error e) : Source env dec e (.int ty) k := by
  have hid : ∀ t : IntTy, t.identity = intName t := by intro t; cases t <;> decide
  by_cases hv : ∃ n, k.val = .num n
  · obtain ⟨a, hv⟩ := hv
    rw [hv] at h
    simp only [DecE.int] at h
    refine .inr (.inr (.inl ?_))
    split at h
    · rename_i hs
      cases ha : a.asI128 with
      | none =>
        rw [ha] at h; cases h
        refine .outside hv fun j hj hp => ?_
        rw [hs, InWide, if_pos rfl] at hj
        exact asI128_none ha hj.1 hj.2 hp
      | some j =>
        rw [ha] at h
        simp only at h
        split at h
        · cases h
        · rename_i hr
          cases h
          exact .tryFrom hv (j := j) (hs ▸ asI128_about ha) hr
    · rename_i hs
      have hs : ty.signed = false := by simpa using hs
      cases ha : a.asU128 with
      | none =>
        rw [ha] at h; cases h
        refine .outside hv fun j hj hp => ?_
        rw [hs, InWide, if_neg (by simp)] at hj
        exact asU128_none ha hj.1 hj.2 hp
      | some j =>
        rw [ha] at h
        simp only at h
        split at h
        · cases h
        · rename_i hr
          cases h
          exact .tryFrom hv (j := j) (hs ▸ asU128_about ha) (fun hc => hr hc.2)
  · have : DecE.int ty k.val = .error (.type (unexpErr k.val) ty.identity) := by
      cases hk : k.val <;> first | rfl | exact absurd ⟨_, hk⟩ hv
    rw [this, hid] at h
    exact unexp h (.int fun n hn => hv ⟨n, hn⟩)

theorem variant_err {n i : Str} {vs : List (Str × VarDef)} {v : VarDef} (hn : env n = some (.enum vs)) (hi : k.id = some i)
    (hv : Dec.variant vs i = some v) (h : DecE.variantOf dec i v k.val = .error e) : Source env dec e (.named n) k := by
  have hm := variant_some hv
  have hl := (variant_lookup vs i).symm.trans hv
  cases v with
  | unit =>
    simp only [DecE.variantOf] at h
    split at h
    · cases h
    · cases h
    · rename_i h1 h2
      exact unexp h (.unitVariant hn hi hm h1 h2)
  | newtype t =>
    simp only [DecE.variantOf] at h
    split at h
    · rename_i x hx
      exact .inl ⟨t, x, .newtypeVariant hn hi hl hx, map_err h⟩
    · rename_i l h1 h2
      cases h
      refine .inr (.inr (.inl (.length (.newtypeVariant hn hi hm h2 fun hl => ?_))))
      match l, hl with
      | [x], _ => exact h1 x rfl
    · rename_i h1 h2
      exact unexp h (.newtypeVariant hn hi hm h2)
  | tuple ts =>
    simp only [DecE.variantOf] at h
    split at h
    · rename_i l hk
      split at h
      · rename_i hlen
        rcases tupleOf_err (map_err h) with ⟨j, t, x, h1, h2, h3⟩ | ⟨h1, _⟩
        · exact .inl ⟨t, x, .tupleVariant hn hi hl hk hlen h1 h2, h3⟩
        · omega
      · rename_i hlen
        cases h
        exact .inr (.inr (.inl (.length (.tupleVariant hn hi hm hk hlen))))
    · rename_i h1
      exact unexp h (.tupleVariant hn hi hm h1)
  | struct fs =>
    simp only [DecE.variantOf] at h
    split at h
    · rename_i l hk
      exact struct_err (.inr ⟨vs, i, l, hn, hi, hl, hk⟩) hk (map_err h)
    · rename_i h1
      exact unexp h (.structVariant hn hi hm h1)

theorem def_err {n : Str} {d : TyDef} (hn : env n = some d) (h : DecE.defOf dec d k = .error e) :
    Source env dec e (.named n) k := by
  have hs := any_shape k
  cases d with
  | unitStruct m =>
    simp only [DecE.defOf] at h
    split at h
    · cases h
    · rename_i h1; exact unexp h (.unitStruct hn h1)
  | newtype m t =>
    simp only [DecE.defOf] at h
    split at h
    · rename_i x hd
      rw [hd] at hs
      exact .inl ⟨t, x, .newtype hn (.inl hs), map_err h⟩
    · rename_i x r hd
      rw [hd] at hs
      exact .inl ⟨t, x, .newtype hn (.inr ⟨r, hs⟩), map_err h⟩
    · rename_i hd
      rw [hd] at hs
      cases h
      exact .inr (.inr (.inl (.length (.newtype hn hs))))
    · rename_i h1 h2 h3
      refine refuse h (.newtype hn (fun l hl => ?_) fun x hx => h1 x (any_isNew hx))
      cases l with
      | nil => exact h3 (any_elems hl)
      | cons x r => exact h2 x r (any_elems hl)
  | tupleStruct m ts =>
    simp only [DecE.defOf] at h
    split at h
    · rename_i l hd
      rw [hd] at hs
      rcases tupleOf_err (map_err h) with ⟨j, t, x, h1, h2, h3⟩ | ⟨h1, h2⟩
      · exact .inl ⟨t, x, .tupleStruct hn hs h1 h2, h3⟩
      · subst h2
        rw [Nat.zero_add]
        exact .inr (.inr (.inl (.length (.tupleStruct hn hs h1))))
    · rename_i h1
      exact refuse h (.tupleStruct hn fun l hl => h1 l (any_elems hl))
  | struct m fs =>
    simp only [DecE.defOf] at h
    split at h
    · rename_i l hd
      rw [hd] at hs
      exact struct_err (.inl ⟨m, hn⟩) hs (map_err h)
    · rename_i l hd
      rw [hd] at hs
      have hf : FieldsOf env n k fs := .inl ⟨m, hn⟩
      rcases structOf_err (map_err h) with ⟨p, hp, h1⟩ | ⟨p, hp, a, t, h1, h2, h3⟩ | ⟨a, t, rfl, h2, h3⟩ | ⟨a, t, b, c, rfl, h2, h3, h4, h5⟩
      · refine .inr (.inl ⟨.field p.1, .field hn hs hp, (fieldKey_errOf _ _).symm.trans (errOf_error h1), ?_⟩)
        rcases fieldKey_cases (fs.map Prod.fst) p.1 with hk | ⟨_, hk, h2, h3, h4⟩
        · rw [hk] at h1; cases h1
        · rw [hk] at h1; cases h1
          exact .field (refused_describes _) h2 h3 h4
      · rcases fieldKey_cases (fs.map Prod.fst) p.1 with hk | ⟨_, hk, _⟩
        · rw [hk] at h1
          rw [fieldTy_lookup] at h2
          exact .inl ⟨t, p.2, .field hf h2 (.inr ⟨l, p.1, hs, hp, Except.ok.inj h1⟩), h3⟩
        · rw [hk] at h1; cases h1
      · have hs : k.val = .map l := hs
        rw [named_keys, ← hs] at h3
        exact .inr (.inr (.inl (.duplicate hf h2 h3)))
      · have hs : k.val = .map l := hs
        rw [named_keys, ← hs] at h4 h5
        exact .inr (.inr (.inl (.missing hf h2 h3 h4 h5)))
    · rename_i l hd
      rw [hd] at hs
      rcases tupleOf_err (map_err h) with ⟨j, t, x, h1, h2, h3⟩ | ⟨h1, h2⟩
      · rw [List.getElem?_map, Option.map_eq_some_iff] at h1
        obtain ⟨⟨f, t'⟩, h1, rfl⟩ := h1
        exact .inl ⟨_, x, .structSeq hn hs h1 h2, h3⟩
      · subst h2
        rw [Nat.zero_add]
        exact .inr (.inr (.inl (.length (.struct hn hs (by simpa using h1)))))
    · rename_i h1 h2 h3
      exact refuse h (.struct hn (fun l hl => h3 l (any_elems hl)) (fun l hl => h2 l (any_map hl)) fun l hl => h1 l (any_cntr hl))
  | enum vs =>
    simp only [DecE.defOf] at h
    cases hi : k.id with
    | none => rw [hi] at h; cases h; exact .inr (.inr (.inl (.noIdentity hn hi)))
    | some i =>
      rw [hi] at h
      simp only at h
      cases hv : Dec.variant vs i with
      | none =>
        rw [hv] at h; cases h
        refine .inr (.inr (.inl (.unknownVariant hn hi fun hm => ?_)))
        obtain ⟨⟨m, d⟩, hp, rfl⟩ := List.mem_map.mp hm
        exact variant_ne hp hv
      | some v =>
        rw [hv] at h
        exact variant_err hn hi hv h

theorem step_err (h : DecE.step env dec t k = .error e) : Source env dec e t k := by
  have hs := any_shape k
  cases t with
  | unit =>
    simp only [DecE.step] at h
    split at h
    · cases h
    · rename_i h1; exact refuse h (.unit fun hk => h1 (any_unit hk))
  | bool =>
    simp only [DecE.step] at h
    split at h
    · cases h
    · rename_i h1; exact refuse h (.bool fun b hk => h1 b (any_bool hk))
  | int ty => exact int_err h
  | f32 =>
    simp only [DecE.step] at h
    split at h
    · cases h
    · rename_i h1; exact unexp h (.f32 h1)
  | f64 =>
    simp only [DecE.step] at h
    split at h
    · cases h
    · rename_i h1; exact unexp h (.f64 h1)
  | char =>
    simp only [DecE.step] at h
    split at h
    · cases h
    · rename_i h1; exact unexp h (.char h1)
  | string =>
    simp only [DecE.step] at h
    split at h
    · cases h
    · rename_i b hd
      rw [hd] at hs
      cases hb : bytesStr b with
      | some s => rw [hb] at h; cases h
      | none =>
        rw [hb] at h; cases h
        exact .inr (.inr (.inl (.bytes hs ((bytesStr_none b).mp hb))))
    · rename_i h1 h2; exact refuse h (.string (fun b hk => h1 b (any_str hk)) fun b hk => h2 b (any_barr hk))
  | bytes =>
    simp only [DecE.step] at h
    split at h
    · cases h
    · cases h
    · rename_i h1 h2; exact refuse h (.bytes (fun b hk => h1 b (any_barr hk)) fun b hk => h2 b (any_str hk))
  | option u =>
    simp only [DecE.step] at h
    split at h
    · cases h
    · cases h
    · rename_i x hd
      rw [hd] at hs
      exact .inl ⟨u, x, .some hs, map_err h⟩
    · rename_i h1 h2 h3
      exact refuse h (.option (fun hk => h1 (any_unit hk)) (fun hk => h2 (any_isNone hk)) fun x hk => h3 x (any_isSome hk))
  | seq u =>
    simp only [DecE.step] at h
    split at h
    · rename_i l hd
      rw [hd] at hs
      obtain ⟨x, h1, h2⟩ := seqOf_err (map_err h)
      exact .inl ⟨u, x, .elem hs h1, h2⟩
    · rename_i h1; exact refuse h (.seq fun l hl => h1 l (any_elems hl))
  | tuple ts =>
    simp only [DecE.step] at h
    split at h
    · rename_i l hd
      rw [hd] at hs
      rcases tupleOf_err (map_err h) with ⟨j, t, x, h1, h2, h3⟩ | ⟨h1, h2⟩
      · exact .inl ⟨t, x, .tuple hs h1 h2, h3⟩
      · subst h2
        rw [Nat.zero_add]
        exact .inr (.inr (.inl (.length (.tuple hs h1))))
    · rename_i h1; exact refuse h (.tuple fun l hl => h1 l (any_elems hl))
  | map kt vt =>
    simp only [DecE.step] at h
    split at h
    · rename_i m hd
      rw [hd] at hs
      obtain ⟨⟨x, v⟩, hp, h1 | h1⟩ := entriesOf_err (map_err h)
      · exact .inl ⟨kt, x, .mapKey hs hp, h1⟩
      · exact .inl ⟨vt, v, .mapValue hs hp, h1⟩
    · rename_i m hd
      rw [hd] at hs
      obtain ⟨⟨x, v⟩, hp, h1 | h1⟩ := entriesOf_err (map_err h)
      · exact .inr (.inl ⟨.key kt x, .key hs hp, errOf_error h1, strKey_err h1⟩)
      · exact .inl ⟨vt, v, .cntrValue hs hp, h1⟩
    · rename_i h1 h2; exact refuse h (.map (fun b hk => h1 b (any_map hk)) fun b hk => h2 b (any_cntr hk))
  | named n =>
    simp only [DecE.step] at h
    cases hn : env n with
    | none => rw [hn] at h; cases h; exact .inr (.inr (.inl (.noType hn)))
    | some d => rw [hn] at h; exact def_err hn h

/-! ## All levels -/

theorem depth_val (k : Kserd) : k.depth = Value.depth k.val + 1 := by obtain ⟨i, v⟩ := k; rfl

theorem elems_depth {l : List Kserd} (h : Elems k l) : depthL l < k.depth := by
  rw [depth_val]
  rcases h with h | ⟨h, _⟩ <;> rw [h] <;> simp only [Value.depth] <;> omega

theorem child_depth {u : Ty} {x : Kserd} (h : Child env t k u x) : x.depth < k.depth := by
  have key : ∀ {l : List Kserd} {x : Kserd}, Elems k l → x ∈ l → x.depth < k.depth := by
    intro l x h1 h2
    have := elems_depth h1
    have := depthL_mem h2
    omega
  have tup : ∀ {l : List Kserd} {x : Kserd}, k.val = .tuple l → x ∈ l → x.depth < k.depth := by
    intro l x h1 h2
    have := depthL_mem h2
    rw [depth_val k, h1]
    simp only [Value.depth]; omega
  have mp : ∀ {m : KMap} {p : Kserd × Kserd}, k.val = .map m → p ∈ m → p.1.depth < k.depth ∧ p.2.depth < k.depth := by
    intro l p h1 h2
    have := depthM_mem h2
    rw [depth_val k, h1]
    simp only [Value.depth]; omega
  have cn : ∀ {m : Fields} {p : Str × Kserd}, k.val = .cntr m → p ∈ m → p.2.depth < k.depth := by
    intro l p h1 h2
    have := depthF_mem h2
    rw [depth_val k, h1]
    simp only [Value.depth]; omega
  cases h with
  | some h => exact tup h.1 (by simp)
  | elem h1 h2 => exact key h1 h2
  | tuple h1 h2 h3 => exact key h1 (List.mem_of_getElem? h3)
  | mapKey h1 h2 => exact (mp h1 h2).1
  | mapValue h1 h2 => exact (mp h1 h2).2
  | cntrValue h1 h2 => exact cn h1 h2
  | newtype _ h =>
    rcases h with h | ⟨r, h⟩
    · exact tup h.1 (by simp)
    · exact key h (by simp)
  | tupleStruct _ h1 _ h3 => exact key h1 (List.mem_of_getElem? h3)
  | structSeq _ h1 _ h3 => exact key h1 (List.mem_of_getElem? h3)
  | field _ _ h =>
    rcases h with ⟨l, h1, h2⟩ | ⟨m, y, h1, h2, _⟩
    · exact cn h1 h2
    · exact (mp h1 h2).2
  | newtypeVariant _ _ _ h => exact tup h (by simp)
  | tupleVariant _ _ _ h1 _ _ h3 => exact tup h1 (List.mem_of_getElem? h3)

theorem decode_err : ∀ {f : Nat} {t : Ty} {k : Kserd}, k.depth ≤ f → DecE.decode env f t k = .error e →
    ∃ s, Reads env t k s ∧
      ((∃ u x, s = .value u x ∧ decode env u x = none ∧ SaysOr env e u x) ∨ ((∀ u x, s ≠ .value u x) ∧ Says env e s))
  | 0, _, k, hk, _ => by rw [depth_val] at hk; omega
  | f + 1, t, k, hk, h => by
    have hnone : decode env t k = none := by
      have := decode_opt env (f + 1) t k
      rw [h, opt_error] at this
      rw [← decode_fuel env t k (f + 1) hk]
      exact this.symm
    rcases step_err h with ⟨u, x, hc, hx⟩ | ⟨s, hr, hs, h1⟩ | h1
    · have := child_depth hc
      obtain ⟨s, h2, h3⟩ := decode_err (by omega) hx
      exact ⟨s, .inside hc h2, h3⟩
    · cases hr with
      | key h2 h3 => exact ⟨_, .key h2 h3, .inr ⟨by simp, h1⟩⟩
      | field h2 h3 h4 => exact ⟨_, .field h2 h3 h4, .inr ⟨by simp, h1⟩⟩
    · exact ⟨_, .here, .inl ⟨t, k, rfl, hnone, h1⟩⟩

end KS.DE
