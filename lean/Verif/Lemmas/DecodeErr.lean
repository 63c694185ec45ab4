import Verif.Model.DecodeErr
import Verif.Lemmas.Decode
/-! The decoder with errors is the decoder: same successes, same results. -/

namespace KS.DE

/-- Forget the error. -/
def opt {α : Type} : Except DErr α → Option α
  | .ok a => some a
  | .error _ => none

@[simp] theorem opt_ok {α : Type} (a : α) : opt (.ok a) = some a := rfl
@[simp] theorem opt_error {α : Type} (e : DErr) : opt (.error e : Except DErr α) = none := rfl

theorem opt_map {α β : Type} (f : α → β) (x : Except DErr α) : opt (x.map f) = (opt x).map f := by
  cases x <;> rfl

theorem opt_eq_none {α : Type} {x : Except DErr α} : opt x = none ↔ ∃ e, x = .error e := by
  cases x <;> simp

section
variable {dE : Ty → Kserd → Except DErr Ser} {d : Ty → Kserd → Option Ser} (h : ∀ t k, opt (dE t k) = d t k)
include h

theorem tupleOf_opt (w : Str) : ∀ (a : Nat) (ts : List Ty) (l : List Kserd),
    opt (DecE.tupleOf dE w a ts l) = Dec.tupleOf d ts l
  | _, [], _ => rfl
  | _, _ :: _, [] => rfl
  | a, t :: ts, k :: ks => by
    simp only [DecE.tupleOf, Dec.tupleOf, ← h, ← tupleOf_opt w (a + 1) ts ks]
    cases dE t k <;> simp only [opt_ok, opt_error]
    cases DecE.tupleOf dE w (a + 1) ts ks <;> rfl

theorem seqOf_opt (t : Ty) : ∀ (l : List Kserd), opt (DecE.seqOf (dE t) l) = Dec.seqOf (d t) l
  | [] => rfl
  | k :: ks => by
    simp only [DecE.seqOf, Dec.seqOf, ← h, ← seqOf_opt t ks]
    cases dE t k <;> simp only [opt_ok, opt_error]
    cases DecE.seqOf (dE t) ks <;> rfl

theorem entriesOf_opt {κ : Type} (gE : κ → Except DErr Ser) (g : κ → Option Ser) (hg : ∀ x, opt (gE x) = g x) (t : Ty) :
    ∀ (l : List (κ × Kserd)), opt (DecE.entriesOf gE (dE t) l) = Dec.entriesOf g (d t) l
  | [] => rfl
  | (k, v) :: ks => by
    simp only [DecE.entriesOf, Dec.entriesOf, ← h, ← hg, ← entriesOf_opt gE g hg t ks]
    cases gE k <;> simp only [opt_ok, opt_error]
    cases dE t v <;> simp only [opt_ok, opt_error]
    cases DecE.entriesOf gE (dE t) ks <;> rfl

/-- What `collect` gives, when the keys are names. -/
theorem collect_opt (fs : List (Str × Ty)) : ∀ (seen : List Str) (l : List (Str × Kserd)),
    opt (DecE.collect DecE.nameKey dE fs seen l) =
      (Dec.collect d fs l).bind (fun vs => if (vs.map Prod.fst).Nodup ∧ ∀ n ∈ vs.map Prod.fst, n ∉ seen then some vs else none)
  | seen, [] => by simp [DecE.collect, Dec.collect]
  | seen, (n, k) :: r => by
    simp only [DecE.collect, DecE.nameKey, Dec.collect]
    cases hf : Dec.fieldTy fs n with
    | none => simpa using collect_opt fs seen r
    | some t =>
      simp only [← h]
      by_cases hs : n ∈ seen
      · simp only [hs, if_true, opt_error]
        cases dE t k with
        | error e => rfl
        | ok v => cases Dec.collect d fs r <;> simp [hs]
      · simp only [hs, if_false]
        cases dE t k with
        | error e => rfl
        | ok v =>
          have ih := collect_opt fs (n :: seen) r
          simp only [opt_ok]
          cases hc : Dec.collect d fs r with
          | none =>
            rw [hc] at ih
            cases hE : DecE.collect DecE.nameKey dE fs (n :: seen) r with
            | error e => rfl
            | ok vs => rw [hE] at ih; simp at ih
          | some vs =>
            rw [hc] at ih
            simp only [Option.bind_some] at ih ⊢
            cases hE : DecE.collect DecE.nameKey dE fs (n :: seen) r with
            | error e =>
              rw [hE] at ih
              simp only [opt_error] at ih ⊢
              symm
              rw [if_neg]
              rintro ⟨h1, h2⟩
              simp only [List.map_cons, List.nodup_cons, List.mem_cons] at h1 h2
              rw [if_pos ⟨h1.2, fun m hm hc => by
                rcases List.mem_cons.mp hc with rfl | hc
                · exact h1.1 hm
                · exact h2 m (.inr hm) hc⟩] at ih
              cases ih
            | ok ws =>
              rw [hE] at ih
              simp only [opt_ok] at ih ⊢
              split at ih
              · rename_i hh
                cases ih
                rw [if_pos]
                refine ⟨?_, ?_⟩
                · simp only [List.map_cons, List.nodup_cons]
                  exact ⟨fun hm => hh.2 n hm (List.mem_cons_self ..), hh.1⟩
                · intro m hm
                  simp only [List.map_cons, List.mem_cons] at hm
                  rcases hm with rfl | hm
                  · exact hs
                  · exact fun hx => hh.2 m hm (List.mem_cons_of_mem _ hx)
              · cases ih

theorem assemble_opt (vs : List (Str × Ser)) : ∀ (fs : List (Str × Ty)), opt (DecE.assemble vs fs) = Dec.assemble vs fs
  | [] => rfl
  | (n, t) :: r => by
    simp only [DecE.assemble, Dec.assemble, ← assemble_opt vs r]
    cases Dec.fieldVal vs n with
    | some v => cases DecE.assemble vs r <;> rfl
    | none =>
      cases t <;> first | rfl | skip
      cases DecE.assemble vs r <;> rfl

theorem structOf_opt (fs : List (Str × Ty)) (l : List (Str × Kserd)) :
    opt (DecE.structOf DecE.nameKey dE fs l) = Dec.structOf d fs l := by
  have := collect_opt h fs [] l
  simp only [DecE.structOf, Dec.structOf]
  cases hE : DecE.collect DecE.nameKey dE fs [] l with
  | error e =>
    rw [hE] at this
    cases hc : Dec.collect d fs l with
    | none => rfl
    | some vs =>
      rw [hc] at this
      simp only [opt_error, Option.bind_some, List.not_mem_nil, not_false_eq_true, implies_true, and_true] at this ⊢
      split at this
      · cases this
      · rename_i hn; rw [if_neg hn]
  | ok ws =>
    rw [hE] at this
    cases hc : Dec.collect d fs l with
    | none => rw [hc] at this; cases this
    | some vs =>
      rw [hc] at this
      simp only [opt_ok, Option.bind_some, List.not_mem_nil, not_false_eq_true, implies_true, and_true] at this ⊢
      split at this
      · rename_i hn; cases this; rw [if_pos hn]; exact assemble_opt h ws fs
      · cases this

omit h in
theorem fieldKey_opt (ns : List Str) (k : Kserd) : opt (DecE.fieldKey ns k) = Dec.fieldKey ns k := by
  simp only [DecE.fieldKey, Dec.fieldKey]
  cases deserializeAny k <;> rfl

/-- Keys of a map, all of which can be read. -/
theorem collect_keys (ns : List Str) (fs : List (Str × Ty)) : ∀ (m : KMap) (l : List (Str × Kserd)) (seen : List Str),
    Dec.fieldKeys ns m = some l → DecE.collect (DecE.fieldKey ns) dE fs seen m = DecE.collect DecE.nameKey dE fs seen l
  | [], l, _, hl => by simp only [Dec.fieldKeys, Option.some.injEq] at hl; subst hl; rfl
  | (k, v) :: r, l, seen, hl => by
    rw [Dec.fieldKeys.eq_def] at hl
    simp only [← fieldKey_opt] at hl
    split at hl
    · rename_i s r' hk hr
      cases hl
      cases hn : DecE.fieldKey ns k with
      | error e => rw [hn] at hk; cases hk
      | ok o =>
        rw [hn] at hk; cases hk
        simp only [DecE.collect, DecE.nameKey, hn]
        simp only [collect_keys ns fs r r' _ hr]
    · rename_i r' hk hr
      cases hl
      cases hn : DecE.fieldKey ns k with
      | error e => rw [hn] at hk; cases hk
      | ok o =>
        rw [hn] at hk; cases hk
        simp only [DecE.collect, hn]
        exact collect_keys ns fs r _ _ hr
    · cases hl

omit h in
/-- A key which can not be read. -/
theorem collect_noKeys (ns : List Str) (fs : List (Str × Ty)) : ∀ (m : KMap) (seen : List Str),
    Dec.fieldKeys ns m = none → ∃ e, DecE.collect (DecE.fieldKey ns) dE fs seen m = .error e
  | [], _, hl => by simp [Dec.fieldKeys] at hl
  | (k, v) :: r, seen, hl => by
    rw [Dec.fieldKeys.eq_def] at hl
    simp only [← fieldKey_opt] at hl
    simp only [DecE.collect]
    cases hn : DecE.fieldKey ns k with
    | error e => exact ⟨e, rfl⟩
    | ok o =>
      have hs : Dec.fieldKeys ns r = none := by
        cases hr : Dec.fieldKeys ns r with
        | none => rfl
        | some r' => rw [hr, hn] at hl; cases o <;> cases hl
      cases o with
      | none => exact collect_noKeys ns fs r seen hs
      | some n =>
        simp only
        cases Dec.fieldTy fs n with
        | none => exact collect_noKeys ns fs r seen hs
        | some t =>
          simp only
          split
          · exact ⟨_, rfl⟩
          · cases dE t v with
            | error e => exact ⟨e, rfl⟩
            | ok v =>
              obtain ⟨e, he⟩ := collect_noKeys ns fs r (n :: seen) hs
              simp only [he]
              exact ⟨e, rfl⟩

theorem structOf_keys (ns : List Str) (fs : List (Str × Ty)) (m : KMap) :
    opt (DecE.structOf (DecE.fieldKey ns) dE fs m) = (match Dec.fieldKeys ns m with
      | some l => Dec.structOf d fs l
      | none => none) := by
  cases hk : Dec.fieldKeys ns m with
  | none =>
    obtain ⟨e, he⟩ := collect_noKeys (dE := dE) ns fs m [] hk
    simp [DecE.structOf, he]
  | some l =>
    simp only [← structOf_opt h, DecE.structOf, collect_keys h ns fs m l [] hk]

theorem variantOf_opt (i : Str) (v : VarDef) (x : Value) :
    opt (DecE.variantOf dE i v x) = Dec.variantOf d i v x := by
  cases v with
  | unit =>
    simp only [DecE.variantOf]
    split
    · rfl
    · rfl
    · rename_i h1 h2
      cases x <;> first | rfl | exact absurd rfl h1 | skip
      rename_i l; cases l with
      | nil => exact absurd rfl h2
      | cons a r => rfl
  | newtype t =>
    simp only [DecE.variantOf]
    split
    · simp [Dec.variantOf, opt_map, h]
    · rename_i l hl
      rcases l with _ | ⟨a, _ | ⟨b, r⟩⟩
      · rfl
      · exact absurd rfl (hl a)
      · rfl
    · rename_i hx; cases x <;> first | rfl | exact absurd rfl (hx _)
  | tuple ts =>
    simp only [DecE.variantOf]
    split
    · rename_i l
      simp only [Dec.variantOf]
      split
      · rw [opt_map, tupleOf_opt h]
      · rfl
    · rename_i hx; cases x <;> first | rfl | exact absurd rfl (hx _)
  | struct fs =>
    simp only [DecE.variantOf]
    split
    · simp only [Dec.variantOf, opt_map, structOf_opt h]
    · rename_i hx; cases x <;> first | rfl | exact absurd rfl (hx _)

theorem defOf_opt (t : TyDef) (k : Kserd) : opt (DecE.defOf dE t k) = Dec.defOf d t k := by
  cases t with
  | unitStruct n =>
    simp only [DecE.defOf, Dec.defOf]
    split
    · rename_i hx; rw [hx]; rfl
    · rename_i hx
      cases hv : k.val <;> first | rfl | skip
      rename_i l; cases l with
      | nil => exact absurd hv hx
      | cons a r => rfl
  | newtype n t =>
    simp only [DecE.defOf, Dec.defOf]
    generalize deserializeAny k = o
    cases o <;> first | rfl | skip
    · simp [opt_map, h]
    · rename_i l; cases l <;> simp [opt_map, h]
  | tupleStruct n ts =>
    simp only [DecE.defOf, Dec.defOf]
    generalize deserializeAny k = o
    cases o <;> first | rfl | skip
    simp [opt_map, tupleOf_opt h]
  | struct n fs =>
    simp only [DecE.defOf, Dec.defOf]
    generalize deserializeAny k = o
    cases o <;> first | rfl | skip
    · simp [opt_map, tupleOf_opt h]
    · simp [opt_map, structOf_opt h]
    · rename_i m
      simp only [opt_map, structOf_keys h]
      cases Dec.fieldKeys (fs.map Prod.fst) m <;> rfl
  | enum vs =>
    simp only [DecE.defOf, Dec.defOf]
    cases k.id with
    | none => rfl
    | some i =>
      simp only
      cases Dec.variant vs i with
      | none => rfl
      | some v => exact variantOf_opt h i v k.val

end

theorem strKey_opt (env : TyEnv) (t : Ty) (s : Str) : opt (DecE.strKey env t s) = Dec.strKey env t s := by
  cases t <;> first | rfl | skip
  · simp only [DecE.strKey, Dec.strKey]
    rcases s with _ | ⟨a, _ | ⟨b, r⟩⟩ <;> rfl
  · rename_i n
    simp only [DecE.strKey, Dec.strKey]
    cases env n with
    | none => rfl
    | some t =>
      cases t <;> first | rfl | skip
      rename_i vs
      simp only
      cases Dec.variant vs s with
      | none => rfl
      | some v => cases v <;> rfl

theorem int_opt (t : IntTy) (v : Value) : opt (DecE.int t v) = (match v with
    | .num n => (decodeInt t n).map (.int t)
    | _ => none) := by
  cases v <;> first | rfl | skip
  rename_i n
  simp only [DecE.int, decodeInt]
  split
  · generalize n.asI128 = o; cases o <;> simp only [opt_error, Option.map_none]
    split <;> rfl
  · generalize n.asU128 = o; cases o <;> simp only [opt_error, Option.map_none]
    split <;> rfl

theorem step_opt (env : TyEnv) {dE : Ty → Kserd → Except DErr Ser} {d : Ty → Kserd → Option Ser}
    (h : ∀ t k, opt (dE t k) = d t k) (t : Ty) (k : Kserd) : opt (DecE.step env dE t k) = Dec.step env d t k := by
  cases t with
  | int t => simp only [DecE.step, Dec.step, int_opt]; cases k.val <;> rfl
  | f32 => simp only [DecE.step, Dec.step]; cases k.val <;> rfl
  | f64 => simp only [DecE.step, Dec.step]; cases k.val <;> rfl
  | char =>
    simp only [DecE.step, Dec.step]
    cases k.val <;> first | rfl | skip
    rename_i s; rcases s with _ | ⟨a, _ | ⟨b, r⟩⟩ <;> rfl
  | unit => simp only [DecE.step, Dec.step]; generalize deserializeAny k = o; cases o <;> rfl
  | bool => simp only [DecE.step, Dec.step]; generalize deserializeAny k = o; cases o <;> rfl
  | string =>
    simp only [DecE.step, Dec.step]; generalize deserializeAny k = o
    cases o <;> first | rfl | skip
    rename_i b; simp only; cases bytesStr b <;> rfl
  | bytes => simp only [DecE.step, Dec.step]; generalize deserializeAny k = o; cases o <;> rfl
  | option t =>
    simp only [DecE.step, Dec.step]; generalize deserializeAny k = o
    cases o <;> first | rfl | simp [opt_map, h]
  | seq t =>
    simp only [DecE.step, Dec.step]; generalize deserializeAny k = o
    cases o <;> first | rfl | simp [opt_map, seqOf_opt h]
  | tuple t =>
    simp only [DecE.step, Dec.step]; generalize deserializeAny k = o
    cases o <;> first | rfl | simp [opt_map, tupleOf_opt h]
  | map a b =>
    simp only [DecE.step, Dec.step]; generalize deserializeAny k = o
    cases o <;> first | rfl | skip
    · simp [opt_map, entriesOf_opt h _ _ (strKey_opt env a)]
    · simp [opt_map, entriesOf_opt h _ _ (h a)]
  | named n =>
    simp only [DecE.step, Dec.step]
    cases env n with
    | none => rfl
    | some t => exact defOf_opt h t k

theorem decode_opt (env : TyEnv) : ∀ (f : Nat) (t : Ty) (k : Kserd), opt (DecE.decode env f t k) = Dec.decode env f t k
  | 0, _, _ => rfl
  | f + 1, t, k => by
    rw [DecE.decode, Dec.decode]
    exact step_opt env (decode_opt env f) t k

theorem decodeE_opt (env : TyEnv) (t : Ty) (k : Kserd) : opt (decodeE env t k) = decode env t k := decode_opt env _ t k

end KS.DE
