import Verif.Lemmas.SerdeExact
import Verif.Lemmas.Encoded
import Verif.Props.Serde
import Verif.Props.DecodeTy
/-!
# Exactly which values survive serde

C40: `C40_partial` says which values come back; here, that no others do.
-/

namespace KS.Props

open Spec

theorem name_ok {n : Str} (h : nameProblem n = []) : ¬ badName n := by
  intro hb
  rw [nameProblem, if_pos hb] at h
  cases h

mutual
theorem names_of_problems : ∀ s : Ser, problems s = [] → SerAll nameOk s
  | .some v, h => ⟨trivial, names_of_problems v h⟩
  | .unitStruct n, h => name_ok h
  | .unitVariant n, h => name_ok h
  | .newtypeStruct n v, h => by
    simp only [problems, List.append_eq_nil_iff] at h
    exact ⟨name_ok h.2, names_of_problems v h.1⟩
  | .newtypeVariant n v, h => by
    simp only [problems, List.append_eq_nil_iff] at h
    exact ⟨name_ok h.2, names_of_problems v h.1⟩
  | .seq l, h => ⟨trivial, names_of_problemsL l h⟩
  | .tuple l, h => ⟨trivial, names_of_problemsL l h⟩
  | .tupleStruct n l, h => by
    simp only [problems, List.append_eq_nil_iff] at h
    exact ⟨name_ok h.1, names_of_problemsL l h.2⟩
  | .tupleVariant n l, h => by
    simp only [problems, List.append_eq_nil_iff] at h
    exact ⟨name_ok h.1, names_of_problemsL l h.2⟩
  | .map ops, h => ⟨trivial, names_of_problemsO ops false h⟩
  | .struct n l, h => by
    simp only [problems, List.append_eq_nil_iff] at h
    exact ⟨name_ok h.1, names_of_problemsF l h.2⟩
  | .structVariant n l, h => by
    simp only [problems, List.append_eq_nil_iff] at h
    exact ⟨name_ok h.1, names_of_problemsF l h.2⟩
  | .fail _, h => by simp [problems] at h
  | .bool _, _ => trivial
  | .int _ _, _ => trivial
  | .f32 _, _ => trivial
  | .f64 _, _ => trivial
  | .char _, _ => trivial
  | .str _, _ => trivial
  | .bytes _, _ => trivial
  | .none, _ => trivial
  | .unit, _ => trivial
termination_by structural s => s
theorem names_of_problemsL : ∀ l : List Ser, problemsL l = [] → SerAllL nameOk l
  | [], _ => trivial
  | v :: r, h => by
    simp only [problemsL, List.append_eq_nil_iff] at h
    exact ⟨names_of_problems v h.1, names_of_problemsL r h.2⟩
termination_by structural s => s
theorem names_of_problemsF : ∀ l : List (Str × Ser), problemsF l = [] → SerAllF nameOk l
  | [], _ => trivial
  | (_, v) :: r, h => by
    simp only [problemsF, List.append_eq_nil_iff] at h
    exact ⟨names_of_problems v h.1, names_of_problemsF r h.2⟩
termination_by structural s => s
theorem names_of_problemsO : ∀ (l : List MapOp) (w : Bool), problemsO l w = [] → SerAllO nameOk l
  | [], _, _ => trivial
  | o :: r, w, h => by
    simp only [problemsO, List.append_eq_nil_iff] at h
    exact ⟨names_of_problemsOp o w h.1, names_of_problemsO r _ h.2⟩
termination_by structural s => s
theorem names_of_problemsOp : ∀ (o : MapOp) (w : Bool), problemsOp o w = [] → SerAllOp nameOk o
  | .key k, w, h => names_of_problems k h
  | .value v, w, h => by
    simp only [problemsOp, List.append_eq_nil_iff] at h
    exact names_of_problems v h.2
  | .entry k v, w, h => by
    simp only [problemsOp, List.append_eq_nil_iff] at h
    exact ⟨names_of_problems k h.1, names_of_problems v h.2⟩
termination_by structural s => s
end

/-- **C40** (partial, but exact): a value of a type encodes to something that decodes to the same value, exactly when its names
are valid and it is `Plain`. So the four exceptions of `C40_partial` are real at every depth: whenever a value contains
a newtype struct called `Some`, a field-less tuple struct called `None`, the `f32` `7.038531e-26` or its negative,
or a map with two keys that encode to Kserds comparing equal, something is lost. `Orderly` only asks that keys of one map
compare transitively, without which a `BTreeMap` makes no promise; `C40_orderly` says when that is so. -/
theorem C40_exact_partial (env : TyEnv) (s : Ser) (ty : Ty) (h : HasTy env s ty) (ho : Orderly s) :
    (∃ k s', s.encode = .ok k ∧ decode env ty k = some s' ∧ Same s s') ↔ NamesOk s ∧ Plain s := by
  constructor
  · rintro ⟨k, s', h1, h2, h3⟩
    exact ⟨names_of_problems s ((C42_ok s).mp ⟨k, h1⟩), SX.plain_of_same h ho h1 h2 h3⟩
  · rintro ⟨h1, h2⟩
    exact C40_partial env s ty h h1 h2

theorem mem_allNums {N : Number → Prop} {k : Kserd} (h : All (EN.node N) k) : AllNums N k := by
  refine PG.all_mono ?_ k h
  intro x hx
  have := hx.2
  cases hv : x.val <;> rw [hv] at this <;> trivial

/-- **C40**, the condition on the order: it holds when no map key contains a number that breaks the order (`lawful`: in
particular every integer of its type is fine). -/
theorem C40_orderly (s : Ser) (h : SerAll (fun x => match x with
    | .map ops => ∀ a ∈ opKeys ops, SerAll (numHere lawful) a
    | _ => True) s) : Orderly s := by
  refine EN.serAll_mono ?_ s h
  intro x hx
  cases x with
  | map ops =>
    intro a ha b hb c hc ka kb kc ea eb ec h1 h2
    have key : ∀ a ∈ opKeys ops, ∀ k, a.encode = .ok k → AllNums lawful k :=
      fun a ha k hk => mem_allNums (EN.encode_node lawful a k hk (hx a ha))
    have t := KS.cmp_tr ka kb kc (key a ha ka ea) (key b hb kb eb) (key c hc kc ec)
    cases h3 : Kserd.cmp ka kb <;> rw [h3] at h1 t <;> cases h4 : Kserd.cmp kb kc <;> rw [h4] at h2 t <;>
      simp_all [Tr]
  | _ => trivial

/-- A map from enum variants, which loses an entry (`C40_enum_key_lost`): the theorem says so without running it. -/
example : ¬ ∃ k s', (Ser.map [.entry (.unitVariant (str "A")) (.int .u8 1), .entry (.unitVariant (str "B")) (.int .u8 2)]).encode = .ok k ∧
    decode exampleEnv (.map (.named (str "Shape")) (.int .u8)) k = some s' ∧
    Same (.map [.entry (.unitVariant (str "A")) (.int .u8 1), .entry (.unitVariant (str "B")) (.int .u8 2)]) s' := by
  rw [C40_exact_partial exampleEnv _ _ C40_enum_key_lost.1 (C40_orderly _ ⟨by
    intro a ha
    simp only [opKeys, List.mem_cons, List.not_mem_nil, or_false] at ha
    rcases ha with rfl | rfl <;> exact trivial, ⟨trivial, trivial⟩, ⟨trivial, trivial⟩, trivial⟩)]
  rintro ⟨_, hp⟩
  have := hp.1
  simp only [plainHere, opKeys, List.pairwise_cons, List.mem_cons, List.not_mem_nil, or_false, forall_eq] at this
  exact this.1 _ _ rfl rfl rfl

/-- The `f32` deep inside: an option of a sequence of tuples. -/
example (env : TyEnv) : ¬ ∃ k s', (Ser.some (.seq [.tuple [.f32 (.fin true (11420669 * 2 ^ 42)), .unit]])).encode = .ok k ∧
    decode env (.option (.seq (.tuple [.f32, .unit]))) k = some s' ∧
    Same (.some (.seq [.tuple [.f32 (.fin true (11420669 * 2 ^ 42)), .unit]])) s' := by
  have ht : HasTy env (.some (.seq [.tuple [.f32 (.fin true (11420669 * 2 ^ 42)), .unit]])) (.option (.seq (.tuple [.f32, .unit]))) :=
    ⟨⟨by show F32.WF _; decide +kernel, trivial, trivial⟩, trivial⟩
  rw [C40_exact_partial env _ _ ht ⟨trivial, trivial, ⟨trivial, trivial, trivial, trivial⟩, trivial⟩]
  rintro ⟨_, hp⟩
  exact hp.2.2.1.2.1 true rfl

theorem keys_here {s : Ser} (h : plainHere s) : keysHere s := by
  cases s with
  | f32 x => exact h
  | map ops => exact h
  | _ => trivial

/-- **C58, exactly.** Of the values that decoding returns (to types with proper names), those that encode and decode to themselves are exactly
those in which no two keys of a map encode to equal Kserds and no `f32` is `7.038531e-26` or its negative; where map keys compare transitively
(`C40_orderly`). -/
theorem C58_exact_partial (env : TyEnv) (he : EnvOk env) (hn : EnvNames env) (ty : Ty) (k : Kserd) (s : Ser) (hk : AllNums Number.WF k)
    (h : decode env ty k = some s) (ho : Orderly s) :
    (∃ k' s', s.encode = .ok k' ∧ decode env ty k' = some s' ∧ Same s s') ↔ SerAll keysHere s := by
  refine ⟨fun h' => ?_, C58_stable_partial env he hn ty k s hk h⟩
  exact EN.serAll_mono (fun _ => keys_here) s ((C40_exact_partial env s ty (C58_sound env he ty k s hk h) ho).mp h').2

/-- **C58 negated for stability.** Read from this text, a map from enum variants (a container, whose field names are
taken for the keys) has two entries. Encoded and decoded, one is left. -/
theorem C58_unstable :
    let s := Ser.map [.entry (.unitVariant (str "A")) (.int .u8 1), .entry (.unitVariant (str "B")) (.int .u8 2)]
    let ty := Ty.map (.named (str "Shape")) (.int .u8)
    ∃ k, parse (str "A = 1\nB = 2\n") = .ok k ∧ decode exampleEnv ty k = some s ∧
      ∃ k', s.encode = .ok k' ∧ decode exampleEnv ty k' = some (.map [.entry (.unitVariant (str "A")) (.int .u8 2)]) := by
  refine ⟨.mk none (.cntr [(str "A", .mk none (.num (.uint 1))), (str "B", .mk none (.num (.uint 2)))]), by decide +kernel, rfl, _, rfl, rfl⟩

end KS.Props
