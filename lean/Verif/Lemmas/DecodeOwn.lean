import Verif.Spec.DecodeOwn
import Verif.Spec.Own
/-!
# Decoding with ownership against decoding without
-/
namespace KS.DO
open Spec

theorem ownTys_eq : ∀ l, ownTys l = l.map ownTy
  | [] => rfl
  | t :: r => by simp only [ownTys, ownTys_eq r, List.map_cons]

theorem dataL_eq : ∀ l, OKserd.dataL l = l.map OKserd.data
  | [] => rfl
  | t :: r => by simp only [OKserd.dataL, dataL_eq r, List.map_cons]

/-- `x` is `y`, or `x` fails and `C` does not hold. -/
def Le {α : Type} (C : Prop) (x y : Option α) : Prop := x = y ∨ (x = none ∧ ¬ C)

theorem Le.rfl' {α : Type} {C : Prop} {x : Option α} : Le C x x := Or.inl rfl

theorem Le.mono {α : Type} {C D : Prop} {x y : Option α} (h : Le C x y) (hc : D → C) : Le D x y :=
  h.imp id fun ⟨a, b⟩ => ⟨a, fun d => b (hc d)⟩

theorem Le.map {α β : Type} {C : Prop} {x y : Option α} (f : α → β) (h : Le C x y) : Le C (x.map f) (y.map f) := by
  rcases h with h | ⟨h, hn⟩
  · exact Or.inl (by rw [h])
  · exact Or.inr ⟨by rw [h]; rfl, hn⟩

/-- What is asked of types (`b`: references allowed). -/
def fit (b : Bool) (t : BTy) : Prop := (b = false → notRef t) ∧ notRefKeyed t

/-- What is asked for the refinement to be an equality. -/
def Cond (b : Bool) (env : BTyEnv) (t : BTy) (k : OKserd) : Prop :=
  EveryPart (fit b) env t ∧ (b = true → Owned false k)

/-- A function for nested values and its counterpart. -/
def Refines (b : Bool) (env : BTyEnv) (d1 : BTy → OKserd → Option Ser) (d2 : Ty → Kserd → Option Ser) : Prop :=
  ∀ t k, Le (Cond b env t k) (d1 t k) (d2 (ownTy t) k.data)

variable {b : Bool} {env : BTyEnv} {d1 : BTy → OKserd → Option Ser} {d2 : Ty → Kserd → Option Ser}

def CondL (b : Bool) (env : BTyEnv) (ts : List BTy) (l : List OKserd) : Prop :=
  (∀ t ∈ ts, EveryPart (fit b) env t) ∧ (b = true → OwnedL false l)

theorem tupleOf_le (hd : Refines b env d1 d2) : ∀ (ts : List BTy) (l : List OKserd), Le (CondL b env ts l)
    (ODec.tupleOf d1 ts l) (Dec.tupleOf d2 (ts.map ownTy) (OKserd.dataL l))
  | [], l => by simp only [ODec.tupleOf, List.map_nil, Dec.tupleOf]; exact .rfl'
  | t :: ts, [] => by simp only [ODec.tupleOf, List.map_cons, OKserd.dataL, Dec.tupleOf]; exact .rfl'
  | t :: ts, k :: ks => by
    simp only [ODec.tupleOf, List.map_cons, OKserd.dataL, Dec.tupleOf]
    rcases hd t k with h | ⟨h, hn⟩
    · rw [h]
      cases d2 (ownTy t) k.data with
      | none => exact .rfl'
      | some v =>
        rcases tupleOf_le hd ts ks with h | ⟨h, hn⟩
        · rw [h]
          cases Dec.tupleOf d2 (ts.map ownTy) (OKserd.dataL ks) <;> exact .rfl'
        · refine Or.inr ⟨by simp [h], fun hc => hn ⟨fun t ht => hc.1 t (by simp [ht]), fun hb => (hc.2 hb).2⟩⟩
    · exact Or.inr ⟨by simp [h], fun hc => hn ⟨hc.1 t (by simp), fun hb => (hc.2 hb).1⟩⟩

theorem seqOf_le (hd : Refines b env d1 d2) (t : BTy) : ∀ (l : List OKserd),
    Le (EveryPart (fit b) env t ∧ (b = true → OwnedL false l)) (ODec.seqOf (d1 t) l) (Dec.seqOf (d2 (ownTy t)) (OKserd.dataL l))
  | [] => by simp only [ODec.seqOf, OKserd.dataL, Dec.seqOf]; exact .rfl'
  | k :: ks => by
    simp only [ODec.seqOf, OKserd.dataL, Dec.seqOf]
    rcases hd t k with h | ⟨h, hn⟩
    · rw [h]
      cases d2 (ownTy t) k.data with
      | none => exact .rfl'
      | some v =>
        rcases seqOf_le hd t ks with h | ⟨h, hn⟩
        · rw [h]
          cases Dec.seqOf (d2 (ownTy t)) (OKserd.dataL ks) <;> exact .rfl'
        · exact Or.inr ⟨by simp [h], fun hc => hn ⟨hc.1, fun hb => (hc.2 hb).2⟩⟩
    · exact Or.inr ⟨by simp [h], fun hc => hn ⟨hc.1, fun hb => (hc.2 hb).1⟩⟩

theorem entriesM_le (hd : Refines b env d1 d2) (kt vt : BTy) : ∀ (l : List (OKserd × OKserd)),
    Le (EveryPart (fit b) env kt ∧ EveryPart (fit b) env vt ∧ (b = true → OwnedM false l))
      (ODec.entriesOf (d1 kt) (d1 vt) l) (Dec.entriesOf (d2 (ownTy kt)) (d2 (ownTy vt)) (OKserd.dataM l))
  | [] => by simp only [ODec.entriesOf, OKserd.dataM, Dec.entriesOf]; exact .rfl'
  | (k, v) :: r => by
    simp only [ODec.entriesOf, OKserd.dataM, Dec.entriesOf]
    rcases hd kt k with h | ⟨h, hn⟩
    · rw [h]
      cases d2 (ownTy kt) k.data with
      | none => exact .rfl'
      | some k' =>
        rcases hd vt v with h | ⟨h, hn⟩
        · simp only [Option.bind_some]
          rw [h]
          cases d2 (ownTy vt) v.data with
          | none => exact .rfl'
          | some v' =>
            rcases entriesM_le hd kt vt r with h | ⟨h, hn⟩
            · rw [h]
              cases Dec.entriesOf (d2 (ownTy kt)) (d2 (ownTy vt)) (OKserd.dataM r) <;> exact .rfl'
            · exact Or.inr ⟨by simp [h], fun hc => hn ⟨hc.1, hc.2.1, fun hb => (hc.2.2 hb).2.2⟩⟩
        · exact Or.inr ⟨by simp [h], fun hc => hn ⟨hc.2.1, fun hb => (hc.2.2 hb).2.1⟩⟩
    · exact Or.inr ⟨by simp [h], fun hc => hn ⟨hc.1, fun hb => (hc.2.2 hb).1⟩⟩

theorem variant_own (vs : List (Str × BVarDef)) (n : Str) :
    Dec.variant (vs.map fun p => (p.1, ownVar p.2)) n = (ODec.variant vs n).map ownVar := by
  induction vs with
  | nil => rfl
  | cons p r ih =>
    rcases p with ⟨m, d⟩
    simp only [List.map_cons, Dec.variant, ODec.variant]
    split <;> simp [ih]

theorem strKey_le (t : BTy) (s : Str) : Le (t ≠ .strRef ∧ t ≠ .bytesRef) (ODec.strKey env t s) (Dec.strKey (ownEnv env) (ownTy t) s) := by
  cases t <;> simp only [ODec.strKey, ownTy, Dec.strKey, ownEnv]
  case strRef => exact Or.inr ⟨rfl, fun h => h.1 rfl⟩
  case bytesRef => exact Or.inr ⟨rfl, fun h => h.2 rfl⟩
  case named n =>
    cases env n with
    | none => exact .rfl'
    | some d =>
      cases d <;> simp only [Option.map_some, ownDef]
      case enum vs =>
        rw [variant_own]
        cases ODec.variant vs s with
        | none => exact .rfl'
        | some v => cases v <;> exact .rfl'
      all_goals exact .rfl'
  all_goals exact .rfl'

theorem entriesF_le (hd : Refines b env d1 d2) (kt vt : BTy) : ∀ (l : List (Cow Str × OKserd)),
    Le ((kt ≠ .strRef ∧ kt ≠ .bytesRef) ∧ EveryPart (fit b) env vt ∧ (b = true → OwnedF false l))
      (ODec.entriesOf (fun s : Cow Str => ODec.strKey env kt s.data) (d1 vt) l)
      (Dec.entriesOf (Dec.strKey (ownEnv env) (ownTy kt)) (d2 (ownTy vt)) (OKserd.dataF l))
  | [] => by simp only [ODec.entriesOf, OKserd.dataF, Dec.entriesOf]; exact .rfl'
  | (k, v) :: r => by
    simp only [ODec.entriesOf, OKserd.dataF, Dec.entriesOf]
    rcases strKey_le (env := env) kt k.data with h | ⟨h, hn⟩
    · rw [h]
      cases Dec.strKey (ownEnv env) (ownTy kt) k.data with
      | none => exact .rfl'
      | some k' =>
        rcases hd vt v with h | ⟨h, hn⟩
        · simp only [Option.bind_some]
          rw [h]
          cases d2 (ownTy vt) v.data with
          | none => exact .rfl'
          | some v' =>
            rcases entriesF_le hd kt vt r with h | ⟨h, hn⟩
            · rw [h]
              cases Dec.entriesOf (Dec.strKey (ownEnv env) (ownTy kt)) (d2 (ownTy vt)) (OKserd.dataF r) <;> exact .rfl'
            · exact Or.inr ⟨by simp [h], fun hc => hn ⟨hc.1, hc.2.1, fun hb => (hc.2.2 hb).2.2⟩⟩
        · exact Or.inr ⟨by simp [h], fun hc => hn ⟨hc.2.1, fun hb => (hc.2.2 hb).2.1⟩⟩
    · exact Or.inr ⟨by simp [h], fun hc => hn hc.1⟩

theorem fieldTy_own (fs : List (Str × BTy)) (n : Str) :
    Dec.fieldTy (fs.map fun p => (p.1, ownTy p.2)) n = (ODec.fieldTy fs n).map ownTy := by
  induction fs with
  | nil => rfl
  | cons p r ih =>
    rcases p with ⟨m, d⟩
    simp only [List.map_cons, Dec.fieldTy, ODec.fieldTy]
    split <;> simp [ih]

theorem fieldTy_part {fs : List (Str × BTy)} {n : Str} {t : BTy} (h : ODec.fieldTy fs n = some t) : t ∈ fs.map (·.2) := by
  induction fs with
  | nil => simp [ODec.fieldTy] at h
  | cons p r ih =>
    rcases p with ⟨m, d⟩
    simp only [ODec.fieldTy] at h
    split at h
    · simp only [Option.some.injEq] at h; subst h; simp
    · exact List.mem_cons_of_mem _ (ih h)

/-- Names with values, without ownership. -/
def dataN (l : List (Str × OKserd)) : List (Str × Kserd) := l.map fun p => (p.1, p.2.data)

def CondF (b : Bool) (env : BTyEnv) (fs : List (Str × BTy)) (l : List (Str × OKserd)) : Prop :=
  (∀ t ∈ fs.map (·.2), EveryPart (fit b) env t) ∧ (b = true → ∀ p ∈ l, Owned false p.2)

theorem collect_le (hd : Refines b env d1 d2) (fs : List (Str × BTy)) : ∀ (l : List (Str × OKserd)),
    Le (CondF b env fs l) (ODec.collect d1 fs l) (Dec.collect d2 (fs.map fun p => (p.1, ownTy p.2)) (dataN l))
  | [] => by simp only [ODec.collect, dataN, List.map_nil, Dec.collect]; exact .rfl'
  | (n, k) :: r => by
    rw [show dataN ((n, k) :: r) = (n, k.data) :: dataN r from rfl]
    simp only [ODec.collect, Dec.collect, fieldTy_own]
    have ih := collect_le hd fs r
    cases hf : ODec.fieldTy fs n with
    | none => exact ih.mono fun hc => ⟨hc.1, fun hb p hp => hc.2 hb p (List.mem_cons_of_mem _ hp)⟩
    | some t =>
      simp only [Option.map_some]
      rcases hd t k with h | ⟨h, hn⟩
      · rw [h]
        cases d2 (ownTy t) k.data with
        | none => exact .rfl'
        | some v =>
          rcases ih with h | ⟨h, hn⟩
          · rw [h]
            cases Dec.collect d2 (fs.map fun p => (p.1, ownTy p.2)) (dataN r) <;> exact .rfl'
          · exact Or.inr ⟨by simp [h], fun hc => hn ⟨hc.1, fun hb p hp => hc.2 hb p (List.mem_cons_of_mem _ hp)⟩⟩
      · exact Or.inr ⟨by simp [h], fun hc => hn ⟨hc.1 t (fieldTy_part hf), fun hb => hc.2 hb _ List.mem_cons_self⟩⟩

theorem assemble_own (vs : List (Str × Ser)) : ∀ (fs : List (Str × BTy)),
    ODec.assemble vs fs = Dec.assemble vs (fs.map fun p => (p.1, ownTy p.2))
  | [] => rfl
  | (n, t) :: r => by
    simp only [ODec.assemble, List.map_cons, Dec.assemble, assemble_own vs r]
    cases Dec.fieldVal vs n with
    | some v => simp only [Option.bind_some]; cases Dec.assemble vs (r.map fun p => (p.1, ownTy p.2)) <;> rfl
    | none =>
      cases t <;> simp only [ownTy, Option.bind_some, Option.bind_none]
      cases Dec.assemble vs (r.map fun p => (p.1, ownTy p.2)) <;> rfl

theorem structOf_le (hd : Refines b env d1 d2) (fs : List (Str × BTy)) (l : List (Str × OKserd)) :
    Le (CondF b env fs l) (ODec.structOf d1 fs l) (Dec.structOf d2 (fs.map fun p => (p.1, ownTy p.2)) (dataN l)) := by
  simp only [ODec.structOf, Dec.structOf]
  rcases collect_le hd fs l with h | ⟨h, hn⟩
  · rw [h]
    cases Dec.collect d2 (fs.map fun p => (p.1, ownTy p.2)) (dataN l) with
    | none => exact .rfl'
    | some vs => simp only [Option.bind_some, assemble_own]; exact .rfl'
  · exact Or.inr ⟨by simp [h], hn⟩

theorem val_data (k : OKserd) : k.data.val = OKserd.dataV k.val := by cases k; simp [OKserd.data, OKserd.val]

theorem names_data : ∀ l : List (Cow Str × OKserd), OKserd.dataF l = dataN (ODec.names l)
  | [] => rfl
  | (n, k) :: r => by simp only [OKserd.dataF, names_data r]; rfl

theorem names_owned {b : Bool} : ∀ {l : List (Cow Str × OKserd)}, OwnedF b l → ∀ p ∈ ODec.names l, Owned b p.2
  | (n, k) :: r, h, p, hp => by
    rcases List.mem_cons.mp (show p ∈ (n.data, k) :: ODec.names r from hp) with rfl | hp
    · exact h.2.1
    · exact names_owned h.2.2 p hp

theorem fieldKey_own (ns : List Str) (k : OKserd) : Dec.fieldKey ns k.data = ODec.fieldKey ns k := by
  rcases k with ⟨i, v⟩
  cases v with
  | num n =>
    simp only [Dec.fieldKey, ODec.fieldKey, OKserd.data, OKserd.dataV, ODeserializeAny]
    cases n with
    | uint n => simp only [deserializeAny]; by_cases h : n < 2 ^ 64 <;> simp [h]
    | int n =>
      simp only [deserializeAny]
      by_cases h : - 2 ^ 63 ≤ n ∧ n < 2 ^ 63
      · rw [if_pos h]
      · rw [if_neg h]
    | float f => rfl
  | tuple l =>
    rcases l with _ | ⟨x, _ | ⟨y, r⟩⟩ <;> rcases i with _ | i <;>
      simp only [Dec.fieldKey, ODec.fieldKey, OKserd.data, OKserd.dataV, OKserd.dataL, ODeserializeAny, deserializeAny, Option.map_some, Option.map_none]
    · by_cases h : i.data = str "None" <;> simp [h]
    · by_cases h : i.data = str "Some" <;> simp [h]
  | _ => rfl

theorem fieldKeys_own (ns : List Str) : ∀ (m : List (OKserd × OKserd)), Dec.fieldKeys ns (OKserd.dataM m) = (ODec.fieldKeys ns m).map dataN
  | [] => by simp [OKserd.dataM, Dec.fieldKeys, ODec.fieldKeys, dataN]
  | (k, v) :: r => by
    simp only [OKserd.dataM, Dec.fieldKeys, ODec.fieldKeys, fieldKey_own, fieldKeys_own ns r]
    rcases ODec.fieldKey ns k with _ | _ | s <;> cases ODec.fieldKeys ns r <;> simp [dataN]

theorem fieldKeys_owned {b : Bool} {ns : List Str} : ∀ {m : List (OKserd × OKserd)} {l : List (Str × OKserd)},
    ODec.fieldKeys ns m = some l → OwnedM b m → ∀ p ∈ l, Owned b p.2
  | [], l, h, _ => by simp only [ODec.fieldKeys, Option.some.injEq] at h; subst h; simp
  | (k, v) :: r, l, h, ho => by
    simp only [ODec.fieldKeys] at h
    obtain ⟨h1, h2, h3⟩ := ho
    split at h
    · rename_i s r' hk hr
      simp only [Option.some.injEq] at h; subst h
      intro p hp
      rcases List.mem_cons.mp hp with rfl | hp
      · exact h2
      · exact fieldKeys_owned hr h3 p hp
    · rename_i r' hk hr
      simp only [Option.some.injEq] at h; subst h
      exact fieldKeys_owned hr h3
    · cases h

theorem variantOf_le (hd : Refines b env d1 d2) (i : Str) (d : BVarDef) (v : OValue) :
    Le ((∀ t ∈ (match d with | .unit => [] | .newtype t => [t] | .tuple l => l | .struct fs => fs.map Prod.snd), EveryPart (fit b) env t) ∧
      (b = true → OwnedV false v)) (ODec.variantOf d1 i d v) (Dec.variantOf d2 i (ownVar d) (OKserd.dataV v)) := by
  cases d with
  | unit =>
    cases v with
    | tuple l => cases l <;> simp only [ODec.variantOf, ownVar, OKserd.dataV, OKserd.dataL, Dec.variantOf] <;> exact .rfl'
    | _ => simp only [ODec.variantOf, ownVar, OKserd.dataV, Dec.variantOf]; exact .rfl'
  | newtype t =>
    cases v with
    | tuple l =>
      rcases l with _ | ⟨x, _ | ⟨y, r⟩⟩ <;> simp only [ODec.variantOf, ownVar, OKserd.dataV, OKserd.dataL, Dec.variantOf]
      · exact .rfl'
      · exact ((hd t x).map _).mono fun hc => ⟨hc.1 t (by simp), fun hb => (hc.2 hb).1⟩
      · exact .rfl'
    | _ => simp only [ODec.variantOf, ownVar, OKserd.dataV, Dec.variantOf]; exact .rfl'
  | tuple ts =>
    cases v with
    | tuple l =>
      simp only [ODec.variantOf, ownVar, OKserd.dataV, Dec.variantOf, dataL_eq, List.length_map]
      split
      · rw [← dataL_eq]
        exact ((tupleOf_le hd ts l).map _).mono fun hc => ⟨hc.1, fun hb => hc.2 hb⟩
      · exact .rfl'
    | _ => simp only [ODec.variantOf, ownVar, OKserd.dataV, Dec.variantOf]; exact .rfl'
  | struct fs =>
    cases v with
    | cntr l =>
      simp only [ODec.variantOf, ownVar, OKserd.dataV, Dec.variantOf, names_data]
      exact ((structOf_le hd fs (ODec.names l)).map _).mono fun hc => ⟨hc.1, fun hb => names_owned (hc.2 hb)⟩
    | _ => simp only [ODec.variantOf, ownVar, OKserd.dataV, Dec.variantOf]; exact .rfl'

/-- What `deserialize_any` calls, with ownership and without. -/
def SameVisit : OVisit → Visit → Prop
  | .unit, .unit => True
  | .bool b, .bool b' => b = b'
  | .number _, .u64 _ => True
  | .number _, .u128 _ => True
  | .number _, .i64 _ => True
  | .number _, .i128 _ => True
  | .number _, .f64 _ => True
  | .str s, .str s' => s' = s.data
  | .bytes s, .bytes s' => s' = s.data
  | .none, .none => True
  | .some k, .some k' => k' = k.data
  | .newtype k, .newtype k' => k' = k.data
  | .seq l, .seq l' => l' = OKserd.dataL l
  | .fields f, .fields f' => f' = OKserd.dataF f
  | .map m, .map m' => m' = OKserd.dataM m
  | _, _ => False

theorem any_same (k : OKserd) : SameVisit (ODeserializeAny k) (deserializeAny k.data) := by
  rcases k with ⟨i, v⟩
  cases v with
  | num n =>
    simp only [OKserd.data, OKserd.dataV, ODeserializeAny]
    cases n with
    | uint n => simp only [deserializeAny]; split <;> trivial
    | int n => simp only [deserializeAny]; split <;> trivial
    | float f => simp only [deserializeAny]; trivial
  | tuple l =>
    rcases l with _ | ⟨x, _ | ⟨y, r⟩⟩ <;> rcases i with _ | i <;>
      simp only [OKserd.data, OKserd.dataV, OKserd.dataL, ODeserializeAny, deserializeAny, Option.map_some, Option.map_none]
    · rfl
    · split <;> first | trivial | rfl
    · rfl
    · split <;> rfl
    · rfl
    · rfl
  | _ => simp only [OKserd.data, OKserd.dataV, ODeserializeAny, deserializeAny]; first | trivial | rfl

/-- The parts a visit hands over are parts of the Kserd. -/
def VisitOwned (b : Bool) : OVisit → Prop
  | .str s => s.owned = b
  | .bytes s => s.owned = b
  | .some k => Owned b k
  | .newtype k => Owned b k
  | .seq l => OwnedL b l
  | .fields f => OwnedF b f
  | .map m => OwnedM b m
  | _ => True

theorem any_owned {b : Bool} {k : OKserd} (h : Owned b k) : VisitOwned b (ODeserializeAny k) := by
  rcases k with ⟨i, v⟩
  obtain ⟨_, h⟩ := h
  cases v with
  | tuple l =>
    rcases l with _ | ⟨x, _ | ⟨y, r⟩⟩ <;> rcases i with _ | i <;> simp only [ODeserializeAny]
    · trivial
    · split <;> trivial
    · exact h
    · split <;> exact h.1
    · exact h
    · exact h
  | _ => simp only [ODeserializeAny]; first | trivial | exact h

theorem variant_part {vs : List (Str × BVarDef)} {n : Str} {d : BVarDef} (h : ODec.variant vs n = some d) : ∃ p ∈ vs, p.2 = d := by
  induction vs with
  | nil => simp [ODec.variant] at h
  | cons p r ih =>
    rcases p with ⟨m, d'⟩
    simp only [ODec.variant] at h
    split at h
    · simp only [Option.some.injEq] at h; subst h; exact ⟨(m, d'), by simp, rfl⟩
    · obtain ⟨p, hp, he⟩ := ih h; exact ⟨p, List.mem_cons_of_mem _ hp, he⟩

theorem defOf_le (hd : Refines b env d1 d2) (d : BTyDef) (k : OKserd) :
    Le ((∀ t ∈ fieldTypes d, EveryPart (fit b) env t) ∧ (b = true → Owned false k))
      (ODec.defOf d1 d k) (Dec.defOf d2 (ownDef d) k.data) := by
  have hs := any_same k
  have ho : (b = true → Owned false k) → (b = true → VisitOwned false (ODeserializeAny k)) := fun h hb => any_owned (h hb)
  cases d with
  | unitStruct n =>
    simp only [ODec.defOf, ownDef, Dec.defOf, val_data]
    cases k.val with
    | tuple l => cases l <;> simp only [OKserd.dataV, OKserd.dataL] <;> exact .rfl'
    | _ => simp only [OKserd.dataV]; exact .rfl'
  | newtype n t =>
    simp only [ODec.defOf, ownDef, Dec.defOf]
    revert hs ho
    cases ODeserializeAny k <;> cases deserializeAny k.data <;> simp only [SameVisit, false_implies] <;> intro hs ho <;> try exact .rfl'
    · rename_i x y; subst hs
      exact ((hd t x).map _).mono fun hc => ⟨hc.1 t (by simp [fieldTypes]), ho hc.2⟩
    · rename_i x y; subst hs
      cases x with
      | nil => simp only [OKserd.dataL]; exact .rfl'
      | cons x r =>
        simp only [OKserd.dataL]
        exact ((hd t x).map _).mono fun hc => ⟨hc.1 t (by simp [fieldTypes]), fun hb => (ho hc.2 hb).1⟩
  | tupleStruct n ts =>
    simp only [ODec.defOf, ownDef, Dec.defOf]
    revert hs ho
    cases ODeserializeAny k <;> cases deserializeAny k.data <;> simp only [SameVisit, false_implies] <;> intro hs ho <;> try exact .rfl'
    rename_i x y; subst hs
    exact ((tupleOf_le hd ts x).map _).mono fun hc => ⟨hc.1, ho hc.2⟩
  | struct n fs =>
    simp only [ODec.defOf, ownDef, Dec.defOf]
    revert hs ho
    cases ODeserializeAny k <;> cases deserializeAny k.data <;> simp only [SameVisit, false_implies] <;> intro hs ho <;> try exact .rfl'
    · rename_i x y; subst hs
      simp only [List.map_map, Function.comp_def]
      have := ((tupleOf_le hd (fs.map Prod.snd) x).map (fun vs => Ser.struct n ((fs.map Prod.fst).zip vs)))
      rw [List.map_map] at this
      exact this.mono fun hc => ⟨hc.1, ho hc.2⟩
    · rename_i x y; subst hs
      rw [names_data]
      exact ((structOf_le hd fs (ODec.names x)).map _).mono fun hc => ⟨hc.1, fun hb => names_owned (ho hc.2 hb)⟩
    · rename_i x y; subst hs
      rw [show (fs.map fun p => (p.1, ownTy p.2)).map Prod.fst = fs.map Prod.fst by simp, fieldKeys_own]
      cases hk : ODec.fieldKeys (fs.map Prod.fst) x with
      | none => exact .rfl'
      | some l =>
        simp only [Option.map_some]
        exact ((structOf_le hd fs l).map _).mono fun hc => ⟨hc.1, fun hb => fieldKeys_owned hk (ho hc.2 hb)⟩
  | enum vs =>
    simp only [ODec.defOf, ownDef, Dec.defOf, val_data]
    have hid : k.data.id = k.idText := by cases k; simp [OKserd.data, OKserd.idText]
    rw [hid]
    cases k.idText with
    | none => exact .rfl'
    | some i =>
      simp only [variant_own]
      cases hv : ODec.variant vs i with
      | none => exact .rfl'
      | some d =>
        simp only [Option.map_some]
        obtain ⟨p, hp, rfl⟩ := variant_part hv
        refine (variantOf_le hd i p.2 k.val).mono fun hc => ⟨fun t ht => hc.1 t ?_, fun hb => ?_⟩
        · simp only [fieldTypes, List.mem_flatMap]; exact ⟨p, hp, ht⟩
        · have := hc.2 hb
          cases k; exact this.2

theorem self_part (t : BTy) : t ∈ parts t := by cases t <;> simp [parts]

theorem mem_partsL : ∀ {l : List BTy} {t : BTy}, t ∈ l → ∀ s ∈ parts t, s ∈ partsL l
  | t' :: r, t, h, s, hs => by
    simp only [partsL, List.mem_append]
    rcases List.mem_cons.mp h with rfl | h
    · exact Or.inl hs
    · exact Or.inr (mem_partsL h s hs)

mutual
theorem parts_trans : ∀ {t s u : BTy}, s ∈ parts t → u ∈ parts s → u ∈ parts t
  | .option t, s, u, h, hu => by
    simp only [parts, List.mem_cons] at h ⊢
    rcases h with rfl | h
    · simpa [parts] using hu
    · exact Or.inr (parts_trans h hu)
  | .seq t, s, u, h, hu => by
    simp only [parts, List.mem_cons] at h ⊢
    rcases h with rfl | h
    · simpa [parts] using hu
    · exact Or.inr (parts_trans h hu)
  | .tuple l, s, u, h, hu => by
    simp only [parts, List.mem_cons] at h ⊢
    rcases h with rfl | h
    · simpa [parts] using hu
    · exact Or.inr (partsL_trans h hu)
  | .map k v, s, u, h, hu => by
    simp only [parts, List.mem_cons, List.mem_append] at h ⊢
    rcases h with rfl | h | h
    · simpa [parts] using hu
    · exact Or.inr (Or.inl (parts_trans h hu))
    · exact Or.inr (Or.inr (parts_trans h hu))
  | .unit, _, _, h, hu => by simp only [parts, List.mem_singleton] at h; subst h; exact hu
  | .bool, _, _, h, hu => by simp only [parts, List.mem_singleton] at h; subst h; exact hu
  | .int _, _, _, h, hu => by simp only [parts, List.mem_singleton] at h; subst h; exact hu
  | .f32, _, _, h, hu => by simp only [parts, List.mem_singleton] at h; subst h; exact hu
  | .f64, _, _, h, hu => by simp only [parts, List.mem_singleton] at h; subst h; exact hu
  | .char, _, _, h, hu => by simp only [parts, List.mem_singleton] at h; subst h; exact hu
  | .string, _, _, h, hu => by simp only [parts, List.mem_singleton] at h; subst h; exact hu
  | .bytes, _, _, h, hu => by simp only [parts, List.mem_singleton] at h; subst h; exact hu
  | .strRef, _, _, h, hu => by simp only [parts, List.mem_singleton] at h; subst h; exact hu
  | .bytesRef, _, _, h, hu => by simp only [parts, List.mem_singleton] at h; subst h; exact hu
  | .named _, _, _, h, hu => by simp only [parts, List.mem_singleton] at h; subst h; exact hu
termination_by structural t => t
theorem partsL_trans : ∀ {l : List BTy} {s u : BTy}, s ∈ partsL l → u ∈ parts s → u ∈ partsL l
  | [], _, _, h, _ => by simp [partsL] at h
  | t :: r, s, u, h, hu => by
    simp only [partsL, List.mem_append] at h ⊢
    rcases h with h | h
    · exact Or.inl (parts_trans h hu)
    · exact Or.inr (partsL_trans h hu)
termination_by structural l => l
end

theorem everySub {P : BTy → Prop} {env : BTyEnv} {t s : BTy} (h : EveryPart P env t) (hs : ∀ u ∈ parts s, u ∈ parts t) :
    EveryPart P env s := ⟨fun u hu => h.1 u (hs u hu), h.2⟩

theorem step_le (hd : Refines b env d1 d2) (t : BTy) (k : OKserd) :
    Le (Cond b env t k) (ODec.step env d1 t k) (Dec.step (ownEnv env) d2 (ownTy t) k.data) := by
  have hs := any_same k
  have ho : (b = true → Owned false k) → (b = true → VisitOwned false (ODeserializeAny k)) := fun h hb => any_owned (h hb)
  cases t with
  | named n =>
    simp only [ODec.step, ownTy, Dec.step, ownEnv]
    cases he : env n with
    | none => exact .rfl'
    | some d =>
      simp only [Option.map_some]
      exact (defOf_le hd d k).mono fun hc => ⟨fun t ht => ⟨hc.1.2 n d he t ht, hc.1.2⟩, hc.2⟩
  | int t => simp only [ODec.step, ownTy, Dec.step, val_data]; cases k.val <;> simp only [OKserd.dataV] <;> exact .rfl'
  | f32 => simp only [ODec.step, ownTy, Dec.step, val_data]; cases k.val <;> simp only [OKserd.dataV] <;> exact .rfl'
  | f64 => simp only [ODec.step, ownTy, Dec.step, val_data]; cases k.val <;> simp only [OKserd.dataV] <;> exact .rfl'
  | char =>
    simp only [ODec.step, ownTy, Dec.step, val_data]
    cases k.val <;> simp only [OKserd.dataV]
    case str s => rcases s.data with _ | ⟨c, _ | ⟨c', r⟩⟩ <;> exact .rfl'
    all_goals exact .rfl'
  | _ =>
    simp only [ODec.step, ownTy, Dec.step]
    revert hs ho
    cases ODeserializeAny k <;> cases deserializeAny k.data <;> simp only [SameVisit, false_implies] <;> intro hs ho <;>
      first
        | exact .rfl'
        | (subst hs; exact .rfl')
        | (rename_i t x y; subst hs
           first
             | exact ((hd t x).map _).mono fun hc => ⟨everySub hc.1 (by intro u hu; simp [parts, hu]), ho hc.2⟩
             | exact ((seqOf_le hd t x).map _).mono fun hc => ⟨everySub hc.1 (by intro u hu; simp [parts, hu]), ho hc.2⟩
             | (rw [ownTys_eq]; exact ((tupleOf_le hd t x).map _).mono fun hc => ⟨fun s hs => everySub hc.1 (fun u hu => by
                 simp only [parts, List.mem_cons]; exact Or.inr (mem_partsL hs u hu)), ho hc.2⟩))
        | (rename_i kt vt x y; subst hs
           first
             | exact ((entriesM_le hd kt vt x).map _).mono fun hc => ⟨everySub hc.1 (by intro u hu; simp [parts, hu]),
                 everySub hc.1 (by intro u hu; simp [parts, hu]), ho hc.2⟩
             | exact ((entriesF_le hd kt vt x).map _).mono fun hc => ⟨⟨fun h => by subst h; exact (hc.1.1 _ (self_part _)).2, fun h => by subst h; exact (hc.1.1 _ (self_part _)).2⟩,
                 everySub hc.1 (by intro u hu; simp [parts, hu]), ho hc.2⟩)
        | (rename_i x y; subst hs
           by_cases hx : x.owned = true
           · rw [if_pos hx]
             refine Or.inr ⟨rfl, fun hc => ?_⟩
             cases b with
             | true => have := ho hc.2 rfl; simp only [VisitOwned, hx] at this; cases this
             | false => exact (hc.1.1 _ (self_part _)).1 rfl
           · rw [if_neg hx]; exact .rfl')

theorem decode_le (b : Bool) (env : BTyEnv) : ∀ f, Refines b env (ODec.decode env f) (Dec.decode (ownEnv env) f)
  | 0, _, _ => by simp only [ODec.decode, Dec.decode]; exact .rfl'
  | f + 1, t, k => by simp only [ODec.decode, Dec.decode]; exact step_le (decode_le b env f) t k

end KS.DO
