import Verif.Props.Serde
import Verif.Spec.Order
/-!
# What decodes as a map

C43, for maps.
-/

namespace KS.Props

open Spec

/-- The name of a field as a map key of type `t`: the string itself, the only character of the string, or the unit variant of
that name. No other type can be read from a field name. -/
def NameAs (env : TyEnv) (t : Ty) (s : Str) (r : Ser) : Prop :=
  (t = .string ∧ r = .str s) ∨ (∃ c, t = .char ∧ s = [c] ∧ r = .char c) ∨
    (∃ n vs, t = .named n ∧ env n = some (.enum vs) ∧ (s, .unit) ∈ vs ∧ r = .unitVariant s) ∨ (t = .bytes ∧ r = .bytes (utf8 s))

theorem strKey_iff (env : TyEnv) (hv : ∀ n vs, env n = some (.enum vs) → (vs.map Prod.fst).Nodup) (t : Ty) (s : Str) (r : Ser) :
    Dec.strKey env t s = some r ↔ NameAs env t s r := by
  unfold NameAs
  cases t with
  | string => simp [Dec.strKey, eq_comm]
  | bytes => simp [Dec.strKey, eq_comm, strBytes, utf8]
  | char =>
    rcases s with _ | ⟨c, _ | ⟨d, s⟩⟩ <;> simp [Dec.strKey, eq_comm]
  | named n =>
    cases hn : env n with
    | none => simp [Dec.strKey, hn]
    | some d =>
      cases d with
      | enum vs =>
        have hnd := hv n vs hn
        cases hvar : Dec.variant vs s with
        | none =>
          simp only [Dec.strKey, hn, hvar, reduceCtorEq, false_iff]
          rintro (⟨h, -⟩ | ⟨c, h, -⟩ | ⟨m, ws, h, h1, h2, -⟩ | ⟨h, -⟩)
          · cases h
          · cases h
          · cases h; rw [hn] at h1; cases h1; rw [variant_mem hnd h2] at hvar; cases hvar
          · cases h
        | some d =>
          have hmem := variant_some hvar
          constructor
          · intro h
            simp only [Dec.strKey, hn, hvar] at h
            cases d <;> simp only [reduceCtorEq, Option.some.injEq] at h
            exact .inr (.inr (.inl ⟨n, vs, rfl, hn, hmem, h.symm⟩))
          · rintro (⟨h, -⟩ | ⟨c, h, -⟩ | ⟨m, ws, h, h1, h2, rfl⟩ | ⟨h, -⟩)
            · cases h
            · cases h
            · cases h; rw [hn] at h1; cases h1; rw [variant_mem hnd h2] at hvar; cases hvar
              simp only [Dec.strKey, hn, variant_mem hnd h2]
            · cases h
      | _ => simp [Dec.strKey, hn]
  | _ => simp [Dec.strKey]

theorem entriesOf_iff {κ : Type} {dk : κ → Option Ser} {dv : Kserd → Option Ser} : ∀ (m : List (κ × Kserd)) (r : List MapOp),
    Dec.entriesOf dk dv m = some r ↔ ∃ es : List (Ser × Ser), r = es.map (fun e => .entry e.1 e.2) ∧
      List.Forall₂ (fun p e => dk p.1 = some e.1 ∧ dv p.2 = some e.2) m es
  | [], r => by
    simp only [Dec.entriesOf, Option.some.injEq, List.forall₂_nil_left_iff]
    constructor
    · rintro rfl; exact ⟨[], rfl, rfl⟩
    · rintro ⟨_, rfl, rfl⟩; rfl
  | (k, v) :: m, r => by
    simp only [Dec.entriesOf, List.forall₂_cons_left_iff]
    constructor
    · intro h
      split at h
      · cases h
      · rename_i a ha
        split at h
        · cases h
        · rename_i b hb
          split at h
          · cases h
          · rename_i r' hr
            obtain ⟨es, rfl, hes⟩ := (entriesOf_iff m r').mp hr
            cases h
            exact ⟨(a, b) :: es, rfl, (a, b), es, ⟨ha, hb⟩, hes, rfl⟩
    · rintro ⟨_, rfl, ⟨a, b⟩, es, ⟨h1, h2⟩, hes, rfl⟩
      simp only at h1 h2
      rw [h1, h2]
      simp only [(entriesOf_iff m _).mpr ⟨es, rfl, hes⟩, List.map_cons]

theorem visit_map {k : Kserd} {m : KMap} : deserializeAny k = .map m ↔ k.val = .map m := by
  rcases k with ⟨i, v⟩
  rw [Kserd.val_mk]
  cases v with
  | num n => cases n <;> simp only [deserializeAny] <;> (try split) <;> simp
  | tuple l =>
    simp only [deserializeAny]
    repeat' split
    all_goals simp
  | _ => simp [deserializeAny]

theorem visit_fields {k : Kserd} {f : Fields} : deserializeAny k = .fields f ↔ k.val = .cntr f := by
  rcases k with ⟨i, v⟩
  rw [Kserd.val_mk]
  cases v with
  | num n => cases n <;> simp only [deserializeAny] <;> (try split) <;> simp
  | tuple l =>
    simp only [deserializeAny]
    repeat' split
    all_goals simp
  | _ => simp [deserializeAny]

/-- **C43** (maps): a map decodes from a map, entry by entry in order, and from a container, whose field names are then the
keys: as strings, as characters if they consist of one, or as unit variants. One key or value that does not decode makes the
whole map fail. Identities are not looked at. -/
theorem C43_map (env : TyEnv) (hv : ∀ n vs, env n = some (.enum vs) → (vs.map Prod.fst).Nodup) (kt vt : Ty) (k : Kserd) (r : Ser) :
    decode env (.map kt vt) k = some r ↔ ∃ es : List (Ser × Ser), r = .map (es.map fun e => .entry e.1 e.2) ∧
      ((∃ m, k.val = .map m ∧ List.Forall₂ (fun p e => decode env kt p.1 = some e.1 ∧ decode env vt p.2 = some e.2) m es) ∨
        ∃ f, k.val = .cntr f ∧ List.Forall₂ (fun p e => NameAs env kt p.1 e.1 ∧ decode env vt p.2 = some e.2) f es) := by
  rw [decode_step]
  simp only [Dec.step]
  constructor
  · intro h
    split at h
    · rename_i m hm
      simp only [Option.map_eq_some_iff, entriesOf_iff] at h
      obtain ⟨_, ⟨es, rfl, h⟩, rfl⟩ := h
      exact ⟨es, rfl, .inl ⟨m, visit_map.mp hm, h⟩⟩
    · rename_i m hm
      simp only [Option.map_eq_some_iff, entriesOf_iff, strKey_iff env hv] at h
      obtain ⟨_, ⟨es, rfl, h⟩, rfl⟩ := h
      exact ⟨es, rfl, .inr ⟨m, visit_fields.mp hm, h⟩⟩
    · cases h
  · rintro ⟨es, rfl, ⟨m, h, h'⟩ | ⟨f, h, h'⟩⟩
    · rw [visit_map.mpr h]
      simp only [Option.map_eq_some_iff, entriesOf_iff]
      exact ⟨_, ⟨es, rfl, h'⟩, rfl⟩
    · rw [visit_fields.mpr h]
      simp only [Option.map_eq_some_iff, entriesOf_iff, strKey_iff env hv]
      exact ⟨_, ⟨es, rfl, h'⟩, rfl⟩

/-- Field names as characters. -/
example : decode exampleEnv (.map .char .bool) (.mk none (.cntr [(['a'], .mk none (.bool true)), (['b'], .mk none (.bool false))])) =
    some (.map [.entry (.char 'a') (.bool true), .entry (.char 'b') (.bool false)]) ∧
    decode exampleEnv (.map .char .bool) (.mk none (.cntr [(str "ab", .mk none (.bool true))])) = none ∧
    decode exampleEnv (.map (.int .u8) .bool) (.mk none (.cntr [(['a'], .mk none (.bool true))])) = none := ⟨rfl, rfl, rfl⟩

end KS.Props
