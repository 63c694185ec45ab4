import Verif.Lemmas.DecodeTy
import Verif.Props.Serde
import Verif.Props.Parse
/-!
# C58: decoding returns values of the type asked for, and such values are stable
-/

namespace KS.Props
open KS.Spec

/-- C58: whatever Kserd is decoded (from a file, made by hand or by another program), if decoding to a type succeeds the result is a value of
that type: integers in range, all fields of a struct there and in order, variants known, and so on down to every part. -/
theorem C58_sound (env : TyEnv) (he : EnvOk env) (ty : Ty) (k : Kserd) (s : Ser) (hk : AllNums Number.WF k)
    (h : decode env ty k = some s) : HasTy env s ty := DT.decode_sound he k.depth ty k s hk h

theorem names_here {env : TyEnv} (he : EnvNames env) (s : Ser) (t : Ty) (h : HasTy env s t) : nameOk s := by
  cases s with
  | unitStruct n =>
    cases t <;> simp only [HasTy] at h
    exact he _ _ h
  | newtypeStruct n v =>
    cases t <;> simp only [HasTy] at h
    obtain ⟨_, h, _⟩ := h
    exact (he _ _ h).1
  | tupleStruct n v =>
    cases t <;> simp only [HasTy] at h
    obtain ⟨_, h, _⟩ := h
    exact (he _ _ h).1
  | struct n v =>
    cases t <;> simp only [HasTy] at h
    obtain ⟨_, h, _⟩ := h
    exact he _ _ h
  | unitVariant n =>
    cases t <;> simp only [HasTy] at h
    obtain ⟨_, h, _, hm⟩ := h
    exact he _ _ h _ hm
  | newtypeVariant n v =>
    cases t <;> simp only [HasTy] at h
    obtain ⟨_, _, h, _, hm, _⟩ := h
    exact he _ _ h _ hm
  | tupleVariant n v =>
    cases t <;> simp only [HasTy] at h
    obtain ⟨_, _, h, _, hm, _⟩ := h
    exact he _ _ h _ hm
  | structVariant n v =>
    cases t <;> simp only [HasTy] at h
    obtain ⟨_, _, h, _, hm, _⟩ := h
    exact he _ _ h _ hm
  | _ => trivial

theorem plain_here {env : TyEnv} (he : EnvNames env) (s : Ser) (t : Ty) (h : HasTy env s t) (hk : keysHere s) : plainHere s := by
  cases s with
  | newtypeStruct n v =>
    cases t <;> simp only [HasTy] at h
    obtain ⟨_, h, _⟩ := h
    exact (he _ _ h).2
  | tupleStruct n v =>
    cases t <;> simp only [HasTy] at h
    obtain ⟨ts, h, _, hl⟩ := h
    have := (he _ _ h).2
    rintro ⟨rfl, rfl⟩
    cases ts with
    | nil => exact this ⟨rfl, rfl⟩
    | cons _ _ => simp [HasTys] at hl
  | f32 x => exact hk
  | map ops => exact hk
  | _ => trivial

/-- C58: decoding normalises. A decoded value can always be encoded again (if the type names allow it), and what it encodes to decodes to the same value,
although the first Kserd may have been a different one: extra fields and elements, fields in another order, a map for a struct, floats for
integers, identities that are ignored. -/
theorem C58_stable_partial (env : TyEnv) (he : EnvOk env) (hn : EnvNames env) (ty : Ty) (k : Kserd) (s : Ser) (hk : AllNums Number.WF k)
    (h : decode env ty k = some s) (hs : SerAll keysHere s) :
    ∃ k' s', s.encode = .ok k' ∧ decode env ty k' = some s' ∧ Same s s' := by
  have ht := C58_sound env he ty k s hk h
  refine C40_partial env s ty ht (DT.all_hasTy (names_here hn) s ty ht) ?_
  have := DT.all_hasTy (P := fun s => keysHere s → plainHere s) (plain_here hn) s ty ht
  exact DT.serAll_mp s this hs

/-- C58 for text: reading a file into a type. -/
theorem C58_text (env : TyEnv) (he : EnvOk env) (ty : Ty) (src : Str) (k : Kserd) (s : Ser) (hp : parse src = .ok k)
    (h : decode env ty k = some s) : HasTy env s ty := by
  refine C58_sound env he ty k s ?_ h
  refine PG.all_mono ?_ k (C33_parsed src k hp).1
  intro x hx
  split
  · rename_i n hn; exact hx.2.1 n hn
  · trivial

/-- Types that meet the conditions. -/
def dtEnv : TyEnv := fun n =>
  if n = str "P" then some (.struct (str "P") [(str "x", .int .u8), (str "y", .option .bool), (str "z", .named (str "E"))])
  else if n = str "E" then some (.enum [(str "A", .unit), (str "B", .newtype .char), (str "S", .struct [(str "m", .map (.int .i8) .unit)])])
  else if n = str "T" then some (.tupleStruct (str "T") [.f64, .string])
  else none

example : EnvOk dtEnv ∧ EnvNames dtEnv := by
  constructor
  · intro m d h
    simp only [dtEnv] at h
    split at h
    · cases h; simp only [DefOk]; decide
    · split at h
      · cases h
        refine ⟨by decide, ?_⟩
        intro n ds hm
        simp only [List.mem_cons, Prod.mk.injEq, reduceCtorEq, and_false, VarDef.struct.injEq, List.not_mem_nil, or_false, false_or] at hm
        rw [hm.2]; decide
      · split at h
        · cases h; simp [DefOk]
        · cases h
  · intro m d h
    simp only [dtEnv] at h
    split at h
    · cases h; simp only [DefNames]; decide
    · split at h
      · cases h
        intro p hp
        simp only [List.mem_cons, List.not_mem_nil, or_false] at hp
        rcases hp with rfl | rfl | rfl <;> decide
      · split at h
        · cases h; exact ⟨by decide, by simp⟩
        · cases h

set_option exponentiation.threshold 3000 in
/-- A Kserd that nobody encodes (a map for a struct, an unknown entry, a float for an integer, no `y`) and the value it decodes to. -/
example : decode dtEnv (.named (str "P")) (.mk none (.map [(.mk none (.str (str "extra")), .mk none .unit),
      (.mk none (.str (str "z")), .mk (some (str "S")) (.cntr [(str "m", .mk none (.map [(.mk none (.num (.int (-3))), .mk none .unit)]))])),
      (.mk none (.str (str "x")), .mk none (.num (.float (.fin false (200 * 2 ^ 1074)))))])) =
    some (.struct (str "P") [(str "x", .int .u8 200), (str "y", .none), (str "z", .structVariant (str "S") [(str "m", .map [.entry (.int .i8 (-3)) .unit])])]) := by
  rfl

end KS.Props
