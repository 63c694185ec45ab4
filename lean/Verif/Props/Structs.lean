import Verif.Props.Maps
import Verif.Lemmas.Utf8
import Verif.Spec.DecodeFirst
/-!
# What decodes as a plain value, and as a user type

C43, for the remaining types.
-/

namespace KS.Props

open Spec Spec.De

theorem visit_str {k : Kserd} {s : Str} : deserializeAny k = .str s ↔ k.val = .str s := by
  rcases k with ⟨i, v⟩
  rw [Kserd.val_mk]
  cases v with
  | num n => cases n <;> simp only [deserializeAny] <;> (try split) <;> simp
  | tuple l =>
    rcases l with _ | ⟨x, _ | ⟨y, l⟩⟩ <;> rcases i with _ | i <;> simp only [deserializeAny] <;> (try split) <;> simp
  | _ => simp [deserializeAny]

theorem visit_bytes {k : Kserd} {b : List UInt8} : deserializeAny k = .bytes b ↔ k.val = .barr b := by
  rcases k with ⟨i, v⟩
  rw [Kserd.val_mk]
  cases v with
  | num n => cases n <;> simp only [deserializeAny] <;> (try split) <;> simp
  | tuple l =>
    rcases l with _ | ⟨x, _ | ⟨y, l⟩⟩ <;> rcases i with _ | i <;> simp only [deserializeAny] <;> (try split) <;> simp
  | _ => simp [deserializeAny]

theorem visit_u64 {k : Kserd} {n : Nat} : deserializeAny k = .u64 n ↔ k.val = .num (.uint n) ∧ n < 2 ^ 64 := by
  rcases k with ⟨i, v⟩
  rw [Kserd.val_mk]
  cases v with
  | num a =>
    cases a with
    | uint a =>
      by_cases h : a < 2 ^ 64
      · simp only [deserializeAny]; rw [if_pos h]
        simp only [Visit.u64.injEq, Value.num.injEq, Number.uint.injEq]
        constructor
        · rintro rfl; exact ⟨rfl, h⟩
        · rintro ⟨rfl, _⟩; rfl
      · simp only [deserializeAny]; rw [if_neg h]
        simp only [Value.num.injEq, Number.uint.injEq, reduceCtorEq, false_iff]
        rintro ⟨rfl, h2⟩; exact h h2
    | int a => simp only [deserializeAny]; split <;> simp
    | float a => simp [deserializeAny]
  | tuple l =>
    rcases l with _ | ⟨x, _ | ⟨y, l⟩⟩ <;> rcases i with _ | i <;> simp only [deserializeAny] <;> (try split) <;> simp
  | _ => simp [deserializeAny]

theorem visit_unit {k : Kserd} : deserializeAny k = .unit ↔ k.val = .unit := by
  rcases k with ⟨i, v⟩
  rw [Kserd.val_mk]
  cases v with
  | num n => cases n <;> simp only [deserializeAny] <;> (try split) <;> simp
  | tuple l =>
    rcases l with _ | ⟨x, _ | ⟨y, l⟩⟩ <;> rcases i with _ | i <;> simp only [deserializeAny] <;> (try split) <;> simp
  | _ => simp [deserializeAny]

theorem visit_bool {k : Kserd} {b : Bool} : deserializeAny k = .bool b ↔ k.val = .bool b := by
  rcases k with ⟨i, v⟩
  rw [Kserd.val_mk]
  cases v with
  | num n => cases n <;> simp only [deserializeAny] <;> (try split) <;> simp
  | tuple l =>
    rcases l with _ | ⟨x, _ | ⟨y, l⟩⟩ <;> rcases i with _ | i <;> simp only [deserializeAny] <;> (try split) <;> simp
  | _ => simp [deserializeAny]

theorem visit_newtype {k x : Kserd} : deserializeAny k = .newtype x ↔
    ∃ i, k.id = some i ∧ i ≠ str "Some" ∧ k.val = .tuple [x] := by
  rcases k with ⟨i, v⟩
  rw [Kserd.val_mk, Kserd.id_mk]
  cases v with
  | num n => cases n <;> simp only [deserializeAny] <;> (try split) <;> simp
  | tuple l =>
    rcases l with _ | ⟨y, _ | ⟨z, l⟩⟩ <;> rcases i with _ | i <;> simp only [deserializeAny] <;> (try split) <;> simp_all
  | _ => simp [deserializeAny]

theorem visit_elems {k : Kserd} {l : List Kserd} : deserializeAny k = .seq l ↔ Elems k l := by
  rw [visit_seq]
  unfold Elems IsNone IsSome IsNew
  refine or_congr_right (and_congr_right fun h => ?_)
  simp only [h, Value.tuple.injEq]
  constructor
  · rintro ⟨h1, h2⟩
    refine ⟨fun h => h1 ⟨h.2, h.1⟩, ?_, ?_⟩
    · rintro x ⟨rfl, h3⟩
      rcases h2 with h2 | h2
      · rw [h2] at h3; cases h3
      · exact h2 rfl
    · rintro x ⟨rfl, i, h3, -⟩
      rcases h2 with h2 | h2
      · rw [h2] at h3; cases h3
      · exact h2 rfl
  · rintro ⟨h1, h2, h3⟩
    refine ⟨fun h => h1 ⟨h.2, h.1⟩, ?_⟩
    cases hi : k.id with
    | none => exact .inl rfl
    | some i =>
      refine .inr fun hl => ?_
      obtain ⟨x, rfl⟩ := List.length_eq_one_iff.mp hl
      by_cases hs : i = str "Some"
      · exact h2 x ⟨rfl, by rw [hi, hs]⟩
      · exact h3 x ⟨rfl, i, hi, hs⟩

/-- **C43**: a `String` is decoded exactly from a string, or from a byte array that is the UTF-8 form of the string; bytes exactly from a
byte array, or from the UTF-8 form of a string. -/
theorem C43_strings (env : TyEnv) (k : Kserd) (r : Ser) :
    (decode env .string k = some r ↔ ∃ s, r = .str s ∧ (k.val = .str s ∨ k.val = .barr (utf8 s))) ∧
    (decode env .bytes k = some r ↔ ∃ b, r = .bytes b ∧ (k.val = .barr b ∨ ∃ s, k.val = .str s ∧ b = utf8 s)) := by
  rw [decode_step, decode_step]
  simp only [Dec.step]
  refine ⟨⟨?_, ?_⟩, ⟨?_, ?_⟩⟩
  · intro h
    split at h
    · rename_i s hs
      cases h
      exact ⟨s, rfl, .inl (visit_str.mp hs)⟩
    · rename_i b hb
      rw [Option.map_eq_some_iff] at h
      obtain ⟨s, h1, rfl⟩ := h
      refine ⟨s, rfl, .inr ?_⟩
      rw [visit_bytes.mp hb, ← (bytesStr_iff b s).mp h1]; rfl
    · cases h
  · rintro ⟨s, rfl, h | h⟩
    · rw [visit_str.mpr h]
    · rw [visit_bytes.mpr h]
      show (bytesStr (strBytes s)).map Ser.str = _
      rw [(bytesStr_iff _ s).mpr rfl]; rfl
  · intro h
    split at h
    · rename_i s hs
      cases h
      exact ⟨s, rfl, .inl (visit_bytes.mp hs)⟩
    · rename_i s hs
      cases h
      exact ⟨_, rfl, .inr ⟨s, visit_str.mp hs, rfl⟩⟩
    · cases h
  · rintro ⟨b, rfl, h | ⟨s, h, rfl⟩⟩
    · rw [visit_bytes.mpr h]
    · rw [visit_str.mpr h]; rfl

/-- **C43**: `()`, `bool`, `char`, `f32` and `f64` are decoded exactly from the unit, a boolean, a string of one character and any number,
whatever the identity. -/
theorem C43_scalars (env : TyEnv) (k : Kserd) (r : Ser) :
    (decode env .unit k = some r ↔ k.val = .unit ∧ r = .unit) ∧
    (decode env .bool k = some r ↔ ∃ b, k.val = .bool b ∧ r = .bool b) ∧
    (decode env .char k = some r ↔ ∃ c, k.val = .str [c] ∧ r = .char c) ∧
    (decode env .f64 k = some r ↔ ∃ a, k.val = .num a ∧ r = .f64 a.asF64) ∧
    (decode env .f32 k = some r ↔ ∃ a, k.val = .num a ∧ r = .f32 (F32.ofF64 a.asF64)) := by
  simp only [decode_step, Dec.step]
  refine ⟨?_, ?_, ?_, ?_, ?_⟩
  · constructor
    · intro h
      split at h
      · rename_i hu; cases h; exact ⟨visit_unit.mp hu, rfl⟩
      · cases h
    · rintro ⟨h, rfl⟩; rw [visit_unit.mpr h]
  · constructor
    · intro h
      split at h
      · rename_i b hu; cases h; exact ⟨b, visit_bool.mp hu, rfl⟩
      · cases h
    · rintro ⟨b, h, rfl⟩; rw [visit_bool.mpr h]
  · constructor
    · intro h
      split at h
      · rename_i c hc; cases h; exact ⟨c, hc, rfl⟩
      · cases h
    · rintro ⟨b, h, rfl⟩; rw [h]
  · constructor
    · intro h
      split at h
      · rename_i c hc; cases h; exact ⟨c, hc, rfl⟩
      · cases h
    · rintro ⟨b, h, rfl⟩; rw [h]
  · constructor
    · intro h
      split at h
      · rename_i c hc; cases h; exact ⟨c, hc, rfl⟩
      · cases h
    · rintro ⟨b, h, rfl⟩; rw [h]

/-- **C43**: a unit struct is decoded exactly from the empty tuple; a newtype struct from a tuple of one with an identity other than
`Some`, or from the first element of a sequence; a tuple struct from a sequence with at least its fields. Names of structs play no part.
`Elems` says what counts as a sequence: sequences, and tuples, except an empty tuple called `None` and a tuple of one with an identity. -/
theorem C43_tuple_structs (env : TyEnv) (m n : Str) (k : Kserd) (r : Ser) :
    (env m = some (.unitStruct n) → (decode env (.named m) k = some r ↔ k.val = .tuple [] ∧ r = .unitStruct n)) ∧
    (∀ t, env m = some (.newtype n t) → (decode env (.named m) k = some r ↔ ∃ x s, decode env t x = some s ∧ r = .newtypeStruct n s ∧
      ((∃ i, k.id = some i ∧ i ≠ str "Some" ∧ k.val = .tuple [x]) ∨ ∃ l, Elems k (x :: l)))) ∧
    (∀ ts, env m = some (.tupleStruct n ts) → (decode env (.named m) k = some r ↔ ∃ l ss, Elems k l ∧ ts.length ≤ l.length ∧
      List.zipWith (decode env) ts l = ss.map some ∧ r = .tupleStruct n ss)) := by
  refine ⟨?_, ?_, ?_⟩
  · intro hm
    rw [decode_step, step_named hm]
    simp only [Dec.defOf]
    constructor
    · intro h
      split at h
      · rename_i hu; cases h; exact ⟨hu, rfl⟩
      · cases h
    · rintro ⟨h, rfl⟩; rw [h]
  · intro t hm
    rw [decode_step, step_named hm]
    simp only [Dec.defOf]
    constructor
    · intro h
      split at h
      · rename_i x hx
        rw [Option.map_eq_some_iff] at h
        obtain ⟨s, h1, rfl⟩ := h
        exact ⟨x, s, h1, rfl, .inl (visit_newtype.mp hx)⟩
      · rename_i x l hx
        rw [Option.map_eq_some_iff] at h
        obtain ⟨s, h1, rfl⟩ := h
        exact ⟨x, s, h1, rfl, .inr ⟨l, visit_elems.mp hx⟩⟩
      · cases h
    · rintro ⟨x, s, h1, rfl, h | ⟨l, h⟩⟩
      · rw [visit_newtype.mpr h]; simp only [h1, Option.map_some]
      · rw [visit_elems.mpr h]; simp only [h1, Option.map_some]
  · intro ts hm
    rw [decode_step, step_named hm]
    simp only [Dec.defOf]
    constructor
    · intro h
      split at h
      · rename_i l hl
        rw [Option.map_eq_some_iff] at h
        obtain ⟨ss, h1, rfl⟩ := h
        exact ⟨l, ss, visit_elems.mp hl, ((tupleOf_iff _ _ _ _).mp h1).1, ((tupleOf_iff _ _ _ _).mp h1).2, rfl⟩
      · cases h
    · rintro ⟨l, ss, h1, h2, h3, rfl⟩
      rw [visit_elems.mpr h1]
      simp only [(tupleOf_iff _ _ _ _).mpr ⟨h2, h3⟩, Option.map_some]

theorem fieldKey_iff (ns : List Str) (k : Kserd) (o : Option Str) : Dec.fieldKey ns k = some o ↔ MayName k ∧ o = nameOf ns k := by
  unfold Dec.fieldKey
  constructor
  · intro h
    split at h
    · rename_i s hs
      cases h
      have := visit_str.mp hs
      exact ⟨.inl ⟨s, this⟩, by unfold nameOf; rw [this]⟩
    · rename_i n hn
      cases h
      have := visit_u64.mp hn
      exact ⟨.inr (.inr ⟨n, this.2, this.1⟩), by unfold nameOf; rw [this.1]; simp only; rw [if_pos this.2]⟩
    · rename_i b hb
      cases h
      have := visit_bytes.mp hb
      exact ⟨.inr (.inl ⟨b, this⟩), by unfold nameOf; rw [this]; rfl⟩
    · cases h
  · rintro ⟨⟨s, h⟩ | ⟨b, h⟩ | ⟨n, h1, h⟩, rfl⟩
    · rw [visit_str.mpr h]; unfold nameOf; rw [h]
    · rw [visit_bytes.mpr h]; unfold nameOf; rw [h]; rfl
    · rw [visit_u64.mpr ⟨h, h1⟩]; unfold nameOf; rw [h]; simp only; rw [if_pos h1]

theorem fieldKeys_iff (ns : List Str) : ∀ (m : KMap) (l : List (Str × Kserd)), Dec.fieldKeys ns m = some l ↔
    (∀ p ∈ m, MayName p.1) ∧ l = m.filterMap (fun p => (nameOf ns p.1).map (fun n => (n, p.2)))
  | [], l => by simp [Dec.fieldKeys, eq_comm]
  | (k, v) :: r, l => by
    have ih := fieldKeys_iff ns r
    rw [Dec.fieldKeys]
    constructor
    · intro h
      split at h
      · rename_i s r' h1 h2
        cases h
        obtain ⟨a1, a2⟩ := (fieldKey_iff ns k _).mp h1
        obtain ⟨b1, b2⟩ := (ih r').mp h2
        refine ⟨by simp only [List.mem_cons, forall_eq_or_imp]; exact ⟨a1, b1⟩, ?_⟩
        rw [List.filterMap_cons, ← a2, ← b2]; rfl
      · rename_i r' h1 h2
        cases h
        obtain ⟨a1, a2⟩ := (fieldKey_iff ns k _).mp h1
        obtain ⟨b1, b2⟩ := (ih _).mp h2
        refine ⟨by simp only [List.mem_cons, forall_eq_or_imp]; exact ⟨a1, b1⟩, ?_⟩
        rw [List.filterMap_cons, ← a2, ← b2]; rfl
      · cases h
    · rintro ⟨h, rfl⟩
      simp only [List.mem_cons, forall_eq_or_imp] at h
      rw [(fieldKey_iff ns k (nameOf ns k)).mpr ⟨h.1, rfl⟩, (ih _).mpr ⟨h.2, rfl⟩, List.filterMap_cons]
      cases nameOf ns k <;> rfl

/-- **C43**: a struct is decoded from a map exactly when every key can name a field, no field is named twice, every named field can be
decoded, and only optional fields are missing. A key is the name of the field, its position, or its name in UTF-8; a key that names no
field is passed over. -/
theorem C43_struct_map (env : TyEnv) (m n : Str) (ds : List (Str × Ty)) (hm : env m = some (.struct n ds))
    (hd : (ds.map Prod.fst).Nodup) (id : Option Str) (l : KMap) (r : Ser) :
    decode env (.named m) (.mk id (.map l)) = some r ↔ (∀ p ∈ l, MayName p.1) ∧
      (∀ f ∈ ds.map Prod.fst, (namesIn ds (.map l)).count f ≤ 1) ∧ ∃ ss, r = .struct n ss ∧ List.Forall₂ (fun d s => d.1 = s.1 ∧
      ((∃ k x, (k, x) ∈ l ∧ nameOf (ds.map Prod.fst) k = some d.1 ∧ decode env d.2 x = some s.2) ∨
        ((∀ p ∈ l, nameOf (ds.map Prod.fst) p.1 ≠ some d.1) ∧ (∃ t, d.2 = .option t) ∧ s.2 = .none))) ds ss := by
  rw [decode_step, step_named hm]
  simp only [Dec.defOf, deserializeAny]
  have hmem : ∀ f x, (f, x) ∈ l.filterMap (fun p => (nameOf (ds.map Prod.fst) p.1).map (fun n => (n, p.2))) ↔
      ∃ k, (k, x) ∈ l ∧ nameOf (ds.map Prod.fst) k = some f := by
    intro f x
    rw [List.mem_filterMap]
    constructor
    · rintro ⟨⟨k, y⟩, hp, h⟩
      rw [Option.map_eq_some_iff] at h
      obtain ⟨f', h1, h2⟩ := h
      cases h2
      exact ⟨k, hp, h1⟩
    · rintro ⟨k, hp, h⟩
      exact ⟨(k, x), hp, by simp only [h, Option.map_some]⟩
  have hnames : (l.filterMap (fun p => (nameOf (ds.map Prod.fst) p.1).map (fun n => (n, p.2)))).map Prod.fst =
      namesIn ds (.map l) := by
    unfold namesIn
    rw [List.map_filterMap]
    congr 1
    funext p
    cases nameOf (ds.map Prod.fst) p.1 <;> rfl
  cases hk : Dec.fieldKeys (ds.map Prod.fst) l with
  | none =>
    simp only [reduceCtorEq, false_iff]
    rintro ⟨h, -⟩
    rw [(fieldKeys_iff _ _ _).mpr ⟨h, rfl⟩] at hk
    cases hk
  | some l' =>
    obtain ⟨hall, rfl⟩ := (fieldKeys_iff _ _ _).mp hk
    simp only [Option.map_eq_some_iff, structOf_iff_names (decode env) ds _ hd, hnames, hmem]
    constructor
    · rintro ⟨ss, ⟨h1, h2⟩, rfl⟩
      refine ⟨hall, h1, ss, rfl, h2.imp ?_⟩
      rintro d s ⟨e, ⟨x, ⟨k, h3, h4⟩, h5⟩ | ⟨h3, h4⟩⟩
      · exact ⟨e, .inl ⟨k, x, h3, h4, h5⟩⟩
      · exact ⟨e, .inr ⟨fun p hp hq => h3 p.2 ⟨p.1, hp, hq⟩, h4⟩⟩
    · rintro ⟨-, h1, ss, rfl, h2⟩
      refine ⟨ss, ⟨h1, h2.imp ?_⟩, rfl⟩
      rintro d s ⟨e, ⟨k, x, h3, h4, h5⟩ | ⟨h3, h4⟩⟩
      · exact ⟨e, .inl ⟨x, ⟨k, h3, h4⟩, h5⟩⟩
      · exact ⟨e, .inr ⟨fun x ⟨k, hp, hq⟩ => h3 (k, x) hp hq, h4⟩⟩

/-- **C43**: a struct is decoded from a sequence (or tuple) exactly when its first elements decode as the fields in order of declaration. -/
theorem C43_struct_seq (env : TyEnv) (m n : Str) (ds : List (Str × Ty)) (hm : env m = some (.struct n ds)) (k : Kserd)
    (hc : ∀ l, k.val ≠ .cntr l) (hk : ∀ l, k.val ≠ .map l) (r : Ser) :
    decode env (.named m) k = some r ↔ ∃ l ss, Elems k l ∧ ds.length ≤ l.length ∧
      List.zipWith (fun d x => decode env d.2 x) ds l = ss.map some ∧ r = .struct n ((ds.map Prod.fst).zip ss) := by
  rw [decode_step, step_named hm]
  simp only [Dec.defOf]
  have hz : ∀ l, List.zipWith (decode env) (ds.map Prod.snd) l = List.zipWith (fun d x => decode env d.2 x) ds l :=
    fun l => List.zipWith_map_left
  constructor
  · intro h
    split at h
    · rename_i l hl; exact absurd (visit_fields.mp hl) (hc l)
    · rename_i l hl; exact absurd (visit_map.mp hl) (hk l)
    · rename_i l hl
      rw [Option.map_eq_some_iff] at h
      obtain ⟨ss, h1, rfl⟩ := h
      have := (tupleOf_iff _ _ _ _).mp h1
      rw [hz, List.length_map] at this
      exact ⟨l, ss, visit_elems.mp hl, this.1, this.2, rfl⟩
    · cases h
  · rintro ⟨l, ss, h1, h2, h3, rfl⟩
    rw [visit_elems.mpr h1]
    have h4 : (ds.map Prod.snd).length ≤ l.length := by rw [List.length_map]; exact h2
    rw [← hz] at h3
    simp only [(tupleOf_iff _ _ _ _).mpr ⟨h4, h3⟩, Option.map_some]

/-- Keys by position, by the bytes of the name, and past the end. -/
example : decode exampleEnv (.named (str "Point")) (.mk none (.map [(.mk none (.num (.uint 1)), .mk (some (str "A")) .unit),
      (.mk none (.num (.uint 7)), .mk none .unit), (.mk none (.barr [121]), .mk none .unit)])) =
      some (.struct (str "Point") [(str "y", .none), (str "x", .unitVariant (str "A"))]) ∧
    decode exampleEnv (.named (str "Point")) (.mk none (.map [(.mk none (.num (.uint 1)), .mk (some (str "A")) .unit),
      (.mk none (.str ['x']), .mk (some (str "A")) .unit)])) = none ∧
    decode exampleEnv (.named (str "Point")) (.mk none (.map [(.mk none (.num (.uint 1)), .mk (some (str "A")) .unit),
      (.mk none (.bool true), .mk none .unit)])) = none ∧
    decode exampleEnv (.named (str "Point")) (.mk (some (str "Q")) (.seq [.mk none .unit, .mk (some (str "A")) .unit, .mk none .unit])) =
      some (.struct (str "Point") [(str "y", .none), (str "x", .unitVariant (str "A"))]) := ⟨rfl, rfl, rfl, rfl⟩

example : (exampleEnv (str "Point")).isSome = true ∧ MayName (.mk none (.barr [121])) ∧ ¬ MayName (.mk none (.bool true)) ∧
    nameOf [str "y", str "x"] (.mk none (.num (.uint 1))) = some (str "x") ∧ nameOf [str "y", str "x"] (.mk none (.barr [121])) = some (str "y") ∧
    nameOf [str "y", str "x"] (.mk none (.num (.uint 7))) = none := by
  refine ⟨rfl, .inr (.inl ⟨_, rfl⟩), ?_, rfl, by decide +kernel, rfl⟩
  rintro (⟨s, h⟩ | ⟨b, h⟩ | ⟨n, -, h⟩) <;> cases h

end KS.Props
