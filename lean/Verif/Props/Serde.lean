import Verif.Lemmas.Serde
import Verif.Lemmas.DecodeIff
import Verif.Model.ToKserd
import Verif.Props.Numbers
import Verif.Props.Kserds
import Verif.Props.Float32
/-!
# Encoding and decoding with serde

C40 to C44. The specification is `Verif/Spec/Serde.lean`: which values belong to a type (`HasTy`), when two values
are the same (`Same`), what can be wrong with a value (`problems`).
-/

namespace KS.Props

open Spec

/-! ## C42 -/

/-- **C42**: encoding fails exactly when something is wrong with the value (a reserved character in a name, a map value
without a key, an error raised by the value itself), and reports the first such problem. -/
theorem C42_error (s : Ser) (e : EncErr) : s.encode = .error e ↔ (problems s).head? = some e := by
  have h := encode_reports s
  unfold Reports at h
  cases hs : s.encode with
  | ok k => rw [hs] at h; simp only at h; simp [h]
  | error e' =>
    rw [hs] at h; simp only at h
    rw [h]; simp

/-- **C42**: otherwise it succeeds. -/
theorem C42_ok (s : Ser) : (∃ k, s.encode = .ok k) ↔ problems s = [] := by
  have h := encode_reports s
  unfold Reports at h
  cases hs : s.encode with
  | ok k => rw [hs] at h; simp only at h; simp [h]
  | error e' =>
    rw [hs] at h; simp only at h
    constructor
    · rintro ⟨k, hk⟩; cases hk
    · intro hn; rw [hn] at h; simp at h

example : problems (.struct (str "P") [(str "a b", .unitStruct (str "q r")), (str "c", .newtypeStruct (str "x=") .unit)]) =
    [.invalidId (str "q r"), .invalidId (str "x=")] := by decide +kernel

/-! ## C40 -/

/-- **C40** (partial): a value of a type, with valid names, encodes, and decoding the result at the type gives the value
back. `Plain` excludes what does not come back, each with a witness below: newtype structs called `Some` and field-less
tuple structs called `None` (`C40_some_lost`), maps with keys that compare equal as Kserds, such as different
variants of an enum (`C40_enum_key_lost`), and the single `f32` that does not survive (`C47_lost`). -/
theorem C40_partial (env : TyEnv) (s : Ser) (ty : Ty) (h : HasTy env s ty) (hn : NamesOk s) (hp : Plain s) :
    ∃ k s', s.encode = .ok k ∧ decode env ty k = some s' ∧ Same s s' := by
  obtain ⟨k, s', h1, h2, h3⟩ := rt_ser env s ty h hn hp
  exact ⟨k, s', h1, h2 _ le_rfl, h3⟩

theorem intVal_intNumber {t : IntTy} {v : Int} (h : t.lo ≤ v) : intVal (Ser.intNumber t v) = some v := by
  unfold Ser.intNumber
  cases hs : t.signed with
  | true => rfl
  | false =>
    have : 0 ≤ v := by unfold IntTy.lo at h; rw [hs] at h; simpa using h
    simp [intVal, this]

mutual
theorem distinctive_inj (env : TyEnv) : ∀ (a b : Ser) (ty : Ty) (ka kb : Kserd), Distinctive ty → HasTy env a ty →
    HasTy env b ty → a.encode = .ok ka → b.encode = .ok kb → Kserd.cmp kb ka = .eq → a = b
  | .unit, b, ty, ka, kb, hd, ha, hb, ea, eb, hc => by
    cases ty <;> simp only [HasTy] at ha
    cases b <;> simp only [HasTy] at hb
    rfl
  | .bool x, b, ty, ka, kb, hd, ha, hb, ea, eb, hc => by
    cases ty <;> simp only [HasTy] at ha
    cases b <;> simp only [HasTy] at hb
    simp only [Ser.encode, Except.ok.injEq] at ea eb; subst ea eb
    rename_i y
    cases x <;> cases y <;> first | rfl | exact absurd hc (by decide)
  | .int t x, b, ty, ka, kb, hd, ha, hb, ea, eb, hc => by
    cases ty <;> simp only [HasTy] at ha
    cases b <;> simp only [HasTy] at hb
    simp only [Ser.encode, Except.ok.injEq] at ea eb; subst ea eb
    obtain ⟨rfl, h1, h2⟩ := ha
    obtain ⟨rfl, h3, h4⟩ := hb
    rename_i t y
    simp only [Kserd.withIdUnchk, Kserd.cmp, Kserd.cmpV, Ser.intNumber] at hc
    have hcmp := C01_int_cmp (Ser.intNumber t y) (Ser.intNumber t x) y x (intVal_intNumber h3) (intVal_intNumber h1)
    simp only [Number.cmp, Ser.intNumber] at hc hcmp
    rw [hcmp, Option.getD_some] at hc
    have : x = y := by
      split at hc
      · cases hc
      · split at hc
        · cases hc
        · omega
    rw [this]
  | .char x, b, ty, ka, kb, hd, ha, hb, ea, eb, hc => by
    cases ty <;> simp only [HasTy] at ha
    cases b <;> simp only [HasTy] at hb
    simp only [Ser.encode, Except.ok.injEq] at ea eb; subst ea eb
    simp only [Kserd.withIdUnchk, Kserd.cmp, Kserd.cmpV, cmpStr_eq, List.cons.injEq, and_true] at hc
    rw [hc]
  | .str x, b, ty, ka, kb, hd, ha, hb, ea, eb, hc => by
    cases ty <;> simp only [HasTy] at ha
    cases b <;> simp only [HasTy] at hb
    simp only [Ser.encode, Except.ok.injEq] at ea eb; subst ea eb
    simp only [Kserd.withIdUnchk, Kserd.cmp, Kserd.cmpV, cmpStr_eq] at hc
    rw [hc]
  | .bytes x, b, ty, ka, kb, hd, ha, hb, ea, eb, hc => by
    cases ty <;> simp only [HasTy] at ha
    cases b <;> simp only [HasTy] at hb
    simp only [Ser.encode, Except.ok.injEq] at ea eb; subst ea eb
    simp only [Kserd.withIdUnchk, Kserd.cmp, Kserd.cmpV, cmpBytes_eq] at hc
    rw [hc]
  | .none, b, ty, ka, kb, hd, ha, hb, ea, eb, hc => by
    cases ty <;> simp only [HasTy] at ha
    cases b <;> simp only [HasTy] at hb
    · rfl
    · rename_i t y
      simp only [Ser.encode] at ea eb
      split at eb
      · cases eb
      · simp only [Except.ok.injEq] at ea eb; subst ea eb
        simp [Kserd.withIdUnchk, Kserd.cmp, Kserd.cmpV, Kserd.cmpList] at hc
  | .some x, b, ty, ka, kb, hd, ha, hb, ea, eb, hc => by
    cases ty <;> simp only [HasTy] at ha
    rename_i t
    cases b <;> simp only [HasTy] at hb
    · simp only [Ser.encode] at ea eb
      split at ea
      · cases ea
      · simp only [Except.ok.injEq] at ea eb; subst ea eb
        simp [Kserd.withIdUnchk, Kserd.cmp, Kserd.cmpV, Kserd.cmpList] at hc
    · rename_i y
      simp only [Ser.encode] at ea eb
      split at ea
      · cases ea
      · rename_i k1 h1
        split at eb
        · cases eb
        · rename_i k2 h2
          simp only [Except.ok.injEq] at ea eb; subst ea eb
          simp only [Kserd.withIdUnchk, Kserd.cmp, Kserd.cmpV, Kserd.cmpList, Ordering.then_eq] at hc
          simp only [Distinctive] at hd
          rw [distinctive_inj env x y t k1 k2 hd ha hb h1 h2 (by cases h : Kserd.cmp k2 k1 <;> simp_all)]
  | .seq x, b, ty, ka, kb, hd, ha, hb, ea, eb, hc => by
    cases ty <;> simp only [HasTy] at ha
    rename_i t
    cases b <;> simp only [HasTy] at hb
    rename_i y
    simp only [Ser.encode] at ea eb
    split at ea
    · cases ea
    · rename_i k1 h1
      split at eb
      · cases eb
      · rename_i k2 h2
        simp only [Except.ok.injEq] at ea eb; subst ea eb
        simp only [Kserd.new, Kserd.cmp, Kserd.cmpV] at hc
        simp only [Distinctive] at hd
        rw [distinctive_seq env x y t k1 k2 hd ha hb h1 h2 hc]
  | .tuple x, b, ty, ka, kb, hd, ha, hb, ea, eb, hc => by
    cases ty <;> simp only [HasTy] at ha
    rename_i t
    cases b <;> simp only [HasTy] at hb
    rename_i y
    simp only [Ser.encode] at ea eb
    split at ea
    · cases ea
    · rename_i k1 h1
      split at eb
      · cases eb
      · rename_i k2 h2
        simp only [Except.ok.injEq] at ea eb; subst ea eb
        simp only [Kserd.new, Kserd.cmp, Kserd.cmpV] at hc
        simp only [Distinctive] at hd
        rw [distinctive_tuple env x y t k1 k2 hd ha hb h1 h2 hc]
  | .f32 _, b, ty, ka, kb, hd, ha, hb, ea, eb, hc => by cases ty <;> simp only [HasTy] at ha; simp only [Distinctive] at hd
  | .f64 _, b, ty, ka, kb, hd, ha, hb, ea, eb, hc => by cases ty <;> simp only [HasTy] at ha; simp only [Distinctive] at hd
  | .map _, b, ty, ka, kb, hd, ha, hb, ea, eb, hc => by cases ty <;> simp only [HasTy] at ha; simp only [Distinctive] at hd
  | .fail _, b, ty, ka, kb, hd, ha, hb, ea, eb, hc => by cases ty <;> simp only [HasTy] at ha
  | .unitStruct _, b, ty, ka, kb, hd, ha, hb, ea, eb, hc => by cases ty <;> simp only [HasTy] at ha; simp only [Distinctive] at hd
  | .unitVariant _, b, ty, ka, kb, hd, ha, hb, ea, eb, hc => by cases ty <;> simp only [HasTy] at ha; simp only [Distinctive] at hd
  | .newtypeStruct _ _, b, ty, ka, kb, hd, ha, hb, ea, eb, hc => by cases ty <;> simp only [HasTy] at ha; simp only [Distinctive] at hd
  | .newtypeVariant _ _, b, ty, ka, kb, hd, ha, hb, ea, eb, hc => by cases ty <;> simp only [HasTy] at ha; simp only [Distinctive] at hd
  | .tupleStruct _ _, b, ty, ka, kb, hd, ha, hb, ea, eb, hc => by cases ty <;> simp only [HasTy] at ha; simp only [Distinctive] at hd
  | .tupleVariant _ _, b, ty, ka, kb, hd, ha, hb, ea, eb, hc => by cases ty <;> simp only [HasTy] at ha; simp only [Distinctive] at hd
  | .struct _ _, b, ty, ka, kb, hd, ha, hb, ea, eb, hc => by cases ty <;> simp only [HasTy] at ha; simp only [Distinctive] at hd
  | .structVariant _ _, b, ty, ka, kb, hd, ha, hb, ea, eb, hc => by cases ty <;> simp only [HasTy] at ha; simp only [Distinctive] at hd
theorem distinctive_seq (env : TyEnv) : ∀ (a b : List Ser) (ty : Ty) (ka kb : List Kserd), Distinctive ty →
    HasTyAll env a ty → HasTyAll env b ty → Ser.encodeL a = .ok ka → Ser.encodeL b = .ok kb →
    Kserd.cmpList kb ka = .eq → a = b
  | [], b, ty, ka, kb, hd, ha, hb, ea, eb, hc => by
    simp only [Ser.encodeL, Except.ok.injEq] at ea; subst ea
    cases b with
    | nil => rfl
    | cons y r =>
      simp only [Ser.encodeL] at eb
      split at eb
      · cases eb
      · split at eb
        · cases eb
        · simp only [Except.ok.injEq] at eb; subst eb; simp [Kserd.cmpList] at hc
  | x :: a, b, ty, ka, kb, hd, ha, hb, ea, eb, hc => by
    simp only [Ser.encodeL] at ea
    split at ea
    · cases ea
    · rename_i k1 h1
      split at ea
      · cases ea
      · rename_i ks1 h2
        simp only [Except.ok.injEq] at ea; subst ea
        cases b with
        | nil => simp only [Ser.encodeL, Except.ok.injEq] at eb; subst eb; simp [Kserd.cmpList] at hc
        | cons y r =>
          simp only [Ser.encodeL] at eb
          split at eb
          · cases eb
          · rename_i k2 h3
            split at eb
            · cases eb
            · rename_i ks2 h4
              simp only [Except.ok.injEq] at eb; subst eb
              simp only [Kserd.cmpList, Ordering.then_eq_eq] at hc
              rw [distinctive_inj env x y ty k1 k2 hd ha.1 hb.1 h1 h3 hc.1,
                distinctive_seq env a r ty ks1 ks2 hd ha.2 hb.2 h2 h4 hc.2]
theorem distinctive_tuple (env : TyEnv) : ∀ (a b : List Ser) (ts : List Ty) (ka kb : List Kserd), DistinctiveL ts →
    HasTys env a ts → HasTys env b ts → Ser.encodeL a = .ok ka → Ser.encodeL b = .ok kb →
    Kserd.cmpList kb ka = .eq → a = b
  | [], b, ts, ka, kb, hd, ha, hb, ea, eb, hc => by
    cases ts <;> simp only [HasTys] at ha
    cases b <;> simp only [HasTys] at hb
    rfl
  | x :: a, b, ts, ka, kb, hd, ha, hb, ea, eb, hc => by
    cases ts <;> simp only [HasTys] at ha
    rename_i t ts
    cases b <;> simp only [HasTys] at hb
    rename_i y r
    simp only [Ser.encodeL] at ea eb
    split at ea
    · cases ea
    · rename_i k1 h1
      split at ea
      · cases ea
      · rename_i ks1 h2
        simp only [Except.ok.injEq] at ea; subst ea
        split at eb
        · cases eb
        · rename_i k2 h3
          split at eb
          · cases eb
          · rename_i ks2 h4
            simp only [Except.ok.injEq] at eb; subst eb
            simp only [Kserd.cmpList, Ordering.then_eq_eq] at hc
            simp only [DistinctiveL] at hd
            rw [distinctive_inj env x y t k1 k2 hd.1 ha.1 hb.1 h1 h3 hc.1,
              distinctive_tuple env a r ts ks1 ks2 hd.2 ha.2 hb.2 h2 h4 hc.2]
end

/-- **C40**, the condition on map keys: it holds when the keys are different values of a type without floats, maps and user
types. -/
theorem C40_keys (env : TyEnv) (ops : List MapOp) (kt vt : Ty) (hd : Distinctive kt) (h : HasEntries env ops kt vt)
    (hne : (opKeys ops).Pairwise (· ≠ ·)) : plainHere (.map ops) := by
  have hk : ∀ (ops : List MapOp), HasEntries env ops kt vt → ∀ k ∈ opKeys ops, HasTy env k kt := by
    intro ops
    induction ops with
    | nil => intro _ k hk; simp [opKeys] at hk
    | cons o r ih =>
      intro h k hk
      cases o with
      | key _ => exact h.1.elim
      | value _ => exact h.1.elim
      | entry a b =>
        simp only [opKeys, List.mem_cons] at hk
        rcases hk with rfl | hk
        · exact h.1.1
        · exact ih h.2 k hk
  have hk := hk ops h
  simp only [plainHere]
  rw [List.pairwise_iff_getElem] at hne ⊢
  intro i j hi hj hij ka kb ha hb hc
  exact hne i j hi hj hij (distinctive_inj env _ _ kt ka kb hd (hk _ (List.getElem_mem _)) (hk _ (List.getElem_mem _)) ha hb hc)

/-- User types of the examples: a struct, an enum with all kinds of variants, and two awkward names. -/
def exampleEnv : TyEnv := fun n =>
  if n = str "Point" then some (.struct (str "Point") [(str "y", .option (.int .i16)), (str "x", .named (str "Shape"))])
  else if n = str "Shape" then some (.enum [(str "A", .unit), (str "B", .unit), (str "C", .newtype .string),
    (str "D", .tuple [.bool, .char]), (str "E", .struct [(str "m", .map .string (.int .u8))])])
  else if n = str "Some" then some (.newtype (str "Some") (.int .u8))
  else none

/-- A value of type `Point`. -/
def examplePoint : Ser := .struct (str "Point") [(str "y", .some (.int .i16 (-7))),
  (str "x", .structVariant (str "E") [(str "m", .map [.entry (.str (str "q")) (.int .u8 1), .entry (.str (str "p")) (.int .u8 255)])])]

example : HasTy exampleEnv examplePoint (.named (str "Point")) ∧ NamesOk examplePoint ∧ Plain examplePoint := by
  have hmap : plainHere (.map [.entry (.str (str "q")) (.int .u8 1), .entry (.str (str "p")) (.int .u8 255)]) :=
    C40_keys exampleEnv _ .string (.int .u8) trivial
      ⟨⟨trivial, rfl, by decide, by decide⟩, ⟨trivial, rfl, by decide, by decide⟩, trivial⟩ (by
        simp only [opKeys, List.pairwise_cons, List.mem_cons, List.not_mem_nil, or_false, forall_eq, ne_eq,
          Ser.str.injEq, implies_true, List.Pairwise.nil, and_true, IsEmpty.forall_iff]
        decide)
  refine ⟨⟨_, rfl, by decide, rfl, ⟨rfl, by decide, by decide⟩, rfl, ⟨_, [(str "m", .map .string (.int .u8))], rfl, by decide, by simp, by decide, rfl,
    ⟨⟨trivial, rfl, by decide, by decide⟩, ⟨trivial, rfl, by decide, by decide⟩, trivial⟩, trivial⟩, trivial⟩,
    ⟨by unfold nameOk; decide, ⟨trivial, trivial⟩, ⟨by unfold nameOk; decide, ⟨trivial, ⟨trivial, trivial⟩, ⟨trivial, trivial⟩, trivial⟩, trivial⟩, trivial⟩,
    ⟨trivial, ⟨trivial, trivial⟩, ⟨trivial, ⟨hmap, ⟨trivial, trivial⟩, ⟨trivial, trivial⟩, trivial⟩, trivial⟩, trivial⟩⟩

/-- C40, negation: a map from an enum without data keeps a single entry, because Kserds do not compare identities. -/
theorem C40_enum_key_lost : HasTy exampleEnv (.map [.entry (.unitVariant (str "A")) (.int .u8 1),
      .entry (.unitVariant (str "B")) (.int .u8 2)]) (.map (.named (str "Shape")) (.int .u8)) ∧
    ∃ k, (Ser.map [.entry (.unitVariant (str "A")) (.int .u8 1), .entry (.unitVariant (str "B")) (.int .u8 2)]).encode = .ok k ∧
      decode exampleEnv (.map (.named (str "Shape")) (.int .u8)) k =
        some (.map [.entry (.unitVariant (str "A")) (.int .u8 2)]) :=
  ⟨⟨⟨⟨_, rfl, by decide, by simp⟩, rfl, by decide, by decide⟩, ⟨⟨_, rfl, by decide, by simp⟩, rfl, by decide, by decide⟩, trivial⟩,
    _, rfl, rfl⟩

/-- C40, negation: `struct Some(u8)` encodes but does not decode. -/
theorem C40_some_lost : HasTy exampleEnv (.newtypeStruct (str "Some") (.int .u8 5)) (.named (str "Some")) ∧
    ∃ k, (Ser.newtypeStruct (str "Some") (.int .u8 5)).encode = .ok k ∧
      decode exampleEnv (.named (str "Some")) k = none :=
  ⟨⟨_, rfl, rfl, by decide, by decide⟩, _, rfl, rfl⟩

/-- C40, negation: `7.038531e-26_f32` is encoded and decoded as the next larger `f32`. -/
theorem C40_f32_lost (env : TyEnv) : HasTy env (.f32 (.fin false (11420669 * 2 ^ 42))) .f32 ∧
    ∃ k, (Ser.f32 (.fin false (11420669 * 2 ^ 42))).encode = .ok k ∧
      decode env .f32 k = some (.f32 (.fin false (11420670 * 2 ^ 42))) := by
  refine ⟨C47_lost.1, _, rfl, ?_⟩
  have := C47_lost.2.2
  rw [decode_step]
  simp only [Dec.step, Kserd.withIdUnchk, Kserd.val_mk, Number.asF64]
  rw [this]

/-! ## C41 -/

/-- The result of decoding a number as an integer type. -/
theorem decode_int (env : TyEnv) (t : IntTy) (i : Option Str) (a : Number) (n : Int) :
    decode env (.int t) (.mk i (.num a)) = some (.int t n) ↔ decodeInt t a = some n := by
  rw [decode_step]
  simp only [Dec.step, Kserd.val_mk]
  cases decodeInt t a <;> simp

/-- **C41** (integers): an integer decodes exactly when it is in the range of the type, and is then unchanged. -/
theorem C41_integers (env : TyEnv) (t : IntTy) (id : Option Str) (a : Number) (i n : Int) (ha : a.WF)
    (hi : intVal a = some i) :
    decode env (.int t) (.mk id (.num a)) = some (.int t n) ↔ n = i ∧ t.lo ≤ i ∧ i ≤ t.hi := by
  rw [decode_int]
  obtain ⟨h1, h2⟩ := C06_integers a i ha hi
  unfold decodeInt
  cases hs : t.signed with
  | false =>
    have hlo : t.lo = 0 := by unfold IntTy.lo; rw [hs]; rfl
    simp only [Bool.false_eq_true, if_false, hlo]
    cases hu : a.asU128 with
    | none =>
      simp only [reduceCtorEq, false_iff, not_and]
      rintro rfl h3
      have := (h1 n.toNat).mpr (by omega)
      rw [hu] at this; cases this
    | some x =>
      have hx := (h1 x).mp hu
      subst hx
      by_cases hh : (x : Int) ≤ t.hi
      · simp [hh, eq_comm]
      · simp [hh]
  | true =>
    have hhi : t.hi ≤ 2 ^ 127 - 1 := by cases t <;> first | decide | simp [IntTy.signed] at hs
    simp only [if_true]
    cases hu : a.asI128 with
    | none =>
      simp only [reduceCtorEq, false_iff, not_and]
      rintro rfl h3 h4
      have := (h2 n).mpr ⟨rfl, by omega⟩
      rw [hu] at this; cases this
    | some x =>
      have hx := (h2 x).mp hu
      obtain ⟨rfl, _⟩ := hx
      by_cases hh : t.lo ≤ i ∧ i ≤ t.hi
      · simp [hh, eq_comm]
      · simp [hh]

/-- Applied to the ends of `i8`. -/
example (env : TyEnv) : decode env (.int .i8) (.mk none (.num (.int (-128)))) = some (.int .i8 (-128)) ∧
    ∀ n, decode env (.int .i8) (.mk none (.num (.uint 128))) ≠ some (.int .i8 n) :=
  ⟨(C41_integers env .i8 none _ (-128) (-128) (by decide) rfl).mpr (by decide),
   fun n h => absurd ((C41_integers env .i8 none _ 128 n (by decide) rfl).mp h).2 (by decide)⟩

/-- **C41** (floats, types up to 64 bits; partial): a float decodes exactly when it is closer than `1e-10` to an integer in
the range of the type (and not negative, for unsigned types). Missing, because false (`C41_saturates`): `u128` and
`i128`, where values beyond the range decode as the extreme value. -/
theorem C41_floats_partial (env : TyEnv) (t : IntTy) (id : Option Str) (f : F64) (n : Int) (hb : t.bits ≠ 128) :
    decode env (.int t) (.mk id (.num (.float f))) = some (.int t n) ↔
      ∃ x, placeF f = .fin x ∧ (x - n * one).natAbs < F64.eps ∧ t.lo ≤ n ∧ n ≤ t.hi ∧ (t.signed = false → 0 ≤ x) := by
  rw [decode_int]
  unfold decodeInt
  cases hs : t.signed with
  | false =>
    have hlo : t.lo = 0 := by unfold IntTy.lo; rw [hs]; rfl
    have hhi : t.hi < 2 ^ 128 - 1 := by cases t <;> first | decide | exact absurd rfl hb
    simp only [Bool.false_eq_true, if_false, hlo, true_implies]
    constructor
    · intro h
      split at h
      · rename_i y hy
        obtain ⟨x, r, h1, h2, h3, h4⟩ := (C06_float_u128 f y).mp hy
        split at h
        · rename_i hle
          simp only [Option.some.injEq] at h; subst h
          have : y = r := by omega
          subst this
          exact ⟨x, h1, h3, by omega, hle, h2⟩
        · cases h
      · cases h
    · rintro ⟨x, h1, h3, h4, h5, h6⟩
      have : Number.asU128 (.float f) = some n.toNat :=
        (C06_float_u128 f n.toNat).mpr ⟨x, n.toNat, h1, h6, by rw [Int.toNat_of_nonneg h4]; exact h3, by omega⟩
      rw [this]
      simp only [Int.toNat_of_nonneg h4, h5, if_true]
  | true =>
    have hhi : t.hi < 2 ^ 127 - 1 := by cases t <;> first | decide | exact absurd rfl hb
    have hlo : - 2 ^ 127 < t.lo := by cases t <;> first | decide | exact absurd rfl hb
    simp only [if_true, Bool.true_eq_false, false_implies, and_true]
    constructor
    · intro h
      split at h
      · rename_i y hy
        obtain ⟨x, r, h1, h3, h4⟩ := (C06_float_i128 f y).mp hy
        split at h
        · rename_i hle
          simp only [Option.some.injEq] at h; subst h
          have : y = r := by omega
          subst this
          exact ⟨x, h1, h3, hle.1, hle.2⟩
        · cases h
      · cases h
    · rintro ⟨x, h1, h3, h4, h5⟩
      have : Number.asI128 (.float f) = some n :=
        (C06_float_i128 f n).mpr ⟨x, n, h1, h3, by omega⟩
      rw [this]
      simp only [h4, h5, and_self, if_true]

/-- C41, negation: the float `2^200` decodes as `u128::MAX`. -/
theorem C41_saturates (env : TyEnv) : decode env (.int .u128) (.mk none (.num (.float (.fin false (2 ^ 1274))))) =
    some (.int .u128 (2 ^ 128 - 1)) := by
  rw [decode_int]
  unfold decodeInt
  rw [C06_saturates.1]; rfl

/-- **C41** (floats, 128 bits; exact): a float decodes as `u128` or `i128` exactly when it is closer than `1e-10` to an integer (and not
negative, for `u128`), and then as that integer, or as the nearest value of the type when the integer is outside its range. Together with
`C41_integers` and `C41_floats_partial` this tells for every number and every type what decoding gives. -/
theorem C41_floats_wide (env : TyEnv) (id : Option Str) (f : F64) (n : Int) :
    (decode env (.int .u128) (.mk id (.num (.float f))) = some (.int .u128 n) ↔
      ∃ x i, placeF f = .fin x ∧ 0 ≤ x ∧ (x - i * one).natAbs < F64.eps ∧ n = min i (2 ^ 128 - 1)) ∧
    (decode env (.int .i128) (.mk id (.num (.float f))) = some (.int .i128 n) ↔
      ∃ x i, placeF f = .fin x ∧ (x - i * one).natAbs < F64.eps ∧ n = max (- 2 ^ 127) (min i (2 ^ 127 - 1))) := by
  have hU : IntTy.hi .u128 = 2 ^ 128 - 1 := rfl
  have hH : IntTy.hi .i128 = 2 ^ 127 - 1 := rfl
  have hL : IntTy.lo .i128 = - 2 ^ 127 := rfl
  rw [decode_int, decode_int]
  constructor
  · show ((match Number.asU128 (.float f) with
      | Option.some x => if (x : Int) ≤ IntTy.hi .u128 then Option.some (x : Int) else Option.none
      | Option.none => Option.none) = some n) ↔ _
    rw [hU]
    constructor
    · intro h
      split at h
      · rename_i y hy
        obtain ⟨x, r, h1, h2, h3, h4⟩ := (C06_float_u128 f y).mp hy
        split at h
        · simp only [Option.some.injEq] at h
          exact ⟨x, r, h1, h2, h3, by omega⟩
        · cases h
      · cases h
    · rintro ⟨x, i, h1, h2, h3, h4⟩
      have ho := one_pos
      have hi : 0 ≤ i := by
        by_contra hc
        have : i * one ≤ - one := by nlinarith
        have he : (F64.eps : Int) < one := by decide +kernel
        omega
      rw [(C06_float_u128 f n.toNat).mpr ⟨x, i.toNat, h1, h2, by rw [Int.toNat_of_nonneg hi]; exact h3, by omega⟩]
      simp only
      rw [if_pos (by omega)]
      congr 1; omega
  · show ((match Number.asI128 (.float f) with
      | Option.some x => if IntTy.lo .i128 ≤ x ∧ x ≤ IntTy.hi .i128 then Option.some x else Option.none
      | Option.none => Option.none) = some n) ↔ _
    rw [hH, hL]
    constructor
    · intro h
      split at h
      · rename_i y hy
        obtain ⟨x, r, h1, h3, h4⟩ := (C06_float_i128 f y).mp hy
        split at h
        · simp only [Option.some.injEq] at h
          exact ⟨x, r, h1, h3, by omega⟩
        · cases h
      · cases h
    · rintro ⟨x, i, h1, h3, h4⟩
      rw [(C06_float_i128 f n).mpr ⟨x, i, h1, h3, h4⟩]
      simp only
      rw [if_pos (by omega)]

/-- Applied: `-2^200` is not a `u128`, and decodes as `i128::MIN`. -/
example (env : TyEnv) : (∀ n, decode env (.int .u128) (.mk none (.num (.float (.fin true (2 ^ 1274))))) ≠ some (.int .u128 n)) ∧
    decode env (.int .i128) (.mk none (.num (.float (.fin true (2 ^ 1274))))) = some (.int .i128 (- 2 ^ 127)) :=
  ⟨fun n h => by
    obtain ⟨x, i, h1, h2, -⟩ := (C41_floats_wide env none _ n).1.mp h
    have h1' : - ((2 ^ 1274 : Nat) : Int) = x := Spec.Place.fin.inj h1
    exact absurd (h1'.trans_ge h2) (by decide +kernel),
   (C41_floats_wide env none _ _).2.mpr ⟨- ((2 ^ 1274 : Nat) : Int), - 2 ^ 200, rfl, by decide +kernel, by decide +kernel⟩⟩

/-- **C41**: nothing but numbers decodes as an integer. -/
theorem C41_only_numbers (env : TyEnv) (t : IntTy) (k : Kserd) (s : Ser) (h : decode env (.int t) k = some s) :
    ∃ a n, k.val = .num a ∧ s = .int t n := by
  rw [decode_step] at h
  simp only [Dec.step] at h
  split at h
  · rename_i a ha
    cases hd : decodeInt t a with
    | none => rw [hd] at h; cases h
    | some n => rw [hd] at h; simp only [Option.map_some, Option.some.injEq] at h; exact ⟨a, n, ha, h.symm⟩
  · cases h

example (env : TyEnv) : decode env (.int .u8) (.mk none (.num (.int 255))) = some (.int .u8 255) ∧
    decode env (.int .u8) (.mk none (.num (.int 256))) = none ∧
    decode env (.int .i8) (.mk none (.num (.uint 128))) = none := ⟨rfl, rfl, rfl⟩

/-! ## C43 -/

theorem visit_seq {k : Kserd} {l : List Kserd} : deserializeAny k = .seq l ↔
    (k.val = .seq l ∨ (k.val = .tuple l ∧ ¬ (k.id = some (str "None") ∧ l = []) ∧ (k.id = none ∨ l.length ≠ 1))) := by
  rcases k with ⟨i, v⟩
  simp only [Kserd.val_mk, Kserd.id_mk]
  cases v with
  | num n =>
    cases n with
    | uint n =>
      by_cases h : n < 2 ^ 64
      · simp only [deserializeAny]; rw [if_pos h]; simp
      · simp only [deserializeAny]; rw [if_neg h]; simp
    | int n =>
      by_cases h : - 2 ^ 63 ≤ n ∧ n < 2 ^ 63
      · simp only [deserializeAny]; rw [if_pos h]; simp
      · simp only [deserializeAny]; rw [if_neg h]; simp
    | float f => simp [deserializeAny]
  | tuple m =>
    rcases m with _ | ⟨x, _ | ⟨y, r'⟩⟩ <;> rcases i with _ | i
    · simp only [deserializeAny, Visit.seq.injEq]
      constructor
      · rintro rfl; simp
      · rintro (h | ⟨h, _⟩) <;> simp_all
    · simp only [deserializeAny]
      by_cases hi : i = str "None"
      · rw [if_pos hi]
        simp only [reduceCtorEq, false_iff]
        rintro (h | ⟨h, h2, _⟩)
        · cases h
        · injection h with h; exact h2 ⟨by rw [hi], h.symm⟩
      · rw [if_neg hi]
        simp only [Visit.seq.injEq]
        constructor
        · rintro rfl; simp [hi]
        · rintro (h | ⟨h, _⟩) <;> simp_all
    · simp only [deserializeAny, Visit.seq.injEq]
      constructor
      · rintro rfl; simp
      · rintro (h | ⟨h, _⟩) <;> simp_all
    · simp only [deserializeAny]
      have hn : ¬ ((Value.tuple [x] = Value.seq l) ∨ (Value.tuple [x] = Value.tuple l ∧
          ¬ (some i = some (str "None") ∧ l = []) ∧ (some i = none ∨ l.length ≠ 1))) := by
        rintro (h | ⟨h, _, h3⟩)
        · cases h
        · injection h with h; subst h; simp at h3
      simp only [hn, iff_false]
      split <;> simp
    · simp only [deserializeAny, Visit.seq.injEq]
      constructor
      · rintro rfl; simp
      · rintro (h | ⟨h, _⟩) <;> simp_all
    · simp only [deserializeAny, Visit.seq.injEq]
      constructor
      · rintro rfl; simp
      · rintro (h | ⟨h, _⟩) <;> simp_all
  | _ => simp [deserializeAny]

/-- **C43** (numbers): an unsigned integer goes to an unsigned visitor with its value, a signed one to a signed visitor, to a 64-bit one exactly when it fits; a
float goes to the float visitor. -/
theorem C43_number (id : Option Str) (a : Number) :
    (∀ n, a = .uint n → (n < 2 ^ 64 ∧ deserializeAny (.mk id (.num a)) = .u64 n) ∨ (2 ^ 64 ≤ n ∧ deserializeAny (.mk id (.num a)) = .u128 n)) ∧
    (∀ i, a = .int i → (- 2 ^ 63 ≤ i ∧ i < 2 ^ 63 ∧ deserializeAny (.mk id (.num a)) = .i64 i) ∨
      (¬ (- 2 ^ 63 ≤ i ∧ i < 2 ^ 63) ∧ deserializeAny (.mk id (.num a)) = .i128 i)) ∧
    (∀ f, a = .float f → deserializeAny (.mk id (.num a)) = .f64 f) := by
  refine ⟨?_, ?_, ?_⟩
  · rintro n rfl
    by_cases h : n < 2 ^ 64
    · exact Or.inl ⟨h, by simp only [deserializeAny]; rw [if_pos h]⟩
    · exact Or.inr ⟨by omega, by simp only [deserializeAny]; rw [if_neg h]⟩
  · rintro n rfl
    by_cases h : - 2 ^ 63 ≤ n ∧ n < 2 ^ 63
    · exact Or.inl ⟨h.1, h.2, by simp only [deserializeAny]; rw [if_pos h]⟩
    · exact Or.inr ⟨h, by simp only [deserializeAny]; rw [if_neg h]⟩
  · rintro f rfl; rfl

/-- Applied to a number that needs 128 bits. -/
example : ∀ n, deserializeAny (.mk none (.num (.uint (2 ^ 64)))) ≠ .u64 n ∧ deserializeAny (.mk none (.num (.uint (2 ^ 64)))) ≠ .i64 n := by
  intro n
  rcases (C43_number none (.uint (2 ^ 64))).1 _ rfl with ⟨h, _⟩ | ⟨_, h⟩
  · exact absurd h (by decide)
  · rw [h]; exact ⟨nofun, nofun⟩

/-- **C43** (options): `None` is read from unit and from the empty tuple called `None`; `Some` from a tuple of one element
called `Some`; everything else is rejected. -/
theorem C43_option (env : TyEnv) (t : Ty) (k : Kserd) (r : Ser) : decode env (.option t) k = some r ↔
    (r = .none ∧ (k.val = .unit ∨ (k.id = some (str "None") ∧ k.val = .tuple []))) ∨
      ∃ x s, k.id = some (str "Some") ∧ k.val = .tuple [x] ∧ decode env t x = some s ∧ r = .some s := by
  rw [decode_step]
  rcases k with ⟨i, v⟩
  simp only [Dec.step, Kserd.val_mk, Kserd.id_mk]
  cases v with
  | num n =>
    cases n with
    | uint n =>
      by_cases h : n < 2 ^ 64
      · simp only [deserializeAny]; rw [if_pos h]; simp
      · simp only [deserializeAny]; rw [if_neg h]; simp
    | int n =>
      by_cases h : - 2 ^ 63 ≤ n ∧ n < 2 ^ 63
      · simp only [deserializeAny]; rw [if_pos h]; simp
      · simp only [deserializeAny]; rw [if_neg h]; simp
    | float f => simp [deserializeAny]
  | tuple l =>
    rcases l with _ | ⟨x, _ | ⟨y, r'⟩⟩ <;> rcases i with _ | i
    · simp [deserializeAny]
    · simp only [deserializeAny]
      by_cases hi : i = str "None"
      · subst hi; simp [eq_comm]
      · simp [hi]
    · simp [deserializeAny]
    · simp only [deserializeAny]
      by_cases hi : i = str "Some"
      · subst hi
        simp only [if_true, Option.map_eq_some_iff, reduceCtorEq, Value.tuple.injEq, List.cons.injEq, false_and,
          and_false, or_self, List.cons_ne_nil, false_or, true_and, and_true]
        constructor
        · rintro ⟨s, h1, rfl⟩; exact ⟨x, s, rfl, h1, rfl⟩
        · rintro ⟨y, s, rfl, h1, rfl⟩; exact ⟨s, h1, rfl⟩
      · simp [hi]
    · simp [deserializeAny]
    · simp [deserializeAny]
  | unit => simp [deserializeAny, eq_comm]
  | _ => simp [deserializeAny]

/-- What each kind of enum variant accepts, `d` its declaration, `i` its name. -/
def Payload (env : TyEnv) (i : Str) (v : Value) (r : Ser) : VarDef → Prop
  | .unit => (v = .unit ∨ v = .tuple []) ∧ r = .unitVariant i
  | .newtype t => ∃ x s, v = .tuple [x] ∧ decode env t x = some s ∧ r = .newtypeVariant i s
  | .tuple ts => ∃ l ss, v = .tuple l ∧ l.length = ts.length ∧ List.zipWith (decode env) ts l = ss.map some ∧
      r = .tupleVariant i ss
  | .struct ds => ∃ l ss, v = .cntr l ∧ r = .structVariant i ss ∧ List.Forall₂ (fun d s => d.1 = s.1 ∧
      ((∃ k, (d.1, k) ∈ l ∧ decode env d.2 k = some s.2) ∨
        ((∀ k, (d.1, k) ∉ l) ∧ (∃ t, d.2 = .option t) ∧ s.2 = .none))) ds ss

/-- **C43** (enums): the variant is the one named by the identity, and its content must have the shape and arity of the
declaration; without identity, with an unknown one or another shape decoding fails. -/
theorem C43_enum (env : TyEnv) (m : Str) (vs : List (Str × VarDef)) (hm : env m = some (.enum vs))
    (hv : (vs.map Prod.fst).Nodup) (hd : ∀ n ds, (n, .struct ds) ∈ vs → (ds.map Prod.fst).Nodup)
    (k : Kserd) (hk : ∀ l, k.val = .cntr l → (l.map Prod.fst).Nodup) (r : Ser) :
    decode env (.named m) k = some r ↔ ∃ i d, k.id = some i ∧ (i, d) ∈ vs ∧ Payload env i k.val r d := by
  rw [decode_step, step_named hm]
  simp only [Dec.defOf]
  cases hi : k.id with
  | none => simp
  | some i =>
    simp only [Option.some.injEq]
    cases hvar : Dec.variant vs i with
    | none =>
      simp only [reduceCtorEq, false_iff]
      rintro ⟨j, d, rfl, hj, _⟩
      rw [variant_mem hv hj] at hvar; cases hvar
    | some d =>
      have hmem := variant_some hvar
      have huniq : (∃ j d', i = j ∧ (j, d') ∈ vs ∧ Payload env j k.val r d') ↔ Payload env i k.val r d := by
        constructor
        · rintro ⟨j, d', rfl, hj, hp⟩
          rw [variant_mem hv hj] at hvar
          simp only [Option.some.injEq] at hvar; subst hvar; exact hp
        · intro hp; exact ⟨i, d, rfl, hmem, hp⟩
      simp only
      rw [huniq]
      cases d with
      | unit =>
        generalize k.val = v
        cases v with
        | unit => simp [Payload, Dec.variantOf, eq_comm]
        | tuple l => cases l <;> simp [Payload, Dec.variantOf, eq_comm]
        | _ => simp [Payload, Dec.variantOf]
      | newtype t =>
        generalize k.val = v
        cases v with
        | tuple l =>
          rcases l with _ | ⟨x, _ | ⟨y, l⟩⟩
          · simp [Payload, Dec.variantOf]
          · simp only [Payload, Dec.variantOf, Option.map_eq_some_iff, Value.tuple.injEq, List.cons.injEq, and_true]
            constructor
            · rintro ⟨a, h1, rfl⟩; exact ⟨x, a, rfl, h1, rfl⟩
            · rintro ⟨_, a, rfl, h1, rfl⟩; exact ⟨a, h1, rfl⟩
          · simp [Payload, Dec.variantOf]
        | _ => simp [Payload, Dec.variantOf]
      | tuple ts =>
        generalize k.val = v
        cases v with
        | tuple l =>
          simp only [Payload, Dec.variantOf, Value.tuple.injEq]
          by_cases hl : l.length = ts.length
          · rw [if_pos hl]
            simp only [Option.map_eq_some_iff, tupleOf_iff]
            constructor
            · rintro ⟨a, h1, rfl⟩; exact ⟨l, a, rfl, hl, h1.2, rfl⟩
            · rintro ⟨_, a, rfl, h1, h2, rfl⟩; exact ⟨a, ⟨by omega, h2⟩, rfl⟩
          · rw [if_neg hl]
            simp only [reduceCtorEq, false_iff]
            rintro ⟨_, _, rfl, h, _⟩; exact hl h
        | _ => simp [Payload, Dec.variantOf]
      | struct ds =>
        have hk := hk
        revert hk
        generalize k.val = v
        intro hk
        cases v with
        | cntr l =>
          simp only [Payload, Dec.variantOf, Value.cntr.injEq, Option.map_eq_some_iff,
            structOf_iff (decode env) ds l (hd i ds hmem) (hk l rfl)]
          constructor
          · rintro ⟨a, h1, rfl⟩; exact ⟨l, a, rfl, rfl, h1⟩
          · rintro ⟨_, a, rfl, rfl, h1⟩; exact ⟨a, h1, rfl⟩
        | _ => simp [Payload, Dec.variantOf]

/-- **C43** (vectors): sequences, and tuples other than the empty one called `None` and the named ones of one element;
every element is decoded. -/
theorem C43_seq (env : TyEnv) (t : Ty) (k : Kserd) (r : Ser) : decode env (.seq t) k = some r ↔
    ∃ l ss, (k.val = .seq l ∨ (k.val = .tuple l ∧ ¬ (k.id = some (str "None") ∧ l = []) ∧
      (k.id = none ∨ l.length ≠ 1))) ∧ l.map (decode env t) = ss.map some ∧ r = .seq ss := by
  rw [decode_step]
  simp only [Dec.step]
  constructor
  · intro h
    split at h
    · rename_i l hl
      rw [Option.map_eq_some_iff] at h
      obtain ⟨ss, h1, rfl⟩ := h
      exact ⟨l, ss, visit_seq.mp hl, (seqOf_iff _ _ _).mp h1, rfl⟩
    · cases h
  · rintro ⟨l, ss, h1, h2, rfl⟩
    rw [visit_seq.mpr h1]
    simp only [(seqOf_iff _ _ _).mpr h2, Option.map_some]

/-- **C43** (tuples): as for vectors, but only as many elements are decoded as the type has; the others are ignored. -/
theorem C43_tuple (env : TyEnv) (ts : List Ty) (k : Kserd) (r : Ser) : decode env (.tuple ts) k = some r ↔
    ∃ l ss, (k.val = .seq l ∨ (k.val = .tuple l ∧ ¬ (k.id = some (str "None") ∧ l = []) ∧
      (k.id = none ∨ l.length ≠ 1))) ∧ ts.length ≤ l.length ∧ List.zipWith (decode env) ts l = ss.map some ∧
      r = .tuple ss := by
  rw [decode_step]
  simp only [Dec.step]
  constructor
  · intro h
    split at h
    · rename_i l hl
      rw [Option.map_eq_some_iff] at h
      obtain ⟨ss, h1, rfl⟩ := h
      exact ⟨l, ss, visit_seq.mp hl, ((tupleOf_iff _ _ _ _).mp h1).1, ((tupleOf_iff _ _ _ _).mp h1).2, rfl⟩
    · cases h
  · rintro ⟨l, ss, h1, h2, h3, rfl⟩
    rw [visit_seq.mpr h1]
    simp only [(tupleOf_iff _ _ _ _).mpr ⟨h2, h3⟩, Option.map_some]

/-- **C43** (structs from containers): the fields in order of declaration, each decoded from the entry of that name; only
optional fields may be missing; unknown entries are ignored; the identity is not looked at. -/
theorem C43_struct (env : TyEnv) (m n : Str) (ds : List (Str × Ty)) (hm : env m = some (.struct n ds))
    (hd : (ds.map Prod.fst).Nodup) (id : Option Str) (l : Fields) (hl : (l.map Prod.fst).Nodup) (r : Ser) :
    decode env (.named m) (.mk id (.cntr l)) = some r ↔ ∃ ss, r = .struct n ss ∧ List.Forall₂ (fun d s => d.1 = s.1 ∧
      ((∃ k, (d.1, k) ∈ l ∧ decode env d.2 k = some s.2) ∨
        ((∀ k, (d.1, k) ∉ l) ∧ (∃ t, d.2 = .option t) ∧ s.2 = .none))) ds ss := by
  rw [decode_step, step_named hm]
  simp only [Dec.defOf, deserializeAny, Option.map_eq_some_iff, structOf_iff (decode env) ds l hd hl]
  constructor
  · rintro ⟨a, h1, rfl⟩; exact ⟨a, rfl, h1⟩
  · rintro ⟨a, rfl, h1⟩; exact ⟨a, h1, rfl⟩

/-- C43, a consequence: `(1, 2, 3)` decodes as a pair. -/
theorem C43_trailing_ignored (env : TyEnv) : decode env (.tuple [.int .u8, .int .u8])
    (.mk none (.tuple [.mk none (.num (.uint 1)), .mk none (.num (.uint 2)), .mk none (.num (.uint 3))])) =
    some (.tuple [.int .u8 1, .int .u8 2]) := rfl

example : decode exampleEnv (.named (str "Shape")) (.mk (some (str "D")) (.tuple [.mk none (.bool true), .mk none (.str ['x'])])) =
    some (.tupleVariant (str "D") [.bool true, .char 'x']) ∧
    decode exampleEnv (.named (str "Shape")) (.mk (some (str "D")) (.tuple [.mk none (.bool true)])) = none ∧
    decode exampleEnv (.named (str "Point")) (.mk none (.cntr [(str "x", .mk (some (str "A")) .unit), (str "z", .mk none .unit)])) =
      some (.struct (str "Point") [(str "y", .none), (str "x", .unitVariant (str "A"))]) := ⟨rfl, rfl, rfl⟩

/-! ## C44 -/

/-- **C44** (partial): `None` is converted and encoded to the same Kserd, which decodes to `None`. Missing, because false
(`C44_some_lost`): `Some`. -/
theorem C44_none_partial (env : TyEnv) (t : Ty) : ∃ k, RVal.none.intoKserd = .ok k ∧ Ser.none.encode = .ok k ∧
    decode env (.option t) k = some .none := ⟨_, rfl, rfl, rfl⟩

/-- C44: `Some(v)` is converted to the same Kserd as `v`. -/
theorem C44_some_dropped (v : RVal) : (RVal.some v).intoKserd = v.intoKserd := rfl

/-- C44, negation: what `Some(v)` is converted to never decodes as an option, for `v` a number, `bool`, `char`, string, array or
`Vec`; the encoded one does. -/
theorem C44_some_lost (env : TyEnv) (t : Ty) (v : RVal) (k : Kserd)
    (hv : (∃ ty n, v = .num ty n) ∨ (∃ b, v = .bool b) ∨ (∃ c, v = .ch c) ∨ (∃ s, v = .string s) ∨ (∃ s, v = .str s) ∨
      (∃ l, v = .array l) ∨ ∃ l, v = .vec l) (h : (RVal.some v).intoKserd = .ok k) :
    decode env (.option t) k = none := by
  have key : ∀ k : Kserd, k.val ≠ .unit → (∀ l, k.val ≠ .tuple l) → decode env (.option t) k = none := by
    intro k h1 h2
    cases hd : decode env (.option t) k with
    | none => rfl
    | some r =>
      rcases (C43_option env t k r).mp hd with ⟨_, h3 | h3⟩ | ⟨x, _, _, h3, _⟩
      · exact absurd h3 h1
      · exact absurd h3.2 (h2 _)
      · exact absurd h3 (h2 _)
  apply key
  all_goals
    rw [C44_some_dropped] at h
    rcases hv with ⟨a, b, rfl⟩ | ⟨b, rfl⟩ | ⟨b, rfl⟩ | ⟨b, rfl⟩ | ⟨b, rfl⟩ | ⟨b, rfl⟩ | ⟨b, rfl⟩ <;>
      simp only [RVal.intoKserd] at h <;> (try split at h) <;> first | cases h | skip
  all_goals (try (cases h))
  all_goals simp [Kserd.withIdUnchk]

/-- Applied to `Some("x")`. -/
example (env : TyEnv) : ∃ k, (RVal.some (.string (str "x"))).intoKserd = .ok k ∧ decode env (.option .string) k = none :=
  ⟨_, rfl, C44_some_lost env .string (.string (str "x")) _ (.inr (.inr (.inr (.inl ⟨_, rfl⟩)))) rfl⟩

/-- C44, negation on one value: `Some(5u8)`. -/
theorem C44_some_witness (env : TyEnv) : ∃ k k', (RVal.some (.num .u8 (.uint 5))).intoKserd = .ok k ∧
    (Ser.some (.int .u8 5)).encode = .ok k' ∧ decode env (.option (.int .u8)) k' = some (.some (.int .u8 5)) ∧
    decode env (.option (.int .u8)) k = none := ⟨_, _, rfl, rfl, rfl, rfl⟩

end KS.Props
