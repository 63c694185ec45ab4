import Verif.Lemmas.DecodeOwn
import Verif.Lemmas.Utf8
import Verif.Spec.Order
import Verif.Props.Own
import Verif.Props.Serde
/-!
# C54: ownership in decoding
-/

namespace KS.Props
open KS.Spec KS.DO

/-- **C54** (soundness): whatever decodes into a type with borrowed parts decodes, with the same result, into the type with owned
parts; ownership never changes what is decoded. -/
theorem C54_sound (env : BTyEnv) (t : BTy) (k : OKserd) (r : Ser) (h : k.decode env t = some r) :
    decode (ownEnv env) (ownTy t) k.data = some r := by
  rcases decode_le false env k.data.depth t k with h' | ⟨h', _⟩
  · exact h'.symm.trans h
  · rw [OKserd.decode, h'] at h; cases h

/-- **C54** (owned types): into types without borrowed parts every Kserd decodes according to its data alone, whether it is owned,
borrowed or mixed. -/
theorem C54_owned_types (env : BTyEnv) (t : BTy) (h : EveryPart notRef env t) (k : OKserd) :
    k.decode env t = decode (ownEnv env) (ownTy t) k.data := by
  have hk : ∀ t : BTy, (∀ s ∈ parts t, notRef s) → ∀ s ∈ parts t, notRefKeyed s := by
    intro t ht s hs
    unfold notRefKeyed
    split
    · exact ht .strRef (parts_trans hs (by simp [parts]))
    · exact ht .bytesRef (parts_trans hs (by simp [parts]))
    · trivial
  rcases decode_le false env k.data.depth t k with h' | ⟨_, h'⟩
  · exact h'
  · exact absurd ⟨⟨fun s hs => ⟨fun _ => h.1 s hs, hk t h.1 s hs⟩, fun n d hd u hu s hs => ⟨fun _ => h.2 n d hd u hu s hs,
      hk u (h.2 n d hd u hu) s hs⟩⟩, by simp⟩ h'

/-- **C54** (borrowed Kserds, partial): a Kserd borrowed throughout decodes into types with borrowed parts exactly when its data decodes
into the type with owned parts. Missing, because false: maps with keys `&str`, see `C54_str_keys`. -/
theorem C54_borrowed_partial (env : BTyEnv) (t : BTy) (h : EveryPart notRefKeyed env t) (k : OKserd) (hk : Owned false k) :
    k.decode env t = decode (ownEnv env) (ownTy t) k.data := by
  rcases decode_le true env k.data.depth t k with h' | ⟨_, h'⟩
  · exact h'
  · exact absurd ⟨⟨fun s hs => ⟨by simp, h.1 s hs⟩, fun n d hd u hu s hs => ⟨by simp, h.2 n d hd u hu s hs⟩⟩, fun _ => hk⟩ h'

/-- **C54** (`mk_brw`, partial): after `mk_brw` every Kserd decodes into types with borrowed parts exactly when its data decodes into the
type with owned parts. -/
theorem C54_mk_brw_partial (env : BTyEnv) (t : BTy) (h : EveryPart notRefKeyed env t) (k : OKserd) (hk : Sorted k.data) :
    k.mkBrw.decode env t = decode (ownEnv env) (ownTy t) k.data := by
  obtain ⟨h1, h2⟩ := C16_mk_brw k hk
  rw [C54_borrowed_partial env t h _ h2, h1]

theorem odecode_step (env : BTyEnv) (t : BTy) (k : OKserd) : ∃ f, k.decode env t = ODec.step env (ODec.decode env f) t k := by
  rcases k with ⟨i, v⟩
  refine ⟨(Kserd.depth (.mk (i.map (·.data)) (OKserd.dataV v))) - 1, ?_⟩
  have hd : (Kserd.depth (.mk (i.map (·.data)) (OKserd.dataV v))) - 1 + 1 = Kserd.depth (.mk (i.map (·.data)) (OKserd.dataV v)) := by
    rw [Kserd.depth]; omega
  rw [OKserd.decode, OKserd.data, ← hd, ODec.decode, hd]

/-- **C54** (the table of the documentation): `String` takes both kinds of strings, `&str` exactly the borrowed ones; likewise for byte
arrays. Byte arrays which are UTF-8 serve as strings, and strings as byte arrays. -/
theorem C54_strings (env : BTyEnv) (k : OKserd) (r : Ser) :
    (k.decode env .string = some r ↔ ∃ s, r = .str s ∧ ((∃ o, k.val = .str ⟨o, s⟩) ∨ ∃ o, k.val = .barr ⟨o, utf8 s⟩)) ∧
    (k.decode env .strRef = some r ↔ ∃ s, r = .str s ∧ (k.val = .str ⟨false, s⟩ ∨ k.val = .barr ⟨false, utf8 s⟩)) ∧
    (k.decode env .bytes = some r ↔ ∃ b, r = .bytes b ∧ ((∃ o, k.val = .barr ⟨o, b⟩) ∨ ∃ o s, k.val = .str ⟨o, s⟩ ∧ b = utf8 s)) ∧
    (k.decode env .bytesRef = some r ↔ ∃ b, r = .bytes b ∧ (k.val = .barr ⟨false, b⟩ ∨ ∃ s, k.val = .str ⟨false, s⟩ ∧ b = utf8 s)) := by
  obtain ⟨f1, h1⟩ := odecode_step env .string k
  obtain ⟨f2, h2⟩ := odecode_step env .strRef k
  obtain ⟨f3, h3⟩ := odecode_step env .bytes k
  obtain ⟨f4, h4⟩ := odecode_step env .bytesRef k
  rw [h1, h2, h3, h4]
  rcases k with ⟨i, v⟩
  simp only [ODec.step, OKserd.val]
  cases v with
  | str s =>
    obtain ⟨o, s⟩ := s
    simp only [ODeserializeAny, OValue.str.injEq, Cow.mk.injEq, reduceCtorEq, and_false, exists_false, or_false, false_or]
    refine ⟨?_, ?_, ?_, ?_⟩
    · constructor
      · rintro ⟨⟩; exact ⟨s, rfl, o, rfl, rfl⟩
      · rintro ⟨_, rfl, _, _, rfl⟩; rfl
    · cases o <;> simp [eq_comm]
    · constructor
      · rintro ⟨⟩; exact ⟨_, rfl, o, s, ⟨rfl, rfl⟩, rfl⟩
      · rintro ⟨_, rfl, _, _, ⟨_, rfl⟩, rfl⟩; rfl
    · cases o
      · constructor
        · rintro ⟨⟩; exact ⟨_, rfl, s, ⟨rfl, rfl⟩, rfl⟩
        · rintro ⟨_, rfl, _, ⟨_, rfl⟩, rfl⟩; rfl
      · simp
  | barr b =>
    obtain ⟨o, b⟩ := b
    have hb : ∀ r, (bytesStr b).map Ser.str = some r ↔ ∃ s, r = .str s ∧ b = utf8 s := by
      intro r
      rw [Option.map_eq_some_iff]
      constructor
      · rintro ⟨s, h, rfl⟩; exact ⟨s, rfl, ((bytesStr_iff b s).mp h).symm⟩
      · rintro ⟨s, rfl, h⟩; exact ⟨s, (bytesStr_iff b s).mpr h.symm, rfl⟩
    simp only [ODeserializeAny, OValue.barr.injEq, Cow.mk.injEq, reduceCtorEq, false_and, exists_false, or_false, false_or]
    refine ⟨?_, ?_, ?_, ?_⟩
    · rw [hb]
      exact exists_congr fun s => and_congr_right fun _ => ⟨fun h => ⟨o, rfl, h⟩, fun ⟨_, _, h⟩ => h⟩
    · cases o
      · simp only [Bool.false_eq_true, if_false, hb, true_and]
      · simp
    · constructor
      · rintro ⟨⟩; exact ⟨_, rfl, o, rfl, rfl⟩
      · rintro ⟨_, rfl, _, _, rfl⟩; rfl
    · cases o <;> simp [eq_comm]
  | tuple l =>
    rcases l with _ | ⟨x, _ | ⟨y, l⟩⟩ <;> rcases i with _ | i <;>
      (try by_cases hi : i.data = str "None") <;> (try by_cases hj : i.data = str "Some") <;> simp [ODeserializeAny, (by decide : ¬ str "Some" = str "None"),
        (by decide : ¬ str "None" = str "Some"), *]
  | _ => simp [ODeserializeAny]

/-- A type with borrowed parts. -/
def brwEnv : BTyEnv := fun n =>
  if n = str "Tag" then some (.struct (str "Tag") [(str "name", .strRef), (str "data", .option .bytesRef),
    (str "notes", .map .string (.seq .strRef))])
  else none

/-- An owned value of that type. -/
def brwTag : OKserd := .mk none (.cntr [
  (⟨true, str "data"⟩, .mk (some ⟨true, str "Some"⟩) (.tuple [.mk none (.barr ⟨true, [1, 2]⟩)])),
  (⟨true, str "name"⟩, .mk none (.str ⟨true, str "n"⟩)),
  (⟨false, str "notes"⟩, .mk none (.cntr [(⟨true, str "a"⟩, .mk none (.seq [.mk none (.str ⟨true, str "x"⟩)]))]))])

/-- It meets the hypotheses of C54; owned it does not decode, borrowed it does. -/
theorem C54_example : EveryPart notRefKeyed brwEnv (.named (str "Tag")) ∧ Sorted brwTag.data ∧
    brwTag.decode brwEnv (.named (str "Tag")) = none ∧
    brwTag.mkBrw.decode brwEnv (.named (str "Tag")) = some (.struct (str "Tag") [(str "name", .str (str "n")),
      (str "data", .some (.bytes [1, 2])), (str "notes", .map [.entry (.str (str "a")) (.seq [.str (str "x")])])]) := by
  refine ⟨⟨by simp [parts, notRefKeyed], ?_⟩, ?_, by decide +kernel, by rfl⟩
  · intro n d hd u hu s hs
    unfold brwEnv at hd
    split at hd
    · cases hd
      simp only [fieldTypes, List.map_cons, List.map_nil, List.mem_cons, List.not_mem_nil, or_false] at hu
      rcases hu with rfl | rfl | rfl <;> simp only [parts, List.mem_cons, List.mem_append, List.not_mem_nil, or_false, List.cons_append,
        List.nil_append] at hs <;> rcases hs with hs <;> (try rcases hs with rfl | rfl | rfl | rfl) <;> (try subst hs) <;> trivial
    · cases hd
  · simp only [brwTag, OKserd.data, OKserd.dataV, OKserd.dataF, OKserd.dataL, Sorted, All, AllV, AllF, AllL, Ascending, Kserd.val_mk]
    decide +kernel

/-- C54 is false of the code for maps with keys `&str`, although the documentation of `Decoder` promises that decoding succeeds after
`mk_brw`: a container hands its names over as `Cow<str>`, which serde does not lend to `&str`. As owned keys they decode. -/
theorem C54_str_keys (env : BTyEnv) :
    Owned false (OKserd.mk none (.cntr [(⟨true, str "a"⟩, .mk none .unit)])).mkBrw ∧
    (OKserd.mk none (.cntr [(⟨true, str "a"⟩, .mk none .unit)])).mkBrw.decode env (.map .strRef .unit) = none ∧
    (OKserd.mk none (.cntr [(⟨true, str "a"⟩, .mk none .unit)])).mkBrw.decode env (.map .string .unit) =
      some (.map [.entry (.str (str "a")) .unit]) := by
  refine ⟨(C16_mk_brw _ ?_).2, rfl, rfl⟩
  simp [OKserd.data, OKserd.dataV, OKserd.dataF, Sorted, All, AllV, AllF, Ascending]

end KS.Props
