import Verif.Lemmas.Encoded
import Verif.Lemmas.SerdeText
import Verif.Lemmas.RtPlain
import Verif.Props.DecodeOwn
/-!
# C55: encoded Kserds are well formed; C54 after encoding
-/

namespace KS.Props
open KS.Spec KS.EN

theorem serAll_true : (∀ s : Ser, SerAll (numHere fun _ => True) s) := by
  intro s
  exact serAll_of (fun s => by cases s <;> trivial) s

/-- **C55** (identities): the encoder gives every value the name serde knows it by, and no identity anywhere in an encoded Kserd has a
reserved character. -/
theorem C55_identities (s : Ser) (k : Kserd) (h : s.encode = .ok k) :
    k.id = rustName s ∧ All (fun x => ∀ i, x.id = some i → ∀ v, Kserd.withId i v = .ok (.mk (some i) v)) k := by
  refine ⟨?_, RT.all_mono (fun x hx i hi v => ?_) (encode_node (fun _ => True) s k h (serAll_true s))⟩
  · cases s <;> simp only [Ser.encode] at h
    all_goals first
      | (cases h <;> rfl)
      | (rw [(withId_spec h).1]; rfl)
      | (split at h <;> first
          | (cases h <;> rfl)
          | (rw [(withId_spec h).1]; rfl)
          | (split at h <;> cases h <;> rfl))
  · have := hx.1 i hi
    unfold Kserd.withId
    rw [if_neg]
    intro hc
    obtain ⟨c, hc, hb⟩ := List.any_eq_true.mp hc
    exact this ⟨c, hc, List.contains_iff_mem.mp hb⟩

/-- **C55** (order): the fields of containers are strictly ascending at every depth, and so are the keys of maps when the numbers in the
Kserd are lawful. (The order of numbers is not transitive otherwise, see C10, so no `BTreeMap` of them is sorted.) -/
theorem C55_sorted (s : Ser) (k : Kserd) (h : s.encode = .ok k) :
    All (fun x => ∀ f, x.val = .cntr f → Ascending cmpStr f) k ∧ (AllNums lawful k → Sorted k) := by
  have hn := encode_node (fun _ => True) s k h (serAll_true s)
  refine ⟨RT.all_mono (fun x hx f hf => ?_) hn, fun hl => ?_⟩
  · have := hx.2; rw [hf] at this; exact this
  · rw [Sorted, RT.all_mem]
    rw [RT.all_mem] at hn
    intro x hx
    have h1 := (hn x hx).2
    have h2 : AllNums lawful x := by
      have := (RT.all_mem k).mp (RT.all_nodes k hl) x hx
      exact this
    revert h1
    rcases x with ⟨i, v⟩
    cases v <;> simp only [Kserd.val_mk] <;> intro h1 <;> try trivial
    refine h1 fun p hp => ?_
    exact ((PG.allM_iff _ _).mp h2.2 p hp).1

/-- **C55** (numbers): values within the ranges of their types are stored within the ranges of `Number`. -/
theorem C55_numbers (s : Ser) (k : Kserd) (h : s.encode = .ok k) (hs : SerAll inRange s) : AllNums Number.WF k := by
  have hs' : SerAll (numHere Number.WF) s := serAll_mono (fun s h => by
    cases s <;> try trivial
    · rename_i t v
      obtain ⟨h1, h2⟩ := h
      cases t <;> simp only [IntTy.lo, IntTy.hi, IntTy.signed, IntTy.bits, if_true, Bool.false_eq_true, if_false] at h1 h2 <;>
        simp only [numHere, IntTy.signed, if_true, Bool.false_eq_true, if_false, Number.WF, u128Max, i128Min, i128Max] <;> omega
    · exact ST.toF64_wf) s hs
  exact RT.all_mono (fun x hx => by
    have := hx.2
    revert this
    rcases x with ⟨i, v⟩
    cases v <;> simp only [Kserd.val_mk] <;> intro h <;> first | exact h | trivial) (encode_node Number.WF s k h hs')

/-- Field names are not checked: a renamed field gives a container that `Value::new_cntr` would refuse. -/
theorem C55_field_names : (Ser.struct (str "S") [(str "a b", .unit)]).encode =
      .ok (.mk (some (str "S")) (.cntr [(str "a b", .mk none .unit)])) ∧
    ¬ ∃ v, Value.newCntr [(str "a b", .mk none .unit)] = .ok v := by
  refine ⟨rfl, ?_⟩
  rintro ⟨v, hv⟩
  simp only [Value.newCntr] at hv
  cases hv

/-- A value meeting the hypotheses of C55. -/
example : ∃ k, examplePoint.encode = .ok k ∧ SerAll inRange examplePoint ∧ AllNums lawful k := by
  refine ⟨_, rfl, ?_, ?_⟩
  · simp only [examplePoint, SerAll, SerAllF, SerAllO, SerAllOp, inRange]
    decide
  · have h : ∀ n : Number, n.WF → intVal n ≠ none → lawful n := C10_integers_lawful
    simp only [AllNums, All, AllV, AllL, AllF, AllM, Kserd.val_mk, Kserd.withIdUnchk, Kserd.new]
    exact ⟨trivial, ⟨trivial, ⟨trivial, ⟨⟨trivial, trivial⟩, ⟨h _ (by decide) (by decide), trivial⟩, ⟨trivial, trivial⟩, ⟨h _ (by decide) (by decide), trivial⟩, trivial⟩⟩, trivial⟩,
      ⟨trivial, ⟨h _ (by decide) (by decide), trivial⟩, trivial⟩, trivial⟩

/-- **C54** after encoding: a value encodes to a Kserd that, borrowed, decodes back into the type with borrowed parts, however the
parts of the Kserd were owned. -/
theorem C54_encoded_partial (env : BTyEnv) (t : BTy) (h : EveryPart notRefKeyed env t) (s : Ser)
    (hs : HasTy (ownEnv env) s (ownTy t)) (hn : NamesOk s) (hp : Plain s) :
    ∃ k s', s.encode = .ok k ∧ Same s s' ∧
      ∀ o : OKserd, o.data = k → AllNums lawful k → o.mkBrw.decode env t = some s' := by
  obtain ⟨k, s', h1, h2, h3⟩ := C40_partial _ s _ hs hn hp
  refine ⟨k, s', h1, h3, ?_⟩
  rintro o rfl hl
  rw [C54_mk_brw_partial env t h o ((C55_sorted s _ h1).2 hl), h2]

/-- A value and a type meeting the hypotheses: `("a", 5)` as `(&str, u8)`. -/
example : EveryPart notRefKeyed (fun _ => none) (.tuple [.strRef, .int .u8]) ∧
    HasTy (ownEnv fun _ => none) (.tuple [.str (str "a"), .int .u8 5]) (ownTy (.tuple [.strRef, .int .u8])) ∧
    NamesOk (.tuple [.str (str "a"), .int .u8 5]) ∧ Plain (.tuple [.str (str "a"), .int .u8 5]) := by
  refine ⟨⟨by simp [parts, partsL, notRefKeyed], by simp⟩, ⟨trivial, ⟨rfl, by decide, by decide⟩, trivial⟩, ⟨trivial, trivial, trivial, trivial⟩,
    ⟨trivial, trivial, trivial, trivial⟩⟩

end KS.Props
