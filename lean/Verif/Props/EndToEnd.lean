import Verif.Lemmas.SerdeText
import Verif.Props.Default
import Verif.Props.Serde
/-!
# From a value to text and back

C48: a value encoded with serde, written with `as_str`, parsed and decoded again is the same value. `Verif/Spec/Serde.lean` says which values
belong to a type and when two values are the same, `Verif/Spec/SerdeText.lean` which values lose something on the way through text,
`Verif/Spec/Plain.lean` which Kserds read back in every layout.
-/

namespace KS.Props

open Spec

/-- **C48, every configuration** that shows the identities of tuples and containers, in which serde keeps the names of structs and variants.
Missing for a full proof: values whose Kserd is not a `PlainTree`, such as structs with maps inside structs; C37 shows that some of them are
lost. -/
theorem C48_config_partial (env : TyEnv) (s : Ser) (ty : Ty) (c : FormattingConfig) (h : HasTy env s ty) (hn : NamesOk s) (hp : Plain s)
    (ht : TextPlain s) (hc : c.idOnTuples = true ∧ c.idOnContainers = true) (hk : ∀ k, s.encode = .ok k → PlainTree (hideIds c k)) :
    ∃ k out k' s', s.encode = .ok k ∧ k.asStrWithConfig c = some out ∧ parse out = .ok k' ∧ decode env ty k' = some s' ∧ Same s s' := by
  obtain ⟨k, s', h1, h2, h3⟩ := ST.rt_ser ⟨hc.1, hc.2⟩ env s ty h hn hp ht
  obtain ⟨out, ho, hpa, -⟩ := C37_config_partial k c (hk k h1) (by rw [hc.1]; intro h; cases h)
  exact ⟨k, out, _, s', h1, ho, hpa, h2, h3⟩

/-- **C48, `as_str`.** -/
theorem C48_default_partial (env : TyEnv) (s : Ser) (ty : Ty) (h : HasTy env s ty) (hn : NamesOk s) (hp : Plain s)
    (ht : TextPlain s) (hk : ∀ k, s.encode = .ok k → PlainTree (hideIds {} k)) :
    ∃ k out k' s', s.encode = .ok k ∧ k.asStr = some out ∧ parse out = .ok k' ∧ decode env ty k' = some s' ∧ Same s s' :=
  C48_config_partial env s ty {} h hn hp ht ⟨rfl, rfl⟩ hk

/-- **C48, no width limit.** On a single line the Kserd only has to be readable (`TextOk`) and not look like a heading. -/
theorem C48_inline_partial (env : TyEnv) (s : Ser) (ty : Ty) (c : FormattingConfig) (h : HasTy env s ty) (hn : NamesOk s) (hp : Plain s)
    (ht : TextPlain s) (hc : c.idOnTuples = true ∧ c.idOnContainers = true) (hw : c.widthLimit = none)
    (hk : ∀ k, s.encode = .ok k → All TextOk (hideIds c k) ∧ NoHeading (hideIds c k)) :
    ∃ k out k' s', s.encode = .ok k ∧ k.asStrWithConfig c = some out ∧ parse out = .ok k' ∧ decode env ty k' = some s' ∧ Same s s' := by
  obtain ⟨k, s', h1, h2, h3⟩ := ST.rt_ser ⟨hc.1, hc.2⟩ env s ty h hn hp ht
  obtain ⟨out, ho, hpa, -⟩ := C34_inline k c hw (hk k h1).1 (by rw [hc.1]; intro h; cases h) (hk k h1).2
  exact ⟨k, out, _, s', h1, ho, hpa, h2, h3⟩

/-- **C48, every layout that reads back.** Values whose Kserd is not a `PlainTree` come back too if the layout chosen is one that reads back (C36). -/
theorem C48_layout_partial (env : TyEnv) (s : Ser) (ty : Ty) (c : FormattingConfig) (h : HasTy env s ty) (hn : NamesOk s) (hp : Plain s)
    (ht : TextPlain s) (hc : c.idOnTuples = true ∧ c.idOnContainers = true)
    (hk : ∀ k, s.encode = .ok k → ∃ f f', Formatter.new k = some f ∧ Solver.applyConfig f c = some f' ∧ Readable f' ∧ LayoutOk f') :
    ∃ k out k' s', s.encode = .ok k ∧ k.asStrWithConfig c = some out ∧ parse out = .ok k' ∧ decode env ty k' = some s' ∧ Same s s' := by
  obtain ⟨k, s', h1, h2, h3⟩ := ST.rt_ser ⟨hc.1, hc.2⟩ env s ty h hn hp ht
  obtain ⟨f, f', k1, k2, k3, k4⟩ := hk k h1
  obtain ⟨out, ho, hpa, -⟩ := C37_layout_partial k c f f' k1 k2 k3 k4
  exact ⟨k, out, _, s', h1, ho, hpa, h2, h3⟩

/-! ## Non-vacuity -/

/-- User types: an order with items, a state and a note; an enum with a struct variant without fields. -/
def orderEnv : TyEnv := fun n =>
  if n = str "Order" then some (.struct (str "Order") [(str "note", .option .string), (str "items", .seq (.named (str "Item"))),
    (str "state", .named (str "State")), (str "price", .f64)])
  else if n = str "Item" then some (.struct (str "Item") [(str "id", .int .u32), (str "change", .int .i64)])
  else if n = str "State" then some (.enum [(str "Open", .unit), (str "Sent", .newtype (.int .u128)), (str "Lost", .struct [])])
  else none

/-- An order whose text does not fit a line. Its price reads back as an integer. -/
def orderValue : Ser := .struct (str "Order") [
  (str "note", .some (.str (str "a description that is rather longer than sixty characters are"))),
  (str "items", .seq [.struct (str "Item") [(str "id", .int .u32 7), (str "change", .int .i64 3)],
    .struct (str "Item") [(str "id", .int .u32 8), (str "change", .int .i64 (-3))]]),
  (str "state", .newtypeVariant (str "Sent") (.int .u128 (2 ^ 100))),
  (str "price", .f64 (.fin false (12 * 2 ^ 1074)))]

/-- `orderValue` meets the hypotheses of C48 and is written over several lines. -/
example : HasTy orderEnv orderValue (.named (str "Order")) ∧ NamesOk orderValue ∧ Plain orderValue ∧ TextPlain orderValue ∧
    ∃ k, orderValue.encode = .ok k ∧ PlainTree (hideIds {} k) ∧ k.asStr = some (str
      ":Order\nitems = [\n            Item (change = 3, id = 7)\n            Item (change = -3, id = 8)\n        ]\nnote = Some(\n           \"a description that is rather longer than sixty characters are\"\n       )\nprice = 12\nstate = Sent(1267650600228229401496703205376)\n") := by
  refine ⟨?_, ?_, ?_, ?_, _, rfl, by decide +kernel, by decide +kernel⟩
  · refine ⟨_, rfl, by decide, rfl, trivial, rfl, ⟨⟨_, rfl, by decide, rfl, ⟨rfl, by decide, by decide⟩, rfl, ⟨rfl, by decide, by decide⟩, trivial⟩,
      ⟨_, rfl, by decide, rfl, ⟨rfl, by decide, by decide⟩, rfl, ⟨rfl, by decide, by decide⟩, trivial⟩, trivial⟩, rfl,
      ⟨_, .int .u128, rfl, by decide, by simp, rfl, by decide, by decide⟩, rfl, ?_, trivial⟩
    show F64.WF _
    decide +kernel
  · refine ⟨by unfold nameOk; decide, ⟨trivial, trivial⟩, ⟨trivial, ⟨by unfold nameOk; decide, trivial, trivial, trivial⟩,
      ⟨by unfold nameOk; decide, trivial, trivial, trivial⟩, trivial⟩, ⟨by unfold nameOk; decide, trivial⟩, trivial, trivial⟩
  · exact ⟨trivial, ⟨trivial, trivial⟩, ⟨trivial, ⟨trivial, trivial, trivial, trivial⟩, ⟨trivial, trivial, trivial, trivial⟩, trivial⟩,
      ⟨trivial, trivial⟩, trivial, trivial⟩
  · refine ⟨by simp [textHere], ⟨trivial, trivial⟩, ⟨trivial, ⟨by simp [textHere], trivial, trivial, trivial⟩, ⟨by simp [textHere], trivial, trivial, trivial⟩, trivial⟩,
      ⟨trivial, trivial⟩, ⟨by simp, by simp⟩, trivial⟩

/-- A struct with a map inside a struct, on one line: not a `PlainTree`, but a layout that reads back. -/
def nestedValue : Ser := .struct (str "Out") [(str "in", .struct (str "In") [(str "m", .map [.entry (.str (str "k")) (.int .u8 1)])])]

def nestedEnv : TyEnv := fun n =>
  if n = str "Out" then some (.struct (str "Out") [(str "in", .named (str "In"))])
  else if n = str "In" then some (.struct (str "In") [(str "m", .map .string (.int .u8))])
  else none

def nestedKserd : Kserd := .mk (some (str "Out")) (.cntr [(str "in", .mk (some (str "In")) (.cntr [(str "m", .mk none
  (.map [(.mk (some (str "str")) (.str (str "k")), .mk (some (str "u8")) (.num (.uint 1)))]))]))])

def nestedOk (f : Formatter) : Bool := KS.RT.readableV f && decide (LayoutOk f)

example : HasTy nestedEnv nestedValue (.named (str "Out")) ∧ NamesOk nestedValue ∧ Plain nestedValue ∧ TextPlain nestedValue ∧
    ∃ k, nestedValue.encode = .ok k ∧ ¬ PlainTree (hideIds {} k) ∧
      ∃ f f', Formatter.new k = some f ∧ Solver.applyConfig f {} = some f' ∧ Readable f' ∧ LayoutOk f' := by
  refine ⟨?_, ?_, ?_, ?_, nestedKserd, by rfl, by decide +kernel, ?_⟩
  · exact ⟨_, rfl, by decide, rfl, ⟨_, rfl, by decide, rfl, ⟨⟨trivial, rfl, by decide, by decide⟩, trivial⟩, trivial⟩, trivial⟩
  · exact ⟨by unfold nameOk; decide, ⟨by unfold nameOk; decide, ⟨trivial, ⟨trivial, trivial⟩, trivial⟩, trivial⟩, trivial⟩
  · refine ⟨trivial, ⟨trivial, ⟨?_, ⟨trivial, trivial⟩, trivial⟩, trivial⟩, trivial⟩
    exact List.pairwise_singleton _ _
  · refine ⟨by simp [textHere], ⟨by simp [textHere], ⟨trivial, ⟨trivial, trivial⟩, trivial⟩, trivial⟩, trivial⟩
  · obtain ⟨f, f', h1, h2, h3⟩ : ∃ f f', Formatter.new nestedKserd = some f ∧ Solver.applyConfig f {} = some f' ∧ nestedOk f' = true :=
      ⟨_, _, by rfl, by rfl, by decide +kernel⟩
    refine ⟨f, f', h1, h2, ?_⟩
    rw [nestedOk, Bool.and_eq_true, decide_eq_true_eq] at h3
    exact ⟨KS.RT.readableV_spec h3.1, h3.2⟩

/-! ## Exceptions -/

/-- What `s` comes back as: `none` if it is rejected on the way. -/
def throughText (env : TyEnv) (c : FormattingConfig) (ty : Ty) (s : Ser) : Option Ser :=
  match s.encode with
  | .error _ => none
  | .ok k => match k.asStrWithConfig c with
    | none => none
    | some out => match parse out with
      | .ok k' => decode env ty k'
      | _ => none

/-- A struct variant without fields cannot be decoded from its text (`TextPlain`), though it can be decoded from the Kserd. -/
theorem C48_lost_variant :
    let s := Ser.structVariant (str "Lost") []
    HasTy orderEnv s (.named (str "State")) ∧ (∃ k, s.encode = .ok k ∧ k.asStr = some (str "Lost ()") ∧
      (decode orderEnv (.named (str "State")) k).isSome = true) ∧ (throughText orderEnv {} (.named (str "State")) s).isSome = false := by
  refine ⟨⟨_, [], rfl, by decide, by simp, by decide, trivial⟩, ⟨_, rfl, by decide +kernel, by decide +kernel⟩, by decide +kernel⟩

/-- The sign of a negative zero is lost (`TextPlain`). -/
theorem C48_lost_zero (env : TyEnv) : HasTy env (.f64 (.fin true 0)) .f64 ∧
    throughText env {} .f64 (.f64 (.fin true 0)) = some (.f64 (.fin false 0)) := by
  refine ⟨?_, ?_⟩
  · show F64.WF _
    decide +kernel
  · have h1 : (Kserd.withIdUnchk (str "f64") (.num (.float (.fin true 0)))).asStrWithConfig {} = some (str "-0") := by decide +kernel
    have h2 : parse (str "-0") = .ok (.mk none (.num (.int 0))) := by decide +kernel
    unfold throughText
    simp only [Ser.encode, h1, h2]
    rw [decode_step]
    have h3 : F64.ofInt 0 = .fin false 0 := by decide +kernel
    simp only [Dec.step, Kserd.val_mk, Number.asF64, h3]

/-- An array of length zero comes back as the unit, which is not an array (`TextOk`). -/
theorem C48_lost_array (env : TyEnv) : HasTy env (.tuple []) (.tuple []) ∧ throughText env {} (.tuple []) (.tuple []) = none := by
  refine ⟨trivial, ?_⟩
  have h1 : (Kserd.new (.tuple [])).asStrWithConfig {} = some (str "()") := by decide +kernel
  have h2 : parse (str "()") = .ok (.mk none .unit) := by decide +kernel
  unfold throughText
  simp only [Ser.encode, Ser.encodeL, h1, h2]
  rfl

/-- Without the identities of tuples an enum cannot be decoded (the condition on the configuration). -/
theorem C48_lost_name :
    HasTy orderEnv (.unitVariant (str "Open")) (.named (str "State")) ∧
    (throughText orderEnv {} (.named (str "State")) (.unitVariant (str "Open"))).isSome = true ∧
    (throughText orderEnv { idOnTuples := false } (.named (str "State")) (.unitVariant (str "Open"))).isSome = false := by
  refine ⟨⟨_, rfl, by decide, by simp⟩, by decide +kernel, by decide +kernel⟩

end KS.Props
