import Verif.Lemmas.Debug
import Verif.Lemmas.RtDec
/-!
# C66: `Debug` text tells Kserds apart

`plain`, the characters which std prints as they are, may be any set.
-/

namespace KS.Props
open KS.Spec

/-- Two Kserds have the same `Debug` text exactly when they are the same but for the bits of their NaNs: constructors, identities, names, order
and the signs of zeros are all there. -/
theorem C66_debug_same (plain : Char → Bool) {a b : Kserd} (ha : All Plainly a) (hb : All Plainly b) :
    Dbg.kserd plain a = Dbg.kserd plain b ↔ mapNum oneNan a = mapNum oneNan b := by
  constructor
  · intro h
    exact (Dbg.kserd_inj a (x := []) (y := []) ha hb (by rw [h])).1
  · intro h
    rw [← Dbg.kserd_oneNan a, h, Dbg.kserd_oneNan]

/-- The text ends where the Kserd ends: two texts which go on differently after two Kserds differ. -/
theorem C66_debug_ends (plain : Char → Bool) {a b : Kserd} (ha : All Plainly a) (hb : All Plainly b) {x y : Str}
    (h : Dbg.kserd plain a ++ x = Dbg.kserd plain b ++ y) : mapNum oneNan a = mapNum oneNan b ∧ x = y := Dbg.kserd_inj a ha hb h

/-- Strings, whatever they contain. -/
theorem C66_debug_string (plain : Char → Bool) {s t : Str} : Dbg.quote plain s = Dbg.quote plain t ↔ s = t :=
  ⟨fun h => (Dbg.quote_inj (x := []) (y := []) (by rw [h])).1, fun h => by rw [h]⟩

/-- The text of a float which is not NaN reads as this float. -/
theorem C66_debug_float {x : F64} (hx : x.WF) (hn : x.isNan = false) : F64.parse (Dbg.float x) = some x := by
  rw [Dbg.float_parse hx]
  cases x with
  | nan s p => cases hn
  | _ => rfl

/-- The text of a finite float is a decimal number with a point or an exponent, so never that of an integer. -/
theorem C66_debug_float_decimal {x : F64} (hx : x.WF) (hf : x.isFinite = true) :
    (∃ d : Spec.Decimal, d.Ok ∧ d.Text (Dbg.float x)) ∧ ('.' ∈ Dbg.float x ∨ 'e' ∈ Dbg.float x) := by
  obtain ⟨d, h1, h2, -⟩ := Dbg.float_literal hx hf
  refine ⟨⟨d, h1, h2⟩, ?_⟩
  cases x with
  | nan s p => cases hf
  | inf s => cases hf
  | fin s m =>
    by_cases hc : m ≠ 0 ∧ (m < Dbg.small ∨ 10 ^ 16 * F64.scale ≤ m)
    · rw [Dbg.float, if_pos hc]
      right
      exact List.mem_append_right _ (List.mem_append_right _ List.mem_cons_self)
    · rw [Dbg.float, if_neg hc]
      left
      refine List.mem_append_right _ ?_
      dsimp only
      generalize F64.decText (F64.shortest m) 1074 = t
      by_cases ht : t.contains '.' = true
      · rw [if_pos ht]; exact List.contains_iff_mem.mp ht
      · rw [if_neg ht]; exact List.mem_append_right _ (by decide)

/-- ASCII characters which print as they are, for the examples. -/
private def ascii (c : Char) : Bool := 32 ≤ c.toNat && c.toNat < 127

private def sample : Kserd := .mk (some (str "it's")) (.cntr [(str "a", .mk none (.tuple [.mk none (.num (.float (.fin true 0))), .mk none (.barr [1, 255])])),
  (str "b:", .mk none (.map [(.mk none (.str (str "x\"\n\x7f")), .mk none (.seq []))]))])

example : Dbg.kserd ascii sample = str ("Kserd { id: Some(\"it's\"), val: Cntr { a: Kserd { id: None, val: Tuple(Kserd { id: None, val: Num(Float(-0.0)) }, " ++
    "Kserd { id: None, val: Barr([1, 255]) }) }, b:: Kserd { id: None, val: {Kserd { id: None, val: Str(\"x\\\"\\n\\u{7f}\") }: " ++
    "Kserd { id: None, val: [] }} } } }") := by decide +kernel

private theorem sample_ok : All Plainly sample := by
  simp only [sample, All, AllV, AllF, AllL, AllM, Plainly, Kserd.val]
  decide +kernel

example (b : Kserd) (hb : All Plainly b) (h : Dbg.kserd ascii b = Dbg.kserd ascii sample) : mapNum oneNan b = sample :=
  (C66_debug_same ascii hb sample_ok).mp h

example : Dbg.float (F64.ofRat false 1 10000) = str "0.0001" := by decide +kernel
example : Dbg.float (F64.ofRat true 1 100000) = str "-1e-5" := by decide +kernel
example : Dbg.float (F64.ofRat false (10 ^ 16) 1) = str "1e16" := by decide +kernel
example : Dbg.float (F64.ofRat false 12345678901234567 1) = str "1.2345678901234568e16" := by decide +kernel
example : Dbg.float (F64.ofRat false 7 1) = str "7.0" := by decide +kernel
example : Dbg.quote ascii (str "\x00é\\") = str "\"\\0\\u{e9}\\\\\"" := by decide +kernel

/-- Kserds which are equal (C17, C65) may have different texts: `==` ignores identities and the kind of number. -/
theorem C66_equal_may_differ (plain : Char → Bool) :
    (Kserd.mk none .unit).eq (.mk (some (str "a")) .unit) = true ∧ Dbg.kserd plain (.mk none .unit) ≠ Dbg.kserd plain (.mk (some (str "a")) .unit) := by
  refine ⟨rfl, fun h => ?_⟩
  have := congrArg (fun t => (t.drop 12).head?) h
  exact absurd (show some 'N' = some 'S' from this) (by decide)

/-- `Plainly` is needed: names with blanks, which only a container assembled by hand can have (C12), can make two Kserds look the same. -/
theorem C66_names_with_blanks (plain : Char → Bool) :
    Dbg.kserd plain (.mk none (.cntr [(str "a", .mk none .unit), (str "b", .mk none .unit)])) =
      Dbg.kserd plain (.mk none (.cntr [(str "a: Kserd { id: None, val: Unit }, b", .mk none .unit)])) := rfl

end KS.Props
