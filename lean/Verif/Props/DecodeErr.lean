import Verif.Lemmas.DecodeFirst
/-!
# C64: errors of the decoder

`decodeE` is the decoder with its errors. It fails exactly when `decode` does (`C64_result`), and what it then says is
true of some part of the value which was looked at and does not decode (`C64_says_partial`).
-/

namespace KS.Props

open Spec Spec.De

/-- **C64** (results): errors are given exactly where decoding fails, and otherwise the result is the decoded value. -/
theorem C64_result (env : TyEnv) (t : Ty) (k : Kserd) :
    (∀ v, decodeE env t k = .ok v ↔ decode env t k = some v) ∧ ((∃ e, decodeE env t k = .error e) ↔ decode env t k = none) := by
  rw [← DE.decodeE_opt]
  cases decodeE env t k <;> simp

/-- **C64** (partial): an error is a true statement about a part which was looked at — a value that does not decode as
the type it is read as, a name in a container which is no key of the type, or a key which is no name. Missing, because
false (`C64_calls_big_zero`): integers beyond 64 bits are described as 0. That `f32` and `f64` are called `$t` is part
of `Misfit` (`C64_calls_floats`). -/
theorem C64_says_partial (env : TyEnv) (t : Ty) (k : Kserd) (e : DErr) (h : decodeE env t k = .error e) :
    ∃ s, Reads env t k s ∧ (∀ u x, s = .value u x → decode env u x = none) ∧
      (Says env e s ∨ ∃ u w t' x, e = .type u w ∧ s = .value t' x ∧ Mistaken u x ∧ Misfit env t' x w) := by
  obtain ⟨s, h1, ⟨u, x, rfl, h2, h3⟩ | ⟨h2, h3⟩⟩ := DE.decode_err le_rfl h
  · refine ⟨_, h1, ?_, ?_⟩
    · rintro u x ⟨⟩; exact h2
    · rcases h3 with h3 | ⟨a, w, rfl, h3, h4⟩
      · exact .inl h3
      · exact .inr ⟨a, w, u, x, rfl, rfl, h3, h4⟩
  · exact ⟨s, h1, fun u x hs => absurd hs (h2 u x), .inl h3⟩

/-- **C64** (partial): the error belongs to the first thing that goes wrong. What is inside a value is looked at in order,
a key before its value; reading stops at the first that cannot be read, and its error is the error. The value itself is at
fault only after everything inside it has been read: a missing field is reported when all fields present could be read, and
then the first that is missing. Missing, because false: as for `C64_says_partial`. -/
theorem C64_first_partial (env : TyEnv) (t : Ty) (k : Kserd) (e : DErr) (h : decodeE env t k = .error e) : Fault env t k e :=
  DE.decode_fault le_rfl h

/-- Types for the examples. -/
def errEnv : TyEnv := fun n =>
  if n = str "P" then some (.struct (str "Point") [(str "x", .int .u8), (str "y", .option (.int .u8)), (str "z", .bool)])
  else if n = str "E" then some (.enum [(str "A", .unit), (str "B", .newtype (.int .u8)), (str "C", .tuple [.bool, .bool])])
  else none

/-- The text of the error of decoding, `none` when there is none. -/
def errText (t : Ty) (k : Kserd) : Option Str :=
  match decodeE errEnv t k with
  | .error e => some (e.text fun _ => true)
  | .ok _ => none

-- errors from within: a field of an element
example : errText (.seq (.named (str "P"))) (.mk none (.seq [.mk none (.cntr [(str "x", .mk none (.str (str "1")))])])) =
    some (str "custom error: invalid type: string \"1\", expected u8") := by decide +kernel
example : errText (.named (str "P")) (.mk none (.cntr [(str "x", .mk none (.num (.uint 300)))])) =
    some (str "custom error: out of range integral type conversion attempted") := by decide +kernel
example : errText (.named (str "P")) (.mk none (.cntr [(str "x", .mk none (.num (.int (-3))))])) =
    some (str "custom error: original number is outside integers range") := by decide +kernel
example : errText (.named (str "P")) (.mk none (.cntr [(str "x", .mk none (.num (.uint 3)))])) =
    some (str "custom error: missing field `z`") := by decide +kernel
example : errText (.named (str "P")) (.mk none (.map [(.mk none (.str (str "x")), .mk none (.num (.uint 3))),
    (.mk (some (str "k")) (.str (str "x")), .mk none (.num (.uint 3)))])) =
    some (str "custom error: duplicate field `x`") := by decide +kernel
example : errText (.named (str "E")) (.mk (some (str "D")) .unit) =
    some (str "custom error: unknown variant `D`, expected one of `A`, `B`, `C`") := by decide +kernel
example : errText (.named (str "E")) (.mk none .unit) =
    some (str "custom error: enum but no identity is present") := by decide +kernel
example : errText (.named (str "E")) (.mk (some (str "C")) (.tuple [])) =
    some (str "custom error: invalid length 0, expected a tuple with 2 element(s) was expected") := by decide +kernel
example : errText (.map (.named (str "E")) .bool) (.mk none (.cntr [(str "B", .mk none (.bool true))])) =
    some (str "custom error: invalid type: unit variant, expected newtype variant") := by decide +kernel

-- several things are wrong: the first one is reported
example : errText (.tuple [.bool, .int .u8, .char]) (.mk none (.seq [.mk none (.bool true), .mk none (.num (.uint 256)), .mk none .unit])) =
    some (str "custom error: out of range integral type conversion attempted") := by decide +kernel
example : errText (.tuple [.bool, .int .u8, .char]) (.mk none (.seq [.mk none (.bool true), .mk none (.str [])])) =
    some (str "custom error: invalid type: string \"\", expected u8") := by decide +kernel
example : errText (.named (str "P")) (.mk none (.cntr [(str "x", .mk none (.num (.uint 3))), (str "x", .mk none .unit), (str "z", .mk none .unit)])) =
    some (str "custom error: duplicate field `x`") := by decide +kernel
example : errText (.named (str "P")) (.mk none (.cntr [(str "y", .mk none (.bool true))])) =
    some (str "custom error: invalid type: boolean `true`, expected option") := by decide +kernel
-- `x` is the first of two missing fields
example : errText (.named (str "P")) (.mk none (.cntr [])) = some (str "custom error: missing field `x`") := by decide +kernel

/-- **C64** is false of the code: an integer beyond 64 bits is reported as 0. -/
theorem C64_calls_big_zero (plain : Char → Bool) (env : TyEnv) : ∃ e, decodeE env .char (.mk none (.num (.uint (2 ^ 64)))) = .error e ∧
    e.text plain = str "custom error: invalid type: integer `0`, expected char" := ⟨_, rfl, rfl⟩

/-- **C64** is false of the code: what is expected for an `f32` or `f64` is called `$t`. -/
theorem C64_calls_floats (plain : Char → Bool) (env : TyEnv) : ∃ e, decodeE env .f64 (.mk none .unit) = .error e ∧
    decodeE env .f32 (.mk none .unit) = .error e ∧ e.text plain = str "custom error: invalid type: unit value, expected $t" :=
  ⟨_, rfl, rfl, rfl⟩

end KS.Props
