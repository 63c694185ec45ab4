import Verif.Lemmas.DecodeMsg
import Verif.Props.DecodeErr
import Verif.Lemmas.ParseTotal
/-!
# C67: the texts of errors of the decoder

`plain`, the characters which `Debug` of strings prints as they are, may be any set.
-/

namespace KS.Props
open KS.Spec KS.Spec.De KS.Dbg KS.DM

/-- The texts are those of serde and of the crate; strings are quoted, floats have a fraction and read back, the names of variants are listed. -/
theorem C67_wording (plain : Char → Bool) (e : DErr) (he : e ≠ .noType) (hx : ∀ x w, e = .type (.float x) w ∨ e = .value (.float x) w → x.WF) :
    Wording plain e (e.text plain) := by
  cases e with
  | type u w =>
    have : DErr.text plain (.type u w) = str "custom error: invalid type: " ++ u.text plain ++ str ", expected " ++ w := rfl
    rw [this]
    exact .type (named plain u fun x h => hx x w (.inl (by rw [h])))
  | value u w =>
    have : DErr.text plain (.value u w) = str "custom error: invalid value: " ++ u.text plain ++ str ", expected " ++ w := rfl
    rw [this]
    exact .value (named plain u fun x h => hx x w (.inr (by rw [h])))
  | length n w => exact .length
  | missing f => exact .missing
  | duplicate f => exact .duplicate
  | unknownVariant v l => exact .unknownVariant (choice l)
  | outside => exact .outside
  | tryFrom => exact .tryFrom
  | noIdentity => exact .noIdentity
  | noType => exact absurd rfl he

/-- What the texts of errors begin with. -/
private def heads : List Str := [str "invalid t", str "invalid v", str "invalid l", str "missing f", str "duplicate", str "unknown v", str "original ",
  str "out of ra", str "enum but ", []]

private def kind : DErr → Nat
  | .type _ _ => 0
  | .value _ _ => 1
  | .length _ _ => 2
  | .missing _ => 3
  | .duplicate _ => 4
  | .unknownVariant _ _ => 5
  | .outside => 6
  | .tryFrom => 7
  | .noIdentity => 8
  | .noType => 9

private theorem kind_text (plain : Char → Bool) (e : DErr) : heads.idxOf (((e.text plain).drop 14).take 9) = kind e := by
  cases e <;> rfl

/-- Errors with the same text are the same, but for the signedness of integers and the bits of NaNs. -/
theorem C67_tells (plain : Char → Bool) {e e' : DErr} (he : UsualErr e) (he' : UsualErr e') (h : e.text plain = e'.text plain) : keptErr e = keptErr e' := by
  have hk : kind e = kind e' := by rw [← kind_text plain e, ← kind_text plain e', h]
  have h : e.message plain = e'.message plain := List.append_cancel_left h
  have two : ∀ {h t t' w w' : Str}, h ++ t ++ str ", expected " ++ w = h ++ t' ++ str ", expected " ++ w' →
      t ++ (str ", expected " ++ w) = t' ++ (str ", expected " ++ w') := by
    intro h t t' w w' e
    simp only [List.append_assoc] at e
    exact List.append_cancel_left e
  cases e with
  | type u w =>
    cases e' with
    | type u' w' =>
      obtain ⟨h1, rfl⟩ := unexp_inj he.1 he.2 he'.1 he'.2 (two (h := str "invalid type: ") h)
      simp only [keptErr, h1]
    | _ => cases hk
  | value u w =>
    cases e' with
    | value u' w' =>
      obtain ⟨h1, rfl⟩ := unexp_inj he.1 he.2 he'.1 he'.2 (two (h := str "invalid value: ") h)
      simp only [keptErr, h1]
    | _ => cases hk
  | length n w =>
    cases e' with
    | length n' w' =>
      obtain ⟨h1, h2⟩ := split_at (digits_close (by decide) _) (digits_close (by decide) _) (two (h := str "invalid length ") h)
      rw [natDigits_inj h1, List.append_cancel_left (as := str " expected ") h2]
    | _ => cases hk
  | missing f =>
    cases e' with
    | missing f' => rw [List.append_cancel_left (List.append_cancel_right (cs := str "missing field `" ++ f') h)]
    | _ => cases hk
  | duplicate f =>
    cases e' with
    | duplicate f' => rw [List.append_cancel_left (List.append_cancel_right (cs := str "duplicate field `" ++ f') h)]
    | _ => cases hk
  | unknownVariant v l =>
    cases e' with
    | unknownVariant v' l' =>
      have h : (str "unknown variant `" ++ v ++ str "`, ") ++ _ = (str "unknown variant `" ++ v' ++ str "`, ") ++ _ := h
      simp only [List.append_assoc] at h
      obtain ⟨h1, h2⟩ := split_at he.1 he'.1 (List.append_cancel_left h)
      rw [h1, choice_inj he.2 he'.2 (List.append_cancel_left (as := str ", ") h2)]
    | _ => cases hk
  | outside =>
    cases e' with
    | outside => rfl
    | _ => cases hk
  | tryFrom =>
    cases e' with
    | tryFrom => rfl
    | _ => cases hk
  | noIdentity =>
    cases e' with
    | noIdentity => rfl
    | _ => cases hk
  | noType => exact he.elim

/-- Children are inside. -/
private theorem child_all {P : Kserd → Prop} {env : TyEnv} {t u : Ty} {k x : Kserd} (h : Child env t k u x) (hk : All P k) : All P x := by
  obtain ⟨i, v⟩ := k
  have hv : AllV P v := hk.2
  have tup : ∀ {l : List Kserd}, v = .tuple l → ∀ y ∈ l, All P y := fun e => (PG.allL_iff _ _).mp (by rw [e] at hv; exact hv)
  have cnt : ∀ {l : List (Str × Kserd)}, v = .cntr l → ∀ p ∈ l, All P p.2 := fun e => (PG.allF_iff _ _).mp (by rw [e] at hv; exact hv)
  have mp : ∀ {l : List (Kserd × Kserd)}, v = .map l → ∀ p ∈ l, All P p.1 ∧ All P p.2 := fun e => (PG.allM_iff _ _).mp (by rw [e] at hv; exact hv)
  have els : ∀ {l : List Kserd}, Elems (.mk i v) l → ∀ y ∈ l, All P y := by
    rintro l (e | ⟨e, -⟩)
    · have e : v = .seq l := e
      exact (PG.allL_iff _ _).mp (by rw [e] at hv; exact hv)
    · exact tup e
  cases h with
  | some h => exact tup h.1 _ (by simp)
  | elem h hx => exact els h _ hx
  | tuple h _ hx => exact els h _ (List.mem_of_getElem? hx)
  | mapKey h hx => exact (mp h _ hx).1
  | mapValue h hx => exact (mp h _ hx).2
  | cntrValue h hx => exact cnt h _ hx
  | newtype _ h =>
    rcases h with h | ⟨r, h⟩
    · exact tup h.1 _ (by simp)
    · exact els h _ (by simp)
  | tupleStruct _ h _ hx => exact els h _ (List.mem_of_getElem? hx)
  | structSeq _ h _ hx => exact els h _ (List.mem_of_getElem? hx)
  | field _ _ h =>
    rcases h with ⟨l, h, hx⟩ | ⟨l, key, h, hx, -⟩
    · exact cnt h _ hx
    · exact (mp h _ hx).2
  | newtypeVariant _ _ _ h => exact tup h _ (by simp)
  | tupleVariant _ _ _ h _ _ hx => exact tup h _ (List.mem_of_getElem? hx)

private theorem reads_all {P : Kserd → Prop} {env : TyEnv} {t : Ty} {k : Kserd} {s : Subject} (h : Reads env t k s) (hk : All P k) :
    (∀ u x, s = .value u x → All P x) ∧ (∀ x, s = .field x → All P x) := by
  induction h with
  | here => exact ⟨by rintro u x ⟨⟩; exact hk, by rintro x ⟨⟩⟩
  | inside h _ ih => exact ih (child_all h hk)
  | key => exact ⟨by rintro u x ⟨⟩, by rintro x ⟨⟩⟩
  | @field _ _ _ k l x v _ h hx =>
    refine ⟨by rintro u x ⟨⟩, ?_⟩
    rintro x ⟨⟩
    obtain ⟨i, v⟩ := k
    have h : v = .map l := h
    subst h
    exact ((PG.allM_iff _ _).mp hk.2 _ hx).1

private theorem describes_usual {u : Unexp} {k : Kserd} (h : Describes u k) (hk : All InRange k) : Usual u ∧ ∀ x, u = .float x → x.WF := by
  obtain ⟨i, v⟩ := k
  refine ⟨?_, ?_⟩
  · cases h with
    | wide => exact .inr (.inr (.inl ⟨_, rfl⟩))
    | @wideSigned _ i => exact .inr (.inr (.inr ⟨i, by simp [intText]⟩))
    | tuple => exact .inl rfl
    | container => exact .inr (.inl rfl)
    | _ => trivial
  · rintro x rfl
    cases h with
    | float h =>
      have h : v = .num (.float x) := h
      subst h
      exact hk.1 _ rfl

/-- All errors of decoding are such, if the numbers are in range and variants have no backticks in their names: the text of an error of decoding
tells which it is. -/
theorem C67_decode (plain : Char → Bool) {env env' : TyEnv} {t t' : Ty} {k k' : Kserd} {e e' : DErr} (h : decodeE env t k = .error e)
    (h' : decodeE env' t' k' = .error e') (hk : All InRange k) (hk' : All InRange k')
    (hn : NoTicks e) (hn' : NoTicks e') (hne : e ≠ .noType) (hne' : e' ≠ .noType)
    (ht : e.text plain = e'.text plain) : keptErr e = keptErr e' := by
  have key : ∀ {env : TyEnv} {t : Ty} {k : Kserd} {e : DErr}, decodeE env t k = .error e → All InRange k → NoTicks e →
      e ≠ .noType → UsualErr e := by
    intro env t k e h hk hn hne
    obtain ⟨s, h1, -, h2⟩ := C64_says_partial env t k e h
    obtain ⟨r1, r2⟩ := reads_all h1 hk
    rcases h2 with h2 | ⟨u, w, t', x, rfl, rfl, hm, -⟩
    · cases h2 with
      | type hd => exact describes_usual hd (r1 _ _ rfl)
      | bytes => exact ⟨trivial, by rintro x ⟨⟩⟩
      | unknownVariant => exact hn _ _ rfl
      | noType => exact absurd rfl hne
      | key => exact ⟨trivial, by rintro x ⟨⟩⟩
      | keyChar => exact ⟨trivial, by rintro x ⟨⟩⟩
      | keyUnknown => exact hn _ _ rfl
      | keyNewtype => exact ⟨trivial, by rintro x ⟨⟩⟩
      | keyTuple => exact ⟨trivial, by rintro x ⟨⟩⟩
      | keyStruct => exact ⟨trivial, by rintro x ⟨⟩⟩
      | keyNoType => exact absurd rfl hne
      | field hd => exact describes_usual hd (r2 _ rfl)
      | _ => trivial
    · cases hm with
      | unsigned => exact ⟨trivial, by rintro x ⟨⟩⟩
      | signed => exact ⟨trivial, by rintro x ⟨⟩⟩
  exact C67_tells plain (key h hk hn hne) (key h' hk' hn' hne') ht

private def printable (c : Char) : Bool := 32 ≤ c.toNat && c.toNat < 127

example : DErr.text printable (.unknownVariant (str "D") [str "A", str "B", str "C"]) =
    str "custom error: unknown variant `D`, expected one of `A`, `B`, `C`" := by decide +kernel
example : DErr.text printable (.unknownVariant (str "D") []) = str "custom error: unknown variant `D`, there are no variants" := by decide +kernel
example : DErr.text printable (.value (.str (str "a\"\n\x1b")) (str "a character")) =
    str "custom error: invalid value: string \"a\\\"\\n\\u{1b}\", expected a character" := by decide +kernel
example : DErr.text printable (.type (.float (F64.ofRat false 3 1)) (str "char")) = str "custom error: invalid type: floating point `3.0`, expected char" := by
  decide +kernel

example {e : DErr} (he : UsualErr e) (h : e.text printable = str "custom error: invalid type: map, expected a string") :
    keptErr e = .type .map (str "a string") :=
  C67_tells printable he (e' := .type .map (str "a string")) ⟨trivial, by rintro x ⟨⟩⟩ h

example (env : TyEnv) : ∃ e, decodeE env .char (.mk none (.num (.int (-5)))) = .error e ∧ NoTicks e ∧ e ≠ .noType ∧
    All InRange (.mk none (.num (.int (-5)))) ∧ e.text printable = str "custom error: invalid type: integer `-5`, expected char" := by
  refine ⟨.type (.signed (-5)) (str "char"), rfl, by rintro v l ⟨⟩, by rintro ⟨⟩, ⟨?_, trivial⟩, by decide +kernel⟩
  rintro n ⟨⟩
  decide

/-- The signedness of the type is lost: the same text for `5` and for `5` as a signed integer. -/
theorem C67_same_integer (plain : Char → Bool) (w : Str) : DErr.text plain (.type (.unsigned 5) w) = DErr.text plain (.type (.signed 5) w) := rfl

/-- Backticks make lists of variants ambiguous. -/
theorem C67_ticks (plain : Char → Bool) (v : Str) : DErr.text plain (.unknownVariant v [str "a", str "b"]) = DErr.text plain (.unknownVariant v [str "a` or `b"]) := rfl

end KS.Props
