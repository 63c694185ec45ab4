import Verif.Model.Parse
import Verif.Model.Fmt
import Verif.Lemmas.Base91
import Verif.Lemmas.Write
import Verif.Spec.Fmt
/-!
# C29, C30: string and byte array literals
-/

namespace KS.Props
open KS.Spec

/-! ## C29 -/

theorem contains_false {s : Str} {d : Char} : (!s.contains d) = true ↔ d ∉ s := by
  rw [Bool.not_eq_true', ← Bool.not_eq_true, List.contains_iff_mem]

/-- **C29.** A string has no literal exactly when it uses all twenty delimiters. -/
theorem C29_fails (s : Str) : W.strLit s = none ↔ ∀ d ∈ delimiters, d ∈ s := by
  rw [W.strLit]
  cases h : W.delims.find? (fun d => !s.contains d) with
  | none =>
    refine ⟨fun _ d hd => ?_, fun _ => rfl⟩
    have := List.find?_eq_none.mp h d hd
    rw [contains_false, not_not] at this
    exact this
  | some d =>
    refine ⟨fun h => (by cases h), fun hall => ?_⟩
    have h1 := List.find?_some h
    have h2 := List.mem_of_find?_eq_some h
    exact absurd (hall d h2) (contains_false.mp h1)

/-- **C29.** The literal of a string stands between two copies of the first delimiter that does not occur in it; double
quotes stand alone, other delimiters follow `str`. -/
theorem C29_shape (s l : Str) (h : W.strLit s = some l) :
    ∃ before d after, delimiters = before ++ d :: after ∧ (∀ x ∈ before, x ∈ s) ∧ d ∉ s ∧
      l = (if d = '"' then [] else str "str") ++ d :: s ++ [d] := by
  rw [W.strLit] at h
  split at h
  · cases h
  · rename_i d hd
    cases h
    rw [List.find?_eq_some_iff_append] at hd
    obtain ⟨h1, before, after, h2, h3⟩ := hd
    refine ⟨before, d, after, h2, ?_, contains_false.mp h1, rfl⟩
    intro x hx
    have := h3 x hx
    simp only [Bool.not_not] at this
    exact List.contains_iff_mem.mp this

theorem takeTill_append (d : Char) (s rest : Str) (h : d ∉ s) :
    Nom.takeTill (· == d) (s ++ d :: rest) = .ok (d :: rest) s := by
  have hall : ∀ x ∈ s, (!(x == d)) = true := by
    intro x hx
    simp only [Bool.not_eq_true', beq_eq_false_iff_ne]
    rintro rfl; exact h hx
  rw [Nom.takeTill, Nom.takeWhile]
  rw [List.dropWhile_append_of_pos hall, List.takeWhile_append_of_pos hall]
  simp

theorem parseStr_lit (d : Char) (s rest : Str) (h : d ∉ s) : P.parseStr d (d :: s ++ d :: rest) = .ok rest s := by
  simp only [P.parseStr, Nom.preceded, List.cons_append, Nom.char, if_true, PRes.bind, Nom.cut, Nom.terminated,
    takeTill_append d s rest h]

/-- **C29.** Reading the literal gives back the string and leaves what follows. -/
theorem C29_reads (s l : Str) (h : W.strLit s = some l) (rest : Str) : P.string (l ++ rest) = .ok rest s := by
  obtain ⟨before, d, after, hdel, _, hd, rfl⟩ := C29_shape s l h
  by_cases hq : d = '"'
  · subst hq
    have e : (if '"' = '"' then [] else str "str") ++ '"' :: s ++ ['"'] ++ rest = '"' :: s ++ '"' :: rest := by simp
    rw [e, P.string]
    have : Nom.stripPrefix (str "str") ('"' :: s ++ '"' :: rest) = none := rfl
    rw [this]
    simp only [Nom.context, parseStr_lit _ s rest hd]
  · rw [if_neg hq]
    have e : str "str" ++ d :: s ++ [d] ++ rest = 's' :: 't' :: 'r' :: (d :: s ++ d :: rest) := by simp; rfl
    rw [e, P.string]
    have : Nom.stripPrefix (str "str") ('s' :: 't' :: 'r' :: (d :: s ++ d :: rest)) = some (d :: s ++ d :: rest) := rfl
    rw [this]
    simp only [List.cons_append, List.head?_cons, Option.getD_some, Nom.context]
    have := parseStr_lit d s rest hd
    rw [List.cons_append] at this
    rw [this]

/-- A string with both quotes. -/
example : W.strLit (str "say \"it's\"") = some (str "str#say \"it's\"#") := by decide +kernel

/-! ## C30 -/

/-- **C30.** The encoded text has no quote. -/
theorem C30_no_quote (b : Bytes) : '\'' ∉ Base91.encode b := Base91.encode_no_quote b

/-- **C30.** Decoding gives back the bytes. -/
theorem C30_decode (b : Bytes) : Base91.decode (Base91.encode b) = b := Base91.decode_encode b

/-- **C30.** Reading the literal gives back the bytes and leaves what follows. -/
theorem C30_reads (b : Bytes) (rest : Str) : P.barr (W.barrLit b ++ rest) = .ok rest b := by
  have e : W.barrLit b ++ rest = 'b' :: '9' :: '1' :: '\'' :: (Base91.encode b ++ '\'' :: rest) := by
    simp [W.barrLit]; rfl
  rw [e]
  have ht : Nom.tag (str "b91'") ('b' :: '9' :: '1' :: '\'' :: (Base91.encode b ++ '\'' :: rest)) =
      .ok (Base91.encode b ++ '\'' :: rest) (str "b91'") := rfl
  simp only [P.barr, Nom.context, Nom.preceded, ht, PRes.bind, Nom.cut, Nom.terminated, Nom.map,
    takeTill_append _ _ rest (C30_no_quote b), Nom.char, if_true, C30_decode]

/-- **C30.** Different byte sequences have different literals. -/
theorem C30_injective (a b : Bytes) (h : W.barrLit a = W.barrLit b) : a = b := by
  have h1 := C30_reads a []
  rw [h, C30_reads b []] at h1
  cases h1; rfl

/-- A known value. -/
example : W.barrLit ("Hello, World!".toUTF8.toList) = str "b91'>OwJh>}AQ;r@@Y?F'" := by decide +kernel

end KS.Props
