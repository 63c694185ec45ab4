import Verif.Lemmas.NumText
import Verif.Model.Parse
import Verif.Spec.Fmt
/-!
# Characters of number and byte array texts
-/

namespace KS
open F64

attribute [local irreducible] F64.shortest F64.decText F64.decNorm F64.pow10 F64.decScale

theorem isNumChar_digit {c : Char} (h : isDigit c = true) : P.isNumChar c = true := by simp [P.isNumChar, h]

theorem decText_chars (D W : Nat) : ∀ c ∈ decText D W, P.isNumChar c = true := by
  intro c hc
  rcases decText_spec false D W with ⟨d, h1, _⟩ | ⟨a, b, h1, _, h3, _, h5, _⟩
  · rw [h1] at hc; exact isNumChar_digit (digit_mem_natDigits _ _ hc)
  · rw [h1] at hc
    rcases List.mem_append.mp hc with hc | hc
    · exact isNumChar_digit (List.all_eq_true.mp h3 c hc)
    · rcases List.mem_cons.mp hc with rfl | hc
      · decide
      · exact isNumChar_digit (List.all_eq_true.mp h5 c hc)

theorem f64_disp_chars (f : F64) : ∀ c ∈ F64.disp f, P.isNumChar c = true := by
  intro c hc
  match f with
  | .nan _ _ =>
    have : ∀ x ∈ str "NaN", P.isNumChar x = true := by decide
    exact this c hc
  | .inf false =>
    have : ∀ x ∈ str "inf", P.isNumChar x = true := by decide
    exact this c hc
  | .inf true =>
    have : ∀ x ∈ str "-inf", P.isNumChar x = true := by decide
    exact this c hc
  | .fin s m =>
    obtain ⟨W, _, hd⟩ := disp_fin_eq s m
    rw [hd] at hc
    cases s
    · exact decText_chars _ _ c hc
    · rcases List.mem_cons.mp hc with rfl | hc
      · decide
      · exact decText_chars _ _ c hc

theorem disp_chars (n : Number) : ∀ c ∈ n.disp, P.isNumChar c = true := by
  intro c hc
  cases n with
  | uint x => exact isNumChar_digit (digit_mem_natDigits _ _ hc)
  | int x =>
    rcases List.mem_append.mp hc with hc | hc
    · split at hc
      · simp at hc; subst hc; decide
      · cases hc
    · exact isNumChar_digit (digit_mem_natDigits _ _ hc)
  | float f => exact f64_disp_chars f c hc

theorem disp_ne_nil (n : Number) : n.disp ≠ [] := by
  cases n with
  | uint x => exact natDigits_ne_nil _
  | int x => intro h; exact natDigits_ne_nil _ (List.append_eq_nil_iff.mp h).2
  | float f =>
    show F64.disp f ≠ []
    cases f with
    | nan _ _ => exact (by decide : str "NaN" ≠ [])
    | inf s => cases s <;> decide
    | fin s m =>
      obtain ⟨W, _, hd⟩ := disp_fin_eq s m
      rw [hd]
      have h : decText (shortest m) W ≠ [] := by
        rw [F64.decText]
        intro h
        exact natDigits_ne_nil _ (List.append_eq_nil_iff.mp h).1
      cases s
      · exact h
      · intro h; cases h

theorem printable_of_isNumChar {c : Char} (h : P.isNumChar c = true) : Spec.Printable c := by
  rw [P.isNumChar, Bool.or_eq_true] at h
  rcases h with h | h
  · have := (isDigit_iff c).mp h; exact ⟨by omega, by omega⟩
  · have h := List.contains_iff_mem.mp h
    have : ∀ x ∈ str "-.einfNa", Spec.Printable x := by unfold Spec.Printable; decide
    exact this c h

namespace Base91

theorem enChar_mem (d : Nat) : enChar d ∈ table := by
  rw [enChar, List.getD]
  cases h : table[d]? with
  | none => decide
  | some c => exact List.mem_of_getElem? h

theorem encLoop_cons (b n x : Nat) (xs : List Nat) :
    encLoop b n (x :: xs) = (encStep b n x).2.2 ++ encLoop (encStep b n x).1 (encStep b n x).2.1 xs := rfl

theorem encStep_mem (b n x : Nat) : ∀ c ∈ (encStep b n x).2.2, c ∈ table := by
  intro c hc
  unfold encStep at hc
  dsimp only at hc
  split at hc
  · split at hc <;> simp at hc <;> rcases hc with rfl | rfl <;> exact enChar_mem _
  · cases hc

theorem encLoop_mem : ∀ (xs : List Nat) (b n : Nat), ∀ c ∈ encLoop b n xs, c ∈ table
  | [], b, n => by
    intro c hc
    rw [encLoop] at hc
    split at hc
    · cases hc
    · split at hc <;> simp at hc
      · rcases hc with rfl | rfl <;> exact enChar_mem _
      · subst hc; exact enChar_mem _
  | x :: xs, b, n => by
    intro c hc
    rw [encLoop_cons] at hc
    rcases List.mem_append.mp hc with hc | hc
    · exact encStep_mem _ _ _ c hc
    · exact encLoop_mem xs _ _ c hc

theorem encode_mem (b : Bytes) : ∀ c ∈ encode b, c ∈ table := encLoop_mem _ _ _

theorem table_printable : ∀ c ∈ table, Spec.Printable c := by unfold Spec.Printable; decide +kernel

end Base91
end KS
