import Verif.Lemmas.ParseFuel
import Verif.Lemmas.RtRead
/-!
# White space and the inputs on which no value begins
-/

namespace KS.Ext
open KS.P KS.Nom KS.PG KS.RT

variable {α β γ : Type} {s w : Str}

/-- Multi-line whitespace. -/
def Ws (w : Str) : Prop := ∀ c ∈ w, isMultiWs c = true

theorem Ws.suffix {a b : Str} (h : Ws b) (hs : a <:+ b) : Ws a := fun c hc => h c (hs.subset hc)

/-- A class without whitespace stops at the same place. -/
def NoWs (q : Char → Bool) : Prop := ∀ c, isMultiWs c = true → q c = false

theorem ws_iff (c : Char) : isMultiWs c = true ↔ c = ' ' ∨ c = '\t' ∨ c = '\r' ∨ c = '\n' := by
  unfold isMultiWs
  rw [List.contains_iff_mem]
  show c ∈ [' ', '\t', '\r', '\n'] ↔ _
  simp

theorem inline_iff (c : Char) : isInlineWs c = true ↔ c = ' ' ∨ c = '\t' := by
  unfold isInlineWs
  rw [List.contains_iff_mem]
  show c ∈ [' ', '\t'] ↔ _
  simp

theorem take_ws {q : Char → Bool} (hq : NoWs q) {u : Str} (hu : Ws u) : u.takeWhile q = [] := by
  cases u with
  | nil => rfl
  | cons c r => rw [List.takeWhile_cons, hq c (hu c List.mem_cons_self)]; rfl

theorem cut_fail {p : Parser α} {i : Str} {e : PErr} (h : p i = .err e) : Nom.cut p i = .fail e := by simp only [Nom.cut, h]
theorem cut_ok_iff {p : Parser α} {i r : Str} {a : α} : Nom.cut p i = .ok r a ↔ p i = .ok r a := by
  unfold Nom.cut
  cases p i <;> simp

/-! ## Whitespace -/

theorem ignoreWs_eq (p : Parser α) (i : Str) : ignoreWs p i = p (i.dropWhile isInlineWs) := rfl

/-! ## Basic parsers -/

/-! ## Primitives -/

/-! ## Heuristics -/

end KS.Ext
