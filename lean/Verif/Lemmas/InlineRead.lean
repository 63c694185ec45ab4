import Verif.Lemmas.InlineText
import Verif.Lemmas.ExpressTree
import Verif.Lemmas.Debug
import Verif.Spec.Inline
/-!
# Reading a single line: what begins and ends a value
-/

namespace KS.Inl
open KS.Spec KS.RT

/-- The longest beginning of a kind is split off in one way. -/
theorem span {P : Char → Prop} : ∀ {a b x y : Str}, (∀ c ∈ a, P c) → (∀ c ∈ b, P c) → NotContinued P x → NotContinued P y → a ++ x = b ++ y → a = b ∧ x = y
  | [], [], _, _, _, _, _, _, e => ⟨rfl, e⟩
  | [], c :: b, _, _, _, hb, hx, _, e => absurd (hb c List.mem_cons_self) (hx c _ e)
  | c :: a, [], _, _, ha, _, _, hy, e => absurd (ha c List.mem_cons_self) (hy c _ e.symm)
  | c :: a, d :: b, x, y, ha, hb, hx, hy, e => by
    injection e with e1 e2
    obtain ⟨h1, h2⟩ := span (fun c h => ha c (List.mem_cons_of_mem _ h)) (fun c h => hb c (List.mem_cons_of_mem _ h)) hx hy e2
    exact ⟨by rw [e1, h1], h2⟩

/-- No value begins with one of these. -/
def Start (c : Char) : Prop := c ∉ str " \t\r\n,:)]}="

/-- Only these follow a value, perhaps after white space. -/
def Stopped (r : Str) : Prop := ∃ w y, r = w ++ y ∧ White w ∧ ∀ c z, y = c :: z → c ∈ str ",:)]}"

theorem stopped_cons {c : Char} (h : c ∈ str ",:)]}") (r : Str) : Stopped (c :: r) :=
  ⟨[], c :: r, rfl, (by intro c hc; cases hc), by intro d z e; cases e; exact h⟩

theorem stopped_blanks {b r : Str} (hb : Blanks b) (h : Stopped r) : Stopped (b ++ r) := by
  obtain ⟨w, y, rfl, hw, hy⟩ := h
  exact ⟨b ++ w, y, by simp, GR.white_append (GR.white_of_blanks hb) hw, hy⟩

theorem stopped_nil : Stopped [] := ⟨[], [], rfl, (by intro c hc; cases hc), by intro c z e; cases e⟩

theorem Stopped.head {r : Str} (h : Stopped r) : ∀ c z, r = c :: z → c ∈ str " \t\r\n,:)]}" := by
  obtain ⟨w, y, rfl, hw, hy⟩ := h
  intro c z e
  cases w with
  | nil =>
    have := hy c z e
    have h1 : ∀ c ∈ str ",:)]}", c ∈ str " \t\r\n,:)]}" := by decide
    exact h1 c this
  | cons d w =>
    cases e
    rcases hw c List.mem_cons_self with rfl | rfl | rfl | rfl <;> decide

theorem Stopped.noName {r : Str} (h : Stopped r) : NotContinued NameChar r := by
  intro c z e hc
  have h1 := h.head c z e
  have : ∀ c ∈ str " \t\r\n,:)]}", P.isNameChar c = false := by decide
  rw [← PG.isNameChar_iff, this c h1] at hc
  cases hc

theorem Stopped.noNum {r : Str} (h : Stopped r) : NotContinued NumChar r := by
  intro c z e hc
  have h1 := h.head c z e
  have : ∀ c ∈ str " \t\r\n,:)]}", P.isNumChar c = false := by decide
  rw [← GR.numChar_iff, this c h1] at hc
  cases hc

/-- White space or one of these follows a value. -/
def Ends (r : Str) : Prop := ∀ c z, r = c :: z → c ∈ str " \t\r\n,:)]}"

/-- What follows a value as it is written: nothing but these, or a new line. -/
def Cut (r : Str) : Prop := Stopped r ∨ ∃ z, r = '\n' :: z

theorem Stopped.cut {r : Str} (h : Stopped r) : Cut r := .inl h

theorem Cut.ends {r : Str} (h : Cut r) : Ends r := by
  rcases h with h | ⟨z, rfl⟩
  · exact h.head
  · intro c y e; cases e; decide

theorem Ends.noName {r : Str} (h : Ends r) : NotContinued NameChar r := by
  intro c z e hc
  have : ∀ c ∈ str " \t\r\n,:)]}", P.isNameChar c = false := by decide
  rw [← PG.isNameChar_iff, this c (h c z e)] at hc
  cases hc

theorem Ends.noNum {r : Str} (h : Ends r) : NotContinued NumChar r := by
  intro c z e hc
  have : ∀ c ∈ str " \t\r\n,:)]}", P.isNumChar c = false := by decide
  rw [← GR.numChar_iff, this c (h c z e)] at hc
  cases hc

def WhiteC (c : Char) : Prop := c = ' ' ∨ c = '\t' ∨ c = '\r' ∨ c = '\n'
def BlankC (c : Char) : Prop := c = ' ' ∨ c = '\t'

/-- No opening bracket follows. -/
theorem Stopped.noBracket {r : Str} (h : Stopped r) {w z : Str} {b : Char} (hw : White w) (hb : b = '(' ∨ b = '[' ∨ b = '{') : r ≠ w ++ b :: z := by
  obtain ⟨v, y, rfl, hv, hy⟩ := h
  intro e
  have := span (P := WhiteC) hv hw (by
    intro c t e hc
    have h1 := hy c t e
    rcases hc with rfl | rfl | rfl | rfl <;> revert h1 <;> decide) (by
    intro c t e hc
    cases e
    rcases hb with rfl | rfl | rfl <;> rcases hc with hc | hc | hc | hc <;> revert hc <;> decide) e
  have h1 := hy b z this.2
  rcases hb with rfl | rfl | rfl <;> revert h1 <;> decide

theorem name_start {c : Char} (h : NameChar c) : Start c := by
  rw [← PG.isNameChar_iff] at h
  intro hc
  have : ∀ c ∈ str " \t\r\n,:)]}=", P.isNameChar c = false := by decide
  rw [this c hc] at h; cases h

theorem num_start {c : Char} (h : NumChar c) : Start c := by
  rw [← GR.numChar_iff] at h
  intro hc
  have : ∀ c ∈ str " \t\r\n,:)]}=", P.isNumChar c = false := by decide
  rw [this c hc] at h; cases h

theorem start_blank {c : Char} (h : Start c) : ¬ BlankC c := by
  rintro (rfl | rfl) <;> exact absurd (by decide) h

theorem start_white {c : Char} (h : Start c) : ¬ WhiteC c := by
  rintro (rfl | rfl | rfl | rfl) <;> exact absurd (by decide) h

/-- Begins with a character that begins values. -/
def Starts (t : Str) : Prop := ∃ c r, t = c :: r ∧ Start c

theorem Starts.append {t : Str} (h : Starts t) (r : Str) : Starts (t ++ r) := by
  obtain ⟨c, x, rfl, hc⟩ := h
  exact ⟨c, x ++ r, rfl, hc⟩

theorem Starts.noBlank {t : Str} (h : Starts t) : NotContinued BlankC t := by
  obtain ⟨c, x, rfl, hc⟩ := h
  intro d r e; cases e; exact start_blank hc

theorem name_starts {i : Str} (h : ValidName i) : Starts i := by
  obtain ⟨c, r, rfl, hc, -⟩ := h
  refine ⟨c, r, rfl, name_start ?_⟩
  rcases hc with hc | rfl
  · exact .inl hc
  · exact .inr (.inr (.inr rfl))

theorem open_starts {o : Char} (ho : o ∈ str "([{") (r : Str) : Starts (o :: r) :=
  ⟨o, r, rfl, (by have : ∀ o ∈ str "([{", o ∉ str " \t\r\n,:)]}=" := by decide
                  exact this o ho)⟩

theorem lit_starts {l : Literal} (h : l.Ok) : Starts l.text := by
  cases l with
  | unit w => exact ⟨'(', _, rfl, by unfold Start; decide⟩
  | bool b => cases b <;> exact ⟨_, _, rfl, by unfold Start; decide⟩
  | num t n =>
    cases t with
    | nil => have := h.2; rw [fromStr_nil] at this; cases this
    | cons c r => exact ⟨c, r, rfl, num_start (h.1 c List.mem_cons_self)⟩
  | quoted s => exact ⟨'"', _, rfl, by unfold Start; decide⟩
  | delimited d s => exact ⟨'s', _, rfl, by unfold Start; decide⟩
  | bytes t => exact ⟨'b', _, rfl, by unfold Start; decide⟩

theorem plain_starts {id : Option Str} (h : NameOk id) {w : Str} (hw : id = none → w = []) {o : Char} (ho : o ∈ str "([{") (r : Str) :
    Starts (plainId id ++ (w ++ o :: r)) := by
  cases id with
  | none => rw [hw rfl]; exact open_starts ho r
  | some i => exact (name_starts (h i rfl)).append _

theorem tree_starts {T : Tree} {inl : Bool} {rest : Str} (h : T.Reads inl rest) : Starts T.text := by
  cases T with
  | prim id w l =>
    obtain ⟨h1, h2, h3, h4, -⟩ := h
    cases id with
    | none => rw [Tree.text, h3 rfl]; exact lit_starts h4
    | some i => exact ⟨'<', _, rfl, by unfold Start; decide⟩
  | tuple id w c lead b => exact plain_starts h.1 h.2.2.1 (by decide) _
  | seq id w c lead b => exact plain_starts h.1 h.2.2.1 (by decide) _
  | cntr id w c lead b => exact plain_starts h.1 h.2.2.1 (by decide) _
  | map id w c lead b => exact plain_starts h.1 h.2.2.1 (by decide) _

theorem disp_starts (n : Number) : Starts n.disp := by
  have hc := disp_chars n
  rcases disp_head n with ⟨c, r, e, -⟩ | e | e
  · rw [e] at hc ⊢; exact ⟨c, r, rfl, num_start ((GR.numChar_iff c).mp (hc c List.mem_cons_self))⟩
  · rw [e]; exact ⟨'i', _, rfl, by unfold Start; decide⟩
  · rw [e]; exact ⟨'N', _, rfl, by unfold Start; decide⟩

theorem pid_starts (id : Option Str) {l : Str} (h : Starts l) : Starts (pid id ++ l) := by
  cases id with
  | none => exact h
  | some i => rw [pid_eq]; exact ⟨'<', _, rfl, by unfold Start; decide⟩

theorem nid_starts {id : Option Str} (h : NameOk id) (sp : Str) {o : Char} (ho : o ∈ str "([{") (r : Str) : Starts (nid sp id ++ o :: r) := by
  cases id with
  | none => exact open_starts ho r
  | some i => rw [nid, List.append_assoc]; exact (name_starts (h i rfl)).append _

theorem strLit_starts {s l : Str} (h : W.strLit s = some l) : Starts l := by
  obtain ⟨c, r, rfl, hc⟩ := strLit_head h
  exact ⟨c, r, rfl, by unfold Start; rcases hc with rfl | rfl <;> decide⟩

theorem delimitable {s : Str} (h : Delimitable s) : ∃ l, W.strLit s = some l := by
  cases e : W.strLit s with
  | some l => exact ⟨l, rfl⟩
  | none => 
    rw [Props.C29_fails] at e
    obtain ⟨d, h1, h2⟩ := h
    exact absurd (e d h1) h2

theorem ln_starts {k : Kserd} (h : Ordinary k) : Starts (ln k) := by
  obtain ⟨id, v⟩ := k
  have hi : NameOk id := fun i hi => h.1 i hi
  rw [ln]
  cases v with
  | unit => exact nid_starts hi _ (by decide) _
  | bool b => exact pid_starts id (by cases b <;> exact ⟨_, _, rfl, by unfold Start; decide⟩)
  | num n => exact pid_starts id (disp_starts n)
  | str s =>
    obtain ⟨l, hl⟩ := delimitable h.2.1
    rw [lnV, hl]
    exact pid_starts id (strLit_starts hl)
  | barr b => exact pid_starts id ⟨'b', _, rfl, by unfold Start; decide⟩
  | tuple l => exact nid_starts hi _ (by decide) _
  | seq l => exact nid_starts hi _ (by decide) _
  | cntr l => exact nid_starts hi _ (by decide) _
  | map l => exact nid_starts hi _ (by decide) _

end KS.Inl
