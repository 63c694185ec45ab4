import Verif.Lemmas.InlineRoot
/-!
# Kserds laid out over several lines: what is read is what was written
-/

namespace KS.Cc
open KS.Spec KS.RT KS.Inl

mutual
/-- A Kserd with its layout: on one line, or over several lines, with the white space before every element and before the closing bracket. -/
inductive Laid where
  | line (k : Kserd)
  | tuple (id : Option Str) (l : LaidL) (fin : Str)
  | seq (id : Option Str) (l : LaidL) (fin : Str)
  | cntr (id : Option Str) (l : LaidF) (fin : Str)
  | map (id : Option Str) (l : LaidM) (fin : Str)
inductive LaidL where
  | nil
  | cons (nl : Str) (t : Laid) (r : LaidL)
inductive LaidF where
  | nil
  | cons (nl n : Str) (t : Laid) (r : LaidF)
inductive LaidM where
  | nil
  | cons (nl : Str) (k v : Laid) (r : LaidM)
end

mutual
def Laid.kserd : Laid → Kserd
  | .line k => k
  | .tuple id l _ => .mk id (.tuple l.kserds)
  | .seq id l _ => .mk id (.seq l.kserds)
  | .cntr id l _ => .mk id (.cntr l.fields)
  | .map id l _ => .mk id (.map l.pairs)
termination_by structural a => a
def LaidL.kserds : LaidL → List Kserd
  | .nil => []
  | .cons _ t r => t.kserd :: r.kserds
termination_by structural a => a
def LaidF.fields : LaidF → List (Str × Kserd)
  | .nil => []
  | .cons _ n t r => (n, t.kserd) :: r.fields
termination_by structural a => a
def LaidM.pairs : LaidM → List (Kserd × Kserd)
  | .nil => []
  | .cons _ k v r => (k.kserd, v.kserd) :: r.pairs
termination_by structural a => a
end

mutual
def Laid.text : Laid → Str
  | .line k => ln k
  | .tuple id l fin => nid [] id ++ '(' :: (l.text ++ (fin ++ [')']))
  | .seq id l fin => nid [' '] id ++ '[' :: (l.text ++ (fin ++ [']']))
  | .cntr id l fin => nid [' '] id ++ '(' :: (l.text ++ (fin ++ [')']))
  | .map id l fin => nid [' '] id ++ '{' :: (l.text ++ (fin ++ ['}']))
termination_by structural a => a
def LaidL.text : LaidL → Str
  | .nil => []
  | .cons nl t r => nl ++ (t.text ++ r.text)
termination_by structural a => a
def LaidF.text : LaidF → Str
  | .nil => []
  | .cons nl n t r => nl ++ (n ++ (' ' :: '=' :: ' ' :: (t.text ++ r.text)))
termination_by structural a => a
def LaidM.text : LaidM → Str
  | .nil => []
  | .cons nl k v r => nl ++ (k.text ++ (':' :: ' ' :: (v.text ++ r.text)))
termination_by structural a => a
end

mutual
/-- All the white space is a line break with indentation, and nothing empty is laid out over several lines. -/
def Laid.WF : Laid → Prop
  | .line _ => True
  | .tuple _ l fin => IsNl fin ∧ l.kserds ≠ [] ∧ l.WF
  | .seq _ l fin => IsNl fin ∧ l.kserds ≠ [] ∧ l.WF
  | .cntr _ l fin => IsNl fin ∧ l.fields ≠ [] ∧ l.WF
  | .map _ l fin => IsNl fin ∧ l.pairs ≠ [] ∧ l.WF
termination_by structural a => a
def LaidL.WF : LaidL → Prop
  | .nil => True
  | .cons nl t r => IsNl nl ∧ t.WF ∧ r.WF
termination_by structural a => a
def LaidF.WF : LaidF → Prop
  | .nil => True
  | .cons nl _ t r => IsNl nl ∧ t.WF ∧ r.WF
termination_by structural a => a
def LaidM.WF : LaidM → Prop
  | .nil => True
  | .cons nl k v r => IsNl nl ∧ k.WF ∧ v.WF ∧ r.WF
termination_by structural a => a
end

mutual
/-- Everything laid out over several lines is `Separable`. -/
def Laid.Sep : Laid → Prop
  | .line _ => True
  | .tuple _ l _ => Separable (.tuple l.kserds) ∧ l.Sep
  | .seq _ l _ => Separable (.seq l.kserds) ∧ l.Sep
  | .cntr _ l _ => Separable (.cntr l.fields) ∧ l.Sep
  | .map _ l _ => Separable (.map l.pairs) ∧ l.Sep
termination_by structural a => a
def LaidL.Sep : LaidL → Prop
  | .nil => True
  | .cons _ t r => t.Sep ∧ r.Sep
termination_by structural a => a
def LaidF.Sep : LaidF → Prop
  | .nil => True
  | .cons _ _ t r => t.Sep ∧ r.Sep
termination_by structural a => a
def LaidM.Sep : LaidM → Prop
  | .nil => True
  | .cons _ k v r => k.Sep ∧ v.Sep ∧ r.Sep
termination_by structural a => a
end

/-! ## Line breaks -/

theorem nl_white {w : Str} (h : IsNl w) : White w := by
  obtain ⟨n, rfl⟩ := h
  intro c hc
  rcases List.mem_cons.mp hc with rfl | hc
  · simp
  · rw [List.eq_of_mem_replicate hc]; simp

theorem nl_cons {w : Str} (h : IsNl w) : ∃ z, w = '\n' :: z := by obtain ⟨n, rfl⟩ := h; exact ⟨_, rfl⟩

theorem nl_cut {w : Str} (h : IsNl w) (r : Str) : Cut (w ++ r) := by obtain ⟨z, rfl⟩ := nl_cons h; exact .inr ⟨z ++ r, rfl⟩

theorem white_ends {w : Str} (h : White w) (hne : w ≠ []) (r : Str) : Ends (w ++ r) := by
  cases w with
  | nil => exact absurd rfl hne
  | cons c w =>
    intro d z e
    cases e
    rcases h c List.mem_cons_self with rfl | rfl | rfl | rfl <;> decide

theorem Ls.nonempty {l : LaidL} (h : l.kserds ≠ []) (hw : l.WF) : ∃ z, l.text = '\n' :: z := by
  cases l with
  | nil => rw [LaidL.kserds] at h; exact absurd rfl h
  | cons nl t r =>
    rw [LaidL.WF] at hw
    obtain ⟨z, rfl⟩ := nl_cons hw.1
    rw [LaidL.text]
    exact ⟨_, rfl⟩

theorem Fs.nonempty {l : LaidF} (h : l.fields ≠ []) (hw : l.WF) : ∃ z, l.text = '\n' :: z := by
  cases l with
  | nil => rw [LaidF.fields] at h; exact absurd rfl h
  | cons nl n t r =>
    rw [LaidF.WF] at hw
    obtain ⟨z, rfl⟩ := nl_cons hw.1
    rw [LaidF.text]
    exact ⟨_, rfl⟩

theorem Ms.nonempty {l : LaidM} (h : l.pairs ≠ []) (hw : l.WF) : ∃ z, l.text = '\n' :: z := by
  cases l with
  | nil => rw [LaidM.pairs] at h; exact absurd rfl h
  | cons nl k v r =>
    rw [LaidM.WF] at hw
    obtain ⟨z, rfl⟩ := nl_cons hw.1
    rw [LaidM.text]
    exact ⟨_, rfl⟩

/-- What follows an element begins a new line. -/
theorem Ls.newline {l : LaidL} (hw : l.WF) {fin : Str} (hf : IsNl fin) (r : Str) : ∃ z, l.text ++ (fin ++ r) = '\n' :: z := by
  cases l with
  | nil => obtain ⟨z, rfl⟩ := nl_cons hf; rw [LaidL.text]; exact ⟨_, rfl⟩
  | cons nl t r =>
    rw [LaidL.WF] at hw
    obtain ⟨z, rfl⟩ := nl_cons hw.1
    rw [LaidL.text]
    exact ⟨_, rfl⟩

theorem Fs.newline {l : LaidF} (hw : l.WF) {fin : Str} (hf : IsNl fin) (r : Str) : ∃ z, l.text ++ (fin ++ r) = '\n' :: z := by
  cases l with
  | nil => obtain ⟨z, rfl⟩ := nl_cons hf; rw [LaidF.text]; exact ⟨_, rfl⟩
  | cons nl n t r =>
    rw [LaidF.WF] at hw
    obtain ⟨z, rfl⟩ := nl_cons hw.1
    rw [LaidF.text]
    exact ⟨_, rfl⟩

theorem Ms.newline {l : LaidM} (hw : l.WF) {fin : Str} (hf : IsNl fin) (r : Str) : ∃ z, l.text ++ (fin ++ r) = '\n' :: z := by
  cases l with
  | nil => obtain ⟨z, rfl⟩ := nl_cons hf; rw [LaidM.text]; exact ⟨_, rfl⟩
  | cons nl k v r =>
    rw [LaidM.WF] at hw
    obtain ⟨z, rfl⟩ := nl_cons hw.1
    rw [LaidM.text]
    exact ⟨_, rfl⟩

/-! ## Beginnings -/

theorem laid_starts {t : Laid} (h : Ordinary t.kserd) : Starts t.text := by
  cases t with
  | line k => exact ln_starts h
  | tuple id l fin => exact nid_starts (fun i hi => h.1 i hi) _ (by decide) _
  | seq id l fin => exact nid_starts (fun i hi => h.1 i hi) _ (by decide) _
  | cntr id l fin => exact nid_starts (fun i hi => h.1 i hi) _ (by decide) _
  | map id l fin => exact nid_starts (fun i hi => h.1 i hi) _ (by decide) _

theorem opens_text {t : Laid} (h : Opens t.kserd) : ∃ o z, t.text = o :: z ∧ (o = '(' ∨ o = '[' ∨ o = '{') := by
  obtain ⟨h1, h2⟩ := h
  cases t with
  | line k =>
    obtain ⟨id, v⟩ := k
    obtain rfl : id = none := h1
    rw [Laid.text, ln]
    cases v with
    | unit => exact ⟨_, _, rfl, .inl rfl⟩
    | tuple l => exact ⟨_, _, rfl, .inl rfl⟩
    | cntr l => exact ⟨_, _, rfl, .inl rfl⟩
    | seq l => exact ⟨_, _, rfl, .inr (.inl rfl)⟩
    | map l => exact ⟨_, _, rfl, .inr (.inr rfl)⟩
    | bool b => exact h2.elim
    | num b => exact h2.elim
    | str b => exact h2.elim
    | barr b => exact h2.elim
  | tuple id l fin => obtain rfl : id = none := h1; exact ⟨_, _, rfl, .inl rfl⟩
  | seq id l fin => obtain rfl : id = none := h1; exact ⟨_, _, rfl, .inr (.inl rfl)⟩
  | cntr id l fin => obtain rfl : id = none := h1; exact ⟨_, _, rfl, .inl rfl⟩
  | map id l fin => obtain rfl : id = none := h1; exact ⟨_, _, rfl, .inr (.inr rfl)⟩

theorem newline_safe (z : Str) : Safe ('\n' :: z) := safe_cons (by unfold Ex.Stop; decide) z

theorem laid_safe {t : Laid} (hw : t.WF) (h : All Ordinary t.kserd) : Safe t.text := by
  have h0 := all_self h
  cases t with
  | line k => exact ln_safe k h
  | tuple id l fin => exact paren_safe (fun i hi => h0.1 i hi) blanks_nil (by unfold Ex.Stop; decide) _
  | cntr id l fin => exact paren_safe (fun i hi => h0.1 i hi) one_blank (by unfold Ex.Stop; decide) _
  | map id l fin => exact paren_safe (fun i hi => h0.1 i hi) one_blank (by unfold Ex.Stop; decide) _
  | seq id l fin =>
    rw [Laid.WF] at hw
    obtain ⟨z, hz⟩ := Ls.newline hw.2.2 hw.1 [']']
    rw [Laid.text, hz]
    have h1 : Safe (nid [' '] id ++ ['[']) := .inl (by
      have : '=' ∉ nid [' '] id := nid_noEq (fun i hi => h0.1 i hi) one_blank
      simp [this])
    have := h1.append (newline_safe z)
    simpa using this

/-- An element on a line of its own is not read as a field. -/
theorem line_noAssign {t : Laid} (hw : t.WF) (h : All Ordinary t.kserd) {nl : Str} (hn : White nl) (z : Str) : ¬ AssignAhead (nl ++ (t.text ++ '\n' :: z)) := by
  refine EX.not_assign hn ((laid_starts (all_self h)).append _).noWhite ?_
  rcases laid_safe hw h with h | h
  · exact ⟨t.text, '\n', z, rfl, h, by unfold Ex.Stop; decide⟩
  · exact h.append _

/-! ## Lists are concise -/

/-- Blanks and then something else than a line break. -/
def Level (x : Str) : Prop := ∃ u c r, x = u ++ c :: r ∧ Blanks u ∧ c ≠ '\n' ∧ ¬ BlankC c

theorem Level.blanks {x w : Str} (h : Level x) (hw : Blanks w) : Level (w ++ x) := by
  obtain ⟨u, c, r, rfl, h1, h2⟩ := h
  exact ⟨w ++ u, c, r, by simp, GR.blanks_append hw h1, h2⟩

theorem Level.ne {x z : Str} (h : Level x) : x ≠ '\n' :: z := by
  obtain ⟨u, c, r, rfl, h1, h2, -⟩ := h
  intro e
  cases u with
  | nil => cases e; exact h2 rfl
  | cons d u => cases e; rcases h1 '\n' List.mem_cons_self with h | h <;> cases h

theorem starts_level {x : Str} (h : Starts x) : Level x := by
  obtain ⟨c, r, rfl, hc⟩ := h
  exact ⟨[], c, r, rfl, blanks_nil, fun e => start_white hc (by rw [e]; exact .inr (.inr (.inr rfl))), start_blank hc⟩

theorem closer_level {c : Char} (h : c ∈ str ",:)]}=") (r : Str) : Level (c :: r) :=
  ⟨[], c, r, rfl, blanks_nil, (by rintro rfl; revert h; decide), by rintro (rfl | rfl) <;> revert h <;> decide⟩

theorem elems_level {b : Elems} {close : Char} (hc : close ∈ str ",:)]}=") {rest : Str} (h : b.Reads false (close :: rest)) : Level (b.text false ++ close :: rest) := by
  cases b with
  | nil => exact closer_level hc rest
  | cons pre t post r =>
    rw [Elems.Reads] at h
    rw [Elems.text, List.append_assoc]
    exact (starts_level (((tree_starts h.2.1).append _).append _)).blanks h.1

theorem assigns_level {b : Assigns} {rest : Str} (h : b.Reads false (')' :: rest)) : Level (b.text false ++ ')' :: rest) := by
  cases b with
  | nil => exact closer_level (by decide) rest
  | cons pre name mid gap t post r =>
    rw [Assigns.Reads] at h
    obtain ⟨h1, h2, h3, h4, -⟩ := h
    rw [Assigns.text, List.append_assoc]
    refine Level.blanks ?_ h1
    cases name with
    | nil =>
      rw [h3 rfl]
      exact closer_level (by decide) _
    | cons c n =>
      have hc := h2 c List.mem_cons_self
      exact starts_level ⟨c, _, rfl, name_start hc⟩

theorem pairs_level {b : Pairs} {rest : Str} (h : b.Reads false ('}' :: rest)) : Level (b.text false ++ '}' :: rest) := by
  cases b with
  | nil => exact closer_level (by decide) rest
  | cons pre key mid gap v post r =>
    rw [Pairs.Reads] at h
    rw [Pairs.text, List.append_assoc]
    exact (starts_level (((tree_starts h.2.1).append _).append _)).blanks h.1

/-- Only a concise list begins with a line break. -/
theorem lead_true {c : Bool} {lead y z : Str} (h : LeadOk c lead) (hy : c = false → Level y) (e : lead ++ y = '\n' :: z) : c = true ∧ White lead := by
  cases c with
  | true => exact ⟨rfl, h.1⟩
  | false => exact absurd e ((hy rfl).blanks h).ne

theorem white_span {a b x y : Str} (ha : White a) (hb : White b) (hx : ∀ d z, x = d :: z → d ∉ str " \t\r\n") (hy : ∀ d z, y = d :: z → d ∉ str " \t\r\n")
    (e : a ++ x = b ++ y) : a = b ∧ x = y := by
  have conv : ∀ {x : Str}, (∀ d z, x = d :: z → d ∉ str " \t\r\n") → NotContinued WhiteC x := by
    intro x hx c z e hc
    refine hx c z e ?_
    rcases hc with rfl | rfl | rfl | rfl <;> decide
  exact span (P := WhiteC) ha hb (conv hx) (conv hy) e

theorem field_assign' {u name mid y : Str} (hu : White u) (hname : ∀ c ∈ name, NameChar c) (hmid : Blanks mid) :
    AssignAhead (u ++ (name ++ (mid ++ '=' :: y))) := by
  refine ⟨u, name ++ mid, y, by simp, hu, ?_⟩
  intro c hc
  rw [EX.stop_iff, not_or]
  rcases List.mem_append.mp hc with hc | hc
  · exact ⟨(EX.name_not (hname c hc)).2.1, (EX.name_not (hname c hc)).1⟩
  · rcases hmid c hc with rfl | rfl <;> (refine ⟨?_, by decide⟩; unfold Ex.Stop; decide)

/-! ## Separable lists -/

/-- `Separable`, element by element. -/
def Chain {α : Type} (R : α → α → Prop) : List α → Prop
  | [] => True
  | a :: r => (∀ b r', r = b :: r' → R a b) ∧ Chain R r

theorem chain_iff {α : Type} {R : α → α → Prop} : ∀ {l : List α}, Chain R l ↔ ∀ p a b q, l = p ++ a :: b :: q → R a b
  | [] => ⟨fun _ p a b q e => (by simp at e), fun _ => trivial⟩
  | x :: r => by
    rw [Chain, chain_iff (l := r)]
    constructor
    · rintro ⟨h1, h2⟩ p a b q e
      cases p with
      | nil => cases e; exact h1 b q rfl
      | cons y p => cases e; exact h2 p a b q rfl
    · intro h
      exact ⟨fun b r' e => h [] x b r' (by rw [e]; rfl), fun p a b q e => h (x :: p) a b q (by rw [e]; rfl)⟩

abbrev Apart (a b : Kserd) : Prop := Bare a → ¬ Opens b

/-- The tree of `inf` or `NaN` is not followed by an opening bracket. -/
theorem bare_read {t : Laid} (h : Bare t.kserd) {T : Tree} {inl : Bool} {rest rest' : Str} (hT : T.Reads inl rest) (hs' : Cut rest')
    (e : T.text ++ rest = t.text ++ rest') : NoneOpen rest' := by
  obtain ⟨h1, n, h2, h3⟩ := h
  cases t with
  | line k =>
    obtain ⟨id, v⟩ := k
    obtain rfl : id = none := h1
    obtain rfl : v = .num n := h2
    have e : T.text ++ rest = pid none ++ (n.disp ++ rest') := by rw [e, Laid.text, ln, lnV]; simp
    have hd : ∃ c r, n.disp = c :: r ∧ Start c ∧ c ∉ str "<([{" := by
      rcases h3 with h3 | h3
      · rw [h3]; exact ⟨'i', _, rfl, by unfold Start; decide, by decide⟩
      · rw [h3]; exact ⟨'N', _, rfl, by unfold Start; decide, by decide⟩
    obtain ⟨w, l, rfl, g1, g2, g3⟩ := prim_read (id := none) (by intro i hi; cases hi) hT hd (fun _ i w o z e hv hb hw ho => disp_noName n hs' hv hw ho e) e
    rw [Tree.Reads] at hT
    have hb := hT.2.2.2.2.2 rfl (by
      cases l with
      | bool b =>
        have : (Literal.bool b).text ++ rest = n.disp ++ rest' := g3
        exfalso
        rcases h3 with h3 | h3 <;> rw [h3] at this <;> cases b <;> 
          exact absurd (congrArg List.head? this) (by simp [Literal.text, str])
      | _ => rfl)
    rw [g3] at hb
    intro w b z hw hb' ez
    exact hb ⟨n.disp, w, b, z, by rw [ez], by rcases h3 with h3 | h3 <;> rw [h3] <;> decide, hw, hb'⟩
  | tuple id l fin => cases h2
  | seq id l fin => cases h2
  | cntr id l fin => cases h2
  | map id l fin => cases h2

end KS.Cc
