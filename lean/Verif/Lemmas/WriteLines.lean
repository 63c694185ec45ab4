import Verif.Lemmas.WriteWidth
import Verif.Spec.Lines
/-!
# Length of the lines of a concise text
-/

namespace KS.Wr
open KS.Spec KS.Nav KS.Props

variable {fmts : List Fmt} {config : FormattingConfig}

/-! ## Inline text keeps what was written before the last character -/

theorem pop_append (a l : Str) (h : l ≠ []) : W.pop (a ++ l) = a ++ W.pop l := by
  rw [W.pop, W.pop, List.dropLast_append_of_ne_nil h]

theorem popSep_sep (y : Str) : W.popSep (y ++ W.separator) = y := by
  simp [W.popSep, W.pop, show W.separator = [',', ' '] from rfl]

theorem nonprim_append (a l : Str) (on : Bool) (id : Option Str) : W.nonprimIdent (a ++ l) on id = a ++ W.nonprimIdent l on id := by
  unfold W.nonprimIdent
  cases on <;> cases id <;> simp

theorem nonprim_ne (l : Str) (h : l ≠ []) (on : Bool) (id : Option Str) : W.nonprimIdent l on id ≠ [] := by
  unfold W.nonprimIdent
  cases on <;> cases id <;> simp [h]

theorem tuplePrefix_append (a l : Str) (h : l ≠ []) (on : Bool) (id : Option Str) :
    W.tuplePrefix (a ++ l) on id = a ++ W.tuplePrefix l on id := by
  unfold W.tuplePrefix
  rw [nonprim_append]
  cases id with
  | none => simp
  | some i =>
    simp only [Option.isSome_some, if_true]
    rw [pop_append _ _ (nonprim_ne l h _ _), List.append_assoc]

theorem tuplePrefix_ne (l : Str) (on : Bool) (id : Option Str) : W.tuplePrefix l on id ≠ [] := by
  unfold W.tuplePrefix; simp

theorem prim_append (a l : Str) (id : Option Str) (v : Value) (on : Bool) :
    W.prim (a ++ l) id v on = (W.prim l id v on).map (a ++ ·) := by
  have h : W.primIdent (a ++ l) on id = a ++ W.primIdent l on id := by
    unfold W.primIdent; cases on <;> cases id <;> simp
  cases v <;> simp only [W.prim, h]
  case unit =>
    unfold W.unit
    cases id with
    | none => simp
    | some i => simp only [Option.map_some]; split <;> simp
  case str s => cases W.strLit s <;> simp
  all_goals simp

theorem prim_grows {l : Str} {id : Option Str} {v : Value} {on : Bool} {out : Str} (hl : l ≠ []) (h : W.prim l id v on = some out) :
    out ≠ [] := by
  have h1 := prim_append l [] id v on
  rw [List.append_nil, h] at h1
  cases hp : W.prim [] id v on with
  | none => rw [hp] at h1; cases h1
  | some x => rw [hp] at h1; cases h1; simp [hl]

mutual
theorem node_local (k : Kserd) (idx col : Nat) (a l out : Str) (hl : l ≠ []) (h : At InlineOk fmts idx (preorder k))
    (ho : W.node fmts k idx col (a ++ l) = some out) : ∃ t, out = a ++ t ∧ t ≠ [] := by
  obtain ⟨id, v⟩ := k
  rw [preorder, at_cons] at h
  obtain ⟨⟨fm, hfm, hi⟩, h⟩ := h
  obtain ⟨pid, ln⟩ := fm
  have hi : ln = .inline := hi
  subst hi
  have hprim : ∀ v, W.prim (a ++ l) id v pid = some out → ∃ t, out = a ++ t ∧ t ≠ [] := by
    intro v hv
    rw [prim_append, Option.map_eq_some_iff] at hv
    obtain ⟨t, ht, rfl⟩ := hv
    exact ⟨t, rfl, prim_grows hl ht⟩
  cases v with
  | tuple k =>
    simp only [W.node, hfm, Option.map_eq_some_iff, preorderV] at ho h ⊢
    obtain ⟨b, hb', rfl⟩ := ho
    rw [tuplePrefix_append a l hl] at hb'
    obtain ⟨t, rfl, ht, hs⟩ := listInline_local k _ _ _ _ _ (tuplePrefix_ne l pid id) h hb'
    cases k with
    | nil => exact ⟨t ++ [')'], by simp, by simp⟩
    | cons x r =>
      obtain ⟨y, rfl⟩ := hs (by simp)
      exact ⟨y ++ [')'], by simp only [List.isEmpty_cons, Bool.false_eq_true, if_false]; rw [← List.append_assoc, popSep_sep, List.append_assoc], by simp⟩
  | seq k =>
    simp only [W.node, hfm, Option.map_eq_some_iff, preorderV] at ho h ⊢
    obtain ⟨b, hb', rfl⟩ := ho
    rw [nonprim_append, List.append_assoc] at hb'
    obtain ⟨t, rfl, ht, hs⟩ := listInline_local k _ _ _ _ _ (by simp) h hb'
    cases k with
    | nil => exact ⟨t ++ [']'], by simp, by simp⟩
    | cons x r =>
      obtain ⟨y, rfl⟩ := hs (by simp)
      exact ⟨y ++ [']'], by simp only [List.isEmpty_cons, Bool.false_eq_true, if_false]; rw [← List.append_assoc, popSep_sep, List.append_assoc], by simp⟩
  | cntr k =>
    simp only [W.node, hfm, Option.map_eq_some_iff, preorderV] at ho h ⊢
    obtain ⟨b, hb', rfl⟩ := ho
    rw [nonprim_append, List.append_assoc] at hb'
    obtain ⟨t, rfl, ht, hs⟩ := cntrInline_local k _ _ _ _ _ (by simp) h hb'
    cases k with
    | nil => exact ⟨t ++ [')'], by simp, by simp⟩
    | cons x r =>
      obtain ⟨y, rfl⟩ := hs (by simp)
      exact ⟨y ++ [')'], by simp only [List.isEmpty_cons, Bool.false_eq_true, if_false]; rw [← List.append_assoc, popSep_sep, List.append_assoc], by simp⟩
  | map k =>
    simp only [W.node, hfm, Option.map_eq_some_iff, preorderV] at ho h ⊢
    obtain ⟨b, hb', rfl⟩ := ho
    rw [nonprim_append, List.append_assoc] at hb'
    obtain ⟨t, rfl, ht, hs⟩ := mapInline_local k _ _ _ _ _ (by simp) h hb'
    cases k with
    | nil => exact ⟨t ++ ['}'], by simp, by simp⟩
    | cons x r =>
      obtain ⟨y, rfl⟩ := hs (by simp)
      exact ⟨y ++ [' ', '}'], by simp only [List.isEmpty_cons, Bool.false_eq_true, if_false]; rw [← List.append_assoc, popSep_sep]; simp, by simp⟩
  | unit => simp only [W.node, hfm] at ho; exact hprim _ ho
  | bool b => simp only [W.node, hfm] at ho; exact hprim _ ho
  | num b => simp only [W.node, hfm] at ho; exact hprim _ ho
  | barr b => simp only [W.node, hfm] at ho; exact hprim _ ho
  | str s => simp only [W.node, hfm] at ho; exact hprim _ ho
theorem listInline_local (k : List Kserd) (idx col : Nat) (a l out : Str) (hl : l ≠ []) (h : At InlineOk fmts idx (preorderL k))
    (ho : W.listInline fmts k idx col (a ++ l) = some out) : ∃ t, out = a ++ t ∧ t ≠ [] ∧ (k ≠ [] → ∃ y, t = y ++ W.separator) := by
  match k with
  | [] => simp only [W.listInline] at ho; cases ho; exact ⟨l, rfl, hl, fun h => absurd rfl h⟩
  | x :: r =>
    rw [preorderL, at_append, size_preorder] at h
    rw [W.listInline] at ho
    split at ho
    · cases ho
    · rename_i b hb'
      obtain ⟨t, rfl, ht⟩ := node_local x _ _ _ _ _ hl h.1 hb'
      rw [List.append_assoc] at ho
      obtain ⟨u, rfl, hu, hs⟩ := listInline_local r _ _ _ _ _ (by simp [ht]) h.2 ho
      refine ⟨u, rfl, hu, fun _ => ?_⟩
      cases r with
      | nil => simp only [W.listInline, Option.some.injEq, List.append_cancel_left_eq] at ho; exact ⟨t, ho.symm⟩
      | cons y r => exact hs (by simp)
theorem cntrInline_local (k : List (Str × Kserd)) (idx col : Nat) (a l out : Str) (hl : l ≠ []) (h : At InlineOk fmts idx (preorderF k))
    (ho : W.cntrInline fmts k idx col (a ++ l) = some out) : ∃ t, out = a ++ t ∧ t ≠ [] ∧ (k ≠ [] → ∃ y, t = y ++ W.separator) := by
  match k with
  | [] => simp only [W.cntrInline] at ho; cases ho; exact ⟨l, rfl, hl, fun h => absurd rfl h⟩
  | (n, x) :: r =>
    rw [preorderF, at_append, size_preorder] at h
    rw [W.cntrInline] at ho
    split at ho
    · cases ho
    · rename_i b hb'
      rw [List.append_assoc, List.append_assoc, List.append_assoc] at hb'
      obtain ⟨t, rfl, ht⟩ := node_local x _ _ _ _ _ (by simp [hl]) h.1 hb'
      rw [List.append_assoc] at ho
      obtain ⟨u, rfl, hu, hs⟩ := cntrInline_local r _ _ _ _ _ (by simp [ht]) h.2 ho
      refine ⟨u, rfl, hu, fun _ => ?_⟩
      cases r with
      | nil => simp only [W.cntrInline, Option.some.injEq, List.append_cancel_left_eq] at ho; exact ⟨t, ho.symm⟩
      | cons y r => exact hs (by simp)
theorem mapInline_local (k : List (Kserd × Kserd)) (idx col : Nat) (a l out : Str) (hl : l ≠ []) (h : At InlineOk fmts idx (preorderM k))
    (ho : W.mapInline fmts k idx col (a ++ l) = some out) : ∃ t, out = a ++ t ∧ t ≠ [] ∧ (k ≠ [] → ∃ y, t = y ++ W.separator) := by
  match k with
  | [] => simp only [W.mapInline] at ho; cases ho; exact ⟨l, rfl, hl, fun h => absurd rfl h⟩
  | (x, v) :: r =>
    rw [preorderM, at_append, at_append, size_preorder, size_preorder] at h
    rw [W.mapInline] at ho
    split at ho
    · cases ho
    · rename_i b hb'
      split at ho
      · cases ho
      · rename_i b2 hb2
        obtain ⟨t, rfl, ht⟩ := node_local x _ _ _ _ _ hl h.1 hb'
        rw [List.append_assoc, List.append_assoc] at hb2
        obtain ⟨t2, rfl, ht2⟩ := node_local v _ _ _ _ _ (by simp [ht]) h.2.1 hb2
        rw [List.append_assoc] at ho
        obtain ⟨u, rfl, hu, hs⟩ := mapInline_local r _ _ _ _ _ (by simp [ht2]) h.2.2 ho
        refine ⟨u, rfl, hu, fun _ => ?_⟩
        cases r with
        | nil => simp only [W.mapInline, Option.some.injEq, List.append_cancel_left_eq] at ho; exact ⟨t2, ho.symm⟩
        | cons y r => exact hs (by simp)
end

/-! ## Lines -/

/-- All lines but the last fit in `W` and the last part has at most `n` characters. -/
def Ends (W : Nat) (s : Str) (n : Nat) : Prop :=
  ∃ a l, s = a ++ l ∧ LinesFit W a ∧ (a = [] ∨ ∃ a', a = a' ++ ['\n']) ∧ l.length ≤ n

/-- As `Ends`, and the last part is not empty. -/
def Open (W : Nat) (s : Str) (n : Nat) : Prop :=
  ∃ a l, s = a ++ l ∧ LinesFit W a ∧ (a = [] ∨ ∃ a', a = a' ++ ['\n']) ∧ l.length ≤ n ∧ l ≠ []

theorem Open.ends {W n : Nat} {s : Str} (h : Open W s n) : Ends W s n := by
  obtain ⟨a, l, h1, h2, h3, h4, _⟩ := h; exact ⟨a, l, h1, h2, h3, h4⟩

theorem Ends.mono {W n m : Nat} {s : Str} (h : Ends W s n) (hm : n ≤ m) : Ends W s m := by
  obtain ⟨a, l, h1, h2, h3, h4⟩ := h; exact ⟨a, l, h1, h2, h3, by omega⟩

theorem Open.mono {W n m : Nat} {s : Str} (h : Open W s n) (hm : n ≤ m) : Open W s m := by
  obtain ⟨a, l, h1, h2, h3, h4, h5⟩ := h; exact ⟨a, l, h1, h2, h3, by omega, h5⟩

theorem ends_nil (W : Nat) : Ends W [] 0 :=
  ⟨[], [], rfl, by intro a l b h _; simp at h; simp [h.2.1], .inl rfl, by simp⟩

theorem Ends.append {W n : Nat} {s : Str} (h : Ends W s n) (t : Str) : Ends W (s ++ t) (n + t.length) := by
  obtain ⟨a, l, rfl, h2, h3, h4⟩ := h; exact ⟨a, l ++ t, by simp, h2, h3, by simp; omega⟩

theorem Ends.open {W n : Nat} {s : Str} (h : Ends W s n) (t : Str) (ht : t ≠ []) : Open W (s ++ t) (n + t.length) := by
  obtain ⟨a, l, rfl, h2, h3, h4⟩ := h; exact ⟨a, l ++ t, by simp, h2, h3, by simp; omega, by simp [ht]⟩

theorem Ends.fit {W n : Nat} {s : Str} (h : Ends W s n) (hn : n ≤ W) : LinesFit W s := by
  obtain ⟨a, l, rfl, h2, h3, h4⟩ := h
  intro x y z he hy
  rcases h3 with rfl | ⟨a', rfl⟩
  · have := congrArg List.length he
    simp at this; omega
  · rw [List.append_eq_append_iff] at he
    rcases he with ⟨c, h1, h5⟩ | ⟨c, h1, _⟩
    · rw [List.append_eq_append_iff] at h1
      rcases h1 with ⟨d, h6, h7⟩ | ⟨d, h6, h7⟩
      · -- the stretch begins inside `a`
        cases hd : d using List.reverseRecOn with
        | nil => subst hd; simp at h7; subst h7; rw [h5] at h4; simp at h4; omega
        | append_singleton d e _ =>
          subst hd
          rw [← List.append_assoc] at h6
          have := List.append_inj_right' h6 rfl
          simp at this
          subst this
          rw [h7] at hy; simp at hy
      · -- the stretch lies in the last part
        have e1 := congrArg List.length h5
        have e2 := congrArg List.length h7
        simp at e1 e2; omega
    · exact h2 x y c (by rw [h1]) hy

theorem Ends.nl {W n : Nat} {s : Str} (h : Ends W s n) (hn : n ≤ W) : Ends W (s ++ ['\n']) 0 := by
  have hs := h.fit hn
  refine ⟨s ++ ['\n'], [], by simp, ?_, .inr ⟨s, rfl⟩, by simp⟩
  intro x y z he hy
  cases hz : z using List.reverseRecOn with
  | nil =>
    subst hz
    cases hy' : y using List.reverseRecOn with
    | nil => simp
    | append_singleton y e _ =>
      subst hy'
      rw [List.append_nil, ← List.append_assoc] at he
      have := List.append_inj_right' he rfl
      simp at this; subst this; simp at hy
  | append_singleton z e _ =>
    subst hz
    rw [← List.append_assoc] at he
    exact hs x y z (List.append_inj_left' he rfl) hy

/-! ## Concise text -/

open Solver in
mutual
/-- The node `idx` is inline or concise, and nodes that need not be inline are so only where they fit from the column `e` on. -/
def Fit (c : FormattingConfig) (w : Nat) (fmts : List Fmt) : Kserd → Nat → Nat → Prop
  | .mk id v, idx, e => ∃ fm, fmts[idx]? = some fm ∧ fm.id = idFlag c v.kind ∧
      ((fm.line = .inline ∧ (maxRepr v = .inline ∨ e + inlineTotal c (.mk id v) ≤ w) ∧ At (WidthOk c) fmts idx (preorder (.mk id v))) ∨
       (fm.line = .concise ∧ FitV c w fmts v (idx + 1) e))
termination_by structural a => a
def FitV (c : FormattingConfig) (w : Nat) (fmts : List Fmt) : Value → Nat → Nat → Prop
  | .tuple l, idx, e => FitL c w fmts l idx (e + 4)
  | .seq l, idx, e => FitL c w fmts l idx (e + 4)
  | .cntr l, idx, e => FitF c w fmts l idx (e + 4)
  | .map l, idx, e => FitM c w fmts l idx (e + 4)
  | _, _, _ => False
termination_by structural a => a
def FitL (c : FormattingConfig) (w : Nat) (fmts : List Fmt) : List Kserd → Nat → Nat → Prop
  | [], _, _ => True
  | k :: r, idx, e => Fit c w fmts k idx e ∧ FitL c w fmts r (idx + k.size) e
termination_by structural a => a
def FitF (c : FormattingConfig) (w : Nat) (fmts : List Fmt) : List (Str × Kserd) → Nat → Nat → Prop
  | [], _, _ => True
  | (n, k) :: r, idx, e => Fit c w fmts k idx (e + (n.length + 3)) ∧ FitF c w fmts r (idx + k.size) e
termination_by structural a => a
def FitM (c : FormattingConfig) (w : Nat) (fmts : List Fmt) : List (Kserd × Kserd) → Nat → Nat → Prop
  | [], _, _ => True
  | (k, v) :: r, idx, e => At (WidthOk c) fmts idx (preorder k) ∧ Fit c w fmts v (idx + k.size) (e + (inlineTotal c k + 2)) ∧
      FitM c w fmts r (idx + k.size + v.size) e
termination_by structural a => a
end

theorem lineSlack_append (a b : List Kserd) : lineSlack (a ++ b) = lineSlack a + lineSlack b := by
  simp [lineSlack, slack_append]; omega
theorem lineSlack_cons (k : Kserd) (b : List Kserd) : lineSlack (k :: b) = slack1 k + emptyColl k + lineSlack b := by
  simp [lineSlack, slack_cons]; omega
theorem slack_le (l : List Kserd) : slack l ≤ lineSlack l := by rw [lineSlack]; omega

theorem ind4 : W.indentW = 4 := rfl

theorem inline_le_concise (c : FormattingConfig) (id : Option Str) (v : Value) (h : maxRepr v = .inline) :
    Solver.inlineTotal c (.mk id v) ≤ Solver.conciseTotal c (.mk id v) + emptyColl (.mk id v) := by
  rw [Solver.inlineTotal, Solver.conciseTotal]
  cases v with
  | tuple l =>
    simp only [maxRepr] at h
    split at h
    · subst_vars
      simp only [Solver.inlineWidth, Solver.conciseWidth, Solver.inlineTotalV, Solver.inlineTotalL, emptyColl, Kserd.val]
      simp
      split
      · rename_i h; simp [h.2]; omega
      · omega
    · cases h
  | seq l =>
    simp only [maxRepr] at h
    split at h
    · subst_vars
      simp only [Solver.inlineWidth, Solver.conciseWidth, Solver.inlineTotalV, Solver.inlineTotalL, emptyColl, Kserd.val]
      simp
      split
      · rename_i h; simp [h.2]; omega
      · omega
    · cases h
  | cntr l =>
    simp only [maxRepr] at h
    split at h
    · subst_vars
      simp only [Solver.inlineWidth, Solver.conciseWidth, Solver.inlineTotalV, Solver.inlineTotalF, emptyColl, Kserd.val]
      simp
      split
      · rename_i h; simp [h.2]; omega
      · omega
    · cases h
  | map l =>
    simp only [maxRepr] at h
    split at h
    · subst_vars
      simp only [Solver.inlineWidth, Solver.conciseWidth, Solver.inlineTotalV, Solver.inlineTotalM, emptyColl, Kserd.val]
      simp
      split
      · rename_i h; simp [h.2]; omega
      · omega
    · cases h
  | _ => simp only [Solver.inlineTotalV, Solver.conciseTotalV, Solver.conciseWidth]; omega

theorem widthOk_inline {c : FormattingConfig} {idx : Nat} {l : List Kserd} (h : At (WidthOk c) fmts idx l) : At InlineOk fmts idx l :=
  h.mono fun _ _ h => h.1

/-- Inline text continues the last line. -/
theorem inline_ends {c : FormattingConfig} {X n : Nat} {k : Kserd} {idx col : Nat} {buf out : Str} (h : At (WidthOk c) fmts idx (preorder k))
    (hb : Open X buf n) (ho : W.node fmts k idx col buf = some out) :
    Open X out (n + Solver.inlineTotal c k + slack (preorder k)) := by
  obtain ⟨a, l, rfl, h2, h3, h4, h5⟩ := hb
  have hlen := node_len k idx col _ out h ho
  obtain ⟨t, rfl, ht⟩ := node_local k idx col a l out h5 (widthOk_inline h) ho
  refine ⟨a, t, rfl, h2, h3, ?_, ht⟩
  simp only [List.length_append] at hlen; omega

theorem nonprim_ends {X n : Nat} {buf : Str} (hb : Ends X buf n) (on : Bool) (id : Option Str) :
    Ends X (W.nonprimIdent buf on id) (n + if on then Solver.idLen id + 1 else 0) := by
  unfold W.nonprimIdent
  cases on with
  | false => exact hb
  | true =>
    cases id with
    | none => exact hb.mono (by simp)
    | some i =>
      simp only [if_true]
      rw [List.append_assoc]
      refine (hb.append (i ++ [' '])).mono ?_
      simp [Solver.idLen]

theorem tuplePrefix_ends {X n : Nat} {buf : Str} (hb : Open X buf n) (on : Bool) (id : Option Str) :
    Ends X (W.tuplePrefix buf on id) (n + 1 + if on then Solver.idLen id + 1 else 0) := by
  obtain ⟨a, l, rfl, h2, h3, h4, h5⟩ := hb
  have := tuplePrefix_len l on id
  refine ⟨a, W.tuplePrefix l on id, tuplePrefix_append a l h5 on id, h2, h3, ?_⟩
  split at this
  · rename_i h; rw [if_pos h.2]; omega
  · omega

mutual
theorem node_fits {c : FormattingConfig} {w S : Nat} (k : Kserd) (idx rc ec n s : Nat) (buf out : Str) (hf : Fit c w fmts k idx ec)
    (hst : ec + Solver.conciseTotal c k ≤ w) (hrc : rc ≤ ec + s) (hn : n ≤ ec + s) (hs : s + lineSlack (preorder k) ≤ S)
    (hb : Open (w + S) buf n) (ho : W.node fmts k idx rc buf = some out) : Ends (w + S) out (w + S) := by
  obtain ⟨id, v⟩ := k
  rw [Fit] at hf
  obtain ⟨fm, hfm, hid, hf⟩ := hf
  rcases hf with ⟨hl, hf, hat⟩ | ⟨hl, hf⟩
  · -- inline
    refine (inline_ends hat hb ho).ends.mono ?_
    have h1 := slack_le (preorder (.mk id v))
    rcases hf with hf | hf
    · have h2 := inline_le_concise c id v hf
      have h3 : slack (preorder (Kserd.mk id v)) + emptyColl (.mk id v) ≤ lineSlack (preorder (.mk id v)) := by
        rw [preorder, lineSlack_cons, slack_cons]
        have := slack_le (preorderV v); omega
      omega
    · omega
  · -- concise
    obtain ⟨pid, ln⟩ := fm
    have hl : ln = .concise := hl
    subst hl
    have hid : pid = Solver.idFlag c v.kind := hid
    rw [Solver.conciseTotal] at hst
    rw [preorder, lineSlack_cons] at hs
    cases v with
    | tuple l =>
      have hid : pid = c.idOnTuples := hid
      subst hid
      simp only [W.node, hfm, Option.map_eq_some_iff] at ho
      obtain ⟨b, hb', rfl⟩ := ho
      simp only [Solver.conciseWidth, Solver.conciseTotalV, preorderV] at hst hs
      have h0 := tuplePrefix_ends hb c.idOnTuples id
      have h1 := h0.nl (by omega)
      have h2 := listConcise_fits l _ (rc + W.indentW) ec s _ _ hf (by omega) (by rw [ind4]; omega) (by omega) h1 hb'
      have h3 := (h2.append (List.replicate rc ' ')).append [')']
      simp only [List.length_replicate, List.length_cons, List.length_nil] at h3
      exact h3.mono (by omega)
    | seq l =>
      have hid : pid = c.idOnSeqs := hid
      subst hid
      simp only [W.node, hfm, Option.map_eq_some_iff] at ho
      obtain ⟨b, hb', rfl⟩ := ho
      simp only [Solver.conciseWidth, Solver.conciseTotalV, preorderV] at hst hs
      have h0 := (nonprim_ends hb.ends c.idOnSeqs id).append ['[']
      simp only [List.length_cons, List.length_nil] at h0
      have h1 := h0.nl (by omega)
      rw [List.append_assoc] at h1
      have h2 := listConcise_fits l _ (rc + W.indentW) ec s _ _ hf (by omega) (by rw [ind4]; omega) (by omega) h1 hb'
      have h3 := (h2.append (List.replicate rc ' ')).append [']']
      simp only [List.length_replicate, List.length_cons, List.length_nil] at h3
      exact h3.mono (by omega)
    | cntr l =>
      have hid : pid = c.idOnContainers := hid
      subst hid
      simp only [W.node, hfm, Option.map_eq_some_iff] at ho
      obtain ⟨b, hb', rfl⟩ := ho
      simp only [Solver.conciseWidth, Solver.conciseTotalV, preorderV] at hst hs
      have h0 := (nonprim_ends hb.ends c.idOnContainers id).append ['(']
      simp only [List.length_cons, List.length_nil] at h0
      have h1 := h0.nl (by omega)
      rw [List.append_assoc] at h1
      have h2 := cntrConcise_fits l _ (rc + W.indentW) ec s _ _ hf (by omega) (by rw [ind4]; omega) (by omega) h1 hb'
      have h3 := (h2.append (List.replicate rc ' ')).append [')']
      simp only [List.length_replicate, List.length_cons, List.length_nil] at h3
      exact h3.mono (by omega)
    | map l =>
      have hid : pid = c.idOnMaps := hid
      subst hid
      simp only [W.node, hfm, Option.map_eq_some_iff] at ho
      obtain ⟨b, hb', rfl⟩ := ho
      simp only [Solver.conciseWidth, Solver.conciseTotalV, preorderV] at hst hs
      have h0 := (nonprim_ends hb.ends c.idOnMaps id).append ['{']
      simp only [List.length_cons, List.length_nil] at h0
      have h1 := h0.nl (by omega)
      rw [List.append_assoc] at h1
      have h2 := mapConcise_fits l _ (rc + W.indentW) ec s _ _ hf (by omega) (by rw [ind4]; omega) (by omega) h1 hb'
      have h3 := (h2.append (List.replicate rc ' ')).append ['}']
      simp only [List.length_replicate, List.length_cons, List.length_nil] at h3
      exact h3.mono (by omega)
    | _ => exact hf.elim
theorem listConcise_fits {c : FormattingConfig} {w S : Nat} (l : List Kserd) (idx rc ec s : Nat) (buf out : Str)
    (hf : FitL c w fmts l idx (ec + 4)) (hst : ec + Solver.conciseTotalL c l ≤ w) (hrc : rc ≤ ec + 4 + s ∧ 0 < rc)
    (hs : s + lineSlack (preorderL l) ≤ S) (hb : Ends (w + S) buf 0) (ho : W.listConcise fmts l idx rc buf = some out) :
    Ends (w + S) out 0 := by
  match l with
  | [] => simp only [W.listConcise] at ho; cases ho; exact hb
  | k :: r =>
    rw [FitL] at hf
    rw [Solver.conciseTotalL, ind4] at hst
    rw [preorderL, lineSlack_append] at hs
    rw [W.listConcise] at ho
    split at ho
    · cases ho
    · rename_i b hb'
      have h0 := hb.open (List.replicate rc ' ') (by obtain ⟨m, hm⟩ : ∃ m, rc = m + 1 := ⟨rc - 1, by omega⟩
                                                     rw [hm]; simp [List.replicate_succ])
      rw [List.length_replicate, Nat.zero_add] at h0
      have h1 := node_fits k _ rc (ec + 4) rc s _ _ hf.1 (by omega) hrc.1 hrc.1 (by omega) h0 hb'
      exact listConcise_fits r _ _ ec s _ _ hf.2 (by omega) hrc (by omega) (h1.nl (Nat.le_refl _)) ho
theorem cntrConcise_fits {c : FormattingConfig} {w S : Nat} (l : List (Str × Kserd)) (idx rc ec s : Nat) (buf out : Str)
    (hf : FitF c w fmts l idx (ec + 4)) (hst : ec + Solver.conciseTotalF c l ≤ w) (hrc : rc ≤ ec + 4 + s ∧ 0 < rc)
    (hs : s + lineSlack (preorderF l) ≤ S) (hb : Ends (w + S) buf 0) (ho : W.cntrConcise fmts l idx rc buf = some out) :
    Ends (w + S) out 0 := by
  match l with
  | [] => simp only [W.cntrConcise] at ho; cases ho; exact hb
  | (name, k) :: r =>
    rw [FitF] at hf
    rw [Solver.conciseTotalF, ind4, asg_len] at hst
    rw [preorderF, lineSlack_append] at hs
    rw [W.cntrConcise] at ho
    split at ho
    · cases ho
    · rename_i b hb'
      have h0 := (hb.append (List.replicate rc ' ')).open (name ++ W.assigner ++ [' ']) (by simp)
      have hl : (name ++ W.assigner ++ [' ']).length = name.length + 3 := by simp [asg_len]
      rw [List.length_replicate, Nat.zero_add, hl] at h0
      rw [hl] at hb'
      have h1 := node_fits k _ _ (ec + 4 + (name.length + 3)) _ s _ _ hf.1 (by omega) (by omega) (by omega) (by omega) h0 hb'
      exact cntrConcise_fits r _ _ ec s _ _ hf.2 (by omega) hrc (by omega) (h1.nl (Nat.le_refl _)) ho
theorem mapConcise_fits {c : FormattingConfig} {w S : Nat} (l : List (Kserd × Kserd)) (idx rc ec s : Nat) (buf out : Str)
    (hf : FitM c w fmts l idx (ec + 4)) (hst : ec + Solver.conciseTotalM c l ≤ w) (hrc : rc ≤ ec + 4 + s ∧ 0 < rc)
    (hs : s + lineSlack (preorderM l) ≤ S) (hb : Ends (w + S) buf 0) (ho : W.mapConcise fmts l idx rc buf = some out) :
    Ends (w + S) out 0 := by
  match l with
  | [] => simp only [W.mapConcise] at ho; cases ho; exact hb
  | (k, v) :: r =>
    rw [FitM] at hf
    rw [Solver.conciseTotalM, ind4, kas_len] at hst
    rw [preorderM, lineSlack_append, lineSlack_append] at hs
    have hat := hf.1
    obtain ⟨kid, kv⟩ := k
    rw [preorder, at_cons] at hat
    obtain ⟨⟨kf, hkf, hkl, _⟩, _⟩ := hat
    rw [W.mapConcise, hkf] at ho
    simp only at ho
    split at ho
    · cases ho
    · rename_i kb hkb
      split at ho
      · cases ho
      · rename_i vb hvb
        have h0 := hb.open (List.replicate rc ' ') (by obtain ⟨m, hm⟩ : ∃ m, rc = m + 1 := ⟨rc - 1, by omega⟩
                                                       rw [hm]; simp [List.replicate_succ])
        rw [List.length_replicate, Nat.zero_add] at h0
        have hsk := slack_le (preorder (Kserd.mk kid kv))
        have hlen := node_len (Kserd.mk kid kv) _ _ _ _ hf.1 hkb
        have h1 := inline_ends hf.1 h0 hkb
        have h2 := h1.ends.open (W.keysAssigner ++ [' ']) (by simp)
        rw [← List.append_assoc] at h2
        have hl : (W.keysAssigner ++ [' ']).length = 2 := rfl
        rw [hl] at h2
        rw [if_pos hkl] at hvb
        have hw : W.written (W.indent buf rc) (kb ++ W.keysAssigner ++ [' ']) ≤
            Solver.inlineTotal c (.mk kid kv) + slack (preorder (.mk kid kv)) + 2 := by
          rw [W.written, List.append_assoc, List.length_append, hl]; omega
        have h3 := node_fits v _ _ (ec + 4 + (Solver.inlineTotal c (.mk kid kv) + 2)) _ (s + lineSlack (preorder (.mk kid kv))) _ _ hf.2.1
          (by omega) (by omega) (by omega) (by omega) h2 hvb
        exact mapConcise_fits r _ _ ec s _ _ hf.2.2 (by omega) hrc (by omega) (h3.nl (Nat.le_refl _)) ho
end

/-- A concise container at the root. -/
theorem root_fits {c : FormattingConfig} {w : Nat} {id : Option Str} {l : List (Str × Kserd)} {out : Str} {fm : Fmt} (h0 : fmts[0]? = some fm)
    (hc : fm.line = .concise) (hid : fm.id = c.idOnContainers) (hf : FitF c w fmts l 1 4)
    (hst : Solver.conciseTotal c (.mk id (.cntr l)) ≤ w) (ho : W.node fmts (.mk id (.cntr l)) 0 0 [] = some out) :
    LinesFit (w + lineSlack (preorder (.mk id (.cntr l)))) out := by
  obtain ⟨pid, ln⟩ := fm
  have hc : ln = .concise := hc
  have hid : pid = c.idOnContainers := hid
  subst hc hid
  simp only [W.node, h0, Option.map_eq_some_iff] at ho
  obtain ⟨b, hb', rfl⟩ := ho
  rw [preorder, preorderV, lineSlack_cons]
  generalize hS : slack1 (Kserd.mk id (.cntr l)) + emptyColl (.mk id (.cntr l)) + lineSlack (preorderF l) = S
  rw [Solver.conciseTotal] at hst
  simp only [Solver.conciseWidth, Solver.conciseTotalV] at hst
  have e0 := (nonprim_ends (ends_nil (w + S)) c.idOnContainers id).append ['(']
  simp only [List.length_cons, List.length_nil] at e0
  have e1 := e0.nl (by omega)
  rw [List.append_assoc] at e1
  have e2 := cntrConcise_fits (S := S) l _ (0 + W.indentW) 0 0 _ _ hf (by omega) (by rw [ind4]; omega) (by omega) e1 hb'
  have e3 := (e2.append (List.replicate 0 ' ')).append [')']
  simp only [List.length_replicate, List.length_cons, List.length_nil] at e3
  exact e3.fit (by omega)

end KS.Wr
