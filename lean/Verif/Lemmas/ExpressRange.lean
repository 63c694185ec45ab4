import Verif.Lemmas.ExpressTree
/-!
# What every Kserd that is read satisfies
-/

namespace KS.EX
open KS.Spec KS.Spec.Ex
open KS.GR hiding Stop Stops

attribute [local irreducible] F64.scale F64.magLimit F64.roundTo F64.WF

theorem ofRat_not_nan (s : Bool) (n d : Nat) (t : Bool) (p : Nat) : F64.ofRat s n d ≠ .nan t p := by
  unfold F64.ofRat
  simp only
  intro h
  split at h <;> cases h

theorem parseUnsigned_nan {s : Bool} {t : Str} {u : Bool} {p : Nat} (h : F64.parseUnsigned s t = some (.nan u p)) : p = 2 ^ 51 := by
  have key : ∀ (a b : Str) (o : Option Int), (if a = [] ∧ b = [] then
      (if F64.eqIgnoreCase t (KS.str "inf") || F64.eqIgnoreCase t (KS.str "infinity") then some (F64.inf s)
        else if F64.eqIgnoreCase t (KS.str "nan") then some (F64.nan s (2 ^ 51)) else none)
      else match o with
        | none => none
        | some e => if 0 ≤ e - (b.length : Int) then some (F64.ofRat s (digitsVal (a ++ b) * 10 ^ (e - (b.length : Int)).toNat) 1)
          else some (F64.ofRat s (digitsVal (a ++ b)) (10 ^ (-(e - (b.length : Int))).toNat))) = some (F64.nan u p) → p = 2 ^ 51 := by
    intro a b o h
    by_cases hab : a = [] ∧ b = []
    · rw [if_pos hab] at h
      split at h
      · simp at h
      · split at h
        · simp only [Option.some.injEq, F64.nan.injEq] at h; exact h.2.symm
        · simp at h
    · rw [if_neg hab] at h
      cases o with
      | none => simp at h
      | some e =>
        simp only at h
        split at h
        · exact absurd (Option.some.inj h) (ofRat_not_nan _ _ _ _ _)
        · exact absurd (Option.some.inj h) (ofRat_not_nan _ _ _ _ _)
  unfold F64.parseUnsigned at h
  exact key _ _ _ h

theorem parse_nan {t : Str} {u : Bool} {p : Nat} (h : F64.parse t = some (.nan u p)) : p = 2 ^ 51 := by
  unfold F64.parse at h
  split at h <;> exact parseUnsigned_nan h

theorem float_num {n : Number} (hw : n.WF) {u : Str} (h : (F64.parse u).map Number.float = some n) : Num n := by
  refine ⟨hw, ?_⟩
  obtain ⟨x, hx, rfl⟩ := Option.map_eq_some_iff.mp h
  cases x with
  | nan s p => exact parse_nan hx
  | inf s => trivial
  | fin s m => trivial

theorem fromStr_num {t : Str} {n : Number} (h : Number.fromStr t = some n) (hw : n.WF) : Num n := by
  cases t with
  | nil => cases h
  | cons c r =>
    unfold Number.fromStr at h
    simp only at h
    split at h
    · split at h
      · exact float_num hw h
      · obtain ⟨x, hx, rfl⟩ := Option.map_eq_some_iff.mp h
        unfold Number.parseNegI128 at hx
        split at hx
        · split at hx
          · cases hx
            refine ⟨hw, ?_⟩
            show -(_ : Int) ≤ 0
            omega
          · cases hx
        · cases hx
    · split at h
      · exact float_num hw h
      · obtain ⟨x, hx, rfl⟩ := Option.map_eq_some_iff.mp h
        exact ⟨hw, trivial⟩

theorem first_eq {b : Str} : ∀ {a : Str}, (∀ c ∈ a, ¬ Stop c) → ∃ a' b', a ++ '=' :: b = a' ++ '=' :: b' ∧ (∀ c ∈ a', ¬ Stop c) ∧ '=' ∉ a'
  | [], h => ⟨[], b, rfl, h, by simp⟩
  | x :: a, h => by
    by_cases hx : x = '='
    · subst hx
      exact ⟨[], a ++ '=' :: b, rfl, (by intro c hc; cases hc), by simp⟩
    · obtain ⟨a', b', e, h1, h2⟩ := first_eq (b := b) (a := a) fun c hc => h c (List.mem_cons_of_mem _ hc)
      refine ⟨x :: a', b', by rw [List.cons_append, e]; rfl, List.forall_mem_cons.mpr ⟨h x List.mem_cons_self, h1⟩, ?_⟩
      simp [h2, Ne.symm hx]

/-- A string without identity where no field begins. -/
theorem lead_of {l : Literal} {s : Str} (hl : l.Ok) (hv : l.value = .str s) {u y z : Str} (hu : White u) (ha : ¬ AssignAhead (u ++ (l.text ++ y)))
    (hb : ¬ BracketAhead (l.text ++ z)) : Leading s := by
  cases l with
  | quoted q =>
    have : q = s := by injection hv
    subst this
    exact .inr (.inl ⟨'"', by decide, hl⟩)
  | delimited d q =>
    have : q = s := by injection hv
    subst this
    have hd : d ∉ q := hl
    by_cases h1 : ∃ a b, q = a ++ '=' :: b ∧ ∀ c ∈ a, ¬ Stop c
    · refine .inr ?_
      by_cases h2 : ∃ d ∈ str "<>)}'\"", d ∉ q
      · exact .inl h2
      · refine .inr ?_
        have hn : ValidName (str "str") := ⟨'s', ['t', 'r'], rfl, .inl (.inl ⟨by decide, by decide⟩), fun c hc => (PG.isNameChar_iff c).mp (by revert c; decide)⟩
        have hbr : d ≠ '(' ∧ d ≠ '[' ∧ d ≠ '{' := by
          refine ⟨?_, ?_, ?_⟩ <;> rintro rfl
          · exact hb ⟨str "str", [], '(', q ++ ['('] ++ z, by simp [Literal.text], hn, (by intro c hc; cases hc), .inl rfl⟩
          · exact hb ⟨str "str", [], '[', q ++ ['['] ++ z, by simp [Literal.text], hn, (by intro c hc; cases hc), .inr (.inl rfl)⟩
          · exact hb ⟨str "str", [], '{', q ++ ['{'] ++ z, by simp [Literal.text], hn, (by intro c hc; cases hc), .inr (.inr rfl)⟩
        have hs3 : ∀ c ∈ str "str", c ∉ str "<>(){}='\"\r\n" := by decide
        have heq : d ≠ '=' := by
          rintro rfl
          exact ha ⟨u, str "str", q ++ ['='] ++ y, by simp [Literal.text], hu, hs3⟩
        have hdc : d ∉ str "<>)}'\"" := fun h => h2 ⟨d, h, hd⟩
        by_cases hnl : d = '\r' ∨ d = '\n'
        · refine ⟨?_, ?_⟩
          · rcases hnl with rfl | rfl
            · exact .inl hd
            · exact .inr hd
          · rintro ⟨w, c, x, rfl, hw, hc⟩
            refine hb ⟨str "str", d :: w, c, x ++ [d] ++ z, by simp [Literal.text], hn, ?_, hc⟩
            refine List.forall_mem_cons.mpr ⟨?_, hw⟩
            rcases hnl with rfl | rfl <;> simp
        · exfalso
          obtain ⟨a, b, rfl, hab⟩ := h1
          obtain ⟨a, b, e, hab, hne⟩ := first_eq (b := b) hab
          rw [e] at ha
          refine ha ⟨u, str "str" ++ d :: a, b ++ [d] ++ y, by simp [Literal.text], hu, ?_⟩
          intro c hc
          rcases List.mem_append.mp hc with hc | hc
          · exact hs3 c hc
          · rcases List.mem_cons.mp hc with rfl | hc
            · rw [stop_iff]
              rintro (hs | hs)
              · have e : ∀ c ∈ str "<>(){}'\"\r\n", c ∈ str "<>)}'\"" ∨ c = '(' ∨ c = '{' ∨ c = '\r' ∨ c = '\n' := by decide
                rcases e c hs with h | h | h | h | h
                · exact hdc h
                · exact hbr.1 h
                · exact hbr.2.2 h
                · exact hnl (.inl h)
                · exact hnl (.inr h)
              · exact heq hs
            · rw [stop_iff]
              rintro (hs | hs)
              · exact hab c hc hs
              · subst hs
                exact hne hc
    · exact .inl h1
  | _ => cases hv

/-! ## Trees -/

/-- First in a tuple, or at the beginning of a text. -/
theorem tree_lead {T : Spec.Tree} {inl : Bool} {rest u y : Str} {k : Kserd} (hr : T.Reads inl rest) (h : T.Means k) (hu : White u)
    (ha : ¬ AssignAhead (u ++ (T.text ++ y))) : Lead k := by
  intro hid s hs
  cases T with
  | prim id w l =>
    have h : k = .mk id l.value := h
    subst h
    have hid : id = none := hid
    subst hid
    have hw : w = [] := hr.2.2.1 rfl
    subst hw
    refine lead_of hr.2.2.2.1 hs hu (y := y) ha (hr.2.2.2.2.2 rfl ?_)
    cases l with
    | bool b => cases hs
    | _ => rfl
  | tuple id w c lead b => obtain ⟨l, -, rfl⟩ := h; cases hs
  | seq id w c lead b => obtain ⟨l, -, rfl⟩ := h; cases hs
  | cntr id w c lead b => obtain ⟨l, f, -, -, rfl⟩ := h; cases hs
  | map id w c lead b => obtain ⟨l, f, -, -, rfl⟩ := h; cases hs

theorem blanks_white {w : Str} (h : Blanks w) : White w := fun c hc => by rcases h c hc with h | h <;> simp [h]

theorem lead_white {c : Bool} {lead : Str} (h : LeadOk c lead) : White lead := by
  cases c with
  | true => exact h.1
  | false => exact blanks_white h

theorem pre_white {c : Bool} {pre : Str} (h : PreOk c pre) : White pre := by
  cases c with
  | true => have h : pre = [] := h; rw [h]; intro c hc; cases hc
  | false => exact blanks_white h

theorem white_app {a b : Str} (ha : White a) (hb : White b) : White (a ++ b) := fun c hc => by
  rcases List.mem_append.mp hc with h | h
  · exact ha c h
  · exact hb c h

mutual
theorem tree_read (T : Spec.Tree) {inl : Bool} {rest : Str} {k : Kserd} (hr : T.Reads inl rest) (h : T.Means k) : All Read k := by
  cases T with
  | prim id w l =>
    have h : k = .mk id l.value := h
    subst h
    have hl := hr.2.2.2.1
    refine ⟨?_, ?_⟩
    · cases l with
      | num t n => exact fromStr_num hl.2 (PG.fromStr_WF _ _ hl.2)
      | quoted s => exact ⟨'"', hl⟩
      | delimited d s => exact ⟨d, hl⟩
      | _ => trivial
    · cases l <;> trivial
  | tuple id w c lead b =>
    obtain ⟨l, h1, rfl⟩ := h
    have hb := hr.2.2.2.2.2.2.2.2
    refine ⟨⟨?_, elems_full b hb h1⟩, (PG.allL_iff _ _).mpr (elems_read b hb h1)⟩
    rintro x r rfl
    have ha := hr.2.2.2.2.2.2.2.1
    have hl := hr.2.2.2.2.1
    cases b with
    | nil => cases h1
    | cons pre t post b =>
      obtain ⟨k, l', g1, -, e⟩ := h1
      cases e
      refine tree_lead hb.2.1 g1 (white_app (lead_white hl) (pre_white hb.1)) (y := post ++ (comma c b.isNil ++ b.text c) ++ [')']) ?_
      simpa [Elems.text] using ha
  | seq id w c lead b =>
    obtain ⟨l, h1, rfl⟩ := h
    exact ⟨trivial, (PG.allL_iff _ _).mpr (elems_read b hr.2.2.2.2.2.2 h1)⟩
  | cntr id w c lead b =>
    obtain ⟨l, f, h1, h2, rfl⟩ := h
    refine ⟨trivial, (PG.allF_iff _ _).mpr fun p hp => ?_⟩
    obtain ⟨x, y, e, -⟩ := (h2.2 p).mp hp
    exact assigns_read b hr.2.2.2.2.2.2.2 h1 p (by rw [e]; simp)
  | map id w c lead b =>
    obtain ⟨l, m, h1, h2, rfl⟩ := h
    have hb := hr.2.2.2.2.2.2
    exact ⟨fun p hp => (pairs_full b hb h1 p (h2.1 p hp)).1, (PG.allM_iff _ _).mpr fun p hp => pairs_read b hb h1 p (h2.1 p hp)⟩
termination_by structural T
theorem elems_read (b : Elems) {c : Bool} {rest : Str} {l : List Kserd} (hr : b.Reads c rest) (h : b.Means l) : ∀ k ∈ l, All Read k := by
  cases b with
  | nil => subst h; simp
  | cons pre t post r =>
    obtain ⟨k, l', h1, h2, rfl⟩ := h
    exact List.forall_mem_cons.mpr ⟨tree_read t hr.2.1 h1, elems_read r hr.2.2.2 h2⟩
termination_by structural b
theorem assigns_read (b : Assigns) {c : Bool} {rest : Str} {l : List (Str × Kserd)} (hr : b.Reads c rest) (h : b.Means l) : ∀ p ∈ l, All Read p.2 := by
  cases b with
  | nil => subst h; simp
  | cons pre n mid gap t post r =>
    obtain ⟨k, l', h1, h2, rfl⟩ := h
    exact List.forall_mem_cons.mpr ⟨tree_read t hr.2.2.2.2.2.1 h1, assigns_read r hr.2.2.2.2.2.2.2 h2⟩
termination_by structural b
theorem pairs_read (b : Pairs) {c : Bool} {rest : Str} {l : List (Kserd × Kserd)} (hr : b.Reads c rest) (h : b.Means l) :
    ∀ p ∈ l, All Read p.1 ∧ All Read p.2 := by
  cases b with
  | nil => subst h; simp
  | cons pre key mid gap v post r =>
    obtain ⟨k, x, l', h1, h2, h3, rfl⟩ := h
    exact List.forall_mem_cons.mpr ⟨⟨tree_read key hr.2.1 h1, tree_read v hr.2.2.2.2.1 h2⟩, pairs_read r hr.2.2.2.2.2.2 h3⟩
termination_by structural b
end

/-! ## Documents -/

/-- The Kserds of a line. -/
def ItemRead : Item → Prop
  | .id _ => True
  | .value _ k => All Read k
  | .elem _ _ k => All Read k
  | .entry _ _ a k => NoEmptyCntr a ∧ All Read a ∧ All Read k

theorem given_mem {n : Str} {its : List Item} {k : Kserd} (h : k ∈ givenFor n its) : .value n k ∈ its := by
  simp only [givenFor, List.mem_filterMap] at h
  obtain ⟨x, hx, h⟩ := h
  cases x with
  | value m a =>
    simp only at h
    split at h
    · rename_i e; subst e; cases h; exact hx
    · cases h
  | _ => cases h

theorem elem_mem {n : Str} {its : List Item} {e : Option Str × Kserd} (h : e ∈ elemsOf n its) : .elem n e.1 e.2 ∈ its := by
  simp only [elemsOf, List.mem_filterMap] at h
  obtain ⟨x, hx, h⟩ := h
  cases x with
  | elem m i a =>
    simp only at h
    split at h
    · rename_i e; subst e; cases h; exact hx
    · cases h
  | _ => cases h

theorem entry_mem {n : Str} {its : List Item} {e : Option Str × Kserd × Kserd} (h : e ∈ entriesFor n its) : .entry n e.1 e.2.1 e.2.2 ∈ its := by
  simp only [entriesFor, List.mem_filterMap] at h
  obtain ⟨x, hx, h⟩ := h
  cases x with
  | entry m i a b =>
    simp only at h
    split at h
    · rename_i e; subst e; cases h; exact hx
    · cases h
  | _ => cases h

theorem read_id {i j : Option Str} {v : Value} (h : All Read (.mk i v)) : All Read (.mk j v) := ⟨h.1, h.2⟩

theorem linesOf_read {its : List Item} {k : Kserd} (hi : ∀ x ∈ its, ItemRead x) (h : LinesOf its k) : All Read k := by
  obtain ⟨f, rfl, -, -, hf⟩ := h
  refine ⟨trivial, (PG.allF_iff _ _).mpr fun p hp => ?_⟩
  have hv := hf p.1 p.2 hp
  unfold ValueFor at hv
  split at hv
  · obtain ⟨m, e, hm, -⟩ := hv
    rw [e]
    refine ⟨fun q hq => ?_, (PG.allM_iff _ _).mpr fun q hq => ⟨?_, ?_⟩⟩
    · obtain ⟨⟨x, hx, ex⟩, -⟩ := hm q hq
      rw [← ex]; exact (hi _ (entry_mem hx)).1
    · obtain ⟨⟨x, hx, ex⟩, -⟩ := hm q hq
      rw [← ex]; exact (hi _ (entry_mem hx)).2.1
    · obtain ⟨-, x, hx, ex⟩ := hm q hq
      rw [← ex]; exact (hi _ (entry_mem hx)).2.2
  · split at hv
    · rw [hv]
      refine ⟨trivial, (PG.allL_iff _ _).mpr fun q hq => ?_⟩
      obtain ⟨x, hx, rfl⟩ := List.mem_map.mp hq
      exact hi _ (elem_mem hx)
    · exact hi _ (given_mem (List.mem_of_getLast? hv))

mutual
theorem doc_read (D : Doc) {d : Nat} {rest : Str} {k : Kserd} (hr : D.Reads d rest) (h : D.Means k) : All Read k := by
  cases D with
  | value w t => exact tree_read t hr.2.1 h
  | lines l =>
    obtain ⟨its, h1, h2⟩ := h
    exact linesOf_read (lines_read l hr.2 h1) h2
termination_by structural D
theorem lines_read (l : Lines) {d : Nat} {rest : Str} {its : List Item} (hr : l.Reads d rest) (h : l.Means its) : ∀ x ∈ its, ItemRead x := by
  cases l with
  | nil => subst h; simp
  | cons skip ind pre x r =>
    obtain ⟨i, its1, h1, h2, rfl⟩ := h
    exact List.forall_mem_cons.mpr ⟨line_read x hr.2.2.2.1 h1, lines_read r hr.2.2.2.2.2 h2⟩
termination_by structural l
theorem line_read (x : Line) {d : Nat} {rest : Str} {i : Item} (hr : x.Reads d rest) (h : x.Means i) : ItemRead i := by
  cases x with
  | id w n => subst h; trivial
  | field n mid gap t =>
    obtain ⟨k, h1, rfl⟩ := h
    exact tree_read t hr.2.2.2.2 h1
  | sub g D =>
    obtain ⟨⟨i, v⟩, h1, rfl⟩ := h
    exact read_id (doc_read D hr.2 h1)
  | elem g D =>
    obtain ⟨k, h1, rfl⟩ := h
    exact doc_read D hr.2.2 h1
  | entry g w key mid gap t =>
    obtain ⟨a, k, h1, h2, rfl⟩ := h
    exact ⟨tree_full key hr.2.2.1 h1, tree_read key hr.2.2.1 h1, tree_read t hr.2.2.2.2.2 h2⟩
  | entryBelow g w key mid gap eol D =>
    obtain ⟨a, k, h1, h2, rfl⟩ := h
    exact ⟨tree_full key hr.2.2.1 h1, tree_read key hr.2.2.1 h1, doc_read D hr.2.2.2.2.2.2 h2⟩
termination_by structural x
end

/-- Only white space is not a line. -/
theorem white_not_lines {w : Str} (hw : White w) : ¬ LinesAhead w := by
  have key : ∀ {a : Str} {c : Char} {z : Str}, w = a ++ c :: z → c = ' ' ∨ c = '\t' ∨ c = '\r' ∨ c = '\n' := fun e =>
    hw _ (by rw [e]; simp)
  rintro (⟨a, n, z, e, -⟩ | ⟨a, y, e, -, ⟨z, rfl⟩ | ⟨z, rfl⟩ | ⟨b, n, c, z, rfl, -⟩⟩)
  · rcases key (e.trans (List.append_assoc _ _ _).symm) with h | h | h | h <;> exact absurd h (by decide)
  · rcases key e with h | h | h | h <;> exact absurd h (by decide)
  · rcases key e with h | h | h | h <;> exact absurd h (by decide)
  · rcases key e with h | h | h | h <;> exact absurd h (by decide)

/-- A text is read as a Kserd of this kind. -/
theorem range {s : Str} {k : Kserd} (h : parse s = .ok k) : All Read k ∧ Lead k ∧ k ≠ .mk none (.cntr []) := by
  obtain ⟨D, w, hs, he, hr, hm⟩ := parse_sound h
  refine ⟨doc_read D hr hm, ?_, ?_⟩
  · cases D with
    | value u t => exact tree_lead hr.2.1 hm (blanks_white hr.1) (y := w) fun h => hr.2.2 (.inl h)
    | lines l =>
      obtain ⟨its, h1, f, rfl, -⟩ := hm
      intro _ s hs
      cases hs
  · rintro rfl
    cases D with
    | value u t => exact (tree_full t hr.2.1 hm).1 rfl
    | lines l =>
      obtain ⟨its, h1, f, e, -, hn, -⟩ := hm
      cases l with
      | nil => exact white_not_lines he.1 hr.1
      | cons skip ind pre x r =>
        obtain ⟨i, its1, h2, -, rfl⟩ := h1
        injection e with e1 e2
        injection e2 with e2
        subst e2
        have : ∀ n, ¬ Named n (i :: its1) := fun n h => by
          obtain ⟨x, hx⟩ := (hn n).mpr h
          cases hx
        cases i with
        | id i =>
          have e1 := e1.symm
          rw [List.getLast?_eq_none_iff] at e1
          cases e1
        | value n k => exact this n (.inl (by simp [givenFor]))
        | elem n i k => exact this n (.inr (.inl (by simp [elemsOf])))
        | entry n i a k => exact this n (.inr (.inr (by simp [entriesFor])))

end KS.EX
