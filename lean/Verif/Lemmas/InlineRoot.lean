import Verif.Lemmas.InlineComplete
import Verif.Props.Grammar
import Verif.Lemmas.RtPlain
/-!
# A single line as a whole text
-/

namespace KS.Inl
open KS.Spec KS.RT

/-- Characters that may stand in a heading. -/
def HeadC (c : Char) : Prop := c = ' ' ∨ c = '\t' ∨ NameChar c ∨ c = ':'

/-- No `]`, or something before it that is not found in headings. -/
def Closed (t : Str) : Prop := ']' ∉ t ∨ ∃ a c b, t = a ++ c :: b ∧ ']' ∉ a ∧ c ≠ ']' ∧ ¬ HeadC c

theorem headC_not {c : Char} (hc : c ∈ str "<>([{\"',]#`|*^!%~&") : ¬ HeadC c := by
  have h : ∀ c ∈ str "<>([{\"',]#`|*^!%~&", c ≠ ' ' ∧ c ≠ '\t' ∧ P.isNameChar c = false ∧ c ≠ ':' := by decide
  rintro (rfl | rfl | h1 | rfl)
  · exact (h _ hc).1 rfl
  · exact (h _ hc).2.1 rfl
  · rw [← PG.isNameChar_iff, (h c hc).2.2.1] at h1; cases h1
  · exact (h _ hc).2.2.2 rfl

theorem Closed.append {a b : Str} (ha : Closed a) (hb : Closed b) : Closed (a ++ b) := by
  rcases ha with ha | ⟨p, c, q, rfl, h1, h2, h3⟩
  · rcases hb with hb | ⟨p, c, q, rfl, h1, h2, h3⟩
    · exact .inl (by simp [ha, hb])
    · exact .inr ⟨a ++ p, c, q, by simp, by simp [ha, h1], h2, h3⟩
  · exact .inr ⟨p, c, q ++ b, by simp, h1, h2, h3⟩

/-- A part of a heading up to its end. -/
theorem Closed.cut {t P x y : Str} (h : Closed t) (hP : ∀ c ∈ P, HeadC c) (e : t ++ ']' :: x = P ++ ']' :: y) : t = P ∧ x = y := by
  have hn : ']' ∉ P := fun hm => headC_not (by decide) (hP _ hm)
  rcases h with h | ⟨a, c, b, rfl, h1, h2, h3⟩
  · exact Dbg.split_at h hn e
  · exact (EX.stops_no (a := a) (c := c) (b := b ++ ']' :: x) (by rw [← e]; simp) h1 h2.symm fun hm => h3 (hP _ hm)).elim

theorem nid_noClose {id : Option Str} (h : NameOk id) {sp : Str} (hs : Blanks sp) : ']' ∉ nid sp id := by
  cases id with
  | none => simp [nid]
  | some i =>
    rw [nid, List.mem_append, not_or]
    refine ⟨fun hm => ?_, fun hm => by rcases hs _ hm with h | h <;> revert h <;> decide⟩
    have := EX.name_chars (h i rfl) _ hm
    rw [← PG.isNameChar_iff] at this; revert this; decide

theorem open_closed {id : Option Str} (h : NameOk id) {sp : Str} (hs : Blanks sp) {o : Char} (ho : o ∈ str "([{") (r : Str) : Closed (nid sp id ++ o :: r) :=
  .inr ⟨nid sp id, o, r, rfl, nid_noClose h hs, by rintro rfl; revert ho; decide, headC_not (by
    have : ∀ o ∈ str "([{", o ∈ str "<>([{\"',]#`|*^!%~&" := by decide
    exact this o ho)⟩

theorem cons_closed {c : Char} (h : c ∈ str "<>([{\"',") (r : Str) : Closed (c :: r) :=
  .inr ⟨[], c, r, rfl, by simp, by rintro rfl; revert h; decide, headC_not (by
    have : ∀ o ∈ str "<>([{\"',", o ∈ str "<>([{\"',]#`|*^!%~&" := by decide
    exact this c h)⟩

theorem pid_closed (id : Option Str) {l : Str} (h : id = none → Closed l) : Closed (pid id ++ l) := by
  cases id with
  | none => exact h rfl
  | some i => rw [pid_eq]; exact cons_closed (by decide) _

theorem ln_closed {k : Kserd} (h : Ordinary k) : Closed (ln k) := by
  obtain ⟨id, v⟩ := k
  have hi : NameOk id := fun i hi => h.1 i hi
  rw [ln]
  cases v with
  | unit => exact open_closed hi blanks_nil (by decide) _
  | bool b => exact pid_closed id fun _ => .inl (by cases b <;> decide)
  | num n =>
    refine pid_closed id fun _ => .inl fun hm => ?_
    have := disp_chars n _ hm
    revert this; decide
  | str s =>
    obtain ⟨l, hl⟩ := delimitable h.2.1
    rw [lnV, hl]
    refine pid_closed id fun hn => ?_
    rcases strLit_quoted hl (h.2.2 hn) with rfl | ⟨d, hd, rfl, -⟩
    · exact cons_closed (by decide) _
    · refine .inr ⟨str "str", d, s ++ [d], by simp, by decide, (plain_facts hd).2.2.2.1, headC_not (by clear hl; revert d; decide)⟩
  | barr b => exact pid_closed id fun _ => .inr ⟨str "b91", '\'', Base91.encode b ++ ['\''], by simp [W.barrLit]; rfl, by decide, by decide, headC_not (by decide)⟩
  | tuple l => exact open_closed hi blanks_nil (by decide) _
  | seq l => exact open_closed hi one_blank (by decide) _
  | cntr l => exact open_closed hi one_blank (by decide) _
  | map l => exact open_closed hi one_blank (by decide) _

theorem lnI_closed : ∀ {l : List Kserd} {pre : Str}, AllL Ordinary l → Closed pre → Closed (lnI l pre)
  | [], pre, _, _ => .inl (by simp [lnI])
  | k :: r, pre, h, hp => by
    rw [AllL] at h
    rw [lnI]
    exact hp.append ((ln_closed (all_self h.1)).append (lnI_closed h.2 (cons_closed (by decide) _)))

theorem lnI_nil_closed {l : List Kserd} (h : AllL Ordinary l) : Closed (lnI l []) := lnI_closed h (.inl (by simp))

/-- Only a sequence begins with `[`. -/
theorem open_seq {k : Kserd} (h : Ordinary k) {z x : Str} (e : ln k ++ x = '[' :: z) : k.id = none ∧ ∃ l, k.val = .seq l ∧ z = lnI l [] ++ ']' :: x := by
  have hh : (ln k).head? = some '[' := by
    obtain ⟨c, r, hs, -⟩ := ln_starts h
    rw [hs] at e ⊢
    cases e; rfl
  obtain ⟨id, v⟩ := k
  rw [ln] at e hh
  have hp : ∀ {l : Str}, (pid id ++ l).head? = some '[' → id = none ∧ l.head? = some '[' := by
    intro l e
    cases id with
    | none => exact ⟨rfl, e⟩
    | some i => rw [pid_eq] at e; exact absurd e (by simp)
  have hn : ∀ {sp : Str} {o : Char} {l : Str}, (nid sp id ++ o :: l).head? = some '[' → id = none ∧ o = '[' := by
    intro sp o l e
    cases id with
    | none => exact ⟨rfl, by simpa [nid] using e⟩
    | some i =>
      obtain ⟨c, r, hs, -⟩ := h.1 i rfl
      have hc := EX.name_chars (h.1 i rfl)
      rw [hs] at hc
      rw [nid, hs] at e
      have : c = '[' := by simpa using e
      have hc := hc c List.mem_cons_self
      rw [this, ← PG.isNameChar_iff] at hc
      exact absurd hc (by decide)
  cases v with
  | unit => exact absurd (hn hh).2 (by decide)
  | bool b => exact absurd (hp hh).2 (by cases b <;> decide)
  | num n =>
    obtain ⟨c, r, h1, -, h3⟩ := disp_facts n
    have := (hp hh).2
    rw [h1] at this
    have : c = '[' := by simpa using this
    exact absurd this h3.2.2.1
  | str s =>
    obtain ⟨l, hl⟩ := delimitable h.2.1
    rw [lnV, hl] at hh
    obtain ⟨c, r, h1, hc⟩ := strLit_head hl
    have := (hp hh).2
    rw [Option.getD_some, h1] at this
    have : c = '[' := by simpa using this
    subst this
    rcases hc with hc | hc
    · exact absurd hc (by decide)
    · exact absurd hc (by decide)
  | barr b => exact absurd (show some 'b' = some '[' from (hp hh).2) (by decide)
  | tuple l => exact absurd (hn hh).2 (by decide)
  | cntr l => exact absurd (hn hh).2 (by decide)
  | map l => exact absurd (hn hh).2 (by decide)
  | seq l =>
    obtain ⟨rfl, -⟩ := hn hh
    refine ⟨rfl, l, rfl, ?_⟩
    rw [lnV] at e
    simp only [nid, List.nil_append, List.cons_append, List.append_assoc, List.cons.injEq, true_and] at e
    exact e.symm

theorem headings_in {h : Heading} (hh : h.Ok) : ∃ P, (∀ c ∈ P, HeadC c) ∧ (∀ o c : Str, h.text o c = o ++ (P ++ (c ++ (h.tail ++ h.eol)))) ∧ h.tail ++ h.eol ≠ [] := by
  obtain ⟨h1, h2, h3, -, h5, h6, h7⟩ := hh
  have hb : ∀ {w : Str}, Blanks w → ∀ c ∈ w, HeadC c := fun hw c hc => by rcases hw c hc with h | h <;> simp [HeadC, h]
  have hn : ∀ {n : Str}, (∀ c ∈ n, NameChar c) → ∀ c ∈ n, HeadC c := fun hw c hc => .inr (.inr (.inl (hw c hc)))
  have happ : ∀ {a b : Str}, (∀ c ∈ a, HeadC c) → (∀ c ∈ b, HeadC c) → ∀ c ∈ a ++ b, HeadC c := fun ha hb c hc => by
    rcases List.mem_append.mp hc with h | h
    · exact ha c h
    · exact hb c h
  refine ⟨h.pre ++ (h.name ++ ((match h.id with
    | none => []
    | some (a, b, i) => a ++ ':' :: (b ++ i)) ++ h.post)), happ (hb h1) (happ (hn h2) (happ ?_ (hb h5))), fun o c => ?_, ?_⟩
  · cases hid : h.id with
    | none => intro c hc; cases hc
    | some q =>
      obtain ⟨a, b, i⟩ := q
      obtain ⟨g1, g2, g3, -⟩ := h3 a b i hid
      refine happ (hb g1) ?_
      intro c hc
      rcases List.mem_cons.mp hc with rfl | hc
      · exact .inr (.inr (.inr rfl))
      · exact happ (hb g2) (hn (EX.name_chars g3)) c hc
  · rw [Heading.text]; simp only [List.append_assoc]; rfl
  · rcases h7 with h7 | h7 <;> rw [h7] <;> simp

/-- No line of a container begins a value on one line. -/
theorem no_sub {k : Kserd} (h : All Ordinary k) {hd : Heading} (hh : hd.Ok) {z : Str} (e : ln k = hd.text (str "[") (str "]") ++ z) : False := by
  obtain ⟨P, h1, h2, h3⟩ := headings_in hh
  rw [h2] at e
  have e : ln k ++ [] = '[' :: (P ++ ']' :: (hd.tail ++ hd.eol ++ z)) := by rw [List.append_nil, e]; simp; rfl
  obtain ⟨-, l, hl, e2⟩ := open_seq (all_self h) e
  obtain ⟨id, v⟩ := k
  rw [All, show v = .seq l from hl, AllV] at h
  obtain ⟨-, e3⟩ := (lnI_nil_closed h.2).cut h1 e2.symm
  rw [List.nil_eq, List.append_eq_nil_iff] at e3
  exact h3 e3.1

theorem no_elem {k : Kserd} (h : All Ordinary k) {hd : Heading} (hh : hd.Ok) {z : Str} (e : ln k = hd.text (str "[[") (str "]]") ++ z) : False := by
  obtain ⟨P, h1, h2, h3⟩ := headings_in hh
  rw [h2] at e
  have e : ln k ++ [] = '[' :: ('[' :: (P ++ ']' :: (']' :: (hd.tail ++ hd.eol ++ z)))) := by rw [List.append_nil, e]; simp; rfl
  obtain ⟨-, l, hl, e2⟩ := open_seq (all_self h) e
  obtain ⟨id, v⟩ := k
  rw [All, show v = .seq l from hl, AllV] at h
  cases l with
  | nil => rw [lnI] at e2; exact absurd (show some '[' = some ']' from congrArg List.head? e2) (by decide)
  | cons k0 r =>
    rw [AllL] at h
    rw [lnI] at e2
    have e2 : ln k0 ++ (lnI r [',', ' '] ++ [']']) = '[' :: (P ++ ']' :: (']' :: (hd.tail ++ hd.eol ++ z))) := by rw [e2]; simp
    obtain ⟨-, l0, hl0, e3⟩ := open_seq (all_self h.2.1) e2
    obtain ⟨id0, v0⟩ := k0
    rw [All, show v0 = .seq l0 from hl0, AllV] at h
    obtain ⟨-, e4⟩ := (lnI_nil_closed h.2.1.2).cut h1 e3.symm
    cases r with
    | nil =>
      rw [lnI] at e4
      injection e4 with _ e5
      rw [List.nil_eq, List.append_eq_nil_iff] at e5
      exact h3 e5.1
    | cons k1 r1 => rw [lnI] at e4; exact absurd (show some ',' = some ']' from congrArg List.head? e4) (by decide)

theorem no_assign {k : Kserd} (h : All Ordinary k) : ¬ AssignAhead (ln k) := by
  have hs := ln_starts (all_self h)
  rcases ln_safe k h with hn | hn
  · rintro ⟨w, n, z, e, -⟩
    rw [e] at hn; simp at hn
  · exact EX.not_assign (w := []) (by intro c hc; cases hc) hs.noWhite hn

theorem white_none {w x y : Str} (hw : White w) (hs : Starts y) (e : y = w ++ x) : w = [] := by
  cases w with
  | nil => rfl
  | cons c w =>
    obtain ⟨d, r, rfl, hd⟩ := hs
    cases e
    exact absurd (hw c List.mem_cons_self) (start_white hd)

/-- Only a boolean, `inf` and `NaN` read like names. -/
theorem word_of {k : Kserd} (h : Ordinary k) {n b : Str} (hn : ValidName n) (hc : ∀ c ∈ ln k, HeadC c) (e : ln k = n ++ b) : Wordy k := by
  obtain ⟨id, v⟩ := k
  rw [ln] at hc e
  have hp : ∀ {l : Str}, (∀ c ∈ pid id ++ l, HeadC c) → id = none := by
    intro l hc
    cases id with
    | none => rfl
    | some i => rw [pid_eq] at hc; exact absurd (hc '<' List.mem_cons_self) (headC_not (by decide))
  have hno : ∀ {x y : Str} {o : Char}, o ∈ str "<>([{\"',]#`|*^!%~&" → (∀ c ∈ x ++ o :: y, HeadC c) → False := fun ho hc =>
    headC_not ho (hc _ (List.mem_append_right _ List.mem_cons_self))
  cases v with
  | unit => exact (hno (by decide) hc).elim
  | bool b => rw [lnV] at hc; exact ⟨hp hc, .inl ⟨b, rfl⟩⟩
  | num m =>
    rw [lnV] at hc e
    obtain rfl := hp hc
    refine ⟨rfl, .inr ⟨rfl, m, rfl, ?_⟩⟩
    rcases disp_head m with ⟨c, t, e1, h1⟩ | h1 | h1
    · exfalso
      obtain ⟨d, r, rfl, hd, -⟩ := hn
      have e : m.disp = d :: (r ++ b) := e
      rw [e1] at e
      cases e
      have := digit_facts h1
      rcases hd with hd | rfl
      · rw [← PG.isAlpha_iff, this.2.1] at hd; cases hd
      · exact this.2.2.1 rfl
    · exact .inl h1
    · exact .inr h1
  | str s =>
    obtain ⟨l, hl⟩ := delimitable h.2.1
    rw [lnV, hl, Option.getD_some] at hc
    obtain rfl := hp hc
    rcases strLit_quoted hl (h.2.2 rfl) with rfl | ⟨d, hd, rfl, -⟩
    · exact (hno (x := []) (o := '"') (y := s ++ ['"']) (by decide) (by simpa [pid] using hc)).elim
    · exact (hno (x := s ++ str "str") (o := d) (y := []) (by clear hl hc; revert d; decide) (fun c hm => hc c (by
        simp only [List.mem_append, List.mem_cons, List.not_mem_nil, or_false, pid, false_or] at hm ⊢
        tauto))).elim
  | barr b =>
    rw [lnV] at hc
    obtain rfl := hp hc
    exact (hno (x := []) (o := '\'') (y := []) (by decide) (fun c hm => hc c (by
        rw [List.mem_singleton.mp hm]
        simp [pid, W.barrLit]))).elim
  | tuple l => exact (hno (by decide) hc).elim
  | seq l => exact (hno (by decide) hc).elim
  | cntr l => exact (hno (by decide) hc).elim
  | map l => exact (hno (by decide) hc).elim

/-- A text that begins like the lines of a container is not that of a sequence that is taken for a heading. -/
theorem lines_ahead {k : Kserd} (h : All Ordinary k) : LinesAhead (ln k) ↔ ¬ NoHeading k := by
  have hs := ln_starts (all_self h)
  constructor
  · rintro (ha | ⟨w, y, e, hw, hy⟩)
    · exact absurd ha (no_assign h)
    · obtain rfl := white_none hw hs e
      rw [List.nil_append] at e
      subst e
      rcases hy with ⟨z, e⟩ | ⟨z, e⟩ | ⟨a, n, b, z, e, ha, hn, hb⟩
      · obtain ⟨c, r, e1, hc⟩ := hs
        rw [e] at e1; cases e1
        exact absurd (by decide) hc
      · intro hno
        obtain ⟨hi, l, hl, e2⟩ := open_seq (x := []) (all_self h) (by rw [List.append_nil]; exact e)
        obtain ⟨id, v⟩ := k
        rw [All, show v = .seq l from hl, AllV] at h
        cases l with
        | nil => rw [lnI] at e2; exact absurd (show some '[' = some ']' from congrArg List.head? e2) (by decide)
        | cons k0 r =>
          rw [AllL] at h
          rw [lnI] at e2
          have e2 : ln k0 ++ (lnI r [',', ' '] ++ [']']) = '[' :: z := by rw [e2]; simp
          obtain ⟨hi0, l0, hl0, -⟩ := open_seq (all_self h.2.1) e2
          exact (hno hi _ hl).1 k0 r rfl ⟨hi0, l0, hl0⟩
      · intro hno
        obtain ⟨hi, l, hl, e2⟩ := open_seq (x := []) (all_self h) (by rw [List.append_nil]; exact e)
        obtain ⟨id, v⟩ := k
        rw [All, show v = .seq l from hl, AllV] at h
        have hc : ∀ c ∈ a ++ (n ++ b), HeadC c := by
          intro c hc
          rcases List.mem_append.mp hc with hc | hc
          · rcases ha c hc with h | h <;> simp [HeadC, h]
          · rcases List.mem_append.mp hc with hc | hc
            · exact .inr (.inr (.inl (EX.name_chars hn c hc)))
            · rcases hb c hc with h | h <;> simp [HeadC, h]
        obtain ⟨e3, -⟩ := (lnI_nil_closed h.2).cut (P := a ++ (n ++ b)) (x := []) (y := z) hc (by rw [← e2]; simp)
        cases l with
        | nil =>
          obtain ⟨c, r, rfl, -⟩ := hn
          rw [lnI] at e3; simp at e3
        | cons k0 r =>
          rw [AllL] at h
          cases r with
          | cons k1 r1 =>
            have : ',' ∈ a ++ (n ++ b) := by rw [← e3, lnI, lnI]; simp
            exact headC_not (by decide) (hc _ this)
          | nil =>
            rw [lnI, lnI, List.nil_append, List.append_nil] at e3
            refine (hno hi _ hl).2 k0 rfl ?_
            obtain rfl := white_none (GR.white_of_blanks ha) (ln_starts (all_self h.2.1)) e3
            rw [List.nil_append] at e3 hc
            exact word_of (all_self h.2.1) hn (by rw [e3]; exact hc) e3
  · intro hno
    unfold NoHeading at hno
    push Not at hno
    obtain ⟨hi, l, hl, hno⟩ := hno
    obtain ⟨id, v⟩ := k
    obtain rfl : id = none := hi
    obtain rfl : v = .seq l := hl
    refine .inr ⟨[], _, rfl, (by intro c hc; cases hc), .inr ?_⟩
    show (∃ z, ln (.mk none (.seq l)) = _) ∨ ∃ a n b z, ln (.mk none (.seq l)) = _ ∧ _
    have e0 : ln (.mk none (.seq l)) = '[' :: (lnI l [] ++ [']']) := by rw [ln, lnV]; rfl
    rw [e0]
    by_cases h1 : ∃ x r, l = x :: r ∧ x.id = none ∧ ∃ m, x.val = .seq m
    · obtain ⟨x, r, rfl, hx, m, hm⟩ := h1
      left
      obtain ⟨ix, vx⟩ := x
      obtain rfl : ix = none := hx
      obtain rfl : vx = .seq m := hm
      rw [lnI, ln, lnV]
      exact ⟨_, rfl⟩
    · obtain ⟨x, rfl, hx⟩ := hno fun x r e hi m hm => h1 ⟨x, r, e, hi, m, hm⟩
      right
      obtain ⟨ix, vx⟩ := x
      obtain ⟨hix, hx⟩ := hx
      obtain rfl : ix = none := hix
      rw [lnI, lnI, ln]
      have hval : ∃ n, ValidName n ∧ lnV none vx = n := by
        refine ⟨_, ?_, rfl⟩
        rcases hx with ⟨b, hb⟩ | ⟨-, n, hn, hd⟩
        · obtain rfl : vx = .bool b := hb
          rw [lnV]
          cases b
          · exact (by decide)
          · exact (by decide)
        · obtain rfl : vx = .num n := hn
          rw [lnV]
          rcases hd with hd | hd <;> rw [hd] <;> exact (by decide)
      obtain ⟨n, hn, e⟩ := hval
      exact ⟨[], n, [], [], by rw [e]; simp, blanks_nil, hn, blanks_nil⟩

theorem white_lines {s : Str} (h : BlankLines s) : White s := by
  induction h with
  | nil => intro c hc; cases hc
  | cons hw he _ ih =>
    refine GR.white_append (GR.white_of_blanks hw) (GR.white_append ?_ ih)
    rcases he with rfl | rfl <;> intro c hc <;> simp at hc
    · simp [hc]
    · rcases hc with rfl | rfl <;> simp

theorem white_indent {n : Nat} {s : Str} (h : Indent n s) : White s := by
  induction h with
  | zero => intro c hc; cases hc
  | blanks _ ih => exact GR.white_append (GR.white_of_blanks fun c hc => .inl (by revert c; decide)) ih
  | tab _ ih =>
    intro c hc
    rcases List.mem_cons.mp hc with rfl | hc
    · exact .inr (.inl rfl)
    · exact ih c hc

theorem line_means {k k' : Kserd} (h : All Ordinary k) (hk : parse (ln k) = .ok k') : All Legible k ∧ NoHeading k ∧ ReadAs k k' := by
  have hs := ln_starts (all_self h)
  obtain ⟨D, w, e, hw, hr, hm⟩ := Props.C59_sound hk
  cases D with
  | value wb t =>
    rw [Doc.Reads] at hr
    rw [Doc.Means] at hm
    obtain ⟨h1, h2, h3⟩ := hr
    rw [Doc.text] at e
    have e : ln k = wb ++ (t.text ++ w) := by rw [e]; simp
    obtain rfl := white_none (GR.white_of_blanks h1) hs e
    rw [List.nil_append] at e h3
    have hst : Stopped w := ⟨w, [], by simp, hw.1, by intro c z e; cases e⟩
    obtain ⟨-, g1, g2⟩ := node_same k h h2 (.inl hst) stopped_nil.cut (by rw [List.append_nil, ← e])
    rw [← e, lines_ahead h, not_not] at h3
    exact ⟨g1, h3, g2 k' hm⟩
  | lines l =>
    exfalso
    rw [Doc.Reads] at hr
    obtain ⟨-, hr⟩ := hr
    rw [Doc.text] at e
    cases l with
    | nil =>
      rw [Lines.text, List.nil_append] at e
      have := white_none hw.1 hs (x := []) (by rw [e]; simp)
      obtain ⟨c, r, e1, -⟩ := hs
      rw [e, this] at e1; cases e1
    | cons skip ind pre x r =>
      rw [Lines.Reads] at hr
      obtain ⟨h1, h2, h3, h4, -⟩ := hr
      rw [Lines.text] at e
      have hwh : White (skip ++ (ind ++ pre)) := GR.white_append (white_lines h1) (GR.white_append (white_indent h2) (GR.white_of_blanks h3))
      have e : ln k = (skip ++ (ind ++ pre)) ++ (x.text ++ (r.text ++ w)) := by rw [e]; simp
      have e0 := white_none hwh hs e
      rw [e0, List.nil_append] at e
      cases x with
      | id a i =>
        obtain ⟨c, z, e1, hc⟩ := hs
        rw [e1] at e
        cases e
        exact hc (by decide)
      | field name mid gap t =>
        rw [Line.Reads] at h4
        refine no_assign h ?_
        rw [e, Line.text]
        have := field_assign (u := []) (y := gap ++ t.text ++ (r.text ++ w)) blanks_nil h4.1 h4.2.2.1
        simpa using this
      | sub hd d =>
        rw [Line.Reads] at h4
        exact no_sub h h4.1 (z := d.text ++ (r.text ++ w)) (by rw [e, Line.text]; simp)
      | elem hd d =>
        rw [Line.Reads] at h4
        exact no_elem h h4.1 (z := d.text ++ (r.text ++ w)) (by rw [e, Line.text]; simp)
      | entry hd a key mid gap t =>
        rw [Line.Reads] at h4
        exact no_elem h h4.1 (z := a ++ (key.text ++ (mid ++ ':' :: (gap ++ t.text))) ++ (r.text ++ w)) (by rw [e, Line.text]; simp)
      | entryBelow hd a key mid gap eol d =>
        rw [Line.Reads] at h4
        exact no_elem h h4.1 (z := a ++ (key.text ++ (mid ++ ':' :: (gap ++ (eol ++ d.text)))) ++ (r.text ++ w)) (by rw [e, Line.text]; simp)

/-- The single line of an ordinary Kserd is read exactly if it is legible and not taken for a heading. -/
theorem line_accepted {k : Kserd} (h : All Ordinary k) : (∃ k', parse (ln k) = .ok k') ↔ All Legible k ∧ NoHeading k := by
  constructor
  · rintro ⟨k', hk⟩
    exact ⟨(line_means h hk).1, (line_means h hk).2.1⟩
  · rintro ⟨h1, h2⟩
    obtain ⟨T, hT, hr⟩ := node_tree k h h1
    obtain ⟨k', hk, -⟩ := Props.C60_complete (D := .value [] T) (w := []) ⟨(by intro c hc; cases hc), fun h => by cases h⟩ (by
      rw [Doc.Reads]
      refine ⟨blanks_nil, hr _ _ (stopped_nil.follows _), ?_⟩
      rw [List.nil_append, List.append_nil, hT]
      exact fun hl => (lines_ahead h).mp hl h2)
    rw [Doc.text, List.nil_append, List.append_nil, hT] at hk
    exact ⟨k', hk⟩

end KS.Inl

namespace KS.Inl
open KS.Spec KS.RT

/-- What is read has no unit with an identity, and no empty tuple without; no container is empty. -/
def Crisp (k : Kserd) : Prop :=
  match k.val with
  | .unit => k.id = none
  | .tuple l => k.id = none → l ≠ []
  | .cntr f => f ≠ []
  | _ => True

theorem crisp_parens (id : Option Str) : All Crisp (emptyParens id) := by
  cases id with
  | none => rw [emptyParens, All, AllV]; exact ⟨rfl, trivial⟩
  | some i => rw [emptyParens, All, AllV, AllL]; exact ⟨fun h => (by cases h), trivial⟩

theorem readL_nil {l l' : List Kserd} (h : ReadAsL l l') : l' = [] → l = [] := by
  cases l with
  | nil => exact fun _ => rfl
  | cons k r => rw [ReadAsL] at h; obtain ⟨_, _, _, _, rfl⟩ := h; intro h; cases h

theorem readF_nil {l l' : List (Str × Kserd)} (h : ReadAsF l l') : l' = [] → l = [] := by
  cases l with
  | nil => exact fun _ => rfl
  | cons p r => obtain ⟨n, k⟩ := p; rw [ReadAsF] at h; obtain ⟨_, _, _, _, rfl⟩ := h; intro h; cases h

theorem allM_of {P : Kserd → Prop} : ∀ {m : List (Kserd × Kserd)}, (∀ p ∈ m, All P p.1 ∧ All P p.2) → AllM P m
  | [], _ => by rw [AllM]; trivial
  | (k, v) :: r, h => by
    rw [AllM]
    exact ⟨(h (k, v) List.mem_cons_self).1, (h (k, v) List.mem_cons_self).2, allM_of fun p hp => h p (List.mem_cons_of_mem _ hp)⟩

mutual
theorem read_crisp (k : Kserd) {k' : Kserd} (h : ReadAs k k') : All Crisp k' := by
  obtain ⟨id, v⟩ := k
  rw [ReadAs] at h
  cases v with
  | unit => rw [ReadAsV] at h; subst h; exact crisp_parens id
  | bool b => rw [ReadAsV] at h; subst h; rw [All, AllV]; exact ⟨trivial, trivial⟩
  | num b => rw [ReadAsV] at h; subst h; rw [All, AllV]; exact ⟨trivial, trivial⟩
  | str b => rw [ReadAsV] at h; subst h; rw [All, AllV]; exact ⟨trivial, trivial⟩
  | barr b => rw [ReadAsV] at h; subst h; rw [All, AllV]; exact ⟨trivial, trivial⟩
  | tuple l =>
    rw [ReadAsV] at h
    obtain ⟨l', hl, rfl⟩ := h
    split
    · exact crisp_parens id
    · rename_i hne
      rw [All, AllV]
      exact ⟨fun _ e => hne (readL_nil hl e), read_crispL l hl⟩
  | cntr l =>
    rw [ReadAsV] at h
    obtain ⟨l', hl, rfl⟩ := h
    split
    · exact crisp_parens id
    · rename_i hne
      rw [All, AllV]
      exact ⟨fun e => hne (readF_nil hl e), read_crispF l hl⟩
  | seq l =>
    rw [ReadAsV] at h
    obtain ⟨l', hl, rfl⟩ := h
    rw [All, AllV]
    exact ⟨trivial, read_crispL l hl⟩
  | map m =>
    rw [ReadAsV] at h
    obtain ⟨l', m', hl, hm, rfl⟩ := h
    rw [All, AllV]
    refine ⟨trivial, ?_⟩
    have := read_crispM m hl
    exact allM_of fun p hp => EX.allM_mem this p (hm.1 p hp)
termination_by structural k
theorem read_crispL (l : List Kserd) {l' : List Kserd} (h : ReadAsL l l') : AllL Crisp l' := by
  match l with
  | [] => rw [ReadAsL] at h; subst h; rw [AllL]; trivial
  | k :: r =>
    rw [ReadAsL] at h
    obtain ⟨k', r', h1, h2, rfl⟩ := h
    rw [AllL]; exact ⟨read_crisp k h1, read_crispL r h2⟩
termination_by structural l
theorem read_crispF (l : List (Str × Kserd)) {l' : List (Str × Kserd)} (h : ReadAsF l l') : AllF Crisp l' := by
  match l with
  | [] => rw [ReadAsF] at h; subst h; rw [AllF]; trivial
  | (n, k) :: r =>
    rw [ReadAsF] at h
    obtain ⟨k', r', h1, h2, rfl⟩ := h
    rw [AllF]; exact ⟨read_crisp k h1, read_crispF r h2⟩
termination_by structural l
theorem read_crispM (l : List (Kserd × Kserd)) {l' : List (Kserd × Kserd)} (h : ReadAsM l l') : AllM Crisp l' := by
  match l with
  | [] => rw [ReadAsM] at h; subst h; rw [AllM]; trivial
  | (k, v) :: r =>
    rw [ReadAsM] at h
    obtain ⟨k', v', r', h1, h2, h3, rfl⟩ := h
    rw [AllM]; exact ⟨read_crisp k h1, read_crisp v h2, read_crispM r h3⟩
termination_by structural l
end

/-- No unit with an identity; no empty tuple or container without. -/
def Clear (k : Kserd) : Prop :=
  match k.val with
  | .unit => k.id = none
  | .tuple l => k.id = none → l ≠ []
  | .cntr f => k.id = none → f ≠ []
  | _ => True

mutual
theorem crisp_clear (k : Kserd) (h : All Crisp (rereadK k)) : All Clear k := by
  obtain ⟨id, v⟩ := k
  rw [rereadK, All] at h
  rw [All]
  cases v with
  | unit => exact ⟨h.1, by rw [AllV]; trivial⟩
  | bool b => exact ⟨trivial, by rw [AllV]; trivial⟩
  | num b => exact ⟨trivial, by rw [AllV]; trivial⟩
  | str b => exact ⟨trivial, by rw [AllV]; trivial⟩
  | barr b => exact ⟨trivial, by rw [AllV]; trivial⟩
  | tuple l =>
    rw [rereadV, AllV] at h
    rw [AllV]
    refine ⟨fun e hl => ?_, crisp_clearL l h.2⟩
    subst hl
    exact h.1 e (by rw [rereadL])
  | cntr l =>
    rw [rereadV] at h
    rw [AllV]
    cases l with
    | nil => exact ⟨fun e => absurd rfl (h.1 e), by rw [AllF]; trivial⟩
    | cons p r =>
      rw [if_neg (by simp), AllV] at h
      exact ⟨fun e hl => (by cases hl), crisp_clearF _ h.2⟩
  | seq l =>
    rw [rereadV, AllV] at h
    rw [AllV]
    exact ⟨trivial, crisp_clearL l h.2⟩
  | map l =>
    rw [rereadV, AllV] at h
    rw [AllV]
    exact ⟨trivial, crisp_clearM l h.2⟩
termination_by structural k
theorem crisp_clearL (l : List Kserd) (h : AllL Crisp (rereadL l)) : AllL Clear l := by
  match l with
  | [] => rw [AllL]; trivial
  | k :: r =>
    rw [rereadL, AllL] at h
    rw [AllL]; exact ⟨crisp_clear k h.1, crisp_clearL r h.2⟩
termination_by structural l
theorem crisp_clearF (l : List (Str × Kserd)) (h : AllF Crisp (rereadF l)) : AllF Clear l := by
  match l with
  | [] => rw [AllF]; trivial
  | (n, k) :: r =>
    rw [rereadF, AllF] at h
    rw [AllF]; exact ⟨crisp_clear k h.1, crisp_clearF r h.2⟩
termination_by structural l
theorem crisp_clearM (l : List (Kserd × Kserd)) (h : AllM Crisp (rereadM l)) : AllM Clear l := by
  match l with
  | [] => rw [AllM]; trivial
  | (k, v) :: r =>
    rw [rereadM, AllM] at h
    rw [AllM]; exact ⟨crisp_clear k h.1, crisp_clear v h.2.1, crisp_clearM r h.2.2⟩
termination_by structural l
end

/-- Ordinary Kserds can be written on one line. -/
theorem line_written (root : Kserd) (c : FormattingConfig) (hc : c.widthLimit = none) (ho : All Ordinary (hideIds c root))
    (htu : c.idOnTuples = false → ∀ x ∈ preorder root, ∀ l, x.val = .tuple l → x.id = none) :
    root.asStrWithConfig c = some (ln (hideIds c root)) := by
  have ho' := all_hide root ho
  have hw : ∃ out, root.asStrWithConfig c = some out := by
    obtain ⟨f0, hf0, rfl, hr0⟩ := Props.C22_new root
    obtain ⟨f, hf, hroot, -⟩ := Props.C25_inline f0.root f0 (.new hf0) c hc
    have hre : Reachable f0.root f := .config c (.new hf0) hf
    obtain ⟨out, ho⟩ := (Props.C24_write_partial f0.root f hre []).mpr (by
      intro x hx s hs
      have := (all_mem _).mp ho' x hx
      obtain ⟨id, v⟩ := x
      obtain rfl : v = .str s := hs
      exact this.2.1)
    exact ⟨out, by rw [Kserd.asStrWithConfig, hf0, Option.bind_some, hf, Option.bind_some, ho]⟩
  obtain ⟨out, h⟩ := hw
  rw [h, inline_ln root c hc ?_ htu h]
  rw [all_mem]
  intro x hx hv he
  have := (all_mem _).mp ho' x hx
  obtain ⟨id, v⟩ := x
  obtain rfl : v = .unit := hv
  obtain rfl : id = some [] := he
  obtain ⟨c, r, e, -⟩ := this.1 [] (by rw [hideIds]; cases showsId c .unit <;> rfl)
  cases e

end KS.Inl
