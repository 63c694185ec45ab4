import Verif.Lemmas.LaidSound
/-!
# Kserds laid out over several lines: a tree for every text that is read
-/

namespace KS.Cc
open KS.Spec KS.RT KS.Inl

/-- The white space before the first element. -/
def Lead (w : Str) : Prop := White w ∧ '\n' ∈ w

theorem Lead.ne {w : Str} (h : Lead w) : w ≠ [] := fun e => by have := h.2; rw [e] at this; cases this

theorem nl_lead {w : Str} (h : IsNl w) : Lead w := ⟨nl_white h, by obtain ⟨z, rfl⟩ := nl_cons h; exact List.mem_cons_self⟩

theorem text_opens {t : Laid} (h : Ordinary t.kserd) {o : Char} {z : Str} (e : t.text = o :: z) (ho : o = '(' ∨ o = '[' ∨ o = '{') : Opens t.kserd := by
  have hn : ∀ {id : Option Str} {sp : Str} {c : Char} {l : Str}, (∀ i, id = some i → ValidName i) → nid sp id ++ c :: l = o :: z → id = none := by
    intro id sp c l hi e
    cases id with
    | none => rfl
    | some i =>
      exfalso
      obtain ⟨d, r, hs, -⟩ := hi i rfl
      have hc := EX.name_chars (hi i rfl)
      rw [hs] at hc
      rw [nid, hs] at e
      have hd : d = o := by cases e; rfl
      have hc := hc d List.mem_cons_self
      rw [hd, ← PG.isNameChar_iff] at hc
      rcases ho with rfl | rfl | rfl <;> exact absurd hc (by decide)
  have hp : ∀ {id : Option Str} {l : Str}, pid id ++ l = o :: z → id = none ∧ l = o :: z := by
    intro id l e
    cases id with
    | none => exact ⟨rfl, e⟩
    | some i => rw [pid_eq] at e; cases e; rcases ho with h | h | h <;> exact absurd h (by decide)
  cases t with
  | tuple id l fin => rw [Laid.text] at e; exact ⟨hn h.1 e, trivial⟩
  | seq id l fin => rw [Laid.text] at e; exact ⟨hn h.1 e, trivial⟩
  | cntr id l fin => rw [Laid.text] at e; exact ⟨hn h.1 e, trivial⟩
  | map id l fin => rw [Laid.text] at e; exact ⟨hn h.1 e, trivial⟩
  | line k =>
    obtain ⟨id, v⟩ := k
    rw [Laid.text, ln] at e
    cases v with
    | unit => exact ⟨hn h.1 e, trivial⟩
    | tuple l => exact ⟨hn h.1 e, trivial⟩
    | seq l => exact ⟨hn h.1 e, trivial⟩
    | cntr l => exact ⟨hn h.1 e, trivial⟩
    | map l => exact ⟨hn h.1 e, trivial⟩
    | bool b =>
      rw [lnV] at e
      have e := (hp e).2
      have e := congrArg List.head? e
      rw [List.head?_cons] at e
      clear hp hn
      rcases ho with rfl | rfl | rfl <;> cases b <;> exact absurd e (by decide)
    | num n =>
      rw [lnV] at e
      have e := (hp e).2
      obtain ⟨c, r, h1, -, h3⟩ := disp_facts n
      rw [h1] at e
      cases e
      rcases ho with rfl | rfl | rfl
      · exact absurd rfl h3.2.1
      · exact absurd rfl h3.2.2.1
      · exact absurd rfl h3.2.2.2.1
    | str s =>
      have h : Ordinary (.mk id (.str s)) := h
      obtain ⟨l, hl⟩ := delimitable h.2.1
      rw [lnV, hl] at e
      have e := (hp e).2
      obtain ⟨c, r, h1, hc⟩ := strLit_head hl
      rw [Option.getD_some, h1] at e
      cases e
      rcases ho with rfl | rfl | rfl <;> rcases hc with hc | hc <;> exact absurd hc (by decide)
    | barr b =>
      rw [lnV] at e
      have e := (hp e).2
      have e : some 'b' = some o := congrArg List.head? e
      rcases ho with rfl | rfl | rfl <;> exact absurd e (by decide)

theorem none_open {nl : Str} (hn : White nl) {y : Str} (hs : ∀ d z, y = d :: z → d ∉ str " \t\r\n") (ho : ∀ o z, y = o :: z → ¬ (o = '(' ∨ o = '[' ∨ o = '{')) : NoneOpen (nl ++ y) := by
  intro w b z hw hb e
  obtain ⟨-, e2⟩ := white_span hn hw hs (by
    intro d z e; cases e
    rcases hb with rfl | rfl | rfl <;> decide) e
  exact ho b z e2 hb

theorem next_follows {t : Laid} {r : LaidL} (hw : r.WF) (hr : AllL Ordinary r.kserds) {close : Char} (hc : close ∈ str ")]") {fin rest : Str} (hfin : IsNl fin)
    (ha : ∀ b r', r.kserds = b :: r' → Apart t.kserd b) : Follows t.kserd (r.text ++ (fin ++ close :: rest)) := by
  constructor
  · obtain ⟨z, e⟩ := Ls.newline hw hfin (close :: rest)
    rw [e]; intro d z e; cases e; decide
  · intro hb
    cases r with
    | nil =>
      rw [LaidL.text, List.nil_append]
      have : ∀ c ∈ str ")]", c ∈ str ",:)]}=" ∧ ¬ (c = '(' ∨ c = '[' ∨ c = '{') := by decide
      refine none_open (nl_white hfin) (closer_noWhite (this _ hc).1 _) ?_
      intro o z e; cases e; exact (this _ hc).2
    | cons nl y r =>
      rw [LaidL.kserds, AllL] at hr
      rw [LaidL.WF] at hw
      have hst := laid_starts (all_self hr.1)
      rw [LaidL.text, List.append_assoc]
      refine none_open (nl_white hw.1) ?_ ?_
      · exact ((hst.append _).append _).noWhite
      · intro o z e ho
        obtain ⟨c, x, e1, -⟩ := hst
        have : c = o := by rw [e1] at e; cases e; rfl
        subst this
        exact ha y.kserd r.kserds (by rw [LaidL.kserds]) hb (text_opens (all_self hr.1) e1 ho)

theorem next_followsM {t : Laid} {r : LaidM} (hw : r.WF) (hr : AllM Ordinary r.pairs) {fin rest : Str} (hfin : IsNl fin)
    (ha : ∀ b r', r.pairs = b :: r' → Apart t.kserd b.1) : Follows t.kserd (r.text ++ (fin ++ '}' :: rest)) := by
  constructor
  · obtain ⟨z, e⟩ := Ms.newline hw hfin ('}' :: rest)
    rw [e]; intro d z e; cases e; decide
  · intro hb
    cases r with
    | nil =>
      rw [LaidM.text, List.nil_append]
      refine none_open (nl_white hfin) (closer_noWhite (by decide) _) ?_
      intro o z e; cases e; decide
    | cons nl y v r =>
      rw [LaidM.pairs, AllM] at hr
      rw [LaidM.WF] at hw
      have hst := laid_starts (all_self hr.1)
      rw [LaidM.text, List.append_assoc]
      refine none_open (nl_white hw.1) ?_ ?_
      · exact ((hst.append _).append _).noWhite
      · intro o z e ho
        obtain ⟨c, x, e1, -⟩ := hst
        have : c = o := by rw [e1] at e; cases e; rfl
        subst this
        exact ha (y.kserd, v.kserd) r.pairs (by rw [LaidM.pairs]) hb (text_opens (all_self hr.1) e1 ho)

theorem next_followsF {k : Kserd} {n : Str} {r : LaidF} (hw : r.WF) (hn : ∀ p ∈ (n, k) :: r.fields, ∀ c ∈ p.1, NameChar c) {fin rest : Str} (hfin : IsNl fin) :
    Follows k (r.text ++ (fin ++ ')' :: rest)) := by
  constructor
  · obtain ⟨z, e⟩ := Fs.newline hw hfin (')' :: rest)
    rw [e]; intro d z e; cases e; decide
  · intro hb
    cases r with
    | nil =>
      rw [LaidF.text, List.nil_append]
      refine none_open (nl_white hfin) (closer_noWhite (by decide) _) ?_
      intro o z e; cases e; decide
    | cons nl m t r =>
      rw [LaidF.WF] at hw
      rw [LaidF.fields] at hn
      have hm := hn (m, t.kserd) (by simp)
      rw [LaidF.text, List.append_assoc]
      intro w b z hw' hb' e
      cases m with
      | nil =>
        have e : (nl ++ [' ']) ++ '=' :: (' ' :: (t.text ++ r.text) ++ (fin ++ ')' :: rest)) = w ++ b :: z := by rw [← e]; simp
        obtain ⟨-, e2⟩ := white_span (GR.white_append (nl_white hw.1) (by intro c hc; simp at hc; simp [hc])) hw' (by intro d z e; cases e; decide) (by
          intro d z e; cases e
          rcases hb' with rfl | rfl | rfl <;> decide) e
        cases e2
        rcases hb' with h | h | h <;> exact absurd h (by decide)
      | cons c m =>
        have hc := hm c List.mem_cons_self
        obtain ⟨-, e2⟩ := white_span (nl_white hw.1) hw' (by
          intro d z e; cases e
          exact fun hm => (EX.name_not hc).2.2 (by
            have : ∀ c ∈ str " \t\r\n", c ∈ str " \t\r\n([{" := by decide
            exact this _ hm)) (by
          intro d z e; cases e
          rcases hb' with rfl | rfl | rfl <;> decide) e
        cases e2
        rw [← PG.isNameChar_iff] at hc
        rcases hb' with rfl | rfl | rfl <;> exact absurd hc (by decide)

theorem name_lead {nl : Str} (h : IsNl nl) (n : Str) : ∃ p m, Lead p ∧ Blanks m ∧ (n = [] → m = []) ∧ p ++ (n ++ m) = nl ++ (n ++ [' ']) := by
  cases n with
  | nil =>
    refine ⟨nl ++ [' '], [], ⟨GR.white_append (nl_white h) (by intro c hc; simp at hc; simp [hc]), List.mem_append_left _ (nl_lead h).2⟩, blanks_nil, fun _ => rfl, by simp⟩
  | cons c n => exact ⟨nl, [' '], nl_lead h, one_blank, fun h => (by cases h), rfl⟩

theorem join {a b c d : Str} (h : a ++ b = c ++ d) (x : Str) : a ++ (b ++ x) = c ++ (d ++ x) := by
  rw [← List.append_assoc, h, List.append_assoc]

mutual
theorem laid_tree (t : Laid) (hw : t.WF) (hk : All Ordinary t.kserd) (hl : All Legible t.kserd) (hs : t.Sep) :
    ∃ T : Tree, T.text = t.text ∧ ∀ rest, Follows t.kserd rest → T.Reads false rest := by
  match t with
  | .line k =>
    obtain ⟨T, h1, h2⟩ := node_tree k hk hl
    exact ⟨T, h1, h2 false⟩
  | .tuple id l fin =>
    rw [Laid.WF] at hw
    rw [Laid.kserd] at hk hl ⊢
    have hi : NameOk id := fun i hi => (all_self hk).1 i hi
    rw [All, AllV] at hk hl
    rw [Laid.Sep] at hs
    obtain ⟨lead, b, h1, h2, h3, h4⟩ := list_tree l hw.2.2 hk.2 hl.2 hs.2 (chain_iff.mpr hs.1) hw.1
    obtain ⟨w, g1, g2, g3⟩ := nid_plain id blanks_nil
    refine ⟨.tuple id w true lead b, by rw [Tree.text, Laid.text, g3, join h1], fun rest hr => ?_⟩
    rw [Tree.Reads]
    refine ⟨hi, g1, g2, hl.1, h2, fun _ => rfl, fun _ _ => rfl, ?_, h4 ')' (by decide) rest⟩
    cases l with
    | nil => rw [LaidL.kserds] at hw; exact absurd rfl hw.2.1
    | cons nl x r =>
      have hw' := hw.2.2
      rw [LaidL.WF] at hw'
      rw [LaidL.kserds, AllL] at hk
      rw [← List.append_assoc, h1]
      obtain ⟨z, hz⟩ := Ls.newline hw'.2.2 hw.1 [')']
      have := line_noAssign hw'.2.1 hk.2.1 (nl_white hw'.1) z
      rw [← hz] at this
      rw [LaidL.text]
      simpa using this
  | .seq id l fin =>
    rw [Laid.WF] at hw
    rw [Laid.kserd] at hk hl ⊢
    have hi : NameOk id := fun i hi => (all_self hk).1 i hi
    rw [All, AllV] at hk hl
    rw [Laid.Sep] at hs
    obtain ⟨lead, b, h1, h2, h3, h4⟩ := list_tree l hw.2.2 hk.2 hl.2 hs.2 (chain_iff.mpr hs.1) hw.1
    obtain ⟨w, g1, g2, g3⟩ := nid_plain id one_blank
    refine ⟨.seq id w true lead b, by rw [Tree.text, Laid.text, g3, join h1], fun rest hr => ?_⟩
    rw [Tree.Reads]
    exact ⟨hi, g1, g2, hl.1, h2, fun _ => rfl, h4 ']' (by decide) rest⟩
  | .cntr id l fin =>
    rw [Laid.WF] at hw
    rw [Laid.kserd] at hk hl ⊢
    have hi : NameOk id := fun i hi => (all_self hk).1 i hi
    have hn := (all_self hk).2.1
    rw [All, AllV] at hk hl
    rw [Laid.Sep] at hs
    obtain ⟨lead, b, h1, h2, h3, h4⟩ := fields_tree' l hw.2.2 hk.2 hl.2 hs.2 hn hw.1
    obtain ⟨w, g1, g2, g3⟩ := nid_plain id one_blank
    refine ⟨.cntr id w true lead b, by rw [Tree.text, Laid.text, g3, join h1], fun rest hr => ?_⟩
    rw [Tree.Reads]
    refine ⟨hi, g1, g2, hl.1, h2, fun _ => rfl, ?_, h4 rest⟩
    rw [h3]
    cases e : l.fields with
    | nil => exact absurd e hw.2.1
    | cons _ _ => rfl
  | .map id l fin =>
    rw [Laid.WF] at hw
    rw [Laid.kserd] at hk hl ⊢
    have hi : NameOk id := fun i hi => (all_self hk).1 i hi
    rw [All, AllV] at hk hl
    rw [Laid.Sep] at hs
    obtain ⟨lead, b, h1, h2, h3, h4⟩ := pairs_tree' l hw.2.2 hk.2 hl.2 hs.2 (chain_iff.mpr hs.1) hw.1
    obtain ⟨w, g1, g2, g3⟩ := nid_plain id one_blank
    refine ⟨.map id w true lead b, by rw [Tree.text, Laid.text, g3, join h1], fun rest hr => ?_⟩
    rw [Tree.Reads]
    exact ⟨hi, g1, g2, hl.1, h2, fun _ => rfl, h4 rest⟩
termination_by structural t
theorem list_tree (l : LaidL) (hw : l.WF) (hk : AllL Ordinary l.kserds) (hl : AllL Legible l.kserds) (hs : l.Sep) (hch : Chain Apart l.kserds) {fin : Str} (hfin : IsNl fin) :
    ∃ lead, ∃ b : Elems, lead ++ b.text true = l.text ++ fin ∧ Lead lead ∧ b.isNil = l.kserds.isEmpty ∧ ∀ close, close ∈ str ")]" → ∀ rest, b.Reads true (close :: rest) := by
  match l with
  | .nil => exact ⟨fin, .nil, by rw [Elems.text, LaidL.text]; simp, nl_lead hfin, rfl, fun _ _ _ => by rw [Elems.Reads]; trivial⟩
  | .cons nl x r =>
    rw [LaidL.WF] at hw
    rw [LaidL.kserds] at hch
    rw [LaidL.kserds, AllL] at hk hl
    rw [LaidL.Sep] at hs
    obtain ⟨T, h1, h2⟩ := laid_tree x hw.2.1 hk.1 hl.1 hs.1
    obtain ⟨lead, R, g1, g2, g3, g4⟩ := list_tree r hw.2.2 hk.2 hl.2 hs.2 hch.2 hfin
    refine ⟨nl, .cons [] T lead R, ?_, nl_lead hw.1, rfl, fun close hc rest => ?_⟩
    · rw [Elems.text, LaidL.text, h1]
      simp [comma, g1]
    · rw [Elems.Reads]
      refine ⟨rfl, h2 _ ?_, ⟨g2.1, g2.ne⟩, g4 close hc rest⟩
      have e : lead ++ (comma true R.isNil ++ (R.text true ++ close :: rest)) = r.text ++ (fin ++ close :: rest) := by
        rw [← List.append_assoc, ← List.append_assoc, ← List.append_assoc, ← g1]; simp [comma]
      rw [e]
      exact next_follows hw.2.2 hk.2 hc hfin hch.1
termination_by structural l
theorem fields_tree' (l : LaidF) (hw : l.WF) (hk : AllF Ordinary l.fields) (hl : AllF Legible l.fields) (hs : l.Sep) (hn : ∀ p ∈ l.fields, ∀ c ∈ p.1, NameChar c)
    {fin : Str} (hfin : IsNl fin) :
    ∃ lead, ∃ b : Assigns, lead ++ b.text true = l.text ++ fin ∧ Lead lead ∧ b.isNil = l.fields.isEmpty ∧ ∀ rest, b.Reads true (')' :: rest) := by
  match l with
  | .nil => exact ⟨fin, .nil, by rw [Assigns.text, LaidF.text]; simp, nl_lead hfin, rfl, fun _ => by rw [Assigns.Reads]; trivial⟩
  | .cons nl n x r =>
    rw [LaidF.WF] at hw
    rw [LaidF.fields] at hn
    rw [LaidF.fields, AllF] at hk hl
    rw [LaidF.Sep] at hs
    obtain ⟨T, h1, h2⟩ := laid_tree x hw.2.1 hk.1 hl.1 hs.1
    obtain ⟨lead, R, g1, g2, g3, g4⟩ := fields_tree' r hw.2.2 hk.2 hl.2 hs.2 (fun p hp => hn p (List.mem_cons_of_mem _ hp)) hfin
    obtain ⟨p, m, f1, f2, f3, f4⟩ := name_lead hw.1 n
    refine ⟨p, .cons [] n m [' '] T lead R, ?_, f1, rfl, fun rest => ?_⟩
    · rw [Assigns.text, LaidF.text, h1]
      have : p ++ ([] ++ (n ++ (m ++ '=' :: ([' '] ++ (x.text ++ (lead ++ (comma true R.isNil ++ R.text true))))))) =
        (p ++ (n ++ m)) ++ '=' :: ([' '] ++ (x.text ++ (lead ++ R.text true))) := by simp [comma]
      rw [this, f4, g1]; simp
    · rw [Assigns.Reads]
      refine ⟨rfl, hn (n, x.kserd) List.mem_cons_self, f3, f2, one_blank, h2 _ ?_, ⟨g2.1, g2.ne⟩, g4 rest⟩
      have e : lead ++ (comma true R.isNil ++ (R.text true ++ ')' :: rest)) = r.text ++ (fin ++ ')' :: rest) := by
        rw [← List.append_assoc, ← List.append_assoc, ← List.append_assoc, ← g1]; simp [comma]
      rw [e]
      exact next_followsF hw.2.2 hn hfin
termination_by structural l
theorem pairs_tree' (l : LaidM) (hw : l.WF) (hk : AllM Ordinary l.pairs) (hl : AllM Legible l.pairs) (hs : l.Sep)
    (hch : Chain (fun a b => Apart a.2 b.1) l.pairs) {fin : Str} (hfin : IsNl fin) :
    ∃ lead, ∃ b : Pairs, lead ++ b.text true = l.text ++ fin ∧ Lead lead ∧ b.isNil = l.pairs.isEmpty ∧ ∀ rest, b.Reads true ('}' :: rest) := by
  match l with
  | .nil => exact ⟨fin, .nil, by rw [Pairs.text, LaidM.text]; simp, nl_lead hfin, rfl, fun _ => by rw [Pairs.Reads]; trivial⟩
  | .cons nl x y r =>
    rw [LaidM.WF] at hw
    rw [LaidM.pairs] at hch
    rw [LaidM.pairs, AllM] at hk hl
    rw [LaidM.Sep] at hs
    obtain ⟨T, h1, h2⟩ := laid_tree x hw.2.1 hk.1 hl.1 hs.1
    obtain ⟨V, h1', h2'⟩ := laid_tree y hw.2.2.1 hk.2.1 hl.2.1 hs.2.1
    obtain ⟨lead, R, g1, g2, g3, g4⟩ := pairs_tree' r hw.2.2.2 hk.2.2 hl.2.2 hs.2.2 hch.2 hfin
    refine ⟨nl, .cons [] T [] [' '] V lead R, ?_, nl_lead hw.1, rfl, fun rest => ?_⟩
    · rw [Pairs.text, LaidM.text, h1, h1']
      simp [comma, g1]
    · rw [Pairs.Reads]
      refine ⟨rfl, h2 _ ((stopped_cons (by decide) _).follows _), blanks_nil, one_blank, h2' _ ?_, ⟨g2.1, g2.ne⟩, g4 rest⟩
      have e : lead ++ (comma true R.isNil ++ (R.text true ++ '}' :: rest)) = r.text ++ (fin ++ '}' :: rest) := by
        rw [← List.append_assoc, ← List.append_assoc, ← List.append_assoc, ← g1]; simp [comma]
      rw [e]
      exact next_followsM hw.2.2.2 hk.2.2 hfin hch.1
termination_by structural l
end

/-! ## The whole text -/

/-- A text of several lines is not taken for the lines of a container. -/
theorem laid_ahead {t : Laid} (hw : t.WF) (h : All Ordinary t.kserd) : LinesAhead t.text ↔ ∃ k, t = .line k ∧ ¬ NoHeading k := by
  have hs := laid_starts (all_self h)
  have main : ∀ (id : Option Str) (sp : Str) (o : Char) (z : Str), t.text = nid sp id ++ o :: '\n' :: z → (∀ i, id = some i → ValidName i) → o ∈ str "([{" → ¬ LinesAhead t.text := by
    rintro id sp o z e hi ho (ha | ⟨w, y, e2, hw2, hy⟩)
    · rcases laid_safe hw h with hn | hn
      · obtain ⟨w, n, z, e, -⟩ := ha
        rw [e] at hn; simp at hn
      · exact EX.not_assign (w := []) (by intro c hc; cases hc) hs.noWhite hn ha
    · obtain rfl := white_none hw2 hs e2
      rw [List.nil_append] at e2
      rw [← e2] at hy
      have key : ∀ y, t.text = '[' :: y → y = '\n' :: z := by
        intro y ey
        rw [e] at ey
        cases id with
        | none => rw [nid, List.nil_append] at ey; cases ey; rfl
        | some i =>
          exfalso
          obtain ⟨d, r, hs, -⟩ := hi i rfl
          have hc := EX.name_chars (hi i rfl)
          rw [hs] at hc
          rw [nid, hs] at ey
          cases ey
          have hc := hc '[' List.mem_cons_self
          rw [← PG.isNameChar_iff] at hc
          exact absurd hc (by decide)
      rcases hy with ⟨z, e⟩ | ⟨z, e⟩ | ⟨a, n, b, z, e, ha, hn, hb⟩
      · obtain ⟨c, r, e1, hc⟩ := hs
        rw [e] at e1; cases e1
        exact absurd (by decide) hc
      · have := key _ e
        exact absurd (show some '[' = some '\n' from congrArg List.head? this) (by decide)
      · have := key _ e
        cases a with
        | nil =>
          have hn' := EX.name_chars hn
          obtain ⟨c, r, e1, -⟩ := hn
          have hc := hn' c (by rw [e1]; exact List.mem_cons_self)
          rw [e1] at this
          cases this
          rw [← PG.isNameChar_iff] at hc
          exact absurd hc (by decide)
        | cons c a =>
          cases this
          rcases ha '\n' List.mem_cons_self with h | h <;> cases h
  have h0 := all_self h
  cases t with
  | line k =>
    rw [Laid.text, lines_ahead (k := k) h]
    exact ⟨fun h => ⟨k, rfl, h⟩, fun ⟨_, e, h⟩ => by cases e; exact h⟩
  | tuple id l fin =>
    rw [Laid.WF] at hw
    obtain ⟨z, hz⟩ := Ls.newline hw.2.2 hw.1 [')']
    exact ⟨fun hl => absurd hl (main id [] '(' z (by rw [Laid.text, hz]) h0.1 (by decide)), fun ⟨_, e, _⟩ => by cases e⟩
  | seq id l fin =>
    rw [Laid.WF] at hw
    obtain ⟨z, hz⟩ := Ls.newline hw.2.2 hw.1 [']']
    exact ⟨fun hl => absurd hl (main id [' '] '[' z (by rw [Laid.text, hz]) h0.1 (by decide)), fun ⟨_, e, _⟩ => by cases e⟩
  | cntr id l fin =>
    rw [Laid.WF] at hw
    obtain ⟨z, hz⟩ := Fs.newline hw.2.2 hw.1 [')']
    exact ⟨fun hl => absurd hl (main id [' '] '(' z (by rw [Laid.text, hz]) h0.1 (by decide)), fun ⟨_, e, _⟩ => by cases e⟩
  | map id l fin =>
    rw [Laid.WF] at hw
    obtain ⟨z, hz⟩ := Ms.newline hw.2.2 hw.1 ['}']
    exact ⟨fun hl => absurd hl (main id [' '] '{' z (by rw [Laid.text, hz]) h0.1 (by decide)), fun ⟨_, e, _⟩ => by cases e⟩

end KS.Cc
