import Verif.Lemmas.Laid
/-!
# Kserds laid out over several lines: only what was written is read
-/

namespace KS.Cc
open KS.Spec KS.RT KS.Inl

abbrev Whole (k : Kserd) : Prop := ¬ Splits k

theorem tree_noWhite {T : Tree} {inl : Bool} {r : Str} (h : T.Reads inl r) (x : Str) : ∀ d z, T.text ++ x = d :: z → d ∉ str " \t\r\n" :=
  ((tree_starts h).append x).noWhite

/-- The name of a field on a line of its own. -/
theorem field_split' {u v name n mid y z : Str} (hu : White u) (hv : White v) (hname : ∀ c ∈ name, NameChar c) (hn : ∀ c ∈ n, NameChar c)
    (hm : name = [] → mid = []) (hmid : Blanks mid) (e : u ++ (name ++ (mid ++ '=' :: y)) = v ++ (n ++ (' ' :: '=' :: z))) : name = n ∧ y = z := by
  have noEq : ∀ {w : Str}, White w → '=' ∉ w := fun h hm => by rcases h _ hm with h | h | h | h <;> revert h <;> decide
  have e1 : (u ++ (name ++ mid)) ++ '=' :: y = (v ++ (n ++ [' '])) ++ '=' :: z := by simpa using e
  obtain ⟨h1, h2⟩ := Dbg.split_at (by
    simp only [List.mem_append, not_or]
    exact ⟨noEq hu, name_noEq hname, blank_noEq hmid⟩) (by
    simp only [List.mem_append, not_or]
    exact ⟨noEq hv, name_noEq hn, by decide⟩) e1
  refine ⟨?_, h2⟩
  have nw : ∀ {c : Char}, NameChar c → ¬ WhiteC c := fun hc => start_white (name_start hc)
  cases name with
  | nil =>
    rw [hm rfl] at h1
    simp only [List.append_nil] at h1
    cases n with
    | nil => rfl
    | cons c n => exact absurd (hu c (by rw [h1]; simp)) (nw (hn c List.mem_cons_self))
  | cons c name =>
    cases n with
    | nil =>
      refine absurd (?_ : WhiteC c) (nw (hname c List.mem_cons_self))
      have : c ∈ v ++ ([] ++ [' ']) := by rw [← h1]; simp
      simp only [List.nil_append, List.mem_append, List.mem_singleton] at this
      rcases this with h | h
      · exact hv c h
      · exact .inl h
    | cons d n =>
      obtain ⟨-, h3⟩ := span (P := WhiteC) hu hv (by
        intro x r e; cases e; exact nw (hname _ List.mem_cons_self)) (by
        intro x r e; cases e; exact nw (hn _ List.mem_cons_self)) h1
      refine (span hname hn ?_ ?_ h3).1
      · intro x r e hx
        have : x ∈ mid := by rw [e]; exact List.mem_cons_self
        exact (EX.name_not hx).2.2 (by rcases hmid x this with rfl | rfl <;> decide)
      · intro x r e hx
        cases e
        exact (EX.name_not hx).2.2 (by decide)

theorem apart_of {t : Laid} {r : LaidL} (hw : r.WF) {x : Str} (h : Bare t.kserd → NoneOpen (r.text ++ x)) : ∀ b r', r.kserds = b :: r' → Apart t.kserd b := by
  intro b r' e hb ho
  cases r with
  | nil => rw [LaidL.kserds] at e; cases e
  | cons nl y r =>
    rw [LaidL.kserds] at e
    cases e
    rw [LaidL.WF] at hw
    obtain ⟨o, z, e, ho⟩ := opens_text ho
    refine h hb nl o (z ++ r.text ++ x) (nl_white hw.1) ho ?_
    rw [LaidL.text, e]; simp

theorem apart_ofM {t : Laid} {r : LaidM} (hw : r.WF) {x : Str} (h : Bare t.kserd → NoneOpen (r.text ++ x)) : ∀ b r', r.pairs = b :: r' → Apart t.kserd b.1 := by
  intro b r' e hb ho
  cases r with
  | nil => rw [LaidM.pairs] at e; cases e
  | cons nl y v r =>
    rw [LaidM.pairs] at e
    cases e
    rw [LaidM.WF] at hw
    obtain ⟨o, z, e, ho⟩ := opens_text ho
    refine h hb nl o (z ++ (':' :: ' ' :: (v.text ++ r.text)) ++ x) (nl_white hw.1) ho ?_
    rw [LaidM.text, e]; simp

mutual
theorem node_laid (t : Laid) (hw : t.WF) (hk : All Ordinary t.kserd) (hsp : All Whole t.kserd) {T : Tree} {inl : Bool} {rest rest' : Str} (hT : T.Reads inl rest)
    (hs : Ends rest) (hs' : Cut rest') (e : T.text ++ rest = t.text ++ rest') :
    rest = rest' ∧ All Legible t.kserd ∧ t.Sep ∧ ∀ k', T.Means k' → ReadAs t.kserd k' := by
  match t with
  | .line k =>
    obtain ⟨h1, h2, h3⟩ := node_same k hk hT (.inr ⟨hs, all_self hsp⟩) hs' e
    exact ⟨h1, h2, by rw [Laid.Sep]; trivial, h3⟩
  | .tuple id l fin =>
    rw [Laid.WF] at hw
    rw [Laid.kserd] at hk hsp ⊢
    have hi : NameOk id := fun i hi => (all_self hk).1 i hi
    rw [All, AllV] at hk hsp
    have e : T.text ++ rest = nid [] id ++ '(' :: (l.text ++ (fin ++ ')' :: rest')) := by rw [e, Laid.text]; simp
    obtain ⟨z, hz⟩ := Ls.newline hw.2.2 hw.1 (')' :: rest')
    obtain ⟨hnb, hsh⟩ := shape hi hT (.inr ⟨hs, .inl rfl⟩) blanks_nil (o := '(') (by decide) e
    rcases hsh with ⟨-, rfl, w, rfl, ee⟩ | ⟨-, w, c, lead, b, rfl, ee⟩ | ⟨-, w, c, lead, b, rfl, ee⟩ | ⟨h, -⟩ | ⟨h, -⟩
    · rw [hz] at ee
      exact absurd ee ((closer_level (c := ')') (by decide) rest).blanks hT.2.2.2.1).ne
    · obtain ⟨h1, h2, h3, h4, h5, h6, h7, h8, h9⟩ := hT
      obtain ⟨rfl, hb⟩ := lead_true h5 (fun hc => by subst hc; exact elems_level (by decide) h9) (ee.trans hz)
      obtain ⟨g1, g2, g3, g4, g5⟩ := list_laid l hw.2.2 hk.2 hsp.2 (by decide) hb hw.1 h9 ee
      refine ⟨g1, by rw [All, AllV]; exact ⟨hnb, g2⟩, by rw [Laid.Sep]; exact ⟨chain_iff.mp g4, g3⟩, fun k' hk' => ?_⟩
      rw [Tree.Means] at hk'
      obtain ⟨l', hl', rfl⟩ := hk'
      rw [ReadAs, ReadAsV]
      exact ⟨l', g5 l' hl', by rw [if_neg hw.2.1]⟩
    · exfalso
      obtain ⟨h1, h2, h3, h4, h5, h6, h7, h9⟩ := hT
      obtain ⟨rfl, hb⟩ := lead_true h5 (fun hc => by subst hc; exact assigns_level h9) (ee.trans hz)
      cases b with
      | nil => cases h7
      | cons pre name mid gap t post r' =>
        rw [Assigns.Reads] at h9
        obtain ⟨f1, f2, f3, f4, -⟩ := h9
        obtain rfl : pre = [] := f1
        cases l with
        | nil => rw [LaidL.kserds] at hw; exact hw.2.1 rfl
        | cons nl y r =>
          have hw' := hw.2.2
          rw [LaidL.WF] at hw'
          obtain ⟨z', hz'⟩ := Ls.newline hw'.2.2 hw.1 (')' :: rest')
          rw [LaidL.kserds, AllL] at hk
          refine absurd ?_ (line_noAssign hw'.2.1 hk.2.1 (nl_white hw'.1) z')
          have e3 : nl ++ (y.text ++ '\n' :: z') = lead ++ (name ++ (mid ++ '=' :: (gap ++ (t.text ++ (post ++ (comma true r'.isNil ++ r'.text true))) ++ ')' :: rest))) := by
            rw [← hz']
            have := ee
            rw [LaidL.text, Assigns.text] at this
            simpa using this.symm
          rw [e3]
          exact field_assign' hb f2 f4
    · cases h
    · cases h
  | .seq id l fin =>
    rw [Laid.WF] at hw
    rw [Laid.kserd] at hk hsp ⊢
    have hi : NameOk id := fun i hi => (all_self hk).1 i hi
    have hsi := splits_id (all_self hsp) rfl
    rw [All, AllV] at hk hsp
    have e : T.text ++ rest = nid [' '] id ++ '[' :: (l.text ++ (fin ++ ']' :: rest')) := by rw [e, Laid.text]; simp
    obtain ⟨z, hz⟩ := Ls.newline hw.2.2 hw.1 (']' :: rest')
    obtain ⟨hnb, hsh⟩ := shape hi hT (.inr ⟨hs, .inr hsi⟩) one_blank (o := '[') (by decide) e
    rcases hsh with ⟨h, -⟩ | ⟨h, -⟩ | ⟨h, -⟩ | ⟨-, w, c, lead, b, rfl, ee⟩ | ⟨h, -⟩
    · cases h
    · cases h
    · cases h
    · obtain ⟨h1, h2, h3, h4, h5, h6, h9⟩ := hT
      obtain ⟨rfl, hb⟩ := lead_true h5 (fun hc => by subst hc; exact elems_level (by decide) h9) (ee.trans hz)
      obtain ⟨g1, g2, g3, g4, g5⟩ := list_laid l hw.2.2 hk.2 hsp.2 (by decide) hb hw.1 h9 ee
      refine ⟨g1, by rw [All, AllV]; exact ⟨hnb, g2⟩, by rw [Laid.Sep]; exact ⟨chain_iff.mp g4, g3⟩, fun k' hk' => ?_⟩
      rw [Tree.Means] at hk'
      obtain ⟨l', hl', rfl⟩ := hk'
      rw [ReadAs, ReadAsV]
      exact ⟨l', g5 l' hl', rfl⟩
    · cases h
  | .cntr id l fin =>
    rw [Laid.WF] at hw
    rw [Laid.kserd] at hk hsp ⊢
    have hi : NameOk id := fun i hi => (all_self hk).1 i hi
    have hsi := splits_id (all_self hsp) rfl
    have hkf := (all_self hk).2
    rw [All, AllV] at hk hsp
    have e : T.text ++ rest = nid [' '] id ++ '(' :: (l.text ++ (fin ++ ')' :: rest')) := by rw [e, Laid.text]; simp
    obtain ⟨z, hz⟩ := Fs.newline hw.2.2 hw.1 (')' :: rest')
    obtain ⟨hnb, hsh⟩ := shape hi hT (.inr ⟨hs, .inr hsi⟩) one_blank (o := '(') (by decide) e
    rcases hsh with ⟨-, rfl, w, rfl, ee⟩ | ⟨-, w, c, lead, b, rfl, ee⟩ | ⟨-, w, c, lead, b, rfl, ee⟩ | ⟨h, -⟩ | ⟨h, -⟩
    · rw [hz] at ee
      exact absurd ee ((closer_level (c := ')') (by decide) rest).blanks hT.2.2.2.1).ne
    · exfalso
      obtain ⟨h1, h2, h3, h4, h5, h6, h7, h8, h9⟩ := hT
      apply h8
      cases l with
      | nil => rw [LaidF.fields] at hw; exact absurd rfl hw.2.1
      | cons nl n y r =>
        have hw' := hw.2.2
        rw [LaidF.WF] at hw'
        have hn : ∀ c ∈ n, NameChar c := hkf.1 (n, y.kserd) (by rw [LaidF.fields]; exact List.mem_cons_self)
        have hpn : ')' ∉ nl ++ (n ++ [' ']) := by
          simp only [List.mem_append, not_or]
          refine ⟨fun hm => ?_, fun hm => ?_, by decide⟩
          · rcases nl_white hw'.1 _ hm with h | h | h | h <;> cases h
          · have := hn _ hm
            rw [← PG.isNameChar_iff] at this
            revert this; decide
        have e2 : (lead ++ b.text c) ++ ')' :: rest = (nl ++ (n ++ [' '])) ++ '=' :: (' ' :: (y.text ++ (r.text ++ (fin ++ ')' :: rest')))) := by
          rw [List.append_assoc, ee, LaidF.text]; simp
        obtain ⟨z', hz⟩ := cut_paren hpn e2
        rw [← List.append_assoc, hz]
        have := field_assign' (u := nl) (y := z') (nl_white hw'.1) hn one_blank
        simpa using this
    · obtain ⟨h1, h2, h3, h4, h5, h6, h7, h9⟩ := hT
      obtain ⟨rfl, hb⟩ := lead_true h5 (fun hc => by subst hc; exact assigns_level h9) (ee.trans hz)
      obtain ⟨g1, g2, g3, g5⟩ := fields_laid l hw.2.2 hk.2 hsp.2 hkf.1 hb hw.1 h9 ee
      refine ⟨g1, by rw [All, AllV]; exact ⟨hnb, g2⟩, by rw [Laid.Sep]; exact ⟨trivial, g3⟩, fun k' hk' => ?_⟩
      rw [Tree.Means] at hk'
      obtain ⟨l', f', hl', hf', rfl⟩ := hk'
      have hr := g5 l' hl'
      have := GR.fieldsOf_unique hf' (EX.fieldsOf_self (ascending_names hkf.2 (readAsF_names hr)))
      subst this
      rw [ReadAs, ReadAsV]
      exact ⟨_, hr, by rw [if_neg hw.2.1]⟩
    · cases h
    · cases h
  | .map id l fin =>
    rw [Laid.WF] at hw
    rw [Laid.kserd] at hk hsp ⊢
    have hi : NameOk id := fun i hi => (all_self hk).1 i hi
    have hsi := splits_id (all_self hsp) rfl
    rw [All, AllV] at hk hsp
    have e : T.text ++ rest = nid [' '] id ++ '{' :: (l.text ++ (fin ++ '}' :: rest')) := by rw [e, Laid.text]; simp
    obtain ⟨z, hz⟩ := Ms.newline hw.2.2 hw.1 ('}' :: rest')
    obtain ⟨hnb, hsh⟩ := shape hi hT (.inr ⟨hs, .inr hsi⟩) one_blank (o := '{') (by decide) e
    rcases hsh with ⟨h, -⟩ | ⟨h, -⟩ | ⟨h, -⟩ | ⟨h, -⟩ | ⟨-, w, c, lead, b, rfl, ee⟩
    · cases h
    · cases h
    · cases h
    · cases h
    · obtain ⟨h1, h2, h3, h4, h5, h6, h9⟩ := hT
      obtain ⟨rfl, hb⟩ := lead_true h5 (fun hc => by subst hc; exact pairs_level h9) (ee.trans hz)
      obtain ⟨g1, g2, g3, g4, g5⟩ := pairs_laid l hw.2.2 hk.2 hsp.2 hb hw.1 h9 ee
      refine ⟨g1, by rw [All, AllV]; exact ⟨hnb, g2⟩, by rw [Laid.Sep]; exact ⟨chain_iff.mp g4, g3⟩, fun k' hk' => ?_⟩
      rw [Tree.Means] at hk'
      obtain ⟨l', m', hl', hm', rfl⟩ := hk'
      rw [ReadAs, ReadAsV]
      exact ⟨l', m', g5 l' hl', hm', rfl⟩
termination_by structural t
theorem list_laid (l : LaidL) (hw : l.WF) (hk : AllL Ordinary l.kserds) (hsp : AllL Whole l.kserds) {close : Char} (hc : close ∈ str ")]") {b : Elems}
    {lead fin rest rest' : Str} (hlead : White lead) (hfin : IsNl fin) (hb : b.Reads true (close :: rest))
    (e : lead ++ (b.text true ++ close :: rest) = l.text ++ (fin ++ close :: rest')) :
    rest = rest' ∧ AllL Legible l.kserds ∧ l.Sep ∧ Chain Apart l.kserds ∧ ∀ l', b.Means l' → ReadAsL l.kserds l' := by
  have hc' : close ∈ str ",:)]}=" := by
    have : ∀ c ∈ str ")]", c ∈ str ",:)]}=" := by decide
    exact this _ hc
  have hc2 : close ∈ str ",:)]}" := by
    have : ∀ c ∈ str ")]", c ∈ str ",:)]}" := by decide
    exact this _ hc
  match l with
  | .nil =>
    rw [LaidL.text, List.nil_append] at e
    rw [LaidL.kserds]
    cases b with
    | nil =>
      obtain ⟨-, e2⟩ := white_span hlead (nl_white hfin) (closer_noWhite hc' _) (closer_noWhite hc' _) e
      cases e2
      refine ⟨rfl, by rw [AllL]; trivial, by rw [LaidL.Sep]; trivial, trivial, fun l' h => ?_⟩
      rw [Elems.Means] at h; rw [ReadAsL]; exact h
    | cons pre t post R =>
      rw [Elems.Reads] at hb
      obtain rfl : pre = [] := hb.1
      rw [Elems.text, List.nil_append, List.append_assoc] at e
      obtain ⟨-, e2⟩ := white_span hlead (nl_white hfin) (tree_noWhite hb.2.1 _) (closer_noWhite hc' _) e
      exact absurd e2 (closer_not_starts hc2 ((tree_starts hb.2.1).append _))
  | .cons nl x r =>
    rw [LaidL.WF] at hw
    rw [LaidL.kserds, AllL] at hk hsp
    rw [LaidL.kserds]
    have hks := laid_starts (all_self hk.1)
    rw [LaidL.text] at e
    have e : lead ++ (b.text true ++ close :: rest) = nl ++ (x.text ++ (r.text ++ (fin ++ close :: rest'))) := by rw [e]; simp
    cases b with
    | nil =>
      obtain ⟨-, e2⟩ := white_span hlead (nl_white hw.1) (closer_noWhite hc' _) (hks.append _).noWhite e
      exact absurd e2.symm (closer_not_starts hc2 (hks.append _))
    | cons pre t post R =>
      rw [Elems.Reads] at hb
      obtain ⟨h1, h2, h3, h4⟩ := hb
      obtain rfl : pre = [] := h1
      have e : lead ++ (t.text ++ (post ++ (R.text true ++ close :: rest))) = nl ++ (x.text ++ (r.text ++ (fin ++ close :: rest'))) := by
        rw [← e, Elems.text]; simp [comma]
      obtain ⟨-, e2⟩ := white_span hlead (nl_white hw.1) (tree_noWhite h2 _) (hks.append _).noWhite e
      have h2 : t.Reads false (post ++ (R.text true ++ close :: rest)) := by simpa [comma] using h2
      have hcut : Cut (r.text ++ (fin ++ close :: rest')) := .inr (Ls.newline hw.2.2 hfin _)
      obtain ⟨e3, g1, g2, g3⟩ := node_laid x hw.2.1 hk.1 hsp.1 h2 (white_ends h3.1 h3.2 _) hcut e2
      have hbr := fun hb => bare_read (t := x) hb h2 hcut e2
      obtain ⟨i1, i2, i3, i4, i5⟩ := list_laid r hw.2.2 hk.2 hsp.2 hc h3.1 hfin h4 e3
      refine ⟨i1, by rw [AllL]; exact ⟨g1, i2⟩, by rw [LaidL.Sep]; exact ⟨g2, i3⟩, ⟨apart_of hw.2.2 hbr, i4⟩, fun l' h => ?_⟩
      rw [Elems.Means] at h
      obtain ⟨k', r', hk', hr', rfl⟩ := h
      rw [ReadAsL]
      exact ⟨k', r', g3 k' hk', i5 r' hr', rfl⟩
termination_by structural l
theorem fields_laid (l : LaidF) (hw : l.WF) (hk : AllF Ordinary l.fields) (hsp : AllF Whole l.fields) (hn : ∀ p ∈ l.fields, ∀ c ∈ p.1, NameChar c) {b : Assigns}
    {lead fin rest rest' : Str} (hlead : White lead) (hfin : IsNl fin) (hb : b.Reads true (')' :: rest))
    (e : lead ++ (b.text true ++ ')' :: rest) = l.text ++ (fin ++ ')' :: rest')) :
    rest = rest' ∧ AllF Legible l.fields ∧ l.Sep ∧ ∀ l', b.Means l' → ReadAsF l.fields l' := by
  have noEq : ∀ {w : Str}, White w → '=' ∉ w := fun h hm => by rcases h _ hm with h | h | h | h <;> revert h <;> decide
  have noPar : ∀ {w : Str}, White w → ')' ∉ w := fun h hm => by rcases h _ hm with h | h | h | h <;> revert h <;> decide
  have noParN : ∀ {w : Str}, (∀ c ∈ w, NameChar c) → ')' ∉ w := fun h hm => by
    have := h _ hm; rw [← PG.isNameChar_iff] at this; revert this; decide
  match l with
  | .nil =>
    rw [LaidF.text, List.nil_append] at e
    rw [LaidF.fields]
    cases b with
    | nil =>
      obtain ⟨-, e2⟩ := white_span hlead (nl_white hfin) (closer_noWhite (by decide) _) (closer_noWhite (by decide) _) e
      cases e2
      refine ⟨rfl, by rw [AllF]; trivial, by rw [LaidF.Sep]; trivial, fun l' h => ?_⟩
      rw [Assigns.Means] at h; rw [ReadAsF]; exact h
    | cons pre name mid gap t post R =>
      exfalso
      rw [Assigns.Reads] at hb
      obtain ⟨g1, g2, g3, g4, -⟩ := hb
      obtain rfl : pre = [] := g1
      rw [Assigns.text] at e
      have e : fin ++ ')' :: rest' = (lead ++ name ++ mid) ++ '=' :: (gap ++ (t.text ++ (post ++ (comma true R.isNil ++ R.text true))) ++ ')' :: rest) := by
        simpa using e.symm
      refine EX.stops_no e (noEq (nl_white hfin)) (by decide) fun hm => ?_
      simp only [List.mem_append] at hm
      rcases hm with (hm | hm) | hm
      · exact noPar hlead hm
      · exact noParN g2 hm
      · exact noPar (GR.white_of_blanks g4) hm
  | .cons nl n x r =>
    rw [LaidF.WF] at hw
    rw [LaidF.fields] at hk hsp hn ⊢
    rw [AllF] at hk hsp
    have hks := laid_starts (all_self hk.1)
    have hn1 : ∀ c ∈ n, NameChar c := hn (n, x.kserd) List.mem_cons_self
    rw [LaidF.text] at e
    have e : lead ++ (b.text true ++ ')' :: rest) = nl ++ (n ++ (' ' :: '=' :: (' ' :: (x.text ++ (r.text ++ (fin ++ ')' :: rest')))))) := by rw [e]; simp
    cases b with
    | nil =>
      exfalso
      rw [Assigns.text] at e
      have e : lead ++ ')' :: rest = (nl ++ (n ++ [' '])) ++ '=' :: (' ' :: (x.text ++ (r.text ++ (fin ++ ')' :: rest')))) := by simpa using e
      refine EX.stops_no e (noEq hlead) (by decide) fun hm => ?_
      simp only [List.mem_append] at hm
      rcases hm with hm | hm | hm
      · exact noPar (nl_white hw.1) hm
      · exact noParN hn1 hm
      · revert hm; decide
    | cons pre name mid gap t post R =>
      rw [Assigns.Reads] at hb
      obtain ⟨h1, f2, f3, f4, f5, h2, h3, h4⟩ := hb
      obtain rfl : pre = [] := h1
      have e : lead ++ (name ++ (mid ++ '=' :: (gap ++ (t.text ++ (post ++ (R.text true ++ ')' :: rest)))))) =
          nl ++ (n ++ (' ' :: '=' :: (' ' :: (x.text ++ (r.text ++ (fin ++ ')' :: rest')))))) := by
        rw [← e, Assigns.text]; simp [comma]
      obtain ⟨rfl, e1⟩ := field_split' hlead (nl_white hw.1) f2 hn1 f3 f4 e
      obtain ⟨-, e2⟩ := span (P := BlankC) (b := [' ']) f5 one_blank ((tree_starts h2).append _).noBlank (hks.append _).noBlank e1
      have h2 : t.Reads false (post ++ (R.text true ++ ')' :: rest)) := by simpa [comma] using h2
      have hcut : Cut (r.text ++ (fin ++ ')' :: rest')) := .inr (Fs.newline hw.2.2 hfin _)
      obtain ⟨e3, g1, g2, g3⟩ := node_laid x hw.2.1 hk.1 hsp.1 h2 (white_ends h3.1 h3.2 _) hcut e2
      obtain ⟨i1, i2, i3, i5⟩ := fields_laid r hw.2.2 hk.2 hsp.2 (fun p hp => hn p (List.mem_cons_of_mem _ hp)) h3.1 hfin h4 e3
      refine ⟨i1, by rw [AllF]; exact ⟨g1, i2⟩, by rw [LaidF.Sep]; exact ⟨g2, i3⟩, fun l' h => ?_⟩
      rw [Assigns.Means] at h
      obtain ⟨k', r', hk', hr', rfl⟩ := h
      rw [ReadAsF]
      exact ⟨k', r', g3 k' hk', i5 r' hr', rfl⟩
termination_by structural l
theorem pairs_laid (l : LaidM) (hw : l.WF) (hk : AllM Ordinary l.pairs) (hsp : AllM Whole l.pairs) {b : Pairs}
    {lead fin rest rest' : Str} (hlead : White lead) (hfin : IsNl fin) (hb : b.Reads true ('}' :: rest))
    (e : lead ++ (b.text true ++ '}' :: rest) = l.text ++ (fin ++ '}' :: rest')) :
    rest = rest' ∧ AllM Legible l.pairs ∧ l.Sep ∧ Chain (fun a b => Apart a.2 b.1) l.pairs ∧ ∀ l', b.Means l' → ReadAsM l.pairs l' := by
  match l with
  | .nil =>
    rw [LaidM.text, List.nil_append] at e
    rw [LaidM.pairs]
    cases b with
    | nil =>
      obtain ⟨-, e2⟩ := white_span hlead (nl_white hfin) (closer_noWhite (by decide) _) (closer_noWhite (by decide) _) e
      cases e2
      refine ⟨rfl, by rw [AllM]; trivial, by rw [LaidM.Sep]; trivial, trivial, fun l' h => ?_⟩
      rw [Pairs.Means] at h; rw [ReadAsM]; exact h
    | cons pre t mid gap v post R =>
      rw [Pairs.Reads] at hb
      obtain rfl : pre = [] := hb.1
      rw [Pairs.text, List.nil_append, List.append_assoc] at e
      obtain ⟨-, e2⟩ := white_span hlead (nl_white hfin) (tree_noWhite hb.2.1 _) (closer_noWhite (by decide) _) e
      exact absurd e2 (closer_not_starts (by decide) ((tree_starts hb.2.1).append _))
  | .cons nl x y r =>
    rw [LaidM.WF] at hw
    rw [LaidM.pairs] at hk hsp ⊢
    rw [AllM] at hk hsp
    have hks := laid_starts (all_self hk.1)
    have hys := laid_starts (all_self hk.2.1)
    rw [LaidM.text] at e
    have e : lead ++ (b.text true ++ '}' :: rest) = nl ++ (x.text ++ (':' :: (' ' :: (y.text ++ (r.text ++ (fin ++ '}' :: rest')))))) := by rw [e]; simp
    cases b with
    | nil =>
      obtain ⟨-, e2⟩ := white_span hlead (nl_white hw.1) (closer_noWhite (by decide) _) (hks.append _).noWhite e
      exact absurd e2.symm (closer_not_starts (by decide) (hks.append _))
    | cons pre t mid gap v post R =>
      rw [Pairs.Reads] at hb
      obtain ⟨h1, h2, f4, f5, h2', h3, h4⟩ := hb
      obtain rfl : pre = [] := h1
      have e : lead ++ (t.text ++ (mid ++ ':' :: (gap ++ (v.text ++ (post ++ (R.text true ++ '}' :: rest)))))) =
          nl ++ (x.text ++ (':' :: (' ' :: (y.text ++ (r.text ++ (fin ++ '}' :: rest')))))) := by
        rw [← e, Pairs.text]; simp [comma]
      obtain ⟨-, e2⟩ := white_span hlead (nl_white hw.1) (tree_noWhite h2 _) (hks.append _).noWhite e
      have h2 : t.Reads false (mid ++ ':' :: (gap ++ (v.text ++ (post ++ (R.text true ++ '}' :: rest))))) := by simpa [comma] using h2
      obtain ⟨e3, g1, g2, g3⟩ := node_laid x hw.2.1 hk.1 hsp.1 h2 (stopped_blanks f4 (stopped_cons (by decide) _)).head (stopped_cons (by decide) _).cut e2
      obtain ⟨-, e4⟩ := span (P := BlankC) (b := []) f4 blanks_nil (closer_noBlank (c := ':') (by decide) _) (closer_noBlank (c := ':') (by decide) _) e3
      injection e4 with _ e4
      obtain ⟨-, e5⟩ := span (P := BlankC) (b := [' ']) f5 one_blank ((tree_starts h2').append _).noBlank (hys.append _).noBlank e4
      have h2' : v.Reads false (post ++ (R.text true ++ '}' :: rest)) := by simpa [comma] using h2'
      have hcut : Cut (r.text ++ (fin ++ '}' :: rest')) := .inr (Ms.newline hw.2.2.2 hfin _)
      obtain ⟨e6, g4, g5, g6⟩ := node_laid y hw.2.2.1 hk.2.1 hsp.2.1 h2' (white_ends h3.1 h3.2 _) hcut e5
      have hbr := fun hb => bare_read (t := y) hb h2' hcut e5
      obtain ⟨i1, i2, i3, i4, i5⟩ := pairs_laid r hw.2.2.2 hk.2.2 hsp.2.2 h3.1 hfin h4 e6
      refine ⟨i1, by rw [AllM]; exact ⟨g1, g4, i2⟩, by rw [LaidM.Sep]; exact ⟨g2, g5, i3⟩, ⟨apart_ofM hw.2.2.2 hbr, i4⟩, fun l' h => ?_⟩
      rw [Pairs.Means] at h
      obtain ⟨k', x', r', hk', hx', hr', rfl⟩ := h
      rw [ReadAsM]
      exact ⟨k', x', r', g3 k' hk', g6 x' hx', i5 r' hr', rfl⟩
termination_by structural l
end

end KS.Cc
