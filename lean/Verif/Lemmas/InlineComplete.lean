import Verif.Lemmas.InlineSound
/-!
# A tree for every single line that is read
-/

namespace KS.Inl
open KS.Spec KS.RT

theorem prim_tree {F : Str → Prop} {id : Option Str} {lit : Str} {l : Literal} (hi : NameOk id) (hl : l.text = lit) (ho : l.Ok) (hc : ∀ rest, F rest → l.Complete rest)
    (hb : ∀ rest, F rest → id = none → l.isBool = false → ¬ BracketAhead (l.text ++ rest)) :
    ∃ T : Tree, T.text = pid id ++ lit ∧ ∀ inl rest, F rest → T.Reads inl rest := by
  cases id with
  | none =>
    refine ⟨.prim none [] l, by rw [Tree.text, hl]; rfl, fun inl rest hr => ?_⟩
    rw [Tree.Reads]
    exact ⟨hi, blanks_nil, fun _ => rfl, ho, hc rest hr, hb rest hr⟩
  | some i =>
    refine ⟨.prim (some i) [' '] l, by rw [Tree.text, hl, pid_eq, angled]; simp, fun inl rest hr => ?_⟩
    rw [Tree.Reads]
    exact ⟨hi, one_blank, fun h => (by cases h), ho, hc rest hr, fun h => (by cases h)⟩

theorem empty_tree {id : Option Str} (hi : NameOk id) (hb : ∀ i, id = some i → NotBool i) (sp : Str) (hsp : Blanks sp) (F : Str → Prop) :
    ∃ T : Tree, T.text = nid sp id ++ ['(', ')'] ∧ ∀ inl rest, F rest → T.Reads inl rest := by
  cases id with
  | none =>
    refine prim_tree (id := none) (l := .unit []) hi rfl blanks_nil (fun _ _ => trivial) fun rest hr _ _ => ?_
    refine EX.not_bracket (t := ['(', ')']) ⟨'(', [')'], rfl, fun hl => ?_, by decide⟩ rest
    rw [← PG.isAlpha_iff] at hl; revert hl; decide
  | some i =>
    refine ⟨.tuple (some i) sp false [] .nil, by simp [Tree.text, plainId, Elems.text, nid], fun inl rest hr => ?_⟩
    rw [Tree.Reads]
    refine ⟨hi, hsp, fun h => (by cases h), hb, blanks_nil, fun h => (by cases h), fun h => (by cases h), ?_, by rw [Elems.Reads]; trivial⟩
    rintro ⟨w, n, z, e, hw, hn⟩
    have : '=' ∈ [')'] := by
      have e : [')'] = w ++ (n ++ '=' :: z) := by simpa [Elems.text] using e
      rw [e]; simp
    revert this; decide

theorem pre_cons (l : List Kserd) (pre : Str) : lnI l (',' :: pre) = comma false l.isEmpty ++ lnI l pre := by
  cases l <;> simp [lnI, comma]

theorem pre_consF (l : List (Str × Kserd)) (pre : Str) : lnF l (',' :: pre) = comma false l.isEmpty ++ lnF l pre := by
  cases l with
  | nil => simp [lnF, comma]
  | cons p r => obtain ⟨n, k⟩ := p; simp [lnF, comma]

theorem pre_consM (l : List (Kserd × Kserd)) (pre fin : Str) :
    lnM l (',' :: pre) fin = (if l.isEmpty then fin else []) ++ (comma false l.isEmpty ++ lnM l pre []) := by
  cases l with
  | nil => simp [lnM, comma]
  | cons p r => obtain ⟨n, k⟩ := p; simp [lnM, comma]

theorem fieldpre (n : Str) {pre : Str} (hp : Blanks pre) : ∃ p m, Blanks p ∧ Blanks m ∧ (n = [] → m = []) ∧ p ++ (n ++ m) = pre ++ (n ++ [' ']) := by
  cases n with
  | nil => exact ⟨pre ++ [' '], [], GR.blanks_append hp one_blank, blanks_nil, fun _ => rfl, by simp⟩
  | cons c n => exact ⟨pre, [' '], hp, one_blank, fun h => (by cases h), rfl⟩

theorem nid_plain (id : Option Str) {sp : Str} (hsp : Blanks sp) : ∃ w, Blanks w ∧ (id = none → w = []) ∧ ∀ x, plainId id ++ (w ++ x) = nid sp id ++ x := by
  cases id with
  | none => exact ⟨[], blanks_nil, fun _ => rfl, fun x => rfl⟩
  | some i => exact ⟨sp, hsp, fun h => (by cases h), fun x => by simp [plainId, nid]⟩

theorem str_lit {s t : Str} (h : W.strLit s = some t) : ∃ l : Literal, l.text = t ∧ l.Ok ∧ ∀ rest, l.Complete rest := by
  obtain ⟨before, d, after, h1, h2, h3, rfl⟩ := Props.C29_shape s t h
  by_cases hd : d = '"'
  · subst hd; exact ⟨.quoted s, by simp [Literal.text], h3, fun _ => trivial⟩
  · exact ⟨.delimited d s, by rw [Literal.text, if_neg hd]; simp, h3, fun _ => trivial⟩

theorem barr_lit (b : Bytes) : ∃ l : Literal, l.text = W.barrLit b ∧ l.Ok ∧ ∀ rest, l.Complete rest :=
  ⟨.bytes (Base91.encode b), by rw [Literal.text, W.barrLit]; simp, Base91.encode_no_quote b, fun _ => trivial⟩

mutual
theorem node_tree (k : Kserd) (hk : All Ordinary k) (hl : All Legible k) : ∃ T : Tree, T.text = ln k ∧ ∀ inl rest, Follows k rest → T.Reads inl rest := by
  obtain ⟨id, v⟩ := k
  rw [All] at hk hl
  obtain ⟨hk, hv⟩ := hk
  obtain ⟨hg, hw⟩ := hl
  have hi : NameOk id := fun i hi => hk.1 i hi
  rw [ln]
  cases v with
  | bool b =>
    rw [lnV]
    exact prim_tree (l := .bool b) hi (by cases b <;> rfl) trivial (fun _ _ => trivial) (fun _ _ _ h => by cases h)
  | num n =>
    rw [lnV]
    obtain ⟨x, hx⟩ := Option.ne_none_iff_exists'.mp (show Number.fromStr n.disp ≠ none from hg)
    exact prim_tree (l := .num n.disp x) hi rfl ⟨fun c hc => (GR.numChar_iff c).mp (disp_chars n c hc), hx⟩ (fun _ h => h.1.noNum)
      (fun _ h hn _ => by subst hn; exact disp_noBracket' n h)
  | str s =>
    obtain ⟨t, ht⟩ := delimitable hk.2.1
    rw [lnV, ht, Option.getD_some]
    obtain ⟨l, h1, h2, h3⟩ : ∃ l : Literal, l.text = t ∧ l.Ok ∧ (∀ rest, l.Complete rest) := str_lit ht
    exact prim_tree (l := l) hi h1 h2 (fun r _ => h3 r) (fun _ h hn _ => by rw [h1]; exact str_noBracket ht (hk.2.2 hn) _)
  | barr b =>
    rw [lnV]
    obtain ⟨l, h1, h2, h3⟩ : ∃ l : Literal, l.text = W.barrLit b ∧ l.Ok ∧ (∀ rest, l.Complete rest) := barr_lit b
    exact prim_tree (l := l) hi h1 h2 (fun r _ => h3 r) (fun _ h hn _ => by rw [h1]; exact barr_noBracket b _)
  | unit =>
    rw [lnV]
    exact empty_tree hi hg [] blanks_nil _
  | tuple l =>
    rw [AllV] at hv hw
    rw [lnV]
    have ih := elems_tree l hv hw []  blanks_nil
    have hsf := lnI_safe l hv [] (by simp)
    cases l with
    | nil => exact empty_tree hi hg [] blanks_nil _
    | cons k0 r =>
      obtain ⟨b, h1, h2, h3⟩ := ih
      obtain ⟨w, g1, g2, g3⟩ := nid_plain id blanks_nil
      have hst : Starts (lnI (k0 :: r) []) := by
        rw [lnI]
        rw [AllL] at hv
        exact (ln_starts (all_self hv.1)).append _
      refine ⟨.tuple id w false [] b, by rw [Tree.text, h1, g3]; rfl, fun inl rest hr => ?_⟩
      rw [Tree.Reads]
      refine ⟨hi, g1, g2, hg, blanks_nil, fun h => (by cases h), fun _ h => ?_, ?_, h3 ')' rest (by decide)⟩
      · rw [h2] at h; cases h
      · rw [h1]; exact safe_noAssign hsf hst []
  | seq l =>
    rw [AllV] at hv hw
    rw [lnV]
    obtain ⟨b, h1, h2, h3⟩ := elems_tree l hv hw [] blanks_nil
    obtain ⟨w, g1, g2, g3⟩ := nid_plain id one_blank
    refine ⟨.seq id w false [] b, by rw [Tree.text, h1, g3]; rfl, fun inl rest hr => ?_⟩
    rw [Tree.Reads]
    exact ⟨hi, g1, g2, hg, blanks_nil, fun h => (by cases h), h3 ']' rest (by decide)⟩
  | cntr f =>
    rw [AllV] at hv hw
    rw [lnV]
    have ih := fields_tree f hv hw hk.2.1 [] blanks_nil
    cases f with
    | nil => exact empty_tree hi hg [' '] one_blank _
    | cons p r =>
      obtain ⟨b, h1, h2, h3⟩ := ih
      obtain ⟨w, g1, g2, g3⟩ := nid_plain id one_blank
      refine ⟨.cntr id w false [] b, by rw [Tree.text, h1, g3]; rfl, fun inl rest hr => ?_⟩
      rw [Tree.Reads]
      exact ⟨hi, g1, g2, hg, blanks_nil, fun h => (by cases h), h2, h3 rest⟩
  | map m =>
    rw [AllV] at hv hw
    rw [lnV]
    obtain ⟨b, h1, h2, h3⟩ := pairs_tree m hv hw [' '] one_blank
    obtain ⟨w, g1, g2, g3⟩ := nid_plain id one_blank
    refine ⟨.map id w false [] b, by rw [Tree.text, h1, g3]; rfl, fun inl rest hr => ?_⟩
    rw [Tree.Reads]
    exact ⟨hi, g1, g2, hg, blanks_nil, fun h => (by cases h), h3 rest⟩
termination_by structural k
theorem elems_tree (l : List Kserd) (hk : AllL Ordinary l) (hl : AllL Legible l) (pre : Str) (hp : Blanks pre) :
    ∃ b : Elems, b.text false = lnI l pre ∧ b.isNil = l.isEmpty ∧ ∀ close rest, close ∈ str ",:)]}" → b.Reads false (close :: rest) := by
  match l with
  | [] => exact ⟨.nil, by rw [Elems.text, lnI], rfl, fun _ _ _ => by rw [Elems.Reads]; trivial⟩
  | k :: r =>
    rw [AllL] at hk hl
    obtain ⟨T, h1, h2⟩ := node_tree k hk.1 hl.1
    obtain ⟨R, g1, g2, g3⟩ := elems_tree r hk.2 hl.2 [' '] one_blank
    refine ⟨.cons pre T [] R, ?_, rfl, fun close rest hc => ?_⟩
    · rw [Elems.text, h1, g1, g2, lnI, pre_cons]; rfl
    · rw [Elems.Reads]
      refine ⟨hp, h2 _ _ ((comma_stopped blanks_nil ⟨_, _, rfl, hc⟩ _ _ ?_).follows _), blanks_nil, g3 close rest hc⟩
      intro hn; cases R with
      | nil => rfl
      | cons _ _ _ _ => cases hn
termination_by structural l
theorem fields_tree (l : List (Str × Kserd)) (hk : AllF Ordinary l) (hl : AllF Legible l) (hn : ∀ p ∈ l, ∀ c ∈ p.1, NameChar c) (pre : Str) (hp : Blanks pre) :
    ∃ b : Assigns, b.text false = lnF l pre ∧ b.isNil = l.isEmpty ∧ ∀ rest, b.Reads false (')' :: rest) := by
  match l with
  | [] => exact ⟨.nil, by rw [Assigns.text, lnF], rfl, fun _ => by rw [Assigns.Reads]; trivial⟩
  | (n, k) :: r =>
    rw [AllF] at hk hl
    obtain ⟨T, h1, h2⟩ := node_tree k hk.1 hl.1
    obtain ⟨R, g1, g2, g3⟩ := fields_tree r hk.2 hl.2 (fun p hp => hn p (List.mem_cons_of_mem _ hp)) [' '] one_blank
    obtain ⟨p, m, f1, f2, f3, f4⟩ := fieldpre n hp
    refine ⟨.cons p n m [' '] T [] R, ?_, rfl, fun rest => ?_⟩
    · rw [Assigns.text, h1, g1, g2, lnF, pre_consF]
      have : p ++ (n ++ (m ++ '=' :: ([' '] ++ (ln k ++ ([] ++ (comma false r.isEmpty ++ lnF r [' '])))))) =
        (p ++ (n ++ m)) ++ '=' :: ([' '] ++ (ln k ++ ([] ++ (comma false r.isEmpty ++ lnF r [' '])))) := by simp
      rw [this, f4]; simp
    · rw [Assigns.Reads]
      refine ⟨f1, hn (n, k) List.mem_cons_self, f3, f2, one_blank, h2 _ _ ((comma_stopped blanks_nil ⟨_, _, rfl, by decide⟩ _ _ ?_).follows _), blanks_nil, g3 rest⟩
      intro hn; cases R with
      | nil => rfl
      | cons _ _ _ _ _ _ _ => cases hn
termination_by structural l
theorem pairs_tree (l : List (Kserd × Kserd)) (hk : AllM Ordinary l) (hl : AllM Legible l) (pre : Str) (hp : Blanks pre) :
    ∃ b : Pairs, b.text false = lnM l pre [] ∧ b.isNil = l.isEmpty ∧ ∀ rest, b.Reads false ('}' :: rest) := by
  match l with
  | [] => exact ⟨.nil, by rw [Pairs.text, lnM], rfl, fun _ => by rw [Pairs.Reads]; trivial⟩
  | (k, v) :: r =>
    rw [AllM] at hk hl
    obtain ⟨T, h1, h2⟩ := node_tree k hk.1 hl.1
    obtain ⟨V, h1', h2'⟩ := node_tree v hk.2.1 hl.2.1
    obtain ⟨R, g1, g2, g3⟩ := pairs_tree r hk.2.2 hl.2.2 [' '] one_blank
    have hpost : Blanks (if r.isEmpty then [' '] else []) := by split; exacts [one_blank, blanks_nil]
    refine ⟨.cons pre T [] [' '] V (if r.isEmpty then [' '] else []) R, ?_, rfl, fun rest => ?_⟩
    · rw [Pairs.text, h1, h1', g1, g2, lnM, pre_consM]; simp
    · rw [Pairs.Reads]
      refine ⟨hp, h2 _ _ ((stopped_cons (by decide) _).follows _), blanks_nil, one_blank, h2' _ _ ((comma_stopped hpost ⟨_, _, rfl, by decide⟩ _ _ ?_).follows _), hpost, g3 rest⟩
      intro hn; cases R with
      | nil => rfl
      | cons _ _ _ _ _ _ _ => cases hn
termination_by structural l
end

end KS.Inl
