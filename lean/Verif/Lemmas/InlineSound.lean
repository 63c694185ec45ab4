import Verif.Lemmas.InlineLit
/-!
# Reading a single line: only what was written is read
-/

namespace KS.Inl
open KS.Spec KS.RT

/-! ## No field in front -/

/-- There is no `=`, or something that no field begins with comes before it. -/
def Safe (t : Str) : Prop := '=' ∉ t ∨ EX.Stops t

theorem Safe.append {a b : Str} (ha : Safe a) (hb : Safe b) : Safe (a ++ b) := by
  rcases ha with ha | ha
  · rcases hb with hb | hb
    · exact .inl (by simp [ha, hb])
    · exact .inr (hb.prepend ha)
  · exact .inr (ha.append b)

theorem safe_cons {c : Char} (h : Ex.Stop c) (r : Str) : Safe (c :: r) := .inr ⟨[], c, r, rfl, by simp, h⟩

theorem unassigned_safe {s : Str} (h : Unassigned s) : Safe s := by
  by_cases he : '=' ∈ s
  · obtain ⟨c, hc, hm⟩ := h he
    obtain ⟨a, z, e⟩ := List.append_of_mem hc
    refine .inr ⟨a, c, z ++ s.dropWhile (· ≠ '='), ?_, fun ha => ?_, hm⟩
    · have := List.takeWhile_append_dropWhile (p := (· ≠ '=')) (l := s)
      rw [e] at this
      simpa using this.symm
    · have : '=' ∈ s.takeWhile (· ≠ '=') := by rw [e]; simp [ha]
      simpa using List.mem_takeWhile_imp this
  · exact .inl he

theorem name_noEq {n : Str} (h : ∀ c ∈ n, NameChar c) : '=' ∉ n := fun hm => (EX.name_not (h _ hm)).1 rfl

theorem nid_noEq {id : Option Str} (h : NameOk id) {sp : Str} (hs : Blanks sp) : '=' ∉ nid sp id := by
  cases id with
  | none => simp [nid]
  | some i =>
    rw [nid, List.mem_append, not_or]
    exact ⟨name_noEq (EX.name_chars (h i rfl)), fun hm => by rcases hs _ hm with h | h <;> revert h <;> decide⟩

theorem one_blank : Blanks [' '] := by intro c hc; rw [List.mem_singleton.mp hc]; exact .inl rfl
theorem blanks_nil : Blanks [] := by intro c hc; cases hc

theorem pid_safe (id : Option Str) {l : Str} (h : id = none → Safe l) : Safe (pid id ++ l) := by
  cases id with
  | none => exact h rfl
  | some i => rw [pid_eq]; exact safe_cons (by unfold Ex.Stop; decide) _

theorem paren_safe {id : Option Str} (h : NameOk id) {sp : Str} (hs : Blanks sp) {o : Char} (ho : Ex.Stop o) (r : Str) : Safe (nid sp id ++ o :: r) :=
  .inr ⟨nid sp id, o, r, rfl, nid_noEq h hs, ho⟩

mutual
theorem ln_safe (k : Kserd) (h : All Ordinary k) : Safe (ln k) := by
  obtain ⟨id, v⟩ := k
  rw [All] at h
  have hi : NameOk id := fun i hi => h.1.1 i hi
  rw [ln]
  cases v with
  | unit => exact paren_safe hi blanks_nil (by unfold Ex.Stop; decide) _
  | bool b => exact pid_safe id fun _ => .inl (by cases b <;> decide)
  | num n => exact pid_safe id fun _ => .inl fun hm => (EX.num_not ((GR.numChar_iff _).mp (disp_chars n _ hm))).1 rfl
  | str s =>
    obtain ⟨l, hl⟩ := delimitable h.1.2.1
    rw [lnV, hl]
    refine pid_safe id fun hn => ?_
    rcases strLit_quoted hl (h.1.2.2 hn) with rfl | ⟨d, hd, rfl, rfl | hu⟩
    · exact safe_cons (by unfold Ex.Stop; decide) _
    · exact .inr ⟨str "str", '\'', s ++ ['\''], by simp, by decide, by unfold Ex.Stop; decide⟩
    · have h1 : Safe (str "str" ++ [d]) := .inl (by clear hl; revert d; decide)
      have h3 : Safe [d] := .inl (by clear hl h1; revert d; decide)
      have := h1.append ((unassigned_safe hu).append h3)
      rwa [List.append_assoc, List.singleton_append] at this
  | barr b => exact pid_safe id fun _ => .inr ⟨str "b91", '\'', Base91.encode b ++ ['\''], by simp [W.barrLit]; rfl, by decide, by unfold Ex.Stop; decide⟩
  | tuple l => exact paren_safe hi blanks_nil (by unfold Ex.Stop; decide) _
  | cntr l => exact paren_safe hi one_blank (by unfold Ex.Stop; decide) _
  | map l => exact paren_safe hi one_blank (by unfold Ex.Stop; decide) _
  | seq l =>
    rw [AllV] at h
    have h1 : Safe (nid [' '] id ++ ['[']) := .inl (by simp [nid_noEq hi one_blank])
    have h2 := lnI_safe l h.2 [] (by simp)
    have h3 : Safe [']'] := .inl (by decide)
    have := h1.append (h2.append h3)
    rwa [List.append_assoc] at this
termination_by structural k
theorem lnI_safe (l : List Kserd) (h : AllL Ordinary l) (pre : Str) (hp : '=' ∉ pre) : Safe (lnI l pre) := by
  match l with
  | [] => exact .inl (by simp [lnI])
  | k :: r =>
    rw [AllL] at h
    rw [lnI]
    exact Safe.append (.inl hp) ((ln_safe k h.1).append (lnI_safe r h.2 [',', ' '] (by decide)))
termination_by structural l
end

/-- What begins with a value is not read as a field. -/
theorem safe_noAssign {t : Str} (h : Safe t) (hs : Starts t) (r : Str) : ¬ AssignAhead (t ++ ')' :: r) := by
  have : EX.Stops (t ++ ')' :: r) := by
    rcases h with h | h
    · exact ⟨t, ')', r, rfl, h, by unfold Ex.Stop; decide⟩
    · exact h.append _
  have key := EX.not_assign (w := []) (by intro c hc; cases hc) (by
    intro c z e hc
    obtain ⟨d, y, rfl, hd⟩ := hs
    cases e
    exact hd (by
      have : ∀ c ∈ str " \t\r\n", c ∈ str " \t\r\n,:)]}=" := by decide
      exact this _ hc)) this
  exact key

/-! ## Lists are not concise -/

theorem lead_false {c : Bool} {lead x p y : Str} (h : LeadOk c lead) (hp : Blanks p) (hy : ∀ d z, y = d :: z → d ∉ str " \t\r\n")
    (e : lead ++ x = p ++ y) : c = false ∧ Blanks lead := by
  have hw : White lead := by
    cases c
    · exact GR.white_of_blanks h
    · exact h.1
  obtain ⟨u, h1, h2⟩ := EX.white_split (GR.white_of_blanks hp) hw hy e.symm
  have hb : Blanks lead := fun c hc => hp c (by rw [h1]; exact List.mem_append_left _ hc)
  refine ⟨?_, hb⟩
  cases c
  · rfl
  · rcases hb _ h.2 with h | h <;> revert h <;> decide

theorem Starts.noWhite {t : Str} (h : Starts t) : ∀ d z, t = d :: z → d ∉ str " \t\r\n" := by
  obtain ⟨c, r, rfl, hc⟩ := h
  intro d z e hd
  cases e
  have : ∀ c ∈ str " \t\r\n", c ∈ str " \t\r\n,:)]}=" := by decide
  exact hc (this _ hd)

theorem closer_noBlank {c : Char} (h : c ∈ str ",:)]}") (r : Str) : NotContinued BlankC (c :: r) := by
  intro d z e hd
  cases e
  rcases hd with rfl | rfl <;> revert h <;> decide

theorem closer_noWhite {c : Char} (h : c ∈ str ",:)]}=") (r : Str) : ∀ d z, c :: r = d :: z → d ∉ str " \t\r\n" := by
  intro d z e
  cases e
  have : ∀ c ∈ str ",:)]}=", c ∉ str " \t\r\n" := by decide
  exact this _ h

theorem closer_not_starts {c : Char} (h : c ∈ str ",:)]}") {r t : Str} (ht : Starts t) : t ≠ c :: r := by
  rintro rfl
  obtain ⟨d, x, e, hd⟩ := ht
  cases e
  have : ∀ c ∈ str ",:)]}", c ∈ str " \t\r\n,:)]}=" := by decide
  exact hd (this _ h)

/-! ## Fields -/

theorem blank_noEq {w : Str} (h : Blanks w) : '=' ∉ w := fun hm => by rcases h _ hm with h | h <;> revert h <;> decide

theorem name_noBlank {n : Str} (h : ∀ c ∈ n, NameChar c) {c : Char} (hc : c ∈ n) : ¬ BlankC c := by
  rintro (rfl | rfl) <;> exact (EX.name_not (h _ hc)).2.2 (by decide)

theorem field_split {u v name n mid y z : Str} (hu : Blanks u) (hv : Blanks v) (hname : ∀ c ∈ name, NameChar c) (hn : ∀ c ∈ n, NameChar c)
    (hm : name = [] → mid = []) (hmid : Blanks mid) (e : u ++ (name ++ (mid ++ '=' :: y)) = v ++ (n ++ (' ' :: '=' :: z))) : name = n ∧ y = z := by
  have e1 : (u ++ (name ++ mid)) ++ '=' :: y = (v ++ (n ++ [' '])) ++ '=' :: z := by simpa using e
  obtain ⟨h1, h2⟩ := Dbg.split_at (by
    simp only [List.mem_append, not_or]
    exact ⟨blank_noEq hu, name_noEq hname, blank_noEq hmid⟩) (by
    simp only [List.mem_append, not_or]
    exact ⟨blank_noEq hv, name_noEq hn, by decide⟩) e1
  refine ⟨?_, h2⟩
  cases name with
  | nil =>
    rw [hm rfl] at h1
    simp only [List.append_nil] at h1
    cases n with
    | nil => rfl
    | cons c n => exact absurd (hu c (by rw [h1]; simp)) (name_noBlank hn List.mem_cons_self)
  | cons c name =>
    cases n with
    | nil =>
      refine absurd (?_ : BlankC c) (name_noBlank hname List.mem_cons_self)
      have : c ∈ v ++ ([] ++ [' ']) := by rw [← h1]; simp
      simp only [List.nil_append, List.mem_append, List.mem_singleton] at this
      rcases this with h | h
      · exact hv c h
      · exact .inl h
    | cons d n =>
      obtain ⟨-, h3⟩ := span (P := BlankC) hu hv (by
        intro x r e; cases e; exact name_noBlank hname List.mem_cons_self) (by
        intro x r e; cases e; exact name_noBlank hn List.mem_cons_self) h1
      refine (span hname hn ?_ ?_ h3).1
      · intro x r e hx
        have : x ∈ mid := by rw [e]; exact List.mem_cons_self
        exact (EX.name_not hx).2.2 (by rcases hmid x this with rfl | rfl <;> decide)
      · intro x r e hx
        cases e
        exact (EX.name_not hx).2.2 (by decide)

/-- A field begins, perhaps after blanks. -/
theorem field_assign {u name mid y : Str} (hu : Blanks u) (hname : ∀ c ∈ name, NameChar c) (hmid : Blanks mid) :
    AssignAhead (u ++ (name ++ (mid ++ '=' :: y))) := by
  refine ⟨u, name ++ mid, y, by simp, GR.white_of_blanks hu, ?_⟩
  intro c hc
  rw [EX.stop_iff, not_or]
  rcases List.mem_append.mp hc with hc | hc
  · exact ⟨(EX.name_not (hname c hc)).2.1, (EX.name_not (hname c hc)).1⟩
  · rcases hmid c hc with rfl | rfl <;> (refine ⟨?_, by decide⟩; unfold Ex.Stop; decide)

/-- A text up to a parenthesis that begins a longer one. -/
theorem cut_paren {x0 rest p z : Str} (h : ')' ∉ p) (e : x0 ++ ')' :: rest = p ++ '=' :: z) : ∃ z', x0 ++ [')'] = p ++ '=' :: z' := by
  induction p generalizing x0 with
  | nil =>
    cases x0 with
    | nil => exact absurd (show some ')' = some '=' from congrArg List.head? e) (by decide)
    | cons c x0 => cases e; exact ⟨_, rfl⟩
  | cons d p ih =>
    cases x0 with
    | nil => cases e; exact absurd List.mem_cons_self h
    | cons c x0 =>
      injection e with e1 e2
      obtain ⟨z', hz⟩ := ih (fun hm => h (List.mem_cons_of_mem _ hm)) e2
      exact ⟨z', by rw [e1, List.cons_append, hz]; rfl⟩

/-! ## Empty parentheses -/

theorem paren_noBlank (r : Str) : NotContinued BlankC (')' :: r) := closer_noBlank (by decide) r

theorem empty_read {T : Tree} {inl : Bool} {id : Option Str} {rest rest' : Str} (hT : T.Reads inl rest) (h : Shape T id '(' (')' :: rest') rest) :
    rest = rest' ∧ ∀ k', T.Means k' → k' = emptyParens id := by
  rcases h with ⟨-, rfl, w, rfl, e⟩ | ⟨-, w, c, lead, b, rfl, e⟩ | ⟨-, w, c, lead, b, rfl, e⟩ | ⟨h, -⟩ | ⟨h, -⟩
  · obtain ⟨-, h2⟩ := span (P := BlankC) (b := []) hT.2.2.2.1 blanks_nil (paren_noBlank _) (paren_noBlank _) e
    cases h2
    exact ⟨rfl, fun k' hk => hk⟩
  · obtain ⟨h1, h2, h3, h4, h5, h6, h7, h8, h9⟩ := hT
    obtain ⟨rfl, hb⟩ := lead_false (p := []) h5 blanks_nil (closer_noWhite (by decide) _) e
    cases b with
    | nil =>
      obtain ⟨-, e2⟩ := span (P := BlankC) (b := []) hb blanks_nil (paren_noBlank _) (paren_noBlank _) e
      cases e2
      refine ⟨rfl, fun k' hk => ?_⟩
      rw [Tree.Means] at hk
      obtain ⟨l, hl, rfl⟩ := hk
      rw [Elems.Means] at hl
      subst hl
      cases id with
      | none => exact absurd (h7 rfl rfl) (by decide)
      | some i => rfl
    | cons pre t post r =>
      rw [Elems.Reads] at h9
      obtain ⟨g1, g2, -⟩ := h9
      rw [Elems.text] at e
      have e : (lead ++ pre) ++ (t.text ++ (post ++ (comma false r.isNil ++ r.text false)) ++ ')' :: rest) = [] ++ ')' :: rest' := by simpa using e
      obtain ⟨-, e2⟩ := span (P := BlankC) (GR.blanks_append hb g1) blanks_nil (((tree_starts g2).append _).append _).noBlank (paren_noBlank _) e
      exact absurd e2 (closer_not_starts (by decide) (((tree_starts g2).append _).append _))
  · obtain ⟨h1, h2, h3, h4, h5, h6, h7, h9⟩ := hT
    obtain ⟨rfl, hb⟩ := lead_false (p := []) h5 blanks_nil (closer_noWhite (by decide) _) e
    exfalso
    cases b with
    | nil => cases h7
    | cons pre name mid gap t post r =>
      rw [Assigns.Reads] at h9
      obtain ⟨g1, g2, g3, g4, -⟩ := h9
      rw [Assigns.text] at e
      have e : [] ++ ')' :: rest' = (lead ++ pre ++ name ++ mid) ++ '=' :: (gap ++ (t.text ++ (post ++ (comma false r.isNil ++ r.text false))) ++ ')' :: rest) := by
        simpa using e.symm
      refine EX.stops_no e (by simp) (by decide) fun hm => ?_
      simp only [List.mem_append] at hm
      rcases hm with ((hm | hm) | hm) | hm
      · rcases hb _ hm with h | h <;> revert h <;> decide
      · rcases g1 _ hm with h | h <;> revert h <;> decide
      · have := g2 _ hm; rw [← PG.isNameChar_iff] at this; revert this; decide
      · rcases g4 _ hm with h | h <;> revert h <;> decide
  · cases h
  · cases h

/-- The outcome for a value: what follows is where it was written, and the value is read as it should. -/
def Same (k : Kserd) (T : Tree) (rest rest' : Str) : Prop := rest = rest' ∧ All Legible k ∧ ∀ k', T.Means k' → ReadAs k k'

theorem prim_same {id : Option Str} {v v' : Value} {T : Tree} {w : Str} {l : Literal} {rest rest' : Str} (hv : AllV Legible v) (hl : Legible (.mk id v))
    (hT : T = .prim id w l) (h1 : l.value = v') (h2 : rest = rest') (h : ReadAs (.mk id v) (.mk id v')) : Same (.mk id v) T rest rest' := by
  refine ⟨h2, by rw [All]; exact ⟨hl, hv⟩, fun k' hk => ?_⟩
  rw [hT, Tree.Means, h1] at hk
  rw [hk]; exact h

theorem comma_stopped {post close : Str} (hp : Blanks post) (hc : ∃ c r, close = c :: r ∧ c ∈ str ",:)]}") (b : Bool) (x : Str) (hx : b = true → x = []) :
    Stopped (post ++ (comma false b ++ (x ++ close))) := by
  refine stopped_blanks hp ?_
  cases b with
  | true =>
    obtain ⟨c, r, rfl, h⟩ := hc
    rw [hx rfl]
    exact stopped_cons h r
  | false => exact stopped_cons (by decide) _

theorem bool_noName {b : Bool} {rest i w z : Str} {o : Char} (h : W.boolLit b ++ rest = i ++ (w ++ o :: z)) 
    (hb : NotBool i) (hw : Blanks w) (ho : o ∈ str "([{") : False := by
  have hp : W.boolLit b <+: i := by
    refine prefix_ends (rest := w ++ o :: z) (by cases b <;> decide) (fun c r e => ?_) ⟨rest, h⟩
    have := blanks_open hw ho z c r e
    rwa [← PG.isNameChar_iff, Bool.not_eq_true] at this
  cases b
  · exact hb.2 hp
  · exact hb.1 hp

theorem noBracket_use {t i w z : Str} {o : Char} (h : ¬ BracketAhead t) (e : t = i ++ (w ++ o :: z)) (hi : ValidName i) (hw : Blanks w)
    (ho : o ∈ str "([{") : False :=
  h ⟨i, w, o, z, e, hi, GR.white_of_blanks hw, by
    have : ∀ o ∈ str "([{", o = '(' ∨ o = '[' ∨ o = '{' := by decide
    exact this o ho⟩

theorem readAsF_names : ∀ {f f' : List (Str × Kserd)}, ReadAsF f f' → f'.map Prod.fst = f.map Prod.fst
  | [], f', h => by rw [ReadAsF] at h; rw [h]
  | (n, k) :: r, f', h => by
    rw [ReadAsF] at h
    obtain ⟨k', r', -, h2, rfl⟩ := h
    simp [readAsF_names h2]

theorem ascending_names {f f' : List (Str × Kserd)} (h : Ascending cmpStr f) (e : f'.map Prod.fst = f.map Prod.fst) : Ascending cmpStr f' := by
  unfold Ascending at *
  have : (f.map Prod.fst).Pairwise (fun a b => cmpStr a b = .lt) := by rw [List.pairwise_map]; exact h
  rw [← e, List.pairwise_map] at this
  exact this

theorem splits_id {id : Option Str} {v : Value} (h : ¬ Splits (.mk id v)) (hv : Spaced v = true) : ∀ i, id = some i → i ≠ str "true" ∧ i ≠ str "false" := by
  rintro i rfl
  constructor
  · rintro rfl; exact h ⟨hv, .inl rfl⟩
  · rintro rfl; exact h ⟨hv, .inr rfl⟩

mutual
theorem node_same (k : Kserd) (hk : All Ordinary k) {T : Tree} {inl : Bool} {rest rest' : Str} (hT : T.Reads inl rest)
    (hs : Stopped rest ∨ Ends rest ∧ ¬ Splits k) (hs' : Cut rest') (e : T.text ++ rest = ln k ++ rest') : Same k T rest rest' := by
  obtain ⟨id, v⟩ := k
  rw [All] at hk
  obtain ⟨hk, hv⟩ := hk
  have hi : NameOk id := fun i hi => hk.1 i hi
  rw [ln] at e
  cases v with
  | bool b =>
    rw [lnV, List.append_assoc] at e
    obtain ⟨w, l, rfl, h1, h2, h3⟩ := prim_read hi hT (by cases b <;> exact ⟨_, _, rfl, by unfold Start; decide, by decide⟩)
      (fun _ i w o z e hv hb hw ho => bool_noName e hb hw ho) e
    obtain ⟨h4, h5⟩ := bool_read h1 h2 h3
    exact prim_same (by rw [AllV]; trivial) trivial rfl h4 h5 (by rw [ReadAs, ReadAsV])
  | num n =>
    rw [lnV, List.append_assoc] at e
    have hd : ∃ c r, n.disp = c :: r ∧ Start c ∧ c ∉ str "<([{" := by
      obtain ⟨c, r, h1, h2, h3⟩ := disp_facts n
      obtain ⟨c', r', h1', hc⟩ := disp_starts n
      rw [h1] at h1'; cases h1'
      refine ⟨c, r, h1, hc, ?_⟩
      intro hm
      simp only [show str "<([{" = ['<', '(', '[', '{'] from rfl, List.mem_cons, List.not_mem_nil, or_false] at hm
      rcases hm with h | h | h | h
      · exact h3.1 h
      · exact h3.2.1 h
      · exact h3.2.2.1 h
      · exact h3.2.2.2.1 h
    obtain ⟨w, l, rfl, h1, h2, h3⟩ := prim_read hi hT hd (fun _ i w o z e hv hb hw ho => disp_noName n hs' hv hw ho e) e
    obtain ⟨h4, h5, h6⟩ := num_read h1 h2 hs' h3
    exact prim_same (by rw [AllV]; trivial) h4 rfl h5 h6 (by rw [ReadAs, ReadAsV])
  | str s =>
    obtain ⟨t, ht⟩ := delimitable hk.2.1
    rw [lnV, List.append_assoc, ht, Option.getD_some] at e
    have hd : ∃ c r, t = c :: r ∧ Start c ∧ c ∉ str "<([{" := by
      obtain ⟨c, r, rfl, hc⟩ := strLit_head ht
      exact ⟨c, r, rfl, by rcases hc with rfl | rfl <;> unfold Start <;> decide, by rcases hc with rfl | rfl <;> decide⟩
    obtain ⟨w, l, rfl, h1, h2, h3⟩ := prim_read hi hT hd (fun hn i w o z e hv hb hw ho => noBracket_use (str_noBracket ht (hk.2.2 hn) _) e hv hw ho) e
    obtain ⟨h4, h5⟩ := str_read h1 ht h3
    exact prim_same (by rw [AllV]; trivial) trivial rfl h4 h5 (by rw [ReadAs, ReadAsV])
  | barr b =>
    rw [lnV, List.append_assoc] at e
    obtain ⟨w, l, rfl, h1, h2, h3⟩ := prim_read hi hT ⟨'b', _, rfl, by unfold Start; decide, by decide⟩
      (fun _ i w o z e hv hb hw ho => noBracket_use (barr_noBracket b _) e hv hw ho) e
    obtain ⟨h4, h5⟩ := barr_read h1 h3
    exact prim_same (by rw [AllV]; trivial) trivial rfl h4 h5 (by rw [ReadAs, ReadAsV])
  | unit =>
    rw [lnV, List.append_assoc] at e
    obtain ⟨hnb, hsh⟩ := shape hi hT (hs.imp_right fun h => ⟨h.1, .inl rfl⟩) blanks_nil (o := '(') (by decide) e
    obtain ⟨h1, h2⟩ := empty_read hT hsh
    refine ⟨h1, by rw [All, AllV]; exact ⟨hnb, trivial⟩, fun k' hk' => ?_⟩
    rw [ReadAs, ReadAsV]; exact h2 k' hk'
  | tuple l =>
    rw [AllV] at hv
    have e : T.text ++ rest = nid [] id ++ '(' :: (lnI l [] ++ ')' :: rest') := by rw [e, lnV]; simp
    obtain ⟨hnb, hsh⟩ := shape hi hT (hs.imp_right fun h => ⟨h.1, .inl rfl⟩) blanks_nil (o := '(') (by decide) e
    have ih := @list_same l hv
    cases l with
    | nil =>
      obtain ⟨h1, h2⟩ := empty_read hT hsh
      refine ⟨h1, by rw [All, AllV, AllL]; exact ⟨hnb, trivial⟩, fun k' hk' => ?_⟩
      rw [ReadAs, ReadAsV]
      exact ⟨[], by rw [ReadAsL], h2 k' hk'⟩
    | cons k0 r =>
      have hst : Starts (lnI (k0 :: r) []) := by
        rw [lnI]
        have h0 := hv
        rw [AllL] at h0
        exact (ln_starts (all_self h0.1)).append _
      rcases hsh with ⟨-, rfl, w, rfl, ee⟩ | ⟨-, w, c, lead, b, rfl, ee⟩ | ⟨-, w, c, lead, b, rfl, ee⟩ | ⟨h, -⟩ | ⟨h, -⟩
      · obtain ⟨-, e2⟩ := span (P := BlankC) (b := []) hT.2.2.2.1 blanks_nil (paren_noBlank _) (hst.append _).noBlank ee
        exact absurd e2.symm (closer_not_starts (by decide) (hst.append _))
      · obtain ⟨h1, h2, h3, h4, h5, h6, h7, h8, h9⟩ := hT
        obtain ⟨rfl, hb⟩ := lead_false (p := []) h5 blanks_nil (hst.append _).noWhite ee
        obtain ⟨g1, g2, g3⟩ := ih (by decide) hb blanks_nil h9 ee
        refine ⟨g1, by rw [All, AllV]; exact ⟨hnb, g2⟩, fun k' hk' => ?_⟩
        rw [Tree.Means] at hk'
        obtain ⟨l', hl', rfl⟩ := hk'
        rw [ReadAs, ReadAsV]
        exact ⟨l', g3 l' hl', by simp⟩
      · obtain ⟨h1, h2, h3, h4, h5, h6, h7, h9⟩ := hT
        obtain ⟨rfl, hb⟩ := lead_false (p := []) h5 blanks_nil (hst.append _).noWhite ee
        cases b with
        | nil => cases h7
        | cons pre name mid gap t post r' =>
          rw [Assigns.Reads] at h9
          obtain ⟨f1, f2, f3, f4, -⟩ := h9
          refine absurd ?_ (safe_noAssign (lnI_safe (k0 :: r) hv [] (by simp)) hst rest')
          rw [← ee, Assigns.text]
          have := field_assign (y := gap ++ (t.text ++ (post ++ (comma false r'.isNil ++ r'.text false))) ++ ')' :: rest) (GR.blanks_append hb f1) f2 f4
          simpa using this
      · cases h
      · cases h
  | seq l =>
    rw [AllV] at hv
    have e : T.text ++ rest = nid [' '] id ++ '[' :: (lnI l [] ++ ']' :: rest') := by rw [e, lnV]; simp
    obtain ⟨hnb, hsh⟩ := shape hi hT (hs.imp_right fun h => ⟨h.1, .inr (splits_id h.2 rfl)⟩) one_blank (o := '[') (by decide) e
    have hst : ∀ d z, lnI l [] ++ ']' :: rest' = d :: z → d ∉ str " \t\r\n" := by
      cases l with
      | nil => exact closer_noWhite (by decide) _
      | cons k0 r =>
        rw [lnI]
        rw [AllL] at hv
        exact (((ln_starts (all_self hv.1)).append _).append _).noWhite
    rcases hsh with ⟨h, -⟩ | ⟨h, -⟩ | ⟨h, -⟩ | ⟨-, w, c, lead, b, rfl, ee⟩ | ⟨h, -⟩
    · cases h
    · cases h
    · cases h
    · obtain ⟨h1, h2, h3, h4, h5, h6, h9⟩ := hT
      obtain ⟨rfl, hb⟩ := lead_false (p := []) h5 blanks_nil hst ee
      obtain ⟨g1, g2, g3⟩ := list_same l hv (by decide) hb blanks_nil h9 ee
      refine ⟨g1, by rw [All, AllV]; exact ⟨hnb, g2⟩, fun k' hk' => ?_⟩
      rw [Tree.Means] at hk'
      obtain ⟨l', hl', rfl⟩ := hk'
      rw [ReadAs, ReadAsV]
      exact ⟨l', g3 l' hl', rfl⟩
    · cases h
  | cntr f =>
    rw [AllV] at hv
    have e : T.text ++ rest = nid [' '] id ++ '(' :: (lnF f [] ++ ')' :: rest') := by rw [e, lnV]; simp
    obtain ⟨hnb, hsh⟩ := shape hi hT (hs.imp_right fun h => ⟨h.1, .inr (splits_id h.2 rfl)⟩) one_blank (o := '(') (by decide) e
    have ih := @fields_same f hv hk.2.1
    have hk2 := hk.2
    cases f with
    | nil =>
      obtain ⟨h1, h2⟩ := empty_read hT hsh
      refine ⟨h1, by rw [All, AllV, AllF]; exact ⟨hnb, trivial⟩, fun k' hk' => ?_⟩
      rw [ReadAs, ReadAsV]
      exact ⟨[], by rw [ReadAsF], h2 k' hk'⟩
    | cons p r =>
      obtain ⟨n, k0⟩ := p
      have hn : ∀ c ∈ n, NameChar c := hk2.1 (n, k0) List.mem_cons_self
      have hx : lnF ((n, k0) :: r) [] ++ ')' :: rest' = n ++ ' ' :: '=' :: (' ' :: (ln k0 ++ lnF r [',', ' ']) ++ ')' :: rest') := by
        rw [lnF]; simp
      have hpn : ')' ∉ n ++ [' '] := by
        rw [List.mem_append, not_or]
        refine ⟨fun hm => ?_, by decide⟩
        have := hn _ hm
        rw [← PG.isNameChar_iff] at this
        revert this; decide
      have hst : ∃ p y, lnF ((n, k0) :: r) [] ++ ')' :: rest' = p ++ y ∧ Blanks p ∧ ∀ d z, y = d :: z → d ∉ str " \t\r\n" := by
        rw [hx]
        cases n with
        | nil => exact ⟨[' '], _, rfl, one_blank, closer_noWhite (by decide) _⟩
        | cons a n =>
          refine ⟨[], _, rfl, blanks_nil, ?_⟩
          intro d z e hd
          cases e
          have : ∀ c ∈ str " \t\r\n", c ∈ str " \t\r\n([{" := by decide
          exact (EX.name_not (hn a List.mem_cons_self)).2.2 (this _ hd)
      obtain ⟨p, y, e0, hp, hy⟩ := hst
      rcases hsh with ⟨-, rfl, w, rfl, ee⟩ | ⟨-, w, c, lead, b, rfl, ee⟩ | ⟨-, w, c, lead, b, rfl, ee⟩ | ⟨h, -⟩ | ⟨h, -⟩
      · exfalso
        rw [hx] at ee
        have hb : Blanks w := hT.2.2.2.1
        refine EX.stops_no (ee.trans (show _ = (n ++ [' ']) ++ '=' :: _ by simp; rfl)) (blank_noEq hb) (by decide) hpn
      · exfalso
        obtain ⟨h1, h2, h3, h4, h5, h6, h7, h8, h9⟩ := hT
        apply h8
        have e2 : (lead ++ b.text c) ++ ')' :: rest = (n ++ [' ']) ++ '=' :: (' ' :: (ln k0 ++ lnF r [',', ' ']) ++ ')' :: rest') := by
          rw [List.append_assoc, ee, hx]; simp
        obtain ⟨z', hz⟩ := cut_paren hpn e2
        rw [← List.append_assoc, hz]
        have := field_assign (u := []) (y := z') blanks_nil hn one_blank
        simpa using this
      · obtain ⟨h1, h2, h3, h4, h5, h6, h7, h9⟩ := hT
        obtain ⟨rfl, hb⟩ := lead_false h5 hp hy (ee.trans e0)
        obtain ⟨g1, g2, g3⟩ := ih hb blanks_nil h9 ee
        refine ⟨g1, by rw [All, AllV]; exact ⟨hnb, g2⟩, fun k' hk' => ?_⟩
        rw [Tree.Means] at hk'
        obtain ⟨l', f', hl', hf', rfl⟩ := hk'
        have hr := g3 l' hl'
        have := GR.fieldsOf_unique hf' (EX.fieldsOf_self (ascending_names hk2.2 (readAsF_names hr)))
        subst this
        rw [ReadAs, ReadAsV]
        exact ⟨_, hr, by simp⟩
      · cases h
      · cases h
  | map m =>
    rw [AllV] at hv
    have e : T.text ++ rest = nid [' '] id ++ '{' :: (lnM m [' '] [] ++ '}' :: rest') := by rw [e, lnV]; simp
    obtain ⟨hnb, hsh⟩ := shape hi hT (hs.imp_right fun h => ⟨h.1, .inr (splits_id h.2 rfl)⟩) one_blank (o := '{') (by decide) e
    have hst : ∃ p y, lnM m [' '] [] ++ '}' :: rest' = p ++ y ∧ Blanks p ∧ ∀ d z, y = d :: z → d ∉ str " \t\r\n" := by
      cases m with
      | nil => exact ⟨[], _, rfl, blanks_nil, closer_noWhite (by decide) _⟩
      | cons q r =>
        obtain ⟨k0, v0⟩ := q
        rw [AllM] at hv
        rw [lnM]
        exact ⟨[' '], _, List.append_assoc .., one_blank, (((ln_starts (all_self hv.1)).append _).append _).noWhite⟩
    obtain ⟨p, y, e0, hp, hy⟩ := hst
    rcases hsh with ⟨h, -⟩ | ⟨h, -⟩ | ⟨h, -⟩ | ⟨h, -⟩ | ⟨-, w, c, lead, b, rfl, ee⟩
    · cases h
    · cases h
    · cases h
    · cases h
    · obtain ⟨h1, h2, h3, h4, h5, h6, h9⟩ := hT
      obtain ⟨rfl, hb⟩ := lead_false h5 hp hy (ee.trans e0)
      obtain ⟨g1, g2, g3⟩ := pairs_same m hv hb one_blank blanks_nil h9 ee
      refine ⟨g1, by rw [All, AllV]; exact ⟨hnb, g2⟩, fun k' hk' => ?_⟩
      rw [Tree.Means] at hk'
      obtain ⟨l', m', hl', hm', rfl⟩ := hk'
      rw [ReadAs, ReadAsV]
      exact ⟨l', m', g3 l' hl', hm', rfl⟩
termination_by structural k
theorem list_same (l : List Kserd) (hl : AllL Ordinary l) {close : Char} (hc : close ∈ str ")]") {b : Elems} {lead pre rest rest' : Str} (hlead : Blanks lead)
    (hpre : Blanks pre) (hb : b.Reads false (close :: rest)) (e : lead ++ (b.text false ++ close :: rest) = lnI l pre ++ close :: rest') :
    rest = rest' ∧ AllL Legible l ∧ ∀ l', b.Means l' → ReadAsL l l' := by
  have hc' : close ∈ str ",:)]}" := by
    have : ∀ c ∈ str ")]", c ∈ str ",:)]}" := by decide
    exact this _ hc
  have hne : close ≠ ',' := by rintro rfl; revert hc; decide
  match l with
  | [] =>
    rw [lnI] at e
    cases b with
    | nil =>
      obtain ⟨-, e2⟩ := span (P := BlankC) (b := []) hlead blanks_nil (closer_noBlank hc' _) (closer_noBlank hc' _) e
      cases e2
      refine ⟨rfl, by rw [AllL]; trivial, fun l' h => ?_⟩
      rw [Elems.Means] at h; rw [ReadAsL]; exact h
    | cons pre' t post R =>
      rw [Elems.Reads] at hb
      rw [Elems.text] at e
      have e : (lead ++ pre') ++ (t.text ++ (post ++ (comma false R.isNil ++ R.text false)) ++ close :: rest) = [] ++ close :: rest' := by simpa using e
      obtain ⟨-, e2⟩ := span (P := BlankC) (GR.blanks_append hlead hb.1) blanks_nil (((tree_starts hb.2.1).append _).append _).noBlank (closer_noBlank hc' _) e
      exact absurd e2 (closer_not_starts hc' (((tree_starts hb.2.1).append _).append _))
  | k :: r =>
    rw [AllL] at hl
    have hks := ln_starts (all_self hl.1)
    rw [lnI] at e
    cases b with
    | nil =>
      rw [Elems.text] at e
      have e : lead ++ close :: rest = pre ++ (ln k ++ (lnI r [',', ' '] ++ close :: rest')) := by simpa using e
      obtain ⟨-, e2⟩ := span (P := BlankC) hlead hpre (closer_noBlank hc' _) (hks.append _).noBlank e
      exact absurd e2.symm (closer_not_starts hc' (hks.append _))
    | cons pre' t post R =>
      rw [Elems.Reads] at hb
      obtain ⟨h1, h2, h3, h4⟩ := hb
      rw [Elems.text] at e
      have e : (lead ++ pre') ++ (t.text ++ (post ++ (comma false R.isNil ++ (R.text false ++ close :: rest)))) =
          pre ++ (ln k ++ (lnI r [',', ' '] ++ close :: rest')) := by simpa using e
      obtain ⟨-, e2⟩ := span (P := BlankC) (GR.blanks_append hlead h1) hpre ((tree_starts h2).append _).noBlank (hks.append _).noBlank e
      have hst' : Stopped (lnI r [',', ' '] ++ close :: rest') := by
        cases r with
        | nil => exact stopped_cons hc' _
        | cons k2 r2 => rw [lnI]; exact stopped_cons (c := ',') (by decide) _
      obtain ⟨e3, g1, g2⟩ := node_same k hl.1 h2 (.inl (comma_stopped h3 ⟨_, _, rfl, hc'⟩ _ _ (by
        intro hn; cases R with
        | nil => rfl
        | cons _ _ _ _ => cases hn))) hst'.cut e2
      have ih := @list_same r hl.2 close hc R [] [' '] rest rest' blanks_nil one_blank h4
      have goal : rest = rest' ∧ AllL Legible r ∧ ∀ l', R.Means l' → ReadAsL r l' := by
        cases r with
        | nil =>
          cases R with
          | nil =>
            apply ih
            obtain ⟨-, e4⟩ := span (P := BlankC) (b := []) h3 blanks_nil (closer_noBlank hc' _) (closer_noBlank hc' _) e3
            exact e4
          | cons a b' c d =>
            obtain ⟨-, e4⟩ := span (P := BlankC) (b := []) h3 blanks_nil (closer_noBlank (c := ',') (by decide) _) (closer_noBlank hc' _) e3
            cases e4; exact absurd rfl hne
        | cons k2 r2 =>
          rw [lnI] at e3
          have e3 : post ++ (comma false R.isNil ++ (R.text false ++ close :: rest)) =
              [] ++ ',' :: (lnI (k2 :: r2) [' '] ++ close :: rest') := by rw [e3, lnI]; simp
          cases R with
          | nil =>
            obtain ⟨-, e4⟩ := span (P := BlankC) (b := []) h3 blanks_nil (closer_noBlank hc' _) (closer_noBlank (c := ',') (by decide) _) e3
            cases e4; exact absurd rfl hne
          | cons a b' c d =>
            apply ih
            obtain ⟨-, e4⟩ := span (P := BlankC) (b := []) h3 blanks_nil (closer_noBlank (c := ',') (by decide) _) (closer_noBlank (c := ',') (by decide) _) e3
            injection e4
      refine ⟨goal.1, by rw [AllL]; exact ⟨g1, goal.2.1⟩, fun l' h => ?_⟩
      rw [Elems.Means] at h
      obtain ⟨k', r', hk', hr', rfl⟩ := h
      rw [ReadAsL]
      exact ⟨k', r', g2 k' hk', goal.2.2 r' hr', rfl⟩
termination_by structural l
theorem fields_same (l : List (Str × Kserd)) (hl : AllF Ordinary l) (hn : ∀ p ∈ l, ∀ c ∈ p.1, NameChar c) {b : Assigns} {lead pre rest rest' : Str} (hlead : Blanks lead)
    (hpre : Blanks pre) (hb : b.Reads false (')' :: rest)) (e : lead ++ (b.text false ++ ')' :: rest) = lnF l pre ++ ')' :: rest') :
    rest = rest' ∧ AllF Legible l ∧ ∀ l', b.Means l' → ReadAsF l l' := by
  match l with
  | [] =>
    rw [lnF] at e
    cases b with
    | nil =>
      obtain ⟨-, e2⟩ := span (P := BlankC) (b := []) hlead blanks_nil (paren_noBlank _) (paren_noBlank _) e
      cases e2
      refine ⟨rfl, by rw [AllF]; trivial, fun l' h => ?_⟩
      rw [Assigns.Means] at h; rw [ReadAsF]; exact h
    | cons pre' name mid gap t post R =>
      exfalso
      rw [Assigns.Reads] at hb
      obtain ⟨g1, g2, g3, g4, -⟩ := hb
      rw [Assigns.text] at e
      have e : [] ++ ')' :: rest' = (lead ++ pre' ++ name ++ mid) ++ '=' :: (gap ++ (t.text ++ (post ++ (comma false R.isNil ++ R.text false))) ++ ')' :: rest) := by
        simpa using e.symm
      refine EX.stops_no e (by simp) (by decide) fun hm => ?_
      simp only [List.mem_append] at hm
      rcases hm with ((hm | hm) | hm) | hm
      · rcases hlead _ hm with h | h <;> revert h <;> decide
      · rcases g1 _ hm with h | h <;> revert h <;> decide
      · have := g2 _ hm; rw [← PG.isNameChar_iff] at this; revert this; decide
      · rcases g4 _ hm with h | h <;> revert h <;> decide
  | (n, k) :: r =>
    rw [AllF] at hl
    have hks := ln_starts (all_self hl.1)
    have hn1 : ∀ c ∈ n, NameChar c := hn (n, k) List.mem_cons_self
    rw [lnF] at e
    cases b with
    | nil =>
      exfalso
      rw [Assigns.text] at e
      have e : lead ++ ')' :: rest = (pre ++ (n ++ [' '])) ++ '=' :: (' ' :: (ln k ++ (lnF r [',', ' '] ++ ')' :: rest'))) := by simpa using e
      refine EX.stops_no e (blank_noEq hlead) (by decide) fun hm => ?_
      simp only [List.mem_append] at hm
      rcases hm with hm | hm | hm
      · rcases hpre _ hm with h | h <;> revert h <;> decide
      · have := hn1 _ hm; rw [← PG.isNameChar_iff] at this; revert this; decide
      · revert hm; decide
    | cons pre' name mid gap t post R =>
      rw [Assigns.Reads] at hb
      obtain ⟨h1, f2, f3, f4, f5, h2, h3, h4⟩ := hb
      rw [Assigns.text] at e
      have e : (lead ++ pre') ++ (name ++ (mid ++ '=' :: (gap ++ (t.text ++ (post ++ (comma false R.isNil ++ (R.text false ++ ')' :: rest))))))) =
          pre ++ (n ++ (' ' :: '=' :: (' ' :: (ln k ++ (lnF r [',', ' '] ++ ')' :: rest'))))) := by simpa using e
      obtain ⟨rfl, e1⟩ := field_split (GR.blanks_append hlead h1) hpre f2 hn1 f3 f4 e
      obtain ⟨-, e2⟩ := span (P := BlankC) (b := [' ']) f5 one_blank ((tree_starts h2).append _).noBlank (hks.append _).noBlank e1
      have hst' : Stopped (lnF r [',', ' '] ++ ')' :: rest') := by
        cases r with
        | nil => exact stopped_cons (c := ')') (by decide) _
        | cons p2 r2 => obtain ⟨n2, k2⟩ := p2; rw [lnF]; exact stopped_cons (c := ',') (by decide) _
      obtain ⟨e3, g1, g2⟩ := node_same k hl.1 h2 (.inl (comma_stopped h3 ⟨_, _, rfl, by decide⟩ _ _ (by
        intro hn; cases R with
        | nil => rfl
        | cons _ _ _ _ => cases hn))) hst'.cut e2
      have ih := @fields_same r hl.2 (fun p hp => hn p (List.mem_cons_of_mem _ hp)) R [] [' '] rest rest' blanks_nil one_blank h4
      have goal : rest = rest' ∧ AllF Legible r ∧ ∀ l', R.Means l' → ReadAsF r l' := by
        cases r with
        | nil =>
          cases R with
          | nil =>
            apply ih
            obtain ⟨-, e4⟩ := span (P := BlankC) (b := []) h3 blanks_nil (paren_noBlank _) (paren_noBlank _) e3
            exact e4
          | cons _ _ _ _ _ _ _ =>
            obtain ⟨-, e4⟩ := span (P := BlankC) (b := []) h3 blanks_nil (closer_noBlank (c := ',') (by decide) _) (paren_noBlank _) e3
            exact absurd (show some ',' = some ')' from congrArg List.head? e4) (by decide)
        | cons p2 r2 =>
          obtain ⟨n2, k2⟩ := p2
          rw [lnF] at e3
          have e3 : post ++ (comma false R.isNil ++ (R.text false ++ ')' :: rest)) =
              [] ++ ',' :: (lnF ((n2, k2) :: r2) [' '] ++ ')' :: rest') := by rw [e3, lnF]; simp
          cases R with
          | nil =>
            obtain ⟨-, e4⟩ := span (P := BlankC) (b := []) h3 blanks_nil (paren_noBlank _) (closer_noBlank (c := ',') (by decide) _) e3
            exact absurd (show some ')' = some ',' from congrArg List.head? e4) (by decide)
          | cons _ _ _ _ _ _ _ =>
            apply ih
            obtain ⟨-, e4⟩ := span (P := BlankC) (b := []) h3 blanks_nil (closer_noBlank (c := ',') (by decide) _) (closer_noBlank (c := ',') (by decide) _) e3
            injection e4
      refine ⟨goal.1, by rw [AllF]; exact ⟨g1, goal.2.1⟩, fun l' h => ?_⟩
      rw [Assigns.Means] at h
      obtain ⟨k', r', hk', hr', rfl⟩ := h
      rw [ReadAsF]
      exact ⟨k', r', g2 k' hk', goal.2.2 r' hr', rfl⟩
termination_by structural l
theorem pairs_same (l : List (Kserd × Kserd)) (hl : AllM Ordinary l) {b : Pairs} {lead pre fin rest rest' : Str} (hlead : Blanks lead)
    (hpre : Blanks pre) (hfin : Blanks fin) (hb : b.Reads false ('}' :: rest)) (e : lead ++ (b.text false ++ '}' :: rest) = lnM l pre fin ++ '}' :: rest') :
    rest = rest' ∧ AllM Legible l ∧ ∀ l', b.Means l' → ReadAsM l l' := by
  have hc' : '}' ∈ str ",:)]}" := by decide
  match l with
  | [] =>
    rw [lnM] at e
    cases b with
    | nil =>
      obtain ⟨-, e2⟩ := span (P := BlankC) hlead hfin (closer_noBlank hc' _) (closer_noBlank hc' _) e
      cases e2
      refine ⟨rfl, by rw [AllM]; trivial, fun l' h => ?_⟩
      rw [Pairs.Means] at h; rw [ReadAsM]; exact h
    | cons pre' t mid gap v post R =>
      rw [Pairs.Reads] at hb
      rw [Pairs.text] at e
      have e : (lead ++ pre') ++ (t.text ++ (mid ++ ':' :: (gap ++ (v.text ++ (post ++ (comma false R.isNil ++ R.text false))))) ++ '}' :: rest) =
          fin ++ '}' :: rest' := by simpa using e
      obtain ⟨-, e2⟩ := span (P := BlankC) (GR.blanks_append hlead hb.1) hfin (((tree_starts hb.2.1).append _).append _).noBlank (closer_noBlank hc' _) e
      exact absurd e2 (closer_not_starts hc' (((tree_starts hb.2.1).append _).append _))
  | (k, x) :: r =>
    rw [AllM] at hl
    have hks := ln_starts (all_self hl.1)
    have hxs := ln_starts (all_self hl.2.1)
    rw [lnM] at e
    cases b with
    | nil =>
      rw [Pairs.text] at e
      have e : lead ++ '}' :: rest = pre ++ (ln k ++ (':' :: ' ' :: (ln x ++ (lnM r [',', ' '] [' '] ++ '}' :: rest')))) := by simpa using e
      obtain ⟨-, e2⟩ := span (P := BlankC) hlead hpre (closer_noBlank hc' _) (hks.append _).noBlank e
      exact absurd e2.symm (closer_not_starts hc' (hks.append _))
    | cons pre' t mid gap v post R =>
      rw [Pairs.Reads] at hb
      obtain ⟨h1, h2, f4, f5, h2', h3, h4⟩ := hb
      rw [Pairs.text] at e
      have e : (lead ++ pre') ++ (t.text ++ (mid ++ ':' :: (gap ++ (v.text ++ (post ++ (comma false R.isNil ++ (R.text false ++ '}' :: rest))))))) =
          pre ++ (ln k ++ (':' :: ' ' :: (ln x ++ (lnM r [',', ' '] [' '] ++ '}' :: rest')))) := by simpa using e
      obtain ⟨-, e2⟩ := span (P := BlankC) (GR.blanks_append hlead h1) hpre ((tree_starts h2).append _).noBlank (hks.append _).noBlank e
      obtain ⟨e3, g1, g2⟩ := node_same k hl.1 h2 (.inl (stopped_blanks f4 (stopped_cons (by decide) _))) (stopped_cons (by decide) _).cut e2
      obtain ⟨-, e4⟩ := span (P := BlankC) (b := []) f4 blanks_nil (closer_noBlank (c := ':') (by decide) _) (closer_noBlank (c := ':') (by decide) _) e3
      injection e4 with _ e4
      obtain ⟨-, e5⟩ := span (P := BlankC) (b := [' ']) f5 one_blank ((tree_starts h2').append _).noBlank (hxs.append _).noBlank e4
      have hst' : Stopped (lnM r [',', ' '] [' '] ++ '}' :: rest') := by
        cases r with
        | nil => exact stopped_blanks one_blank (stopped_cons (by decide) _)
        | cons p2 r2 => obtain ⟨n2, k2⟩ := p2; rw [lnM]; exact stopped_cons (c := ',') (by decide) _
      obtain ⟨e6, g3, g4⟩ := node_same x hl.2.1 h2' (.inl (comma_stopped h3 ⟨_, _, rfl, by decide⟩ _ _ (by
        intro hn; cases R with
        | nil => rfl
        | cons _ _ _ _ => cases hn))) hst'.cut e5
      have goal : rest = rest' ∧ AllM Legible r ∧ ∀ l', R.Means l' → ReadAsM r l' := by
        have ih := @pairs_same r hl.2.2 R [] [' '] [] rest rest' blanks_nil one_blank blanks_nil h4
        cases r with
        | nil =>
          cases R with
          | nil =>
            apply ih
            rw [lnM] at e6
            obtain ⟨-, e7⟩ := span (P := BlankC) h3 one_blank (closer_noBlank hc' _) (closer_noBlank hc' _) e6
            exact e7
          | cons _ _ _ _ _ _ _ =>
            rw [lnM] at e6
            obtain ⟨-, e7⟩ := span (P := BlankC) h3 one_blank (closer_noBlank (c := ',') (by decide) _) (closer_noBlank hc' _) e6
            exact absurd (show some ',' = some '}' from congrArg List.head? e7) (by decide)
        | cons p2 r2 =>
          obtain ⟨n2, k2⟩ := p2
          rw [lnM] at e6
          have e6 : post ++ (comma false R.isNil ++ (R.text false ++ '}' :: rest)) =
              [] ++ ',' :: (lnM ((n2, k2) :: r2) [' '] [] ++ '}' :: rest') := by rw [e6, lnM]; simp
          cases R with
          | nil =>
            obtain ⟨-, e7⟩ := span (P := BlankC) (b := []) h3 blanks_nil (closer_noBlank hc' _) (closer_noBlank (c := ',') (by decide) _) e6
            exact absurd (show some '}' = some ',' from congrArg List.head? e7) (by decide)
          | cons _ _ _ _ _ _ _ =>
            apply ih
            obtain ⟨-, e7⟩ := span (P := BlankC) (b := []) h3 blanks_nil (closer_noBlank (c := ',') (by decide) _) (closer_noBlank (c := ',') (by decide) _) e6
            injection e7
      refine ⟨goal.1, by rw [AllM]; exact ⟨g1, g3, goal.2.1⟩, fun l' h => ?_⟩
      rw [Pairs.Means] at h
      obtain ⟨k', x', r', hk', hx', hr', rfl⟩ := h
      rw [ReadAsM]
      exact ⟨k', x', r', g2 k' hk', g4 x' hx', goal.2.2 r' hr', rfl⟩
termination_by structural l
end

end KS.Inl
