import Verif.Lemmas.GrammarMeans
import Verif.Spec.Express
import Verif.Props.Decimals
import Verif.Props.NumText
import Verif.Lemmas.Base91
/-!
# Writing Kserds: a tree of the grammar for every one that can be written
-/

namespace KS.EX
open KS.Spec KS.Spec.Ex
open KS.GR hiding Stop Stops

attribute [local irreducible] F64.scale F64.magLimit F64.decScale F64.decExact F64.shortest F64.decText F64.decNorm F64.roundTo F64.WF F64.disp

/-! ## Numbers -/

/-- Text of a number that cannot be taken for a name. -/
def NumText (n : Number) (t : Str) : Prop := (∀ c ∈ t, NumChar c) ∧ Number.fromStr t = some n

/-- Does not begin like a name. -/
def NoName (t : Str) : Prop := ∃ c r, t = c :: r ∧ ¬ Letter c ∧ c ≠ '_'

theorem digit_num {c : Char} (h : DigitC c) : NumChar c := .inl h

theorem digit_noName {c : Char} (h : DigitC c) : ¬ Letter c ∧ c ≠ '_' := by
  obtain ⟨h1, h2⟩ := h
  have h1 : '0'.toNat ≤ c.toNat := h1
  have h2 : c.toNat ≤ '9'.toNat := h2
  have e0 : '0'.toNat = 48 := rfl
  have e9 : '9'.toNat = 57 := rfl
  refine ⟨?_, ?_⟩
  · rintro (⟨a, -⟩ | ⟨a, -⟩)
    · have a : 'a'.toNat ≤ c.toNat := a
      have : 'a'.toNat = 97 := rfl
      omega
    · have a : 'A'.toNat ≤ c.toNat := a
      have : 'A'.toNat = 65 := rfl
      omega
  · rintro rfl
    have : '_'.toNat = 95 := rfl
    omega

theorem digits_of_all {s : Str} (h : s.all isDigit = true) : ∀ c ∈ s, DigitC c := fun c hc =>
  (PG.isDigit_iff' c).mp (List.all_eq_true.mp h c hc)

theorem uint_text (n : Nat) (h : Number.WF (.uint n)) : ∃ t, NumText (.uint n) t ∧ NoName t := by
  have hd := digits_of_all (natDigits_all n)
  refine ⟨natDigits n, ⟨fun c hc => digit_num (hd c hc), Props.C07_uint n h⟩, ?_⟩
  cases e : natDigits n with
  | nil => exact absurd e (natDigits_ne_nil n)
  | cons c r => exact ⟨c, r, rfl, digit_noName (hd c (by rw [e]; exact List.mem_cons_self))⟩

theorem int_text (i : Int) (h : Number.WF (.int i)) (hi : i ≤ 0) : ∃ t, NumText (.int i) t ∧ NoName t := by
  have hd := digits_of_all (natDigits_all i.natAbs)
  refine ⟨'-' :: natDigits i.natAbs, ⟨?_, ?_⟩, '-', _, rfl, ?_, by decide⟩
  · intro c hc
    rcases List.mem_cons.mp hc with rfl | hc
    · exact .inr (by decide)
    · exact digit_num (hd c hc)
  · rw [fromStr_neg _ (natDigits_ne_nil _) (natDigits_all _), digitsVal_natDigits]
    have : -(i.natAbs : Int) = i := by omega
    rw [this, if_pos h.1]
  · rintro (⟨a, -⟩ | ⟨a, -⟩) <;> revert a <;> decide

theorem float_text (x : F64) (hx : x.WF) (hf : x.isFinite = true) : ∃ t, NumText (.float x) t ∧ NoName t := by
  obtain ⟨d, hok, ⟨sign, frac, ex, h1, h2, h3, he⟩, hexp, -, hp, -⟩ := Props.C62_shortest_nearest x hx hf
  have h0 : Spec.ExpText 0 (str "e0") := .inr ⟨'e', false, [], ['0'], .inl rfl, .inl rfl, by simp,
    (by intro c hc; rw [List.mem_singleton.mp hc]; constructor <;> decide), rfl, by decide⟩
  let sg : Str := if d.neg then ['-'] else []
  have hsg : SignText d.neg sg := by
    unfold SignText
    cases hn : d.neg
    · simp [sg, hn]
    · simp [sg, hn]
  have ht : d.Text (sg ++ (d.whole ++ ('.' :: d.frac ++ str "e0"))) := ⟨sg, '.' :: d.frac, str "e0", hsg, .inl rfl, by rw [hexp]; exact h0, rfl⟩
  have hd : ∀ c ∈ d.whole ++ d.frac, DigitC c := hok.2
  have hread : F64.parse (sg ++ (d.whole ++ ('.' :: d.frac ++ str "e0"))) = some x := by
    rw [Props.read_finish hok ht, ← hp, Props.read_finish hok ⟨sign, frac, ex, h1, h2, h3, he⟩]
  have hpoint : '.' ∈ d.whole ++ ('.' :: d.frac ++ str "e0") := by simp
  have hbad : (d.whole ++ ('.' :: d.frac ++ str "e0")).all (fun b => isDigit b || b == '_') = false := by
    rw [Bool.eq_false_iff]
    intro h
    have := List.all_eq_true.mp h '.' hpoint
    revert this; decide
  have hch : ∀ c ∈ d.whole ++ ('.' :: d.frac ++ str "e0"), NumChar c := by
    intro c hc
    rcases List.mem_append.mp hc with hc | hc
    · exact digit_num (hd c (List.mem_append_left _ hc))
    · rcases List.mem_append.mp hc with hc | hc
      · rcases List.mem_cons.mp hc with rfl | hc
        · exact .inr (by decide)
        · exact digit_num (hd c (List.mem_append_right _ hc))
      · have : c = 'e' ∨ c = '0' := by simpa [str] using hc
        rcases this with rfl | rfl
        · exact .inr (by decide)
        · exact .inl ⟨by decide, by decide⟩
  refine ⟨sg ++ (d.whole ++ ('.' :: d.frac ++ str "e0")), ⟨?_, ?_⟩, ?_⟩
  · intro c hc
    rcases List.mem_append.mp hc with hc | hc
    · simp only [sg] at hc
      split at hc
      · rw [List.mem_singleton.mp hc]; exact .inr (by decide)
      · cases hc
    · exact hch c hc
  · cases hn : d.neg with
    | true =>
      have hs : sg = ['-'] := by simp [sg, hn]
      rw [hs] at hread ⊢
      simp only [List.cons_append, List.nil_append] at hread ⊢
      rw [Number.fromStr]
      simp only [if_true, List.cons_append] at hbad ⊢
      rw [hbad, hread]
      simp
    | false =>
      have hs : sg = [] := by simp [sg, hn]
      rw [hs] at hread ⊢
      simp only [List.nil_append] at hread ⊢
      generalize hg : d.whole ++ ('.' :: d.frac ++ str "e0") = t at hread hbad hpoint
      cases t with
      | nil => cases hpoint
      | cons c r =>
        have hc : c ≠ '-' := by
          rintro rfl
          cases hw : d.whole with
          | nil => rw [hw] at hg; simp at hg
          | cons y z =>
            rw [hw] at hg
            simp at hg
            have := hd y (by rw [hw]; simp)
            rw [hg.1] at this
            exact absurd this.1 (by decide)
        rw [Number.fromStr]
        simp only [hc, if_false]
        rw [hbad, hread]
        simp
  · cases hn : d.neg with
    | true =>
      have hs : sg = ['-'] := by simp [sg, hn]
      rw [hs]
      refine ⟨'-', _, rfl, ?_, by decide⟩
      rintro (⟨a, -⟩ | ⟨a, -⟩) <;> revert a <;> decide
    | false =>
      have hs : sg = [] := by simp [sg, hn]
      rw [hs]
      cases hw : d.whole with
      | nil =>
        refine ⟨'.', _, rfl, ?_, by decide⟩
        rintro (⟨a, -⟩ | ⟨a, -⟩) <;> revert a <;> decide
      | cons y z => exact ⟨y, _, rfl, digit_noName (hd y (by rw [hw]; simp))⟩

theorem chars_num {s : Str} (h : s.all P.isNumChar = true) : ∀ c ∈ s, NumChar c := fun c hc => (numChar_iff c).mp (List.all_eq_true.mp h c hc)

theorem minus_noName (r : Str) : NoName ('-' :: r) := by
  refine ⟨'-', r, rfl, ?_, by decide⟩
  rintro (⟨a, -⟩ | ⟨a, -⟩) <;> revert a <;> decide

/-- Every number that can be written has a text, and unless it is a positive NaN one that is not like a name. -/
theorem num_text {n : Number} (h : Num n) : ∃ t, NumText n t ∧ ((∀ p, n ≠ .float (.nan false p)) → NoName t) := by
  obtain ⟨hw, hn⟩ := h
  cases n with
  | uint n => obtain ⟨t, h1, h2⟩ := uint_text n hw; exact ⟨t, h1, fun _ => h2⟩
  | int i => obtain ⟨t, h1, h2⟩ := int_text i hw hn; exact ⟨t, h1, fun _ => h2⟩
  | float x =>
    cases x with
    | nan s p =>
      have hn : p = 2 ^ 51 := hn
      subst hn
      cases s with
      | false => exact ⟨str "NaN", ⟨chars_num (by decide), by decide +kernel⟩, fun h => absurd rfl (h _)⟩
      | true => exact ⟨str "-NaN", ⟨chars_num (by decide), by decide +kernel⟩, fun _ => minus_noName _⟩
    | inf s =>
      cases s with
      | false => exact ⟨str "1e999", ⟨chars_num (by decide), by decide +kernel⟩, fun _ => ⟨'1', _, rfl, digit_noName ⟨by decide, by decide⟩⟩⟩
      | true => exact ⟨str "-1e999", ⟨chars_num (by decide), by decide +kernel⟩, fun _ => minus_noName _⟩
    | fin s m =>
      obtain ⟨t, h1, h2⟩ := float_text (.fin s m) hw rfl
      exact ⟨t, h1, fun _ => h2⟩

/-! ## Text that is not a field, and not a name with a bracket -/

theorem name_chars {i : Str} (h : ValidName i) : ∀ c ∈ i, NameChar c := by
  obtain ⟨a, r, rfl, ha, hr⟩ := h
  intro c hc
  rcases List.mem_cons.mp hc with rfl | hc
  · rcases ha with ha | rfl
    · exact .inl ha
    · exact .inr (.inr (.inr rfl))
  · exact hr c hc

theorem name_not {c : Char} (h : NameChar c) : c ≠ '=' ∧ ¬ Stop c ∧ c ∉ str " \t\r\n([{" := by
  rw [← PG.isNameChar_iff] at h
  refine ⟨?_, ?_, ?_⟩
  · rintro rfl; revert h; decide
  · intro hs
    have : ∀ c ∈ str "<>(){}'\"\r\n", P.isNameChar c = false := by decide
    rw [this c hs] at h; cases h
  · intro hs
    have : ∀ c ∈ str " \t\r\n([{", P.isNameChar c = false := by decide
    rw [this c hs] at h; cases h

theorem num_not {c : Char} (h : NumChar c) : c ≠ '=' ∧ c ∉ str " \t\r\n([{" := by
  rw [← numChar_iff] at h
  refine ⟨?_, ?_⟩
  · rintro rfl; revert h; decide
  · intro hs
    have : ∀ c ∈ str " \t\r\n([{", P.isNumChar c = false := by decide
    rw [this c hs] at h; cases h

/-- A stop comes before any `=`. -/
def Stops (x : Str) : Prop := ∃ a c z, x = a ++ c :: z ∧ '=' ∉ a ∧ Stop c

theorem Stops.append {x : Str} (h : Stops x) (y : Str) : Stops (x ++ y) := by
  obtain ⟨a, c, z, rfl, h1, h2⟩ := h
  exact ⟨a, c, z ++ y, by simp, h1, h2⟩

theorem Stops.prepend {x a : Str} (ha : '=' ∉ a) (h : Stops x) : Stops (a ++ x) := by
  obtain ⟨b, c, z, rfl, h1, h2⟩ := h
  exact ⟨a ++ b, c, z, by simp, by simp [ha, h1], h2⟩

theorem stop_iff (c : Char) : c ∈ str "<>(){}='\"\r\n" ↔ Stop c ∨ c = '=' := by
  unfold Stop
  have e1 : str "<>(){}='\"\r\n" = ['<', '>', '(', ')', '{', '}', '=', '\'', '"', '\r', '\n'] := rfl
  have e2 : str "<>(){}'\"\r\n" = ['<', '>', '(', ')', '{', '}', '\'', '"', '\r', '\n'] := rfl
  rw [e1, e2]
  simp only [List.mem_cons, List.not_mem_nil, or_false]
  tauto

theorem stops_no {a b n y : Str} {c d : Char} (e : a ++ c :: b = n ++ d :: y) (hd : d ∉ a) (hdc : d ≠ c) (hn : c ∉ n) : False := by
  induction a generalizing n with
  | nil =>
    cases n with
    | nil => cases e; exact hdc rfl
    | cons x n => cases e; exact hn List.mem_cons_self
  | cons x a ih =>
    cases n with
    | nil => cases e; exact hd List.mem_cons_self
    | cons x' n =>
      injection e with e1 e2
      exact ih e2 (fun h => hd (List.mem_cons_of_mem _ h)) (fun h => hn (List.mem_cons_of_mem _ h))

theorem white_mem {c : Char} (h : c = ' ' ∨ c = '\t' ∨ c = '\r' ∨ c = '\n') : c ∈ str " \t\r\n" := by
  rcases h with rfl | rfl | rfl | rfl <;> decide

/-- White space followed by something else is split in one way. -/
theorem white_split {w v x y : Str} (hw : White w) (hv : White v) (hx : ∀ c t, x = c :: t → c ∉ str " \t\r\n") (e : w ++ x = v ++ y) :
    ∃ u, w = v ++ u ∧ y = u ++ x := by
  induction v generalizing w with
  | nil => exact ⟨w, rfl, e.symm⟩
  | cons c v ih =>
    cases w with
    | nil => exact absurd (white_mem (hv c List.mem_cons_self)) (hx c _ e)
    | cons d w =>
      injection e with e1 e2
      subst e1
      obtain ⟨u, h1, h2⟩ := ih (fun c hc => hw c (List.mem_cons_of_mem _ hc)) (fun c hc => hv c (List.mem_cons_of_mem _ hc)) e2
      exact ⟨u, by rw [h1]; rfl, h2⟩

theorem stop_ne {c : Char} (h : Stop c) : '=' ≠ c := by
  rintro rfl
  revert h
  unfold Stop
  decide

theorem not_assign {w x : Str} (hw : White w) (hx : ∀ c t, x = c :: t → c ∉ str " \t\r\n") (h : Stops x) : ¬ AssignAhead (w ++ x) := by
  rintro ⟨v, n, z, e, hv, hn⟩
  obtain ⟨u, h1, h2⟩ := white_split hw hv hx e
  obtain ⟨a, c, y, rfl, ha, hc⟩ := h
  rw [← List.append_assoc] at h2
  refine stops_no h2.symm (d := '=') ?_ (stop_ne hc) fun hcn => hn c hcn ((stop_iff c).mpr (.inl hc))
  intro hm
  rcases List.mem_append.mp hm with hm | hm
  · have := white_mem (hw '=' (by rw [h1]; exact List.mem_append_right _ hm))
    revert this; decide
  · exact ha hm

/-- Only a letter or `_` begins a name. -/
theorem not_bracket {t : Str} (h : NoName t) (r : Str) : ¬ BracketAhead (t ++ r) := by
  obtain ⟨c, t, rfl, h1, h2⟩ := h
  rintro ⟨n, w, b, z, e, ⟨a, m, rfl, ha, -⟩, -⟩
  injection e with e1 _
  subst e1
  rcases ha with ha | ha
  · exact h1 ha
  · exact h2 ha

/-- A name, then something that is neither white nor an opening bracket nor part of a name. -/
theorem not_bracket_name {n t : Str} (hn : ∀ c ∈ n, NameChar c) {d : Char} (h1 : ¬ NameChar d) (h2 : d ∉ str " \t\r\n([{") :
    ¬ BracketAhead (n ++ d :: t) := by
  rintro ⟨m, w, b, z, e, hv, hw, hb⟩
  have hm := name_chars hv
  clear hv
  induction n generalizing m with
  | nil =>
    cases m with
    | nil =>
      cases w with
      | nil => cases e; apply h2; rcases hb with rfl | rfl | rfl <;> decide
      | cons c w =>
        cases e
        apply h2
        have := hw d List.mem_cons_self
        rcases this with rfl | rfl | rfl | rfl <;> decide
    | cons c m => cases e; exact h1 (hm d List.mem_cons_self)
  | cons x n ih =>
    cases m with
    | nil =>
      have hx := (name_not (hn x List.mem_cons_self)).2.2
      cases w with
      | nil =>
        injection e with e1 _
        subst e1
        apply hx; rcases hb with rfl | rfl | rfl <;> decide
      | cons c w =>
        injection e with e1 _
        subst e1
        apply hx
        have := hw x List.mem_cons_self
        rcases this with rfl | rfl | rfl | rfl <;> decide
    | cons c m =>
      injection e with e1 e2
      exact ih (fun c hc => hn c (List.mem_cons_of_mem _ hc)) m e2 (fun c hc => hm c (List.mem_cons_of_mem _ hc))

/-! ## Literals -/

/-- Text that may follow: a line feed or a colon. -/
def Rest (rest : Str) : Prop := ∃ c r, rest = c :: r ∧ (c = '\n' ∨ c = ':')

/-- The literal can be written without identity (`bare`) or with one. -/
structure Lit (bare : Bool) (l : Literal) (v : Value) : Prop where
  ok : l.Ok
  value : l.value = v
  complete : ∀ rest, Rest rest → l.Complete rest
  bracket : bare = true → l.isBool = false → ∀ rest, Rest rest → ¬ BracketAhead (l.text ++ rest)
  head : ∃ c r, l.text = c :: r ∧ c ∉ str " \t\r\n:["

/-- In front of it no field begins. -/
def LitLead (l : Literal) : Prop := Stops (l.text ++ ['\n'])

theorem stops_end {t : Str} (h : '=' ∉ t) : Stops (t ++ ['\n']) := ⟨t, '\n', [], rfl, h, by unfold Stop; decide⟩

theorem lit_unit : Lit true (.unit []) .unit ∧ LitLead (.unit []) := by
  refine ⟨⟨(by intro c hc; cases hc), rfl, fun _ _ => trivial, fun _ _ rest _ => not_bracket ⟨'(', [')'], rfl, ?_, by decide⟩ rest, '(', [')'], rfl, by decide⟩, ?_⟩
  · rintro (⟨a, -⟩ | ⟨a, -⟩) <;> revert a <;> decide
  · exact stops_end (by decide)

theorem lit_bool (b : Bool) : Lit true (.bool b) (.bool b) ∧ LitLead (.bool b) := by
  refine ⟨⟨trivial, rfl, fun _ _ => trivial, fun _ h => (by cases h), ?_⟩, ?_⟩
  · cases b
    · exact ⟨'f', str "alse", rfl, by decide⟩
    · exact ⟨'t', str "rue", rfl, by decide⟩
  · cases b <;> exact stops_end (by decide)

theorem rest_num {rest : Str} (h : Rest rest) : NotContinued NumChar rest := by
  obtain ⟨c, r, rfl, hc⟩ := h
  intro d t e
  cases e
  rw [← numChar_iff]
  rcases hc with rfl | rfl <;> decide

theorem lit_num {n : Number} (h : Num n) (bare : Bool) (hb : bare = true → ∀ p, n ≠ .float (.nan false p)) :
    ∃ l, Lit bare l (.num n) ∧ LitLead l := by
  obtain ⟨t, ⟨h1, h2⟩, h3⟩ := num_text h
  have hne : ∃ c r, t = c :: r := by
    cases t with
    | nil => cases h2
    | cons c r => exact ⟨c, r, rfl⟩
  refine ⟨.num t n, ⟨⟨h1, h2⟩, rfl, fun _ hr => rest_num hr, fun hx _ rest _ => not_bracket (h3 (hb hx)) rest, ?_⟩, ?_⟩
  · obtain ⟨c, r, rfl⟩ := hne
    refine ⟨c, r, rfl, ?_⟩
    have := (h1 c List.mem_cons_self)
    rw [← numChar_iff] at this
    intro hc
    have h : ∀ c ∈ str " \t\r\n:[", P.isNumChar c = false := by decide
    rw [h c hc] at this; cases this
  · exact stops_end fun h => (num_not (h1 _ h)).1 rfl

theorem lit_bytes (b : Bytes) : ∃ l, Lit true l (.barr b) ∧ LitLead l := by
  refine ⟨.bytes (Base91.encode b), ⟨Base91.encode_no_quote b, ?_, fun _ _ => trivial, fun _ _ rest _ => ?_, 'b', _, rfl, by decide⟩, ?_⟩
  · show Value.barr (Base91.decode (Base91.encode b)) = _
    rw [Base91.decode_encode]
  · have e : (Literal.bytes (Base91.encode b)).text ++ rest = str "b91" ++ '\'' :: (Base91.encode b ++ ['\''] ++ rest) := by
      simp [Literal.text]; rfl
    rw [e]
    exact not_bracket_name (fun c hc => (PG.isNameChar_iff c).mp (by revert c; decide)) (by rw [← PG.isNameChar_iff]; decide) (by decide)
  · refine ⟨str "b91", '\'', Base91.encode b ++ ['\''] ++ ['\n'], ?_, by decide, by unfold Stop; decide⟩
    simp [Literal.text]; rfl

/-- A delimiter other than white space. -/
theorem lit_delim {d : Char} (h : Delim d) {s : Str} (hs : d ∉ s) : Lit true (.delimited d s) (.str s) := by
  refine ⟨hs, rfl, fun _ _ => trivial, fun _ _ rest _ => ?_, 's', _, rfl, by decide⟩
  have e : (Literal.delimited d s).text ++ rest = str "str" ++ d :: (s ++ [d] ++ rest) := by simp [Literal.text]
  rw [e]
  refine not_bracket_name (fun c hc => (PG.isNameChar_iff c).mp (by revert c; decide)) h.1 fun hd => h.2 ?_
  have : ∀ d ∈ str " \t\r\n([{", d ∈ str " \t\r\n([{=" := by decide
  exact this d hd

theorem stops_of {s : Str} (h : ¬ ∃ a b, s = a ++ '=' :: b ∧ ∀ c ∈ a, ¬ Stop c) : '=' ∉ s ∨ Stops s := by
  induction s with
  | nil => exact .inl (by simp)
  | cons x s ih =>
    by_cases hx : x = '='
    · subst hx
      exact absurd ⟨[], s, rfl, by intro c hc; cases hc⟩ h
    · by_cases hs : Stop x
      · exact .inr ⟨[], x, s, rfl, by simp, hs⟩
      · rcases ih (by
          rintro ⟨a, b, rfl, ha⟩
          exact h ⟨x :: a, b, rfl, List.forall_mem_cons.mpr ⟨hs, ha⟩⟩) with h1 | h1
        · exact .inl (by simp [h1, Ne.symm hx])
        · exact .inr (h1.prepend (a := [x]) (by simpa using Ne.symm hx))

theorem closing_delim {d : Char} (h : d ∈ str "<>)}'\"") : Delim d ∧ Stop d := by
  have h1 : ∀ d ∈ str "<>)}'\"", P.isNameChar d = false ∧ d ∉ str " \t\r\n([{=" ∧ d ∈ str "<>(){}'\"\r\n" := by decide
  obtain ⟨a, b, c⟩ := h1 d h
  refine ⟨⟨?_, b⟩, c⟩
  rw [← PG.isNameChar_iff, a]; simp

theorem delim_stops {d : Char} (h : Stop d) (s : Str) : LitLead (.delimited d s) := by
  refine ⟨str "str", d, s ++ [d] ++ ['\n'], ?_, by decide, h⟩
  simp [Literal.text]

/-- A string: in general, and where no field may begin. -/
theorem lit_str {s : Str} (h : ∃ d, Delim d ∧ d ∉ s) : ∃ l, Lit true l (.str s) ∧ (Leading s → LitLead l) := by
  by_cases hc : ∃ d ∈ str "<>)}'\"", d ∉ s
  · obtain ⟨d, hd, hs⟩ := hc
    exact ⟨_, lit_delim (closing_delim hd).1 hs, fun _ => delim_stops (closing_delim hd).2 s⟩
  · by_cases ha : ∃ a b, s = a ++ '=' :: b ∧ ∀ c ∈ a, ¬ Stop c
    · by_cases hl : ('\r' ∉ s ∨ '\n' ∉ s) ∧ ¬ ∃ w c z, s = w ++ c :: z ∧ White w ∧ (c = '(' ∨ c = '[' ∨ c = '{')
      · obtain ⟨hn, hb⟩ := hl
        have key : ∀ d : Char, (d = '\r' ∨ d = '\n') → d ∉ s → ∃ l, Lit true l (.str s) ∧ (Leading s → LitLead l) := by
          intro d hd hs
          refine ⟨.delimited d s, ⟨hs, rfl, fun _ _ => trivial, fun _ _ rest _ => ?_, 's', _, rfl, by decide⟩, fun _ => delim_stops ?_ s⟩
          · have e : (Literal.delimited d s).text ++ rest = str "str" ++ d :: (s ++ (d :: rest)) := by simp [Literal.text]
            rw [e]
            rintro ⟨n, w, b, z, e, hv, hw, hbr⟩
            -- the name is `str`, the rest of the white space is in the string
            have hnm := name_chars hv
            have hbw : ∀ {n w : Str} {b : Char} {z x : Str}, (∀ c ∈ n, NameChar c) → White w → (b = '(' ∨ b = '[' ∨ b = '{') → ∀ p : Str, (∀ c ∈ p, NameChar c) →
                p ++ d :: x = n ++ (w ++ b :: z) → ∃ w', White w' ∧ x = w' ++ b :: z := by
              intro n w b z x hn hw hb p
              induction p generalizing n with
              | nil =>
                intro _ e
                cases n with
                | nil =>
                  cases w with
                  | nil => cases e; rcases hd with rfl | rfl <;> rcases hb with h | h | h <;> cases h
                  | cons c w => cases e; exact ⟨w, fun c hc => hw c (List.mem_cons_of_mem _ hc), rfl⟩
                | cons c n =>
                  cases e
                  have := (name_not (hn d List.mem_cons_self)).2.1
                  exact absurd (by unfold Stop; rcases hd with rfl | rfl <;> decide) this
              | cons y p ih =>
                intro hp e
                have hy := (name_not (hp y List.mem_cons_self)).2.2
                cases n with
                | nil =>
                  exfalso
                  apply hy
                  cases w with
                  | nil =>
                    injection e with e1 _
                    subst e1
                    rcases hb with rfl | rfl | rfl <;> decide
                  | cons c w =>
                    injection e with e1 _
                    subst e1
                    rcases hw y List.mem_cons_self with rfl | rfl | rfl | rfl <;> decide
                | cons c n =>
                  injection e with e1 e2
                  exact ih (fun c hc => hn c (List.mem_cons_of_mem _ hc)) (fun c hc => hp c (List.mem_cons_of_mem _ hc)) e2
            obtain ⟨w', hw', e'⟩ := hbw hnm hw hbr (str "str") (fun c hc => (PG.isNameChar_iff c).mp (by revert c; decide)) e
            -- the string is not white throughout
            have hq : '"' ∈ s := by
              by_contra hq
              exact hc ⟨'"', by decide, hq⟩
            have : ∃ u, s = w' ++ b :: u := by
              have gen : ∀ (s w' : Str), '"' ∈ s → White w' → s ++ d :: rest = w' ++ b :: z → ∃ u, s = w' ++ b :: u := by
                intro s
                induction s with
                | nil => intro _ h; cases h
                | cons x s ih =>
                  intro w' hq hw e
                  cases w' with
                  | nil => cases e; exact ⟨s, rfl⟩
                  | cons y w' =>
                    injection e with e1 e2
                    subst e1
                    rcases List.mem_cons.mp hq with rfl | hq
                    · rcases hw '"' List.mem_cons_self with h | h | h | h <;> cases h
                    · obtain ⟨u, hu⟩ := ih w' hq (fun c hc => hw c (List.mem_cons_of_mem _ hc)) e2
                      exact ⟨u, by rw [hu]; rfl⟩
              exact gen s w' hq hw' e'
            obtain ⟨u, hu⟩ := this
            exact hb ⟨w', b, u, hu, hw', hbr⟩
          · unfold Stop; rcases hd with rfl | rfl <;> decide
        rcases hn with hn | hn
        · exact key '\r' (.inl rfl) hn
        · exact key '\n' (.inr rfl) hn
      · obtain ⟨d, hd, hs⟩ := h
        refine ⟨_, lit_delim hd hs, ?_⟩
        rintro (h1 | h1 | h1)
        · exact absurd ha h1
        · exact absurd h1 hc
        · exact absurd h1 hl
    · obtain ⟨d, hd, hs⟩ := h
      refine ⟨_, lit_delim hd hs, fun _ => ?_⟩
      have hd' : '=' ∉ [d] := by
        intro h
        rw [← List.mem_singleton.mp h] at hd
        exact hd.2 (by decide)
      rcases stops_of ha with h1 | h1
      · refine stops_end ?_
        show '=' ∉ str "str" ++ d :: (s ++ [d])
        rw [show str "str" ++ d :: (s ++ [d]) = str "str" ++ ([d] ++ (s ++ [d])) by simp]
        simp only [List.mem_append]
        rintro (h | h | h | h)
        · revert h; decide
        · exact hd' h
        · exact h1 h
        · exact hd' h
      · have e : (Literal.delimited d s).text ++ ['\n'] = (str "str" ++ [d]) ++ (s ++ [d, '\n']) := by simp [Literal.text]
        rw [LitLead, e]
        refine Stops.prepend ?_ (h1.append _)
        rw [List.mem_append]
        rintro (h | h)
        · revert h; decide
        · exact hd' h

end KS.EX
