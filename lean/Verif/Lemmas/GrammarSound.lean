import Verif.Spec.Grammar
import Verif.Lemmas.RtKeys
import Verif.Lemmas.GrammarVal
import Verif.Props.Kserds
/-!
# What the parser accepts is text of the grammar: delimited values
-/

namespace KS.GR
open KS.Spec KS.P KS.Nom KS.RT

/-! ## Inversion -/

variable {α β γ : Type}

theorem inline_iff (c : Char) : isInlineWs c = true ↔ c = ' ' ∨ c = '\t' := by
  rw [isInlineWs, List.contains_iff_mem]; show c ∈ [' ', '\t'] ↔ _; simp

theorem multi_iff (c : Char) : isMultiWs c = true ↔ c = ' ' ∨ c = '\t' ∨ c = '\r' ∨ c = '\n' := by
  rw [isMultiWs, List.contains_iff_mem]; show c ∈ [' ', '\t', '\r', '\n'] ↔ _; simp

theorem takeWhile_inv {p : Char → Bool} {i r a : Str} (h : Nom.takeWhile p i = .ok r a) : i = a ++ r ∧ (∀ c ∈ a, p c = true) ∧ Ends p r := by
  rw [Nom.takeWhile] at h
  injection h with h1 h2
  subst h1 h2
  refine ⟨(List.takeWhile_append_dropWhile).symm, fun c hc => List.mem_takeWhile_imp hc, ?_⟩
  intro c r e
  by_contra hc
  have := List.dropWhile_get_zero_not p i (by rw [e]; simp)
  simp [e] at this
  exact hc (by simp [this])

theorem inlineWs_inv {i r a : Str} (h : inlineWs i = .ok r a) : i = a ++ r ∧ Blanks a ∧ Ends isInlineWs r := by
  obtain ⟨h1, h2, h3⟩ := takeWhile_inv h
  exact ⟨h1, fun c hc => (inline_iff c).mp (h2 c hc), h3⟩

theorem multiWs_inv {i r a : Str} (h : multiWs i = .ok r a) : i = a ++ r ∧ White a ∧ Ends isMultiWs r := by
  obtain ⟨h1, h2, h3⟩ := takeWhile_inv h
  exact ⟨h1, fun c hc => (multi_iff c).mp (h2 c hc), h3⟩

theorem opt_inv {p : Parser α} {i r : Str} {a : Option α} (h : opt p i = .ok r a) :
    (∃ x, a = some x ∧ p i = .ok r x) ∨ (a = none ∧ r = i ∧ ∃ e, p i = .err e) := by
  rw [opt] at h
  cases hp : p i <;> rw [hp] at h <;> cases h
  · exact .inl ⟨_, rfl, rfl⟩
  · exact .inr ⟨rfl, rfl, _, rfl⟩

theorem ignoreWs_inv {p : Parser α} {i r : Str} {a : α} (h : ignoreWs p i = .ok r a) :
    ∃ w j, i = w ++ j ∧ Blanks w ∧ Ends isInlineWs j ∧ p j = .ok r a := by
  obtain ⟨j, o, h1, h2⟩ := bind_inv h
  rcases opt_inv h1 with ⟨w, rfl, hw⟩ | ⟨-, -, e, he⟩
  · obtain ⟨e, hb, hend⟩ := inlineWs_inv hw
    exact ⟨w, j, e, hb, hend, h2⟩
  · rw [inlineWs, Nom.takeWhile] at he; cases he

theorem cut_inv {p : Parser α} {i r : Str} {a : α} (h : cut p i = .ok r a) : p i = .ok r a := by
  rw [cut] at h
  cases hp : p i <;> rw [hp] at h <;> first | exact h | cases h

theorem char_inv {c x : Char} {i r : Str} (h : Nom.char c i = .ok r x) : i = c :: r := by
  cases i with
  | nil => cases h
  | cons y t =>
    rw [Nom.char] at h
    split at h
    · rename_i e; cases h; rw [e]
    · cases h

theorem map_inv' {p : Parser α} {f : α → β} {i r : Str} {b : β} (h : Nom.map p f i = .ok r b) : ∃ a, p i = .ok r a ∧ b = f a := by
  obtain ⟨r', a, h1, h2⟩ := bind_inv h
  cases h2
  exact ⟨a, h1, rfl⟩

theorem preceded_inv {p : Parser α} {q : Parser β} {i r : Str} {b : β} (h : preceded p q i = .ok r b) : ∃ j a, p i = .ok j a ∧ q j = .ok r b :=
  bind_inv h

theorem terminated_inv {p : Parser α} {q : Parser β} {i r : Str} {a : α} (h : terminated p q i = .ok r a) : ∃ j b, p i = .ok j a ∧ q j = .ok r b := by
  obtain ⟨j, a', h1, h2⟩ := bind_inv h
  obtain ⟨j2, b, h3, h4⟩ := bind_inv h2
  cases h4
  exact ⟨j, b, h1, h3⟩

theorem sepPair_inv {p : Parser α} {s : Parser β} {q : Parser γ} {i r : Str} {x : α × γ} (h : separatedPair p s q i = .ok r x) :
    ∃ j j2 b, p i = .ok j x.1 ∧ s j = .ok j2 b ∧ q j2 = .ok r x.2 := by
  obtain ⟨j, a', h1, h2⟩ := bind_inv h
  obtain ⟨j2, b, h3, h4⟩ := bind_inv h2
  obtain ⟨j3, c, h5, h6⟩ := bind_inv h4
  cases h6
  exact ⟨j, j2, b, h1, h3, h5⟩

theorem lineEnding_inv {i r a : Str} (h : lineEnding i = .ok r a) : i = a ++ r ∧ LineEnd a := by
  rw [lineEnding.eq_def] at h
  split at h
  · cases h; exact ⟨rfl, .inl rfl⟩
  · cases h; exact ⟨rfl, .inr rfl⟩
  · cases h

theorem takeWhile1_inv {p : Char → Bool} {i r a : Str} (h : takeWhile1 p i = .ok r a) : i = a ++ r ∧ Ends p r := by
  have h' : Nom.takeWhile p i = .ok r a := by
    rw [takeWhile1] at h
    split at h
    · cases h
    · exact h
  exact ⟨(takeWhile_inv h').1, (takeWhile_inv h').2.2⟩

theorem validName_inv {i r a : Str} (h : validName i = .ok r a) : i = a ++ r ∧ ValidName a ∧ Ends isNameChar r := by
  have h1 := PG.validName_res i
  rw [h] at h1
  obtain ⟨j, b, -, h2⟩ := bind_inv h
  obtain ⟨h3, h4⟩ := takeWhile1_inv (cut_inv (ctx_inv h2))
  exact ⟨h3, h1.2, h4⟩

theorem ident_inv {i r a : Str} (h : ident false i = .ok r a) : i = a ++ r ∧ ValidName a ∧ Ends isNameChar r :=
  validName_inv (ctx_inv h)

theorem identA_inv {i r a : Str} (h : ident true i = .ok r a) : i = angled (some a) ++ r ∧ ValidName a := by
  obtain ⟨j, c, h1, h2⟩ := preceded_inv (ctx_inv h)
  obtain ⟨j2, c2, h3, h4⟩ := terminated_inv (cut_inv h2)
  obtain ⟨e, hv, -⟩ := validName_inv h3
  rw [char_inv h1, e, char_inv h4]
  exact ⟨by simp [angled], hv⟩

theorem ctor_inv {id : Option Str} {v : Value} {i r : Str} {k : Kserd} (h : kserdCtor id v i = .ok r k) : r = i ∧ k = .mk id v := by
  cases id with
  | none => cases h; exact ⟨rfl, rfl⟩
  | some s =>
    rw [kserdCtor] at h
    cases hw : Kserd.withId s v with
    | error e => simp only [hw] at h; cases h
    | ok k' =>
      simp only [hw] at h
      injection h with h1 h2
      refine ⟨h1.symm, ?_⟩
      rw [← h2]
      rw [Kserd.withId] at hw
      split at hw
      · cases hw
      · cases hw; rfl

/-! ## Literals -/

theorem numChar_iff (c : Char) : isNumChar c = true ↔ NumChar c := by
  rw [isNumChar, NumChar, Bool.or_eq_true, List.contains_iff_mem, PG.isDigit_iff']

theorem notContinued_of {P : Char → Prop} {p : Char → Bool} (h : ∀ c, p c = true ↔ P c) {r : Str} (hr : Ends p r) : NotContinued P r := by
  intro c t e hc
  rw [← h] at hc
  rw [hr c t e] at hc; cases hc

theorem ends_of {P : Char → Prop} {p : Char → Bool} (h : ∀ c, p c = true ↔ P c) {r : Str} (hr : NotContinued P r) : Ends p r := by
  intro c t e
  have := hr c t e
  rw [← h] at this; simpa using this

theorem parseStr_inv {d : Char} {i r s : Str} (h : parseStr d i = .ok r s) : i = d :: (s ++ d :: r) ∧ d ∉ s := by
  obtain ⟨j, c, h1, h2⟩ := preceded_inv h
  obtain ⟨j2, c2, h3, h4⟩ := terminated_inv (cut_inv h2)
  obtain ⟨e1, e2, -⟩ := takeWhile_inv h3
  rw [char_inv h1, e1, char_inv h4]
  refine ⟨rfl, fun hd => ?_⟩
  have := e2 d hd
  simp at this

theorem lit_sound {i r : Str} {v : Value} (h : primValue i = .ok r v) : ∃ l : Literal, l.Ok ∧ l.Complete r ∧ l.value = v ∧ i = l.text ++ r := by
  obtain ⟨p, hp, hpi⟩ := alt_inv _ (ctx_inv h)
  simp only [List.mem_cons, List.not_mem_nil, or_false] at hp
  rcases hp with rfl | rfl | rfl | rfl | rfl
  · obtain ⟨a, ha, rfl⟩ := map_inv' hpi
    obtain ⟨b, hb, -⟩ := map_inv' (ctx_inv ha)
    obtain ⟨j, c, h1, h2⟩ := preceded_inv hb
    obtain ⟨j2, c2, h3, h4⟩ := terminated_inv (cut_inv h2)
    obtain ⟨e, hw, -⟩ := inlineWs_inv h3
    refine ⟨.unit b, hw, trivial, rfl, ?_⟩
    rw [char_inv h1, e, char_inv h4]; simp [Literal.text]
  · obtain ⟨a, ha, rfl⟩ := map_inv' hpi
    obtain ⟨p, hp, hpi⟩ := alt_inv _ (ctx_inv ha)
    simp only [List.mem_cons, List.not_mem_nil, or_false] at hp
    rcases hp with rfl | rfl
    · obtain ⟨b, hb, rfl⟩ := map_inv' hpi
      exact ⟨.bool true, trivial, trivial, rfl, tag_inv hb⟩
    · obtain ⟨b, hb, rfl⟩ := map_inv' hpi
      exact ⟨.bool false, trivial, trivial, rfl, tag_inv hb⟩
  · obtain ⟨n, ha, rfl⟩ := map_inv' hpi
    obtain ⟨r', o, h1, h2⟩ := bind_inv (ctx_inv ha)
    obtain ⟨e1, e2, e3⟩ := takeWhile_inv h1
    cases hf : Number.fromStr o with
    | none => simp only [hf] at h2; cases h2
    | some m =>
      simp only [hf] at h2; cases h2
      exact ⟨.num o n, ⟨fun c hc => (numChar_iff c).mp (e2 c hc), hf⟩, notContinued_of numChar_iff e3, rfl, e1⟩
  · obtain ⟨s, ha, rfl⟩ := map_inv' hpi
    rw [string] at ha
    cases hs : stripPrefix (str "str") i with
    | some suff =>
      simp only [hs] at ha
      obtain ⟨e1, e2⟩ := parseStr_inv (ctx_inv ha)
      refine ⟨.delimited (suff.head?.getD '"') s, e2, trivial, rfl, ?_⟩
      rw [PG.stripPrefix_some hs]
      simp only [Literal.text, List.append_assoc]
      congr 1
      rw [List.cons_append, List.append_assoc]
      exact e1
    | none =>
      simp only [hs] at ha
      obtain ⟨e1, e2⟩ := parseStr_inv (ctx_inv ha)
      exact ⟨.quoted s, e2, trivial, rfl, by rw [e1]; simp [Literal.text]⟩
  · obtain ⟨b, ha, rfl⟩ := map_inv' hpi
    obtain ⟨j, c, h1, h2⟩ := preceded_inv (ctx_inv ha)
    obtain ⟨j2, c2, h3, h4⟩ := terminated_inv (cut_inv h2)
    obtain ⟨t, ht, rfl⟩ := map_inv' h3
    obtain ⟨e1, e2, -⟩ := takeWhile_inv ht
    refine ⟨.bytes t, fun hd => ?_, trivial, rfl, ?_⟩
    · have := e2 _ hd; simp at this
    · rw [tag_inv h1, e1, char_inv h4]; simp [Literal.text]

/-! ## Patterns -/

theorem dropWhile_white {w : Str} (hw : White w) {c : Char} (hc : isMultiWs c = false) (r : Str) : (w ++ c :: r).dropWhile isMultiWs = c :: r := by
  rw [List.dropWhile_append_of_pos (fun x hx => (multi_iff x).mpr (hw x hx))]
  simp [hc]

theorem white_of_blanks {w : Str} (h : Blanks w) : White w := fun c hc => by
  rcases h c hc with h | h <;> simp [h]

theorem white_append {a b : Str} (ha : White a) (hb : White b) : White (a ++ b) := fun c hc => by
  rcases List.mem_append.mp hc with h | h
  · exact ha c h
  · exact hb c h

theorem dropWhile_blanks {w : Str} (hw : Blanks w) {c : Char} (hc : isMultiWs c = false) (r : Str) : (w ++ c :: r).dropWhile isMultiWs = c :: r :=
  dropWhile_white (white_of_blanks hw) hc r

theorem bool_iff (x : Str) : (startsWith (str "true") x || startsWith (str "false") x) = true ↔ str "true" <+: x ∨ str "false" <+: x := by
  rw [Bool.or_eq_true]
  rw [startsWith_iff, startsWith_iff]

/-- The pattern of a delimited value. -/
theorem pattern_cases (i : Str) :
    ((str "true" <+: i ∨ str "false" <+: i) ∧ patternDelimited i = .ok i .none) ∨
    (¬ (str "true" <+: i ∨ str "false" <+: i) ∧
      ((∃ j n, opt (ident true) i = .ok j (some n) ∧ patternDelimited i = .ok i .none) ∨
       (opt (ident true) i = .ok i none ∧ ∃ j n, opt (ident false) i = .ok j (some n) ∧ patternDelimited i = .ok i (nextDelim .nonprim (j.dropWhile isMultiWs))) ∨
       (opt (ident true) i = .ok i none ∧ opt (ident false) i = .ok i none ∧ patternDelimited i = .ok i (nextDelim .none (i.dropWhile isMultiWs))) ∨
       ∀ r p, patternDelimited i ≠ .ok r p)) := by
  by_cases hb : (startsWith (str "true") i || startsWith (str "false") i) = true
  · exact .inl ⟨(bool_iff i).mp hb, by rw [patternDelimited, if_pos hb]⟩
  · refine .inr ⟨fun h => hb ((bool_iff i).mpr h), ?_⟩
    rw [patternDelimited, if_neg hb]
    cases h1 : opt (ident true) i with
    | err e => right; right; right; intro r p h; cases h
    | fail e => right; right; right; intro r p h; cases h
    | panic => right; right; right; intro r p h; cases h
    | oof => right; right; right; intro r p h; cases h
    | ok j o =>
      cases o with
      | some n =>
        refine .inl ⟨j, n, rfl, ?_⟩
        show PRes.ok i (nextDelim .prim _) = _
        congr 1
        rw [nextDelim]; simp
      | none =>
        have hj : j = i := by
          rcases opt_inv h1 with ⟨x, hx, -⟩ | ⟨-, e, -⟩
          · cases hx
          · exact e
        subst hj
        right
        rw [bind_ok]
        simp only
        cases h2 : opt (ident false) j with
        | err e => right; right; intro r p h; cases h
        | fail e => right; right; intro r p h; cases h
        | panic => right; right; intro r p h; cases h
        | oof => right; right; intro r p h; cases h
        | ok j2 o2 =>
          cases o2 with
          | some n => exact .inl ⟨trivial, j2, n, rfl, rfl⟩
          | none =>
            have hj : j2 = j := by
              rcases opt_inv h2 with ⟨x, hx, -⟩ | ⟨-, e, -⟩
              · cases hx
              · exact e
            subst hj
            exact .inr (.inl ⟨trivial, rfl, rfl⟩)

theorem maybe_iff (c : Char) : isMaybeName c = true ↔ c ∉ str "<>(){}='\"\r\n" := by
  rw [isMaybeName, Bool.or_eq_true]
  have h : (!assignStop.contains c) = true ↔ c ∉ str "<>(){}='\"\r\n" := by
    rw [Bool.not_eq_true', ← Bool.not_eq_true, List.contains_iff_mem]; rfl
  rw [h]
  refine or_iff_right_of_imp fun ha hc => ?_
  revert ha
  have hc : c ∈ ['<', '>', '(', ')', '{', '}', '=', '\'', '"', '\r', '\n'] := hc
  simp only [List.mem_cons, List.not_mem_nil, or_false] at hc
  rcases hc with rfl | rfl | rfl | rfl | rfl | rfl | rfl | rfl | rfl | rfl | rfl <;> decide

theorem takeWhile_stop {p : Char → Bool} {a : Str} (ha : ∀ c ∈ a, p c = true) {c : Char} (hc : p c = false) (r : Str) :
    Nom.takeWhile p (a ++ c :: r) = .ok (c :: r) a := by
  have h := takeWhile_all (p := p) (i := a) ha hc r
  rw [Nom.takeWhile, h.1, h.2]

theorem tw_ends {p : Char → Bool} {a r : Str} (ha : ∀ c ∈ a, p c = true) (hr : Ends p r) : Nom.takeWhile p (a ++ r) = .ok r a := by
  cases r with
  | nil =>
    rw [Nom.takeWhile, List.append_nil]
    rw [List.takeWhile_eq_self_iff.mpr ha, List.dropWhile_eq_nil_iff.mpr ha]
  | cons c r => exact takeWhile_stop ha (hr c r rfl) r

theorem dropWhile_split (p : Char → Bool) (x : Str) : ∃ w, x = w ++ x.dropWhile p ∧ (∀ c ∈ w, p c = true) ∧ Ends p (x.dropWhile p) :=
  ⟨x.takeWhile p, takeWhile_inv (i := x) (a := x.takeWhile p) rfl⟩

theorem assign_iff (x : Str) : recogniseFieldAssign (x.dropWhile isMultiWs) = true ↔ AssignAhead x := by
  constructor
  · intro h
    obtain ⟨w, e, hw, -⟩ := dropWhile_split isMultiWs x
    rw [recogniseFieldAssign] at h
    cases ht : terminated (Nom.takeWhile isMaybeName) (char '=') (x.dropWhile isMultiWs) with
    | ok r n =>
      obtain ⟨j, c, h1, h2⟩ := terminated_inv ht
      obtain ⟨e1, hn, -⟩ := takeWhile_inv h1
      refine ⟨w, n, r, ?_, fun c hc => (multi_iff c).mp (hw c hc), fun c hc => (maybe_iff c).mp (hn c hc)⟩
      rw [e1, char_inv h2] at e
      exact e
    | err e => rw [ht] at h; cases h
    | fail e => rw [ht] at h; cases h
    | panic => rw [ht] at h; cases h
    | oof => rw [ht] at h; cases h
  · rintro ⟨w, n, z, rfl, hw, hn⟩
    obtain ⟨u, e, hu, -⟩ := dropWhile_split isMultiWs n
    rw [List.dropWhile_append_of_pos (fun c hc => (multi_iff c).mpr (hw c hc))]
    have : (n ++ '=' :: z).dropWhile isMultiWs = n.dropWhile isMultiWs ++ '=' :: z := by
      rw [List.dropWhile_append]
      split
      · rename_i h
        rw [List.isEmpty_iff] at h
        rw [h]; simp only [List.dropWhile_cons]; rfl
      · rfl
    rw [this, recogniseFieldAssign, terminated, takeWhile_stop (fun c hc => (maybe_iff c).mpr (hn c (by rw [e]; simp [hc]))) (by decide)]
    rfl

/-- A closing parenthesis ends the search for a field. -/
theorem assign_close (x r : Str) : AssignAhead (x ++ ')' :: r) ↔ AssignAhead (x ++ [')']) := by
  constructor
  · rintro ⟨w, n, z, e, hw, hn⟩
    rw [← List.append_assoc] at e
    rcases List.append_eq_append_iff.mp e with ⟨c', h1, h2⟩ | ⟨c', h1, h2⟩
    · cases c' with
      | nil => cases h2
      | cons y c' =>
        injection h2 with h2 _
        exfalso
        have : ')' ∈ w ++ n := by rw [h1, h2]; simp
        rcases List.mem_append.mp this with h | h
        · revert h; intro h; have := hw _ h; revert this; decide
        · exact hn _ h (by decide)
    · cases c' with
      | nil => cases h2
      | cons y c' =>
        injection h2 with h2 h3
        exact ⟨w, n, c' ++ [')'], by rw [h1, ← h2]; simp, hw, hn⟩
  · rintro ⟨w, n, z, e, hw, hn⟩
    refine ⟨w, n, z ++ r, ?_, hw, hn⟩
    rw [show x ++ ')' :: r = (x ++ [')']) ++ r by simp, e]; simp

/-! ## First characters -/

theorem parseUnsigned_head {c : Char} {r : Str} (h : c = 't' ∨ c = 'f') (neg : Bool) : F64.parseUnsigned neg (c :: r) = none := by
  have hd : isDigit c = false := by rcases h with rfl | rfl <;> decide
  have hs : F64.spanDigits (c :: r) = ([], c :: r) := by rw [F64.spanDigits, hd]; rfl
  have hi : ∀ w : Str, (∀ x t, w = x :: t → x ≠ c) → F64.eqIgnoreCase (c :: r) w = false := by
    intro w hw
    rw [F64.eqIgnoreCase, ← Bool.not_eq_true, beq_iff_eq]
    intro e
    have hc : (if decide ('A'.toNat ≤ c.toNat ∧ c.toNat ≤ 'Z'.toNat) then Char.ofNat (c.toNat + 32) else c) = c := by
      rcases h with rfl | rfl <;> rfl
    rw [List.map_cons, hc] at e
    exact hw _ _ e.symm rfl
  have h1 : F64.eqIgnoreCase (c :: r) (str "inf") = false := hi _ (by intro x t e; cases e; rcases h with rfl | rfl <;> decide)
  have h2 : F64.eqIgnoreCase (c :: r) (str "infinity") = false := hi _ (by intro x t e; cases e; rcases h with rfl | rfl <;> decide)
  have h3 : F64.eqIgnoreCase (c :: r) (str "nan") = false := hi _ (by intro x t e; cases e; rcases h with rfl | rfl <;> decide)
  rw [F64.parseUnsigned, hs]
  simp only
  split
  · rename_i x y e
    injection e with e _
    rcases h with rfl | rfl <;> cases e
  · rw [if_pos ⟨trivial, rfl⟩, h1, h2, h3]; rfl

/-- No number begins with a letter of `true` or `false`. -/
theorem fromStr_head {c : Char} {r : Str} {n : Number} (h : Number.fromStr (c :: r) = some n) : c ≠ 't' ∧ c ≠ 'f' := by
  have key : ¬ (c = 't' ∨ c = 'f') := by
    intro hc
    have hm : c ≠ '-' := by rcases hc with rfl | rfl <;> decide
    have hd : (isDigit c || c == '_') = false := by rcases hc with rfl | rfl <;> decide
    rw [Number.fromStr] at h
    simp only [hm, if_false] at h
    rw [List.all_cons, hd, Bool.false_and, if_pos (by simp)] at h
    have hp : F64.parse (c :: r) = none := by
      rw [F64.parse.eq_def]
      split
      · rename_i heq; cases heq; rcases hc with hc | hc <;> cases hc
      · rename_i heq; cases heq; rcases hc with hc | hc <;> cases hc
      · exact parseUnsigned_head hc false
    rw [hp] at h; cases h
  exact ⟨fun e => key (.inl e), fun e => key (.inr e)⟩

/-- The first characters of literals. -/
theorem lit_head {l : Literal} (h : l.Ok) : ∃ c r, l.text = c :: r ∧ isMultiWs c = false ∧ c ≠ '<' ∧ c ∉ closers ∧
    (l.isBool = false → c ≠ 't' ∧ c ≠ 'f') := by
  cases l with
  | unit w => exact ⟨'(', _, rfl, by decide, by decide, by decide, fun _ => by decide⟩
  | bool b =>
    cases b
    · exact ⟨'f', _, rfl, by decide, by decide, by decide, by intro h; cases h⟩
    · exact ⟨'t', _, rfl, by decide, by decide, by decide, by intro h; cases h⟩
  | num t n =>
    obtain ⟨h1, h2⟩ := h
    cases t with
    | nil => rw [fromStr_nil] at h2; cases h2
    | cons c r =>
      have hc := (numChar_iff c).mpr (h1 c (by simp))
      refine ⟨c, r, rfl, ?_, ?_, ?_, fun _ => fromStr_head h2⟩
      · rw [← Bool.not_eq_true]; intro hm
        rcases (multi_iff c).mp hm with rfl | rfl | rfl | rfl <;> revert hc <;> decide
      · rintro rfl; revert hc; decide
      · intro hm
        have : ∀ x ∈ closers, isNumChar x = false := by decide
        rw [this c hm] at hc; cases hc
  | quoted s => exact ⟨'"', _, rfl, by decide, by decide, by decide, fun _ => by decide⟩
  | delimited d s => exact ⟨'s', _, rfl, by decide, by decide, by decide, fun _ => by decide⟩
  | bytes t => exact ⟨'b', _, rfl, by decide, by decide, by decide, fun _ => by decide⟩

theorem bool_only {l : Literal} {i r : Str} (h : str "true" <+: i ∨ str "false" <+: i) (e : i = l.text ++ r) (hl : l.Ok) : l.isBool = true := by
  by_contra hb
  obtain ⟨c, t, e2, -, -, -, hc⟩ := lit_head hl
  have hc := hc (by simpa using hb)
  rw [e2] at e
  rcases h with ⟨z, hz⟩ | ⟨z, hz⟩
  · rw [e] at hz; injection hz with h1 _; exact hc.1 h1.symm
  · rw [e] at hz; injection hz with h1 _; exact hc.2 h1.symm

theorem name_start {n : Str} (h : ValidName n) : ∃ c t, n = c :: t ∧ isNameChar c = true ∧ isMultiWs c = false ∧ c ≠ '<' ∧ c ∉ closers := by
  have hv := h
  obtain ⟨c, t, rfl, hc, -⟩ := h
  have hn : isNameChar c = true := by
    rw [PG.isNameChar_iff]
    exact PG.validName_chars hv c (by simp)
  refine ⟨c, t, rfl, hn, ?_, ?_, ?_⟩
  · rw [← Bool.not_eq_true]; intro hm
    rcases (multi_iff c).mp hm with rfl | rfl | rfl | rfl <;> revert hn <;> decide
  · rintro rfl; revert hn; decide
  · intro hm
    have : ∀ x ∈ closers, isNameChar x = false := by decide
    rw [this c hm] at hn; cases hn

theorem ends_blank_bracket {w r : Str} {c : Char} (hw : White w) (hc : isNameChar c = false) : Ends isNameChar (w ++ c :: r) := by
  intro x t e
  cases w with
  | nil => injection e with e _; rw [← e]; exact hc
  | cons y w =>
    injection e with e _
    rw [← e]
    rcases hw y (by simp) with rfl | rfl | rfl | rfl <;> decide

theorem nextDelim_bracket {id : IdentKind} (hid : id = .nonprim) {c : Char} (hc : c = '(' ∨ c = '[' ∨ c = '{') (r : Str) : nextDelim id (c :: r) ≠ .none := by
  subst hid
  rcases hc with rfl | rfl | rfl
  · rw [nextDelim]
    simp only [List.head?_cons, Option.getD_some, List.tail_cons]
    split_ifs <;> simp_all
  · simp [nextDelim]
  · simp [nextDelim]

/-- Texts that are read as tuple, container, sequence or map. -/
theorem bracket_pattern {x : Str} (hb : ¬ (str "true" <+: x ∨ str "false" <+: x)) (h : BracketAhead x) : ∃ p, p ≠ .none ∧ patternDelimited x = .ok x p := by
  obtain ⟨n, w, c, z, rfl, hn, hw, hc⟩ := h
  have hcn : isNameChar c = false ∧ isMultiWs c = false := by rcases hc with rfl | rfl | rfl <;> decide
  obtain ⟨a, t, e, -, -, ha, -⟩ := name_start hn
  have h1 : opt (ident true) (n ++ (w ++ c :: z)) = .ok (n ++ (w ++ c :: z)) none := by
    apply opt_err; rw [e]; exact identA_err _ ha
  have h2 := opt_ok (ident_ok hn (ends_blank_bracket (r := z) hw hcn.1))
  refine ⟨nextDelim .nonprim (c :: z), nextDelim_bracket rfl hc z, ?_⟩
  rw [patternDelimited, if_neg (fun h => hb ((bool_iff _).mp h)), h1, bind_ok]
  simp only
  rw [h2, bind_ok]
  simp only
  rw [dropWhile_white hw hcn.2]

theorem blanks_nil {i j b : Str} (hi : Ends isInlineWs i) (hb : Blanks b) (e : i = b ++ j) : b = [] := by
  cases b with
  | nil => rfl
  | cons c b =>
    have h1 := hi c _ e
    have h2 := (inline_iff c).mpr (hb c (by simp))
    rw [h1] at h2; cases h2

/-- What a parser for delimited values gives. -/
def Gives (inl : Bool) (i r : Str) (k : Kserd) : Prop := ∃ T : Tree, T.Reads inl r ∧ T.Val k ∧ i = T.text ++ r

theorem prim_sound {inl : Bool} {i r : Str} {k : Kserd} (hi : Ends isInlineWs i) (hp : patternDelimited i = .ok i .none) (h : prim i = .ok r k) :
    Gives inl i r k := by
  obtain ⟨r', x, h1, h2⟩ := bind_inv h
  obtain ⟨e1, e2⟩ := ctor_inv h2
  obtain ⟨j, j2, b, h3, h4, h5⟩ := sepPair_inv (ctx_inv h1)
  obtain ⟨l, hl, hc, hv, e3⟩ := lit_sound h5
  obtain ⟨e4, hb, -⟩ := inlineWs_inv h4
  have hw : x.1 = none → b = [] := by
    intro hx
    rcases opt_inv h3 with ⟨y, hy, -⟩ | ⟨-, rfl, -⟩
    · rw [hx] at hy; cases hy
    · exact blanks_nil hi hb e4
  subst e1
  refine ⟨.prim x.1 b l, ⟨?_, hb, hw, hl, hc, ?_⟩, ?_, ?_⟩
  · intro s hs
    rcases opt_inv h3 with ⟨y, hy, hi⟩ | ⟨hy, -⟩
    · rw [hs] at hy; cases hy; exact (identA_inv hi).2
    · rw [hs] at hy; cases hy
  · intro hx hlb hba
    rcases opt_inv h3 with ⟨y, hy, -⟩ | ⟨-, rfl, -⟩
    · rw [hx] at hy; cases hy
    rw [hw hx] at e4
    simp only [List.nil_append] at e4
    subst e4
    by_cases hbool : str "true" <+: j ∨ str "false" <+: j
    · rw [bool_only hbool e3 hl] at hlb; cases hlb
    · obtain ⟨p, hne, hp'⟩ := bracket_pattern hbool (by rw [e3]; exact hba)
      rw [hp] at hp'; cases hp'; exact hne rfl
  · rw [Tree.Val, e2, hv]
  · rw [Tree.text]
    rcases opt_inv h3 with ⟨y, hy, hi⟩ | ⟨hy, rfl, -⟩
    · rw [hy, (identA_inv hi).1, e4, e3]; simp
    · rw [hy, e4, e3]; simp [angled]

/-! ## Lists -/

/-- Where a loop over separated elements ends. -/
def Stop (sep : Parser β) (i : Str) : Prop := (∃ e, sep i = .err e) ∨ ∃ i1 a, sep i = .ok i1 a ∧ i1.length ≠ i.length

/-- The elements found by a loop over separated elements. -/
inductive Chain (sep : Parser β) (f : Parser α) : Str → List α → Str → Prop
  | nil {i : Str} : Stop sep i → Chain sep f i [] i
  | cons {i i1 i2 r : Str} {b : β} {a : α} {l : List α} : sep i = .ok i1 b → i1.length ≠ i.length → f i1 = .ok i2 a → Chain sep f i2 l r →
    Chain sep f i (a :: l) r

theorem sepLoop_inv {sep : Parser β} {f : Parser α} : ∀ (n : Nat) (i : Str) (acc : List α) (r : Str) (l : List α), sepLoop sep f n i acc = .ok r l →
    ∃ l', l = acc.reverse ++ l' ∧ Chain sep f i l' r
  | 0, i, acc, r, l, h => by cases h
  | n + 1, i, acc, r, l, h => by
    rw [sepLoop.eq_def] at h
    simp only at h
    cases hs : sep i with
    | err e => simp only [hs] at h; cases h; exact ⟨[], by simp, .nil (.inl ⟨e, hs⟩)⟩
    | fail e => simp only [hs] at h; cases h
    | panic => simp only [hs] at h; cases h
    | oof => simp only [hs] at h; cases h
    | ok i1 b =>
      simp only [hs] at h
      split at h
      · cases h
      · rename_i hne
        cases hf : f i1 with
        | err e => simp only [hf] at h; cases h; exact ⟨[], by simp, .nil (.inr ⟨i1, b, hs, hne⟩)⟩
        | fail e => simp only [hf] at h; cases h
        | panic => simp only [hf] at h; cases h
        | oof => simp only [hf] at h; cases h
        | ok i2 a =>
          simp only [hf] at h
          obtain ⟨l', e, hc⟩ := sepLoop_inv n i2 (a :: acc) r l h
          exact ⟨a :: l', by rw [e]; simp, .cons hs hne hf hc⟩

theorem sepList_inv {sep : Parser β} {f : Parser α} {i r : Str} {l : List α} (h : separatedList0 sep f i = .ok r l) :
    (l = [] ∧ r = i) ∨ ∃ i1 a l', f i = .ok i1 a ∧ l = a :: l' ∧ Chain sep f i1 l' r := by
  rw [separatedList0] at h
  cases hf : f i with
  | err e => rw [hf] at h; cases h; exact .inl ⟨rfl, rfl⟩
  | fail e => rw [hf] at h; cases h
  | panic => rw [hf] at h; cases h
  | oof => rw [hf] at h; cases h
  | ok i1 a =>
    rw [hf] at h
    obtain ⟨l', e, hc⟩ := sepLoop_inv _ _ _ _ _ h
    exact .inr ⟨i1, a, l', rfl, by simpa using e, hc⟩

section Items

/-- Syntax of an item: its text, whether it fits in front of some text and what it means. -/
structure Syn (X α : Type) where
  text : X → Str
  ok : Str → X → Prop
  mean : X → α → Prop

variable {X : Type} (S : Syn X α)

/-- Items with the white space behind them. -/
def joined (c : Bool) : List (X × Str) → Str
  | [] => []
  | (x, post) :: r => S.text x ++ (post ++ (comma c r.isEmpty ++ joined c r))

def allOk (c : Bool) (close : Str) : List (X × Str) → Prop
  | [] => True
  | (x, post) :: r => S.ok (post ++ (comma c r.isEmpty ++ (joined S c r ++ close))) x ∧ PostOk c post ∧ allOk c close r

def allMean : List (X × Str) → List α → Prop
  | [], l => l = []
  | (x, _) :: r, l => ∃ a l', S.mean x a ∧ allMean r l' ∧ l = a :: l'

/-- Where an item begins: in concise lists, white space has been read before. -/
def At (c : Bool) (i : Str) : Prop := c = true → Ends isMultiWs i

/-- What a separator consumes. -/
def SepOk (c : Bool) (sep : Parser β) : Prop :=
  ∀ i i1 b, sep i = .ok i1 b → i1.length ≠ i.length → ∃ w, PostOk c w ∧ i = w ++ (comma c false ++ i1) ∧ At c i1

/-- What the parser of an item gives. -/
def ItemOk (c : Bool) (f : Parser α) : Prop := ∀ i r a, At c i → f i = .ok r a → ∃ x, S.ok r x ∧ S.mean x a ∧ i = S.text x ++ r

/-- What follows a list. -/
def Closes (c : Bool) (sep : Parser β) (close : Char) (r rest : Str) : Prop := ∀ (_ : Stop sep r), ∃ w, PostOk c w ∧ r = w ++ close :: rest

theorem chain_sound {c : Bool} {sep : Parser β} {f : Parser α} {close : Char} {rest : Str} (hsep : SepOk c sep)
    (hf : ItemOk S c f) {i r : Str} {l : List α} (h : Chain sep f i l r)
    (hc : Closes c sep close r rest) :
    ∃ (w : Str) (xs : List (X × Str)), PostOk c w ∧ allOk S c (close :: rest) xs ∧ allMean S xs l ∧
      i = w ++ (comma c xs.isEmpty ++ (joined S c xs ++ close :: rest)) := by
  induction h with
  | nil hs =>
    obtain ⟨w, hw, e⟩ := hc hs
    exact ⟨w, [], hw, trivial, rfl, by rw [e]; simp [comma, joined]⟩
  | cons hs hne hfi _ ih =>
    obtain ⟨w, xs, hw, hok, hm, e⟩ := ih hc
    obtain ⟨w', hw', e', hat⟩ := hsep _ _ _ hs hne
    obtain ⟨x, hx, hxm, ex⟩ := hf _ _ _ hat hfi
    refine ⟨w', (x, w) :: xs, hw', ⟨by rw [← e]; exact hx, hw, hok⟩, ⟨_, _, hxm, hm, rfl⟩, ?_⟩
    rw [e', ex, e]
    simp [joined]

theorem list_sound {c : Bool} {sep : Parser β} {f : Parser α} {close : Char} {rest : Str} (hsep : SepOk c sep)
    (hf : ItemOk S c f) {i r : Str} {l : List α} (hi : At c i)
    (h : separatedList0 sep f i = .ok r l) (hc : Closes c sep close r rest) :
    (l = [] ∧ r = i) ∨ ∃ xs : List (X × Str), xs ≠ [] ∧ allOk S c (close :: rest) xs ∧ allMean S xs l ∧ i = joined S c xs ++ close :: rest := by
  rcases sepList_inv h with h | ⟨i1, a, l', h1, rfl, h2⟩
  · exact .inl h
  · right
    obtain ⟨w, xs, hw, hok, hm, e⟩ := chain_sound S hsep hf h2 hc
    obtain ⟨x, hx, hxm, ex⟩ := hf _ _ _ hi h1
    refine ⟨(x, w) :: xs, by simp, ⟨by rw [← e]; exact hx, hw, hok⟩, ⟨_, _, hxm, hm, rfl⟩, ?_⟩
    rw [ex, e]
    simp [joined]

end Items

theorem sepOk_comma : SepOk false (ignoreWs (char ',')) := by
  intro i i1 b h _
  obtain ⟨w, j, e, hw, -, hj⟩ := ignoreWs_inv h
  exact ⟨w, hw, by rw [e, char_inv hj]; rfl, by intro h; cases h⟩

theorem sepOk_ws : SepOk true multiWs := by
  intro i i1 b h hne
  obtain ⟨e, hw, hend⟩ := multiWs_inv h
  refine ⟨b, ⟨hw, ?_⟩, by rw [e]; rfl, fun _ => hend⟩
  rintro rfl
  exact hne (by rw [e]; rfl)

theorem closes_comma {close c : Char} {r rest : Str} (h : ignoreWs (char close) r = .ok rest c) : Closes false (ignoreWs (char ',')) close r rest := by
  intro _
  obtain ⟨w, j, e, hw, -, hj⟩ := ignoreWs_inv h
  exact ⟨w, hw, by rw [e, char_inv hj]⟩

theorem closes_ws {close c : Char} {r r2 rest w : Str} (h1 : multiWs r = .ok r2 w) (h : ignoreWs (char close) r2 = .ok rest c) :
    Closes true multiWs close r rest := by
  intro hs
  obtain ⟨e1, hw, -⟩ := multiWs_inv h1
  obtain ⟨w', j, e, hw', -, hj⟩ := ignoreWs_inv h
  refine ⟨w ++ w', ⟨white_append hw (white_of_blanks hw'), ?_⟩, by rw [e1, e, char_inv hj]; simp⟩
  rcases hs with ⟨e, he⟩ | ⟨i1, a, hi, hne⟩
  · rw [h1] at he; cases he
  · rw [h1] at hi; cases hi
    intro hw
    obtain ⟨h1, -⟩ := List.append_eq_nil_iff.mp hw
    exact hne (by rw [e1, h1]; rfl)

/-! ## The three kinds of lists -/

abbrev ElemX := Str × Tree
abbrev AssignX := Str × Str × Str × Str × Tree
abbrev PairX := Str × Tree × Str × Str × Tree

def elemS (c : Bool) : Syn ElemX Kserd where
  text x := x.1 ++ x.2.text
  ok rest x := PreOk c x.1 ∧ x.2.Reads (!c) rest
  mean x k := x.2.Val k

def assignS (c : Bool) : Syn AssignX (Str × Kserd) where
  text x := x.1 ++ (x.2.1 ++ (x.2.2.1 ++ '=' :: (x.2.2.2.1 ++ x.2.2.2.2.text)))
  ok rest x := PreOk c x.1 ∧ (∀ ch ∈ x.2.1, NameChar ch) ∧ (x.2.1 = [] → x.2.2.1 = []) ∧ Blanks x.2.2.1 ∧ Blanks x.2.2.2.1 ∧ x.2.2.2.2.Reads (!c) rest
  mean x p := p.1 = x.2.1 ∧ x.2.2.2.2.Val p.2

def pairS (c : Bool) : Syn PairX (Kserd × Kserd) where
  text x := x.1 ++ (x.2.1.text ++ (x.2.2.1 ++ ':' :: (x.2.2.2.1 ++ x.2.2.2.2.text)))
  ok rest x := PreOk c x.1 ∧ x.2.1.Reads false (x.2.2.1 ++ ':' :: (x.2.2.2.1 ++ (x.2.2.2.2.text ++ rest))) ∧ Blanks x.2.2.1 ∧ Blanks x.2.2.2.1 ∧ x.2.2.2.2.Reads (!c) rest
  mean x p := x.2.1.Val p.1 ∧ x.2.2.2.2.Val p.2

def toElems : List (ElemX × Str) → Elems
  | [] => .nil
  | (x, post) :: r => .cons x.1 x.2 post (toElems r)

def toAssigns : List (AssignX × Str) → Assigns
  | [] => .nil
  | (x, post) :: r => .cons x.1 x.2.1 x.2.2.1 x.2.2.2.1 x.2.2.2.2 post (toAssigns r)

def toPairs : List (PairX × Str) → Pairs
  | [] => .nil
  | (x, post) :: r => .cons x.1 x.2.1 x.2.2.1 x.2.2.2.1 x.2.2.2.2 post (toPairs r)

theorem toElems_nil (xs : List (ElemX × Str)) : (toElems xs).isNil = xs.isEmpty := by cases xs <;> rfl
theorem toAssigns_nil (xs : List (AssignX × Str)) : (toAssigns xs).isNil = xs.isEmpty := by cases xs <;> rfl
theorem toPairs_nil (xs : List (PairX × Str)) : (toPairs xs).isNil = xs.isEmpty := by cases xs <;> rfl

theorem toElems_text (c : Bool) : ∀ xs, (toElems xs).text c = joined (elemS c) c xs
  | [] => rfl
  | (x, post) :: r => by rw [toElems, Elems.text, joined, toElems_text c r, toElems_nil]; simp [elemS]

theorem toAssigns_text (c : Bool) : ∀ xs, (toAssigns xs).text c = joined (assignS c) c xs
  | [] => rfl
  | (x, post) :: r => by rw [toAssigns, Assigns.text, joined, toAssigns_text c r, toAssigns_nil]; simp [assignS]

theorem toPairs_text (c : Bool) : ∀ xs, (toPairs xs).text c = joined (pairS c) c xs
  | [] => rfl
  | (x, post) :: r => by rw [toPairs, Pairs.text, joined, toPairs_text c r, toPairs_nil]; simp [pairS]

theorem toElems_reads (c : Bool) (close : Str) : ∀ xs, (toElems xs).Reads c close ↔ allOk (elemS c) c close xs
  | [] => Iff.rfl
  | (_, _) :: r => by
    rw [toElems, Elems.Reads, allOk, toElems_reads c close r, toElems_nil, toElems_text]
    simp only [elemS, and_assoc]

theorem toAssigns_reads (c : Bool) (close : Str) : ∀ xs, (toAssigns xs).Reads c close ↔ allOk (assignS c) c close xs
  | [] => Iff.rfl
  | (_, _) :: r => by
    rw [toAssigns, Assigns.Reads, allOk, toAssigns_reads c close r, toAssigns_nil, toAssigns_text]
    simp only [assignS, and_assoc]

theorem toPairs_reads (c : Bool) (close : Str) : ∀ xs, (toPairs xs).Reads c close ↔ allOk (pairS c) c close xs
  | [] => Iff.rfl
  | (_, _) :: r => by
    rw [toPairs, Pairs.Reads, allOk, toPairs_reads c close r, toPairs_nil, toPairs_text]
    simp only [pairS, and_assoc]

theorem toElems_means (c : Bool) : ∀ xs l, allMean (elemS c) xs l → (toElems xs).Val l
  | [], _, h => h
  | (_, _) :: r, _, ⟨a, l', h1, h2, h3⟩ => ⟨a, l', h1, toElems_means c r l' h2, h3⟩

theorem toAssigns_means (c : Bool) : ∀ xs l, allMean (assignS c) xs l → (toAssigns xs).Val l
  | [], _, h => h
  | (_, _) :: r, _, ⟨a, l', h1, h2, h3⟩ => ⟨a.2, l', h1.2, toAssigns_means c r l' h2, by rw [h3, ← h1.1]⟩

theorem toPairs_means (c : Bool) : ∀ xs l, allMean (pairS c) xs l → (toPairs xs).Val l
  | [], _, h => h
  | (_, _) :: r, _, ⟨a, l', h1, h2, h3⟩ => ⟨a.1, a.2, l', h1.1, h1.2, toPairs_means c r l' h2, h3⟩

/-! ## Patterns -/

theorem recogniseConcise_lead {i lead r : Str} (h : recogniseConcise i = true) (e : i = lead ++ r) (hr : Ends isMultiWs r) : '\n' ∈ lead := by
  subst e
  by_contra hn
  rw [recogniseConcise] at h
  cases hf : (lead ++ r).find? (fun c => !(str " \t\r").contains c) with
  | none => rw [hf] at h; cases h
  | some c =>
    rw [hf] at h
    have hc : c = '\n' := by simpa using h
    subst hc
    rw [List.find?_eq_some_iff_append] at hf
    obtain ⟨-, as, bs, e, has⟩ := hf
    -- everything before the line break is white, so the line break cannot be behind the lead
    rcases List.append_eq_append_iff.mp e with ⟨c', h1, h2⟩ | ⟨c', h1, h2⟩
    · cases c' with
      | nil => exact absurd (hr _ _ h2) (by decide)
      | cons x c' =>
        have hx := has x (by rw [h1]; simp)
        have hm := hr x _ h2
        simp only [Bool.not_not, List.contains_iff_mem] at hx
        have hx : x ∈ [' ', '\t', '\r'] := hx
        have : isMultiWs x = true := by rw [multi_iff]; simp at hx; tauto
        rw [this] at hm; cases hm
    · cases c' with
      | nil => exact absurd (hr _ _ h2.symm) (by decide)
      | cons x c' =>
        injection h2 with h2 _
        apply hn; rw [h1, h2]; simp

theorem pattern_inv {i r : Str} {p : Nonprim} (h : patternDelimited i = .ok r p) (hp : p ≠ .none) :
    ¬ (str "true" <+: i ∨ str "false" <+: i) ∧
      ∀ j id, opt (ident false) i = .ok j id → p = nextDelim (if id = none then .none else .nonprim) (j.dropWhile isMultiWs) := by
  rcases pattern_cases i with ⟨-, h1⟩ | ⟨hb, ⟨j, n, -, h1⟩ | ⟨-, j, n, h2, h1⟩ | ⟨-, h2, h1⟩ | h1⟩
  · rw [h1] at h; cases h; exact absurd rfl hp
  · rw [h1] at h; cases h; exact absurd rfl hp
  · refine ⟨hb, fun j' id hj => ?_⟩
    rw [h2] at hj; cases hj
    rw [h1] at h; cases h; rfl
  · refine ⟨hb, fun j' id hj => ?_⟩
    rw [h2] at hj; cases hj
    rw [h1] at h; cases h; rfl
  · exact absurd h (h1 _ _)

theorem nextDelim_cntr {id : IdentKind} {i : Str} (h : nextDelim id ('(' :: i) = .cntr) : recogniseFieldAssign (i.dropWhile isMultiWs) = true := by
  rw [nextDelim] at h
  simp only [List.head?_cons, Option.getD_some, List.tail_cons] at h
  by_contra hn
  simp only [hn] at h
  revert h
  split_ifs <;> simp_all

theorem nextDelim_tuple {i : Str} (h : nextDelim .none ('(' :: i) = .tuple) : (unitValue ('(' :: i)).isOk = false := by
  rw [nextDelim] at h
  simp only [List.head?_cons, Option.getD_some, List.tail_cons] at h
  by_contra hn
  have hn : (unitValue ('(' :: i)).isOk = true := by simpa using hn
  simp [hn] at h

theorem nextDelim_not_cntr {id : IdentKind} {i : Str} (h : nextDelim id ('(' :: i) = .tuple) : recogniseFieldAssign (i.dropWhile isMultiWs) = false := by
  rw [nextDelim] at h
  simp only [List.head?_cons, Option.getD_some, List.tail_cons] at h
  by_contra hn
  rw [Bool.not_eq_false] at hn
  simp only [hn] at h
  revert h
  split_ifs <;> simp_all

theorem unitValue_blanks {w : Str} (hw : Blanks w) (r : Str) : (unitValue ('(' :: (w ++ ')' :: r))).isOk = true := by
  have h1 : inlineWs (w ++ ')' :: r) = .ok (')' :: r) w := by
    rw [inlineWs, Nom.takeWhile]
    have := takeWhile_all (p := isInlineWs) (i := w) (fun c hc => (inline_iff c).mpr (hw c hc)) (c := ')') (by decide) r
    rw [this.1, this.2]
  have h2 : terminated inlineWs (char ')') (w ++ ')' :: r) = .ok r w := by rw [terminated, h1]; rfl
  have h3 : unitValue ('(' :: (w ++ ')' :: r)) = .ok r () := by
    rw [unitValue]
    refine ctx_ok (map_ok _ (a := w) ?_)
    rw [preceded]
    show cut (terminated inlineWs (char ')')) (w ++ ')' :: r) = _
    exact cut_ok h2
  rw [h3]; rfl

/-! ## Composite values -/

theorem opened_inv {force : Bool} {o : Char} {body : Bool → Option Str → Parser α} {i r : Str} {a : α} (h : opened force o body i = .ok r a) :
    ∃ id w j, NameOk id ∧ Blanks w ∧ i = plainId id ++ (w ++ o :: j) ∧ opt (ident false) i = .ok (w ++ o :: j) id ∧
      body (recogniseConcise j && !force) id j = .ok r a := by
  obtain ⟨j1, id, h1, h2⟩ := bind_inv h
  obtain ⟨j2, c, h3, h4⟩ := bind_inv h2
  obtain ⟨w, j3, e, hw, -, h5⟩ := ignoreWs_inv h3
  have e2 := char_inv h5
  subst e e2
  refine ⟨id, w, j2, ?_, hw, ?_, h1, h4⟩
  · intro s hs
    rcases opt_inv h1 with ⟨y, hy, hi⟩ | ⟨hy, -⟩
    · rw [hs] at hy; cases hy; exact (ident_inv hi).2.1
    · rw [hs] at hy; cases hy
  · rcases opt_inv h1 with ⟨y, rfl, hi⟩ | ⟨rfl, e, -⟩
    · exact (ident_inv hi).1
    · exact e.symm

theorem prefix_id {id : Option Str} {w r : Str} {c : Char} (hb : ¬ (str "true" <+: plainId id ++ (w ++ c :: r) ∨ str "false" <+: plainId id ++ (w ++ c :: r))) :
    ∀ i, id = some i → NotBool i := by
  rintro i rfl
  exact ⟨fun h => hb (.inl (h.trans (List.prefix_append _ _))), fun h => hb (.inr (h.trans (List.prefix_append _ _)))⟩

section Body

variable {k : Bool → Parser Kserd} (hk : ∀ b i r x, Ends isInlineWs i → k b i = .ok r x → Gives b i r x)

include hk

omit hk in
theorem inline_of_multi {i : Str} (h : Ends isMultiWs i) : Ends isInlineWs i := by
  intro c r e
  have := h c r e
  rw [← Bool.not_eq_true, inline_iff]
  rw [← Bool.not_eq_true, multi_iff] at this
  tauto

theorem elem_sound (c : Bool) (f : Parser Kserd) (hf : f = if c then k false else ignoreWs (k true)) : ItemOk (elemS c) c f := by
  intro i r x hat h
  subst hf
  cases c with
  | true =>
    obtain ⟨T, h1, h2, h3⟩ := hk _ _ _ _ (inline_of_multi (hat rfl)) h
    exact ⟨([], T), ⟨rfl, h1⟩, h2, by rw [h3]; simp [elemS]⟩
  | false =>
    obtain ⟨w, j, e, hw, hj', hj⟩ := ignoreWs_inv h
    obtain ⟨T, h1, h2, h3⟩ := hk _ _ _ _ hj' hj
    exact ⟨(w, T), ⟨hw, h1⟩, h2, by rw [e, h3]; simp [elemS]⟩

theorem kvpField_sound (c : Bool) {i r : Str} {x : Str × Kserd} (hi : Ends isInlineWs i) (h : kvpField k (!c) i = .ok r x) :
    ∃ (name mid gap : Str) (T : Tree), (∀ ch ∈ name, NameChar ch) ∧ (name = [] → mid = []) ∧ Blanks mid ∧ Blanks gap ∧ T.Reads (!c) r ∧ x.1 = name ∧ T.Val x.2 ∧
      i = name ++ (mid ++ '=' :: (gap ++ (T.text ++ r))) := by
  obtain ⟨j, j2, b, h1, h2, h3⟩ := sepPair_inv (ctx_inv h)
  obtain ⟨e1, hn, -⟩ := takeWhile_inv h1
  obtain ⟨w, j3, e2, hw, -, h4⟩ := ignoreWs_inv h2
  obtain ⟨w', j4, e3, hw', h6, h5⟩ := ignoreWs_inv h3
  obtain ⟨T, t1, t2, t3⟩ := hk _ _ _ _ h6 (cut_inv h5)
  refine ⟨x.1, w, w', T, fun ch hch => (PG.isNameChar_iff ch).mp (hn ch hch), ?_, hw, hw', t1, rfl, t2, ?_⟩
  · intro hx
    rw [hx, List.nil_append] at e1
    exact blanks_nil hi hw (e1.trans e2)
  · rw [e1, e2, char_inv h4, e3, t3]

theorem assign_sound (c : Bool) (f : Parser (Str × Kserd)) (hf : f = if c then kvpField k false else ignoreWs (kvpField k true)) :
    ItemOk (assignS c) c f := by
  intro i r x hat h
  subst hf
  cases c with
  | true =>
    obtain ⟨name, mid, gap, T, h1, h2, h3, h4, h5, h6, h7, h8⟩ := kvpField_sound hk true (inline_of_multi (hat rfl)) h
    exact ⟨([], name, mid, gap, T), ⟨rfl, h1, h2, h3, h4, h5⟩, ⟨h6, h7⟩, by rw [h8]; simp [assignS]⟩
  | false =>
    obtain ⟨w, j, e, hw, hj', hj⟩ := ignoreWs_inv h
    obtain ⟨name, mid, gap, T, h1, h2, h3, h4, h5, h6, h7, h8⟩ := kvpField_sound hk false hj' hj
    exact ⟨(w, name, mid, gap, T), ⟨hw, h1, h2, h3, h4, h5⟩, ⟨h6, h7⟩, by rw [e, h8]; simp [assignS]⟩

omit hk in
theorem reads_mono {rest : Str} (K : Tree) (h : K.Reads true rest) : K.Reads false rest := by
  cases K with
  | prim => exact h
  | tuple => exact ⟨h.1, h.2.1, h.2.2.1, h.2.2.2.1, h.2.2.2.2.1, fun _ => rfl, h.2.2.2.2.2.2⟩
  | seq => exact ⟨h.1, h.2.1, h.2.2.1, h.2.2.2.1, h.2.2.2.2.1, fun _ => rfl, h.2.2.2.2.2.2⟩
  | cntr => exact ⟨h.1, h.2.1, h.2.2.1, h.2.2.2.1, h.2.2.2.2.1, fun _ => rfl, h.2.2.2.2.2.2⟩
  | map => exact ⟨h.1, h.2.1, h.2.2.1, h.2.2.2.1, h.2.2.2.2.1, fun _ => rfl, h.2.2.2.2.2.2⟩

theorem kvpKserd_sound (c : Bool) {i r : Str} {x : Kserd × Kserd} (hi : Ends isInlineWs i) (h : kvpKserd k (!c) i = .ok r x) :
    ∃ (K : Tree) (mid gap : Str) (T : Tree), K.Reads false (mid ++ ':' :: (gap ++ (Tree.text T ++ r))) ∧ Blanks mid ∧ Blanks gap ∧ T.Reads (!c) r ∧ K.Val x.1 ∧ T.Val x.2 ∧
      i = K.text ++ (mid ++ ':' :: (gap ++ (T.text ++ r))) := by
  obtain ⟨j, j2, b, h1, h2, h3⟩ := sepPair_inv (ctx_inv h)
  obtain ⟨w, j3, e2, hw, -, h4⟩ := ignoreWs_inv h2
  obtain ⟨w', j4, e3, hw', h6, h5⟩ := ignoreWs_inv h3
  obtain ⟨T, t1, t2, t3⟩ := hk _ _ _ _ h6 h5
  have hkey : ∃ K : Tree, K.Reads false j ∧ K.Val x.1 ∧ i = K.text ++ j := by
    obtain ⟨p, hp, hpi⟩ := alt_inv _ h1
    simp only [List.mem_cons, List.not_mem_nil, or_false] at hp
    rcases hp with rfl | rfl
    · exact hk _ _ _ _ hi hpi
    · obtain ⟨K, k1, k2, k3⟩ := hk _ _ _ _ hi hpi
      exact ⟨K, reads_mono K k1, k2, k3⟩
  obtain ⟨K, k1, k2, k3⟩ := hkey
  have e : j = w ++ ':' :: (w' ++ (T.text ++ r)) := by rw [e2, char_inv h4, e3, t3]
  rw [e] at k1 k3
  exact ⟨K, w, w', T, k1, hw, hw', t1, k2, t2, k3⟩

theorem pair_sound (c : Bool) (f : Parser (Kserd × Kserd)) (hf : f = if c then kvpKserd k false else ignoreWs (kvpKserd k true)) :
    ItemOk (pairS c) c f := by
  intro i r x hat h
  subst hf
  cases c with
  | true =>
    obtain ⟨K, mid, gap, T, h1, h2, h3, h4, h5, h6, h7⟩ := kvpKserd_sound hk true (inline_of_multi (hat rfl)) h
    exact ⟨([], K, mid, gap, T), ⟨rfl, h1, h2, h3, h4⟩, ⟨h5, h6⟩, by rw [h7]; simp [pairS]⟩
  | false =>
    obtain ⟨w, j, e, hw, hj', hj⟩ := ignoreWs_inv h
    obtain ⟨K, mid, gap, T, h1, h2, h3, h4, h5, h6, h7⟩ := kvpKserd_sound hk false hj' hj
    exact ⟨(w, K, mid, gap, T), ⟨hw, h1, h2, h3, h4⟩, ⟨h5, h6⟩, by rw [e, h7]; simp [pairS]⟩

end Body

/-- What the inside of a list gives: the white space behind the opening delimiter and the items. -/
def Inside {X : Type} (S : Syn X α) (c : Bool) (close : Char) (i rest : Str) (l : List α) : Prop :=
  ∃ lead xs, LeadOk c lead ∧ allOk S c (close :: rest) xs ∧ allMean S xs l ∧ i = lead ++ (joined S c xs ++ close :: rest)

theorem inside_inline {X : Type} {S : Syn X α} {f : Parser α} {close : Char} (hf : ItemOk S false f)
    {i r rest : Str} {c : Char} {l : List α} (h : separatedList0 (ignoreWs (char ',')) f i = .ok r l) (h2 : ignoreWs (char close) r = .ok rest c) :
    Inside S false close i rest l := by
  rcases list_sound S sepOk_comma hf (by intro h; cases h) h (closes_comma h2) with ⟨rfl, rfl⟩ | ⟨xs, -, h3, h4, h5⟩
  · obtain ⟨w, j, e, hw, -, hj⟩ := ignoreWs_inv h2
    exact ⟨w, [], hw, trivial, rfl, by rw [e, char_inv hj]; rfl⟩
  · exact ⟨[], xs, (by intro c hc; cases hc), h3, h4, h5⟩

theorem inside_concise {X : Type} {S : Syn X α} {f : Parser α} {close : Char} (hf : ItemOk S true f)
    {i i2 r r2 rest w w2 : Str} {c : Char} {l : List α} (hc : recogniseConcise i = true) (h0 : multiWs i = .ok i2 w)
    (h : separatedList0 multiWs f i2 = .ok r l) (h1 : multiWs r = .ok r2 w2) (h2 : ignoreWs (char close) r2 = .ok rest c) :
    Inside S true close i rest l := by
  obtain ⟨e0, hw, hend⟩ := multiWs_inv h0
  have hn := recogniseConcise_lead hc e0 hend
  rcases list_sound S sepOk_ws hf (fun _ => hend) h (closes_ws h1 h2) with ⟨rfl, rfl⟩ | ⟨xs, -, h3, h4, h5⟩
  · obtain ⟨e1, hw1, -⟩ := multiWs_inv h1
    obtain ⟨w', j, e, hw', -, hj⟩ := ignoreWs_inv h2
    refine ⟨w ++ (w2 ++ w'), [], ⟨white_append hw (white_append hw1 (white_of_blanks hw')), by simp [hn]⟩, trivial, rfl, ?_⟩
    rw [e0, e1, e, char_inv hj]; simp [joined]
  · exact ⟨w, xs, ⟨hw, hn⟩, h3, h4, by rw [e0, h5]⟩

theorem fieldsOf_fromIter (l : List (Str × Kserd)) : FieldsOf l (BTree.fromIter cmpStr (fun a b => a == b) l) := by
  obtain ⟨-, -, -, h1, h2⟩ := BTree.fromIter_spec lawStr l (fun _ _ => trivial)
  refine ⟨h1, fun p => ?_⟩
  rw [h2]
  have : (fun a b : Str => cmpStr a b = .eq) = (· = ·) := by funext a b; exact propext (cmpStr_eq a b)
  rw [this]

theorem entriesOf_fromIter (l : List (Kserd × Kserd)) : EntriesOf l (BTree.fromIter Kserd.cmp Kserd.eq l) := by
  refine ⟨fun p hp => BTree.fromIter_sub l p hp, fun hg => ?_⟩
  obtain ⟨-, -, -, h1, h2⟩ := BTree.fromIter_spec Props.lawKserd l (fun p hp => hg p hp)
  exact ⟨h1, h2⟩

/-! ## All together -/

section Whole

variable {k : Bool → Parser Kserd} (hk : ∀ b i r x, Ends isInlineWs i → k b i = .ok r x → Gives b i r x)

include hk

theorem inlineList_sound {i r rest : Str} {c close : Char} {l : List Kserd} (h : inlineList k i = .ok r l) (h2 : ignoreWs (char close) r = .ok rest c) :
    Inside (elemS false) false close i rest l :=
  inside_inline (elem_sound hk false _ rfl) (ctx_inv h) h2

theorem conciseList_sound {i r rest : Str} {c close : Char} {l : List Kserd} (hc : recogniseConcise i = true) (h : conciseList k i = .ok r l)
    (h2 : ignoreWs (char close) r = .ok rest c) : Inside (elemS true) true close i rest l := by
  obtain ⟨j, w, h0, h1⟩ := preceded_inv h
  obtain ⟨j2, w2, h3, h4⟩ := terminated_inv (cut_inv h1)
  exact inside_concise (elem_sound hk true _ rfl) hc h0 h3 h4 h2

/-- The inside of a tuple or sequence. -/
theorem list_body {i r : Str} {force : Bool} {close : Char} {l : List Kserd}
    (h : cut (terminated (if (recogniseConcise i && !force) = true then conciseList k else inlineList k) (ignoreWs (char close))) i = .ok r l) :
    ∃ c, (c = true → force = false) ∧ Inside (elemS c) c close i r l := by
  obtain ⟨j, x, h1, h2⟩ := terminated_inv (cut_inv h)
  by_cases hc : (recogniseConcise i && !force) = true
  · rw [if_pos hc] at h1
    have hc' := hc
    rw [Bool.and_eq_true, Bool.not_eq_true'] at hc'
    exact ⟨true, fun _ => hc'.2, conciseList_sound hk hc'.1 h1 h2⟩
  · rw [if_neg hc] at h1
    exact ⟨false, (by intro e; cases e), inlineList_sound hk h1 h2⟩

omit hk in
theorem white_lead {c : Bool} {lead : Str} (h : LeadOk c lead) : White lead := by
  cases c with
  | true => exact h.1
  | false => exact white_of_blanks h

omit hk in
/-- The blanks before an opening bracket without identity. -/
theorem opened_blanks {id : Option Str} {i w j : Str} {o : Char} (hi : Ends isInlineWs i) (hw : Blanks w) (e : i = plainId id ++ (w ++ o :: j)) :
    id = none → w = [] := by
  rintro rfl
  exact blanks_nil hi hw e

theorem tuple_sound {i r : Str} {force : Bool} {x : Kserd} (hi : Ends isInlineWs i) (hp : patternDelimited i = .ok i .tuple) (h : tuple k force i = .ok r x) :
    Gives force i r x := by
  obtain ⟨id, w, j, hid, hw, e, ho, hb⟩ := opened_inv h
  obtain ⟨r', l, h1, h2⟩ := bind_inv hb
  obtain ⟨rfl, rfl⟩ := ctor_inv h2
  obtain ⟨c, hc, lead, xs, hl, hok, hm, ei⟩ := list_body hk (ctx_inv h1)
  obtain ⟨hbool, hpat⟩ := pattern_inv hp (by decide)
  have hpat := hpat _ _ ho
  rw [dropWhile_blanks hw (by decide)] at hpat
  refine ⟨.tuple id w c lead (toElems xs), ?_, ⟨l, toElems_means c xs l hm, rfl⟩, ?_⟩
  · refine ⟨hid, hw, opened_blanks hi hw e, prefix_id (by rw [e] at hbool; exact hbool), hl, hc, ?_, ?_, (toElems_reads c _ xs).mpr hok⟩
    · rintro rfl he
      cases c with
      | true => rfl
      | false =>
        exfalso
        rw [toElems_nil, List.isEmpty_iff] at he
        subst he
        rw [if_pos rfl] at hpat
        have hu := nextDelim_tuple hpat.symm
        rw [ei] at hu
        have := unitValue_blanks (w := lead) hl r
        simp only [joined, List.nil_append] at hu
        rw [hu] at this; cases this
    · intro ha
      have := nextDelim_not_cntr hpat.symm
      rw [toElems_text, ← List.append_assoc, ← assign_close _ r, List.append_assoc, ← ei, ← assign_iff, this] at ha
      cases ha
  · rw [Tree.text, toElems_text, e, ei]; simp

theorem seq_sound {i r : Str} {force : Bool} {x : Kserd} (hi : Ends isInlineWs i) (hp : patternDelimited i = .ok i .seq) (h : seqDelimited k force i = .ok r x) :
    Gives force i r x := by
  obtain ⟨id, w, j, hid, hw, e, ho, hb⟩ := opened_inv h
  obtain ⟨r', l, h1, h2⟩ := bind_inv hb
  obtain ⟨rfl, rfl⟩ := ctor_inv h2
  obtain ⟨c, hc, lead, xs, hl, hok, hm, ei⟩ := list_body hk (ctx_inv h1)
  obtain ⟨hbool, -⟩ := pattern_inv hp (by decide)
  refine ⟨.seq id w c lead (toElems xs), ⟨hid, hw, opened_blanks hi hw e, prefix_id (by rw [e] at hbool; exact hbool), hl, hc, (toElems_reads c _ xs).mpr hok⟩,
    ⟨l, toElems_means c xs l hm, rfl⟩, ?_⟩
  rw [Tree.text, toElems_text, e, ei]; simp

theorem map_sound {i r : Str} {force : Bool} {x : Kserd} (hi : Ends isInlineWs i) (hp : patternDelimited i = .ok i .map) (h : mapDelimited k force i = .ok r x) :
    Gives force i r x := by
  obtain ⟨id, w, j, hid, hw, e, ho, hb⟩ := opened_inv h
  obtain ⟨r', l, h1, h2⟩ := bind_inv hb
  obtain ⟨rfl, rfl⟩ := ctor_inv h2
  obtain ⟨hbool, -⟩ := pattern_inv hp (by decide)
  have hin : ∃ c, (c = true → force = false) ∧ Inside (pairS c) c '}' j r l := by
    obtain ⟨j', x, h3, h4⟩ := terminated_inv (ctx_inv h1)
    by_cases hc : (recogniseConcise j && !force) = true
    · rw [if_pos hc] at h3
      rw [Bool.and_eq_true, Bool.not_eq_true'] at hc
      obtain ⟨j2, w, h5, h6⟩ := preceded_inv (ctx_inv h3)
      obtain ⟨j3, w3, h7, h8⟩ := terminated_inv h6
      exact ⟨true, fun _ => hc.2, inside_concise (pair_sound hk true _ rfl) hc.1 h5 h7 h8 h4⟩
    · rw [if_neg hc] at h3
      exact ⟨false, (by intro e; cases e), inside_inline (pair_sound hk false _ rfl) (ctx_inv h3) h4⟩
  obtain ⟨c, hc, lead, xs, hl, hok, hm, ei⟩ := hin
  refine ⟨.map id w c lead (toPairs xs), ⟨hid, hw, opened_blanks hi hw e, prefix_id (by rw [e] at hbool; exact hbool), hl, hc, (toPairs_reads c _ xs).mpr hok⟩,
    ⟨l, _, toPairs_means c xs l hm, rfl, rfl⟩, ?_⟩
  rw [Tree.text, toPairs_text, e, ei]; simp

theorem cntr_sound {i r : Str} {force : Bool} {x : Kserd} (hi : Ends isInlineWs i) (hp : patternDelimited i = .ok i .cntr) (h : cntrDelimited k force i = .ok r x) :
    Gives force i r x := by
  obtain ⟨id, w, j, hid, hw, e, ho, hb⟩ := opened_inv h
  obtain ⟨r', l, h1, h2⟩ := bind_inv hb
  obtain ⟨rfl, rfl⟩ := ctor_inv h2
  obtain ⟨hbool, hpat⟩ := pattern_inv hp (by decide)
  have hpat := hpat _ _ ho
  have hin : ∃ c, (c = true → force = false) ∧ Inside (assignS c) c ')' j r l := by
    obtain ⟨j', x, h3, h4⟩ := terminated_inv (ctx_inv h1)
    by_cases hc : (recogniseConcise j && !force) = true
    · rw [if_pos hc] at h3
      rw [Bool.and_eq_true, Bool.not_eq_true'] at hc
      obtain ⟨j2, w, h5, h6⟩ := preceded_inv (ctx_inv h3)
      obtain ⟨j3, w3, h7, h8⟩ := terminated_inv (cut_inv h6)
      exact ⟨true, fun _ => hc.2, inside_concise (assign_sound hk true _ rfl) hc.1 h5 h7 h8 h4⟩
    · rw [if_neg hc] at h3
      exact ⟨false, (by intro e; cases e), inside_inline (assign_sound hk false _ rfl) (ctx_inv h3) h4⟩
  obtain ⟨c, hc, lead, xs, hl, hok, hm, ei⟩ := hin
  refine ⟨.cntr id w c lead (toAssigns xs), ⟨hid, hw, opened_blanks hi hw e, prefix_id (by rw [e] at hbool; exact hbool), hl, hc, ?_,
    (toAssigns_reads c _ xs).mpr hok⟩, ⟨l, _, toAssigns_means c xs l hm, rfl, rfl⟩, ?_⟩
  · by_contra he
    rw [toAssigns_nil, Bool.not_eq_false, List.isEmpty_iff] at he
    subst he
    rw [dropWhile_blanks hw (by decide)] at hpat
    have hu := nextDelim_cntr hpat.symm
    rw [ei] at hu
    simp only [joined, List.nil_append] at hu
    rw [dropWhile_white (white_lead hl) (by decide)] at hu
    revert hu
    rw [recogniseFieldAssign, terminated]
    rw [Nom.takeWhile]
    have h1 : isMaybeName ')' = false := by decide
    simp only [List.dropWhile_cons, h1]
    intro hu; cases hu
  · rw [Tree.text, toAssigns_text, e, ei]; simp

end Whole

/-- Everything that is read as a delimited value is the text of a tree, and the value is what the tree stands for. -/
theorem delimited_sound : ∀ (f : Nat) (force : Bool) (i r : Str) (x : Kserd), Ends isInlineWs i → kserdDelimited f force i = .ok r x → Gives force i r x
  | 0, _, _, _, _, _, h => by cases h
  | f + 1, force, i, r, x, hi, h => by
    rw [kserdDelimited] at h
    obtain ⟨i', pat, h1, h2⟩ := bind_inv h
    have hi' : i' = i := by
      have := PG.patternDelimited_res i
      rw [h1] at this; exact this.2
    subst hi'
    have ih := delimited_sound f
    cases pat with
    | tuple => exact tuple_sound ih hi h1 h2
    | cntr => exact cntr_sound ih hi h1 h2
    | seq => exact seq_sound ih hi h1 h2
    | map => exact map_sound ih hi h1 h2
    | none => exact prim_sound hi h1 h2

/-! ## What the parser makes is what the tree stands for -/

mutual
theorem tree_means : ∀ (T : Tree) {k : Kserd}, T.Val k → T.Means k
  | .prim _ _ _, _, h => h
  | .tuple _ _ _ _ b, _, ⟨l, h, e⟩ => ⟨l, elems_means b h, e⟩
  | .seq _ _ _ _ b, _, ⟨l, h, e⟩ => ⟨l, elems_means b h, e⟩
  | .cntr _ _ _ _ b, _, ⟨l, f, h, ef, e⟩ => ⟨l, f, assigns_means b h, by rw [ef]; exact fieldsOf_fromIter l, e⟩
  | .map _ _ _ _ b, _, ⟨l, f, h, ef, e⟩ => ⟨l, f, pairs_means b h, by rw [ef]; exact entriesOf_fromIter l, e⟩
termination_by structural t => t
theorem elems_means : ∀ (b : Elems) {l : List Kserd}, b.Val l → b.Means l
  | .nil, _, h => h
  | .cons _ t _ r, _, ⟨k, l, h1, h2, e⟩ => ⟨k, l, tree_means t h1, elems_means r h2, e⟩
termination_by structural t => t
theorem assigns_means : ∀ (b : Assigns) {l : List (Str × Kserd)}, b.Val l → b.Means l
  | .nil, _, h => h
  | .cons _ _ _ _ t _ r, _, ⟨k, l, h1, h2, e⟩ => ⟨k, l, tree_means t h1, assigns_means r h2, e⟩
termination_by structural t => t
theorem pairs_means : ∀ (b : Pairs) {l : List (Kserd × Kserd)}, b.Val l → b.Means l
  | .nil, _, h => h
  | .cons _ y _ _ t _ r, _, ⟨k, x, l, h0, h1, h2, e⟩ => ⟨k, x, l, tree_means y h0, tree_means t h1, pairs_means r h2, e⟩
termination_by structural t => t
end

end KS.GR
