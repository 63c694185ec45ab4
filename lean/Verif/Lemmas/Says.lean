import Verif.Lemmas.ParseTotal
import Verif.Spec.Says
/-!
# What parse errors say

`Tr b src i Q x`: the result `x` of a parser run on `i`, a suffix of `src`, is a suffix of `i` with `Q`, or a failure whose entries
are nested and say what holds; recoverable errors count only if `b`, because `opt`, `many0` and `separated_list0` drop them.
-/

namespace KS.TR
open KS.Spec KS.PG

variable {α β γ : Type} {src : Str}

/-- Entries inside `i`, nested, and saying what holds. -/
def G (src i : Str) (e : PErr) : Prop :=
  (∀ x ∈ e, x.1 <:+ i ∧ Says src x.1 x.2) ∧ (e.Pairwise fun a b => a.1 <:+ b.1) ∧ ∃ x r, e = x :: r ∧ ∀ c, x.2 ≠ .ctx c

def Tr (b : Bool) (src i : Str) (Q : Str → α → Prop) : PRes α → Prop
  | .ok r a => r <:+ i ∧ Q r a
  | .err e => b = true → G src i e
  | .fail e => G src i e
  | .panic => True
  | .oof => True

theorem G.mono {i j : Str} {e : PErr} (h : G src j e) (hs : j <:+ i) : G src i e :=
  ⟨fun x hx => ⟨(h.1 x hx).1.trans hs, (h.1 x hx).2⟩, h.2⟩

theorem G.single {i : Str} {k : EKind} (h : Says src i k) (hk : ∀ c, k ≠ .ctx c := by intro c hc; cases hc) : G src i [(i, k)] :=
  ⟨fun x hx => by simp at hx; subst hx; exact ⟨List.suffix_refl _, h⟩, List.pairwise_singleton _ _, _, _, rfl, hk⟩

theorem G.snoc {i : Str} {e : PErr} {k : EKind} (h : G src i e) (hk : Says src i k) : G src i (e ++ [(i, k)]) := by
  refine ⟨?_, ?_, ?_⟩
  · intro x hx
    rcases List.mem_append.mp hx with hx | hx
    · exact h.1 x hx
    · simp at hx; subst hx; exact ⟨List.suffix_refl _, hk⟩
  · rw [List.pairwise_append]
    refine ⟨h.2.1, List.pairwise_singleton _ _, ?_⟩
    intro a ha b hb
    simp at hb; subst hb; exact (h.1 a ha).1
  · obtain ⟨x, r, he, hx⟩ := h.2.2
    exact ⟨x, r ++ [(i, k)], by rw [he]; rfl, hx⟩

theorem Tr.mono {b : Bool} {i j : Str} {Q : Str → α → Prop} {x : PRes α} (h : Tr b src j Q x) (hs : j <:+ i) : Tr b src i Q x := by
  cases x with
  | ok r a => exact ⟨h.1.trans hs, h.2⟩
  | err e => exact fun hb => (h hb).mono hs
  | fail e => exact G.mono h hs
  | panic => trivial
  | oof => trivial

theorem Tr.weak {b : Bool} {i : Str} {Q : Str → α → Prop} {x : PRes α} (h : Tr true src i Q x) : Tr b src i Q x := by
  cases x with
  | ok r a => exact h
  | err e => exact fun _ => h rfl
  | fail e => exact h
  | panic => trivial
  | oof => trivial

theorem Tr.imp {b : Bool} {i : Str} {Q R : Str → α → Prop} {x : PRes α} (h : Tr b src i Q x) (hq : ∀ r a, r <:+ i → Q r a → R r a) :
    Tr b src i R x := by
  cases x with
  | ok r a => exact ⟨h.1, hq r a h.1 h.2⟩
  | err e => exact h
  | fail e => exact h
  | panic => trivial
  | oof => trivial

theorem Tr.bind {b : Bool} {i : Str} {Q : Str → α → Prop} {R : Str → β → Prop} {x : PRes α} {f : Str → α → PRes β} (h : Tr b src i Q x)
    (hf : ∀ r a, r <:+ i → Q r a → Tr b src r R (f r a)) : Tr b src i R (x.bind f) := by
  cases x with
  | ok r a => exact (hf r a h.1 h.2).mono h.1
  | err e => exact h
  | fail e => exact h
  | panic => trivial
  | oof => trivial

/-! ## Combinators -/

theorem char_tr {b : Bool} (c : Char) (i : Str) : Tr b src i (fun r _ => i = c :: r) (Nom.char c i) := by
  cases i with
  | nil => exact fun _ => G.single (by simp [Says])
  | cons x r =>
    rw [Nom.char]
    split
    · rename_i h; exact ⟨List.suffix_cons _ _, by rw [h]⟩
    · rename_i h; exact fun _ => G.single (by simpa [Says] using h)

theorem tag_tr {b : Bool} (t i : Str) : Tr b src i (fun r _ => i = t ++ r) (Nom.tag t i) := by
  rw [Nom.tag]
  split
  · rename_i r h
    have := stripPrefix_some h
    exact ⟨by rw [this]; exact List.suffix_append _ _, this⟩
  · exact fun _ => G.single trivial

theorem takeWhile_tr {b : Bool} (p : Char → Bool) (i : Str) :
    Tr b src i (fun r a => i = a ++ r ∧ (∀ c ∈ a, p c = true) ∧ r = i.dropWhile p) (Nom.takeWhile p i) :=
  ⟨List.dropWhile_suffix p, (List.takeWhile_append_dropWhile).symm, fun _ hc => List.mem_takeWhile_imp hc, rfl⟩

theorem opt_tr {b : Bool} {p : Parser α} {i : Str} {Q : Str → α → Prop} (h : Tr false src i Q (p i)) :
    Tr b src i (fun r a => (a = none ∧ r = i) ∨ ∃ x, a = some x ∧ Q r x) (Nom.opt p i) := by
  rw [Nom.opt]
  cases hp : p i with
  | ok r a => rw [hp] at h; exact ⟨h.1, .inr ⟨a, rfl, h.2⟩⟩
  | err e => exact ⟨List.suffix_refl _, .inl ⟨rfl, rfl⟩⟩
  | fail e => rw [hp] at h; exact h
  | panic => trivial
  | oof => trivial

theorem cut_tr {b : Bool} {p : Parser α} {i : Str} {Q : Str → α → Prop} (h : Tr true src i Q (p i)) : Tr b src i Q (Nom.cut p i) := by
  rw [Nom.cut]
  cases hp : p i with
  | ok r a => rw [hp] at h; exact h
  | err e => rw [hp] at h; exact h rfl
  | fail e => rw [hp] at h; exact h
  | panic => trivial
  | oof => trivial

theorem context_tr {b : Bool} {s : String} {p : Parser α} {i : Str} {Q : Str → α → Prop} (h : Tr b src i Q (p i))
    (hs : ((∃ e, p i = .fail e) ∨ (∃ e, p i = .err e) ∧ b = true) → SaysContext src i s) : Tr b src i Q (Nom.context s p i) := by
  rw [Nom.context]
  cases hp : p i with
  | ok r a => rw [hp] at h; exact h
  | err e =>
    rw [hp] at h hs
    exact fun hb => (h hb).snoc (hs (.inr ⟨⟨e, rfl⟩, hb⟩))
  | fail e =>
    rw [hp] at h hs
    exact G.snoc h (hs (.inl ⟨e, rfl⟩))
  | panic => trivial
  | oof => trivial

theorem uncut_tr {p : Parser α} {i : Str} {Q : Str → α → Prop} (h : Tr true src i Q (p i)) : Tr false src i Q (P.uncut p i) := by
  rw [P.uncut]
  cases hp : p i with
  | ok r a => rw [hp] at h; exact h
  | err e => exact fun h => by cases h
  | fail e => exact fun h => by cases h
  | panic => trivial
  | oof => trivial

theorem alt_tr {b : Bool} {i : Str} {Q : Str → α → Prop} (p : Parser α) (hp : Tr b src i Q (p i)) : ∀ (ps : List (Parser α)),
    (∀ p ∈ ps, Tr false src i Q (p i)) → Tr b src i Q (Nom.alt (ps ++ [p]) i)
  | [], _ => by
    rw [List.nil_append, Nom.alt]
    cases hpi : p i with
    | ok r a => rw [hpi] at hp; exact hp
    | err e => rw [hpi] at hp; exact fun hb => (hp hb).snoc trivial
    | fail e => rw [hpi] at hp; exact hp
    | panic => trivial
    | oof => trivial
  | q :: ps, h => by
    have h1 := h q (by simp)
    rw [List.cons_append, Nom.alt]
    · cases hq : q i with
      | ok r a => rw [hq] at h1; exact h1
      | err e => exact alt_tr p hp ps fun p' hp' => h p' (List.mem_cons_of_mem _ hp')
      | fail e => rw [hq] at h1; exact h1
      | panic => trivial
      | oof => trivial
    · simp

theorem map_tr {b : Bool} {p : Parser α} {f : α → β} {i : Str} {Q : Str → α → Prop} {R : Str → β → Prop} (h : Tr b src i Q (p i))
    (hf : ∀ r a, r <:+ i → Q r a → R r (f a)) : Tr b src i R (Nom.map p f i) :=
  h.bind fun r a hr hq => ⟨List.suffix_refl _, hf r a hr hq⟩

theorem preceded_tr {b : Bool} {p : Parser α} {q : Parser β} {i : Str} {Q : Str → α → Prop} {R : Str → β → Prop} (h : Tr b src i Q (p i))
    (hq : ∀ r a, r <:+ i → Q r a → Tr b src r R (q r)) : Tr b src i R (Nom.preceded p q i) :=
  h.bind fun r a hr ha => hq r a hr ha

theorem terminated_tr {b : Bool} {p : Parser α} {q : Parser β} {i : Str} {Q : Str → α → Prop} {R : Str → α → Prop} (h : Tr b src i Q (p i))
    (hq : ∀ r a, r <:+ i → Q r a → Tr b src r (fun r' _ => R r' a) (q r)) : Tr b src i R (Nom.terminated p q i) :=
  h.bind fun r a hr ha => (hq r a hr ha).bind fun r' b _ hb => ⟨List.suffix_refl _, hb⟩

theorem blank_of {c : Char} (h : P.isInlineWs c = true) : c = ' ' ∨ c = '\t' := by
  simpa [P.isInlineWs, str] using h

theorem ignoreWs_tr {b : Bool} {p : Parser α} {i : Str} {Q : Str → α → Prop}
    (h : ∀ w j, i = w ++ j → (∀ c ∈ w, c = ' ' ∨ c = '\t') → Tr b src j Q (p j)) : Tr b src i Q (P.ignoreWs p i) := by
  refine (opt_tr (takeWhile_tr P.isInlineWs i)).bind ?_
  rintro r a hr (⟨rfl, rfl⟩ | ⟨x, rfl, h1, h2, _⟩)
  · exact h [] r rfl (by simp)
  · exact h x r h1 fun c hc => blank_of (h2 c hc)

theorem sepLoop_tr {b : Bool} {sep : Parser β} {f : Parser α} {S : Str → Prop}
    (hS : ∀ j, S j → ∀ r, r <:+ j → S r)
    (hs : ∀ j, S j → Tr false src j (fun r _ => r.length = j.length → Says src r .separatedList) (sep j))
    (hf : ∀ j, S j → Tr false src j (fun _ _ => True) (f j)) : ∀ (n : Nat) (i : Str) (acc : List α), S i →
    Tr b src i (fun _ _ => True) (Nom.sepLoop sep f n i acc)
  | 0, _, _, _ => trivial
  | n + 1, i, acc, hi => by
    rw [Nom.sepLoop]
    have h1 := hs i hi
    cases hp : sep i with
    | err e => exact ⟨List.suffix_refl _, trivial⟩
    | fail e => rw [hp] at h1; exact h1
    | panic => trivial
    | oof => trivial
    | ok i1 x =>
      rw [hp] at h1
      dsimp only
      split
      · rename_i hl
        exact fun _ => (G.single (h1.2 hl)).mono h1.1
      · have h2 := hf i1 (hS i hi _ h1.1)
        cases hq : f i1 with
        | err e => exact ⟨List.suffix_refl _, trivial⟩
        | fail e => rw [hq] at h2; exact G.mono h2 h1.1
        | panic => trivial
        | oof => trivial
        | ok i2 a =>
          rw [hq] at h2
          have hs2 : i2 <:+ i := h2.1.trans h1.1
          exact (sepLoop_tr hS hs hf n i2 (a :: acc) (hS i hi _ hs2)).mono hs2

theorem separatedList0_tr {b : Bool} {sep : Parser β} {f : Parser α} {S : Str → Prop} {i : Str}
    (hS : ∀ j, S j → ∀ r, r <:+ j → S r)
    (hs : ∀ j, S j → Tr false src j (fun r _ => r.length = j.length → Says src r .separatedList) (sep j))
    (hf : ∀ j, S j → Tr false src j (fun _ _ => True) (f j)) (hi : S i) :
    Tr b src i (fun _ _ => True) (Nom.separatedList0 sep f i) := by
  rw [Nom.separatedList0]
  have h := hf i hi
  cases hp : f i with
  | err e => exact ⟨List.suffix_refl _, trivial⟩
  | fail e => rw [hp] at h; exact h
  | panic => trivial
  | oof => trivial
  | ok r a =>
    rw [hp] at h
    exact (sepLoop_tr hS hs hf _ r [a] (hS i hi _ h.1)).mono h.1

theorem many0Loop_tr {b : Bool} {f : Parser α} {S : Str → Prop} (hS : ∀ j, S j → ∀ r, r <:+ j → S r)
    (hf : ∀ j, S j → Tr false src j (fun r _ => r.length < j.length) (f j)) : ∀ (n : Nat) (i : Str) (acc : List α), S i →
    Tr b src i (fun _ _ => True) (Nom.many0Loop f n i acc)
  | 0, _, _, _ => trivial
  | n + 1, i, acc, hi => by
    rw [Nom.many0Loop]
    have h1 := hf i hi
    cases hp : f i with
    | err e => exact ⟨List.suffix_refl _, trivial⟩
    | fail e => rw [hp] at h1; exact h1
    | panic => trivial
    | oof => trivial
    | ok i1 x =>
      rw [hp] at h1
      dsimp only
      split
      · rename_i hl; have := h1.2; omega
      · exact (many0Loop_tr hS hf n i1 (x :: acc) (hS i hi _ h1.1)).mono h1.1

/-! ## Names and primitive values -/

/-- `valid_name` succeeds or fails softly. -/
theorem validName_form (i : Str) : (∃ r a, P.validName i = .ok r a ∧ r <:+ i) ∨ ∃ e, P.validName i = .err e ∧ G src i e := by
  have hp : ∀ r a, Nom.alt [Nom.alpha1, Nom.tag ['_']] i = .ok r a → (∃ c r, i = c :: r ∧ P.isNameChar c = true) →
      ∃ r a, P.validName i = .ok r a ∧ r <:+ i := by
    rintro r a h ⟨c, r', h1, h2⟩
    have hok : Nom.takeWhile1 P.isNameChar i = .ok (i.dropWhile P.isNameChar) (i.takeWhile P.isNameChar) := by
      rw [Nom.takeWhile1, h1, List.takeWhile_cons, if_pos h2]
    refine ⟨i.dropWhile P.isNameChar, i.takeWhile P.isNameChar, ?_, List.dropWhile_suffix P.isNameChar⟩
    rw [P.validName, h, PRes.bind, Nom.context, Nom.cut, hok]
  have ha := alpha1_res i
  cases h : Nom.alpha1 i with
  | ok r a =>
    rw [h] at ha
    obtain ⟨h1, c, r', h2, h3⟩ := ha
    exact .inl (hp r a (by simp only [Nom.alt, h]) ⟨c, r', h2, by rw [P.isNameChar, isAlnum, h3]; rfl⟩)
  | err e =>
    cases ht : Nom.tag ['_'] i with
    | ok r a =>
      have := tag_res ['_'] i
      rw [ht] at this
      exact .inl (hp r a (by simp only [Nom.alt, h, ht]) ⟨'_', r, this.2, by decide⟩)
    | err e' =>
      have h2 : Tr true src i (fun r _ => i = ['_'] ++ r) (Nom.tag ['_'] i) := tag_tr _ _
      rw [ht] at h2
      refine .inr ⟨e' ++ [(i, .alt)], ?_, (h2 rfl).snoc (k := .alt) trivial⟩
      have : Nom.alt [Nom.alpha1, Nom.tag ['_']] i = .err (e' ++ [(i, .alt)]) := by simp only [Nom.alt, h, ht]
      rw [P.validName, this, PRes.bind]
    | fail e' => rw [Nom.tag] at ht; split at ht <;> cases ht
    | panic => rw [Nom.tag] at ht; split at ht <;> cases ht
    | oof => rw [Nom.tag] at ht; split at ht <;> cases ht
  | fail e => rw [Nom.alpha1] at h; split at h <;> cases h
  | panic => rw [Nom.alpha1] at h; split at h <;> cases h
  | oof => rw [Nom.alpha1] at h; split at h <;> cases h

theorem validName_tr {b : Bool} (i : Str) : Tr b src i (fun _ _ => True) (P.validName i) := by
  rcases validName_form (src := src) i with ⟨r, a, h, hr⟩ | ⟨e, h, he⟩
  · rw [h]; exact ⟨hr, trivial⟩
  · rw [h]; exact fun _ => he

/-- An identity in angle brackets. -/
theorem identA_tr (i : Str) : Tr false src i (fun _ _ => True) (P.ident true i) := by
  rw [P.ident, if_pos rfl]
  cases i with
  | nil => exact fun h => by cases h
  | cons c r =>
    by_cases hc : c = '<'
    · subst hc
      refine context_tr (preceded_tr (char_tr _ _) fun r _ _ _ => cut_tr (terminated_tr (validName_tr r) fun r' _ _ _ =>
        (char_tr _ _).imp fun _ _ _ _ => trivial)) fun _ => ?_
      simp [SaysContext]
    · rw [Nom.context, Nom.preceded, Nom.char, if_neg hc]
      exact fun h => by cases h

/-- An identity without brackets: missing only behind a colon. -/
theorem identB_tr {b : Bool} (i : Str) (h : b = true → ∃ w, (∀ c ∈ w, c = ' ' ∨ c = '\t') ∧ Behind (':' :: w) src i) :
    Tr b src i (fun _ _ => True) (P.ident false i) := by
  rw [P.ident, if_neg (by decide)]
  refine context_tr (validName_tr i) ?_
  rintro (⟨e, he⟩ | ⟨_, hb⟩)
  · rcases validName_form (src := src) i with ⟨r, a, h, _⟩ | ⟨e, h, _⟩ <;> rw [h] at he <;> cases he
  · rw [SaysContext, if_pos rfl]; exact .inr (h hb)

theorem unitValue_tr (i : Str) : Tr false src i (fun _ _ => True) (P.unitValue i) := by
  rw [P.unitValue]
  cases i with
  | nil => exact fun h => by cases h
  | cons c r =>
    by_cases hc : c = '('
    · subst hc
      refine context_tr (map_tr (preceded_tr (char_tr _ _) fun r _ _ _ => cut_tr (terminated_tr (takeWhile_tr _ r) fun r' _ _ _ =>
        (char_tr _ _).imp fun _ _ _ _ => trivial)) fun _ _ _ _ => trivial) ?_
      intro h
      rw [SaysContext, if_neg (by decide), if_pos rfl]
      refine ⟨r, rfl, fun hd => ?_⟩
      have hw : (fun c : Char => decide (c = ' ' ∨ c = '\t')) = P.isInlineWs := by
        funext c
        rw [Bool.eq_iff_iff]
        simp [P.isInlineWs, str]
      rw [hw] at hd
      have hok : Nom.map (Nom.preceded (Nom.char '(') (Nom.cut (Nom.terminated P.inlineWs (Nom.char ')')))) (fun _ => ()) ('(' :: r)
          = .ok (r.dropWhile P.isInlineWs).tail () := by
        cases hdr : r.dropWhile P.isInlineWs with
        | nil => rw [hdr] at hd; cases hd
        | cons x y =>
          rw [hdr] at hd; cases hd
          simp only [Nom.map, Nom.preceded, Nom.char, Nom.cut, Nom.terminated, P.inlineWs, Nom.takeWhile, PRes.bind, hdr, if_true, List.tail_cons]
      rw [hok] at h
      rcases h with ⟨e, h⟩ | ⟨⟨e, h⟩, _⟩ <;> cases h
    · rw [Nom.context, Nom.map, Nom.preceded, Nom.char, if_neg hc]
      exact fun h => by cases h

theorem boolean_tr (i : Str) : Tr false src i (fun _ _ => True) (P.boolean i) := by
  have h1 := tag_res (str "true") i
  have h2 := tag_res (str "false") i
  rw [P.boolean, Nom.context]
  simp only [Nom.alt, Nom.map]
  cases ht : Nom.tag (str "true") i with
  | ok r a => rw [ht] at h1; exact ⟨h1.1, trivial⟩
  | err e =>
    cases hf : Nom.tag (str "false") i with
    | ok r a => rw [hf] at h2; exact ⟨h2.1, trivial⟩
    | err e => exact fun h => by cases h
    | fail e' => rw [Nom.tag] at hf; split at hf <;> cases hf
    | panic => trivial
    | oof => trivial
  | fail e' => rw [Nom.tag] at ht; split at ht <;> cases ht
  | panic => trivial
  | oof => trivial

theorem num_tr (i : Str) : Tr false src i (fun _ _ => True) (P.num i) := by
  rw [P.num, Nom.context, Nom.takeWhile, PRes.bind]
  cases Number.fromStr (i.takeWhile P.isNumChar) with
  | none => exact fun h => by cases h
  | some n => exact ⟨List.dropWhile_suffix _, trivial⟩

theorem till_ok {d : Char} : ∀ {r : Str}, d ∈ r → ∃ t, Nom.terminated (Nom.takeTill (· == d)) (Nom.char d) r =
    .ok t (r.takeWhile fun c => !(c == d))
  | [], h => by cases h
  | c :: r, h => by
    by_cases hc : c = d
    · subst hc
      exact ⟨r, by simp [Nom.terminated, Nom.takeTill, Nom.takeWhile, Nom.char, PRes.bind]⟩
    · obtain ⟨t, ht⟩ := till_ok (r := r) (by rcases List.mem_cons.mp h with h | h; exact absurd h.symm hc; exact h)
      refine ⟨t, ?_⟩
      have hb : (!(c == d)) = true := by simpa using hc
      simp only [Nom.terminated, Nom.takeTill, Nom.takeWhile, PRes.bind, List.dropWhile_cons, hb, if_true, List.takeWhile_cons] at ht ⊢
      cases hch : Nom.char d (List.dropWhile (fun c => !(c == d)) r) with
      | ok x y => rw [hch] at ht; cases ht; rfl
      | _ => rw [hch] at ht; cases ht

theorem parseStr_tr (d : Char) (i : Str) (hd : d = '"' ∨ Behind ['s', 't', 'r'] src i) :
    Tr false src i (fun _ _ => True) (Nom.context "string" (P.parseStr d) i) := by
  rw [P.parseStr]
  cases i with
  | nil => exact fun h => by cases h
  | cons c r =>
    by_cases hc : c = d
    · subst hc
      refine context_tr (preceded_tr (char_tr _ _) fun r _ _ _ => cut_tr (terminated_tr (takeWhile_tr _ r) fun r' _ _ _ =>
        (char_tr _ _).imp fun _ _ _ _ => trivial)) ?_
      intro h
      rw [SaysContext, if_neg (by decide), if_neg (by decide), if_pos rfl]
      refine ⟨c, r, rfl, fun hm => ?_, hd⟩
      obtain ⟨t, ht⟩ := till_ok hm
      have : Nom.preceded (Nom.char c) (Nom.cut (Nom.terminated (Nom.takeTill (· == c)) (Nom.char c))) (c :: r) =
          .ok t (r.takeWhile fun x => !(x == c)) := by
        rw [Nom.preceded, Nom.char, if_pos rfl, PRes.bind, Nom.cut, ht]
      rw [this] at h
      rcases h with ⟨e, h⟩ | ⟨⟨e, h⟩, _⟩ <;> cases h
    · rw [Nom.context, Nom.preceded, Nom.char, if_neg hc]
      exact fun h => by cases h

theorem string_tr (i : Str) (hi : i <:+ src) : Tr false src i (fun _ _ => True) (P.string i) := by
  rw [P.string]
  split
  · rename_i suff h
    have he := stripPrefix_some h
    refine (parseStr_tr _ suff (.inr ?_)).mono (by rw [he]; exact List.suffix_append _ _)
    rw [Behind]; rw [he] at hi; exact hi
  · exact parseStr_tr '"' i (.inl rfl)

theorem barr_tr {b : Bool} (i : Str) : Tr b src i (fun _ _ => True) (P.barr i) := by
  rw [P.barr]
  refine context_tr (preceded_tr (tag_tr _ _) fun r _ _ _ => cut_tr (terminated_tr (map_tr (R := fun _ _ => True) (takeWhile_tr _ r) fun _ _ _ _ => trivial)
    fun r' _ _ _ => (char_tr _ _).imp fun _ _ _ _ => trivial)) ?_
  intro h
  rw [SaysContext, if_neg (by decide), if_neg (by decide), if_neg (by decide), if_pos rfl]
  rintro r rfl hm
  obtain ⟨t, ht⟩ := till_ok hm
  have : ∃ v, Nom.preceded (Nom.tag (str "b91'")) (Nom.cut (Nom.terminated (Nom.map (Nom.takeTill (· == '\'')) Base91.decode) (Nom.char '\'')))
      ('b' :: '9' :: '1' :: '\'' :: r) = .ok t v := by
    have h1 : Nom.tag (str "b91'") ('b' :: '9' :: '1' :: '\'' :: r) = .ok r (str "b91'") := by
      simp [Nom.tag, str, Nom.stripPrefix]
    rw [Nom.preceded, h1, PRes.bind, Nom.cut]
    simp only [Nom.terminated, Nom.map, Nom.takeTill, Nom.takeWhile, PRes.bind] at ht ⊢
    cases hch : Nom.char '\'' (List.dropWhile (fun c => !(c == '\'')) r) with
    | ok x y => rw [hch] at ht; cases ht; exact ⟨_, rfl⟩
    | _ => rw [hch] at ht; cases ht
  obtain ⟨v, hv⟩ := this
  rw [hv] at h
  rcases h with ⟨e, h⟩ | ⟨⟨e, h⟩, _⟩ <;> cases h

theorem prim_bool {i : Str} (h : ['t', 'r', 'u', 'e'] <+: i ∨ ['f', 'a', 'l', 's', 'e'] <+: i) :
    ∃ r v, Nom.alt [Nom.map P.unitValue fun _ => Value.unit, Nom.map P.boolean .bool, Nom.map P.num .num, Nom.map P.string .str,
      Nom.map P.barr .barr] i = .ok r v := by
  rcases h with ⟨r, rfl⟩ | ⟨r, rfl⟩ <;>
  exact ⟨r, _, by simp [Nom.alt, Nom.map, P.unitValue, P.boolean, Nom.context, Nom.preceded, Nom.char, Nom.tag, Nom.stripPrefix, str, PRes.bind]; rfl⟩

theorem primValue_tr {b : Bool} (i : Str) (hi : i <:+ src) : Tr b src i (fun _ _ => True) (P.primValue i) := by
  rw [P.primValue]
  refine context_tr (alt_tr (Nom.map P.barr .barr) (map_tr (barr_tr i) fun _ _ _ _ => trivial)
    [Nom.map P.unitValue fun _ => Value.unit, Nom.map P.boolean .bool, Nom.map P.num .num, Nom.map P.string .str] ?_) ?_
  · intro p hp
    simp only [List.mem_cons, List.not_mem_nil, or_false] at hp
    rcases hp with rfl | rfl | rfl | rfl
    · exact map_tr (unitValue_tr i) fun _ _ _ _ => trivial
    · exact map_tr (boolean_tr i) fun _ _ _ _ => trivial
    · exact map_tr (num_tr i) fun _ _ _ _ => trivial
    · exact map_tr (string_tr i hi) fun _ _ _ _ => trivial
  · intro h
    rw [SaysContext, if_neg (by decide), if_neg (by decide), if_neg (by decide), if_neg (by decide), if_pos (.inl rfl)]
    constructor
    · intro hp
      obtain ⟨r, v, he⟩ := prim_bool (.inl hp)
      rw [he] at h
      rcases h with ⟨e, h⟩ | ⟨⟨e, h⟩, _⟩ <;> cases h
    · intro hp
      obtain ⟨r, v, he⟩ := prim_bool (.inr hp)
      rw [he] at h
      rcases h with ⟨e, h⟩ | ⟨⟨e, h⟩, _⟩ <;> cases h

theorem ctor_tr {b : Bool} (id : Option Str) (v : Value) (i : Str) : Tr b src i (fun _ _ => True) (P.kserdCtor id v i) := by
  rw [P.kserdCtor.eq_def]
  split
  · split
    · exact ⟨List.suffix_refl _, trivial⟩
    · trivial
  · exact ⟨List.suffix_refl _, trivial⟩

theorem prim_tr {b : Bool} (i : Str) (hi : i <:+ src) : Tr b src i (fun _ _ => True) (P.prim i) := by
  rw [P.prim]
  refine Tr.bind (Q := fun _ _ => True) (context_tr ?_ ?_) fun r p _ _ => ctor_tr _ _ _
  · refine (opt_tr (identA_tr i)).bind fun r _ hr _ => ?_
    refine Tr.bind (Q := fun _ _ => True) ((takeWhile_tr _ r).imp fun _ _ _ _ => trivial) fun r' _ hr' _ => ?_
    exact (primValue_tr r' ((hr'.trans hr).trans hi)).bind fun _ _ _ _ => ⟨List.suffix_refl _, trivial⟩
  · intro h
    rw [SaysContext, if_neg (by decide), if_neg (by decide), if_neg (by decide), if_neg (by decide), if_pos (.inr rfl)]
    have key : (['t', 'r', 'u', 'e'] <+: i ∨ ['f', 'a', 'l', 's', 'e'] <+: i) → False := by
      intro hp
      obtain ⟨r, v, he⟩ := prim_bool hp
      have h1 : P.primValue i = .ok r v := by rw [P.primValue, Nom.context, he]
      have h2 : ∃ a x, i = a :: x ∧ a ≠ '<' ∧ P.isInlineWs a = false := by
        rcases hp with ⟨x, rfl⟩ | ⟨x, rfl⟩
        · exact ⟨'t', _, rfl, by decide, by decide⟩
        · exact ⟨'f', _, rfl, by decide, by decide⟩
      obtain ⟨a, x, rfl, ha1, ha2⟩ := h2
      have h3 : ∃ e, P.ident true (a :: x) = .err e := by
        refine ⟨[(a :: x, .char '<')] ++ [(a :: x, .ctx "identity")], ?_⟩
        rw [P.ident, if_pos rfl, Nom.context, Nom.preceded, Nom.char, if_neg ha1, PRes.bind]
      obtain ⟨e, h3⟩ := h3
      have h4 : Nom.separatedPair (Nom.opt (P.ident true)) P.inlineWs P.primValue (a :: x) = .ok r (none, v) := by
        rw [Nom.separatedPair, Nom.opt, h3, PRes.bind, P.inlineWs, Nom.takeWhile, PRes.bind, List.dropWhile_cons, if_neg (by rw [ha2]; decide), h1]
        rfl
      rw [h4] at h
      rcases h with ⟨e, h⟩ | ⟨⟨e, h⟩, _⟩ <;> cases h
    exact ⟨fun hp => key (.inl hp), fun hp => key (.inr hp)⟩

/-! ## Delimited forms -/

theorem concise_lineOver {i : Str} (h : P.recogniseConcise i = true) : LineOver i := by
  rw [P.recogniseConcise] at h
  split at h
  · rename_i c hc
    have hc' : c = '\n' := by simpa using h
    subst hc'
    obtain ⟨_, w, r, h1, h2⟩ := List.find?_eq_some_iff_append.mp hc
    refine ⟨w, r, h1, fun c hc => ?_⟩
    have := h2 c hc
    simpa [str] using this
  · cases h

theorem comma_tr {b : Bool} (c : Char) (j : Str) : Tr b src j (fun r _ => r.length < j.length) (P.ignoreWs (Nom.char c) j) :=
  ignoreWs_tr fun w l hl _ => (char_tr c l).imp fun r _ _ h => by rw [hl, h]; simp; omega

theorem multiWs_tr {b : Bool} (j : Str) : Tr b src j (fun r _ => r.length = j.length → Says src r .separatedList) (P.multiWs j) := by
  refine (takeWhile_tr P.isMultiWs j).imp fun r a _ h hl => ?_
  obtain ⟨_, _, rfl⟩ := h
  intro c hc
  have : P.isMultiWs c = false := by
    cases hd : j.dropWhile P.isMultiWs with
    | nil => rw [hd] at hc; cases hc
    | cons x y =>
      rw [hd] at hc; cases hc
      have := List.head?_dropWhile_not P.isMultiWs j
      rw [hd] at this
      simpa using this
  simpa [P.isMultiWs, str] using this

theorem ws_tr {b : Bool} (j : Str) : Tr b src j (fun _ _ => True) (P.multiWs j) := (takeWhile_tr _ j).imp fun _ _ _ _ => trivial

/-- A parser of nested values whose errors say what holds. -/
def K (src : Str) (k : Bool → Parser Kserd) : Prop := ∀ f j, j <:+ src → Tr true src j (fun _ _ => True) (k f j)

theorem commaList_tr {b : Bool} {f : Parser α} {S : Str → Prop} (hS : ∀ j, S j → ∀ r, r <:+ j → S r)
    (hf : ∀ j, S j → Tr true src j (fun _ _ => True) (f j)) (i : Str) (hi : S i) :
    Tr b src i (fun _ _ => True) (Nom.separatedList0 (P.ignoreWs (Nom.char ',')) (P.ignoreWs f) i) :=
  separatedList0_tr hS (fun j _ => (comma_tr ',' j).imp fun r _ _ h h' => by omega)
    (fun j hj => ignoreWs_tr fun w l hl _ => (hf l (hS j hj l ⟨w, hl.symm⟩)).weak) hi

theorem wsList_tr {b : Bool} {f : Parser α} {S : Str → Prop} (hS : ∀ j, S j → ∀ r, r <:+ j → S r)
    (hf : ∀ j, S j → Tr true src j (fun _ _ => True) (f j)) (i : Str) (hi : S i) :
    Tr b src i (fun _ _ => True) (Nom.separatedList0 P.multiWs f i) :=
  separatedList0_tr hS (fun j _ => multiWs_tr j) (fun j hj => (hf j hj).weak) hi

theorem suffixes (i : Str) : ∀ j, j <:+ i → ∀ r, r <:+ j → r <:+ i := fun _ hj _ hr => hr.trans hj

theorem close_tr {b : Bool} (c : Char) (j : Str) : Tr b src j (fun _ _ => True) (P.ignoreWs (Nom.char c) j) :=
  (comma_tr c j).imp fun _ _ _ _ => trivial

theorem opened_tr {b : Bool} {force : Bool} {o : Char} {body : Bool → Option Str → Parser α} {i : Str} (hi : i <:+ src)
    (hb : ∀ concise id r, Behind [o] src r → (concise = true → LineOver r) → Tr b src r (fun _ _ => True) (body concise id r)) :
    Tr b src i (fun _ _ => True) (P.opened force o body i) := by
  rw [P.opened]
  refine (opt_tr (identB_tr i fun h => by cases h)).bind fun r id hr _ => ?_
  refine Tr.bind (Q := fun r' _ => o :: r' <:+ src) (ignoreWs_tr fun w l hl _ => (char_tr o l).imp fun r' _ _ h => ?_) fun r' _ _ h => ?_
  · rw [← h]
    exact (List.IsSuffix.trans ⟨w, hl.symm⟩ hr).trans hi
  · refine hb _ id r' h fun hc => concise_lineOver ?_
    rw [Bool.and_eq_true] at hc
    exact hc.1

section
variable {k : Bool → Parser Kserd} (hk : K src k)
include hk

theorem inlineList_tr {b : Bool} (i : Str) (hi : Behind ['('] src i ∨ Behind ['['] src i) :
    Tr b src i (fun _ _ => True) (P.inlineList k i) := by
  have hs : i <:+ src := by rcases hi with h | h <;> exact (List.suffix_cons _ _).trans h
  refine context_tr (commaList_tr (S := (· <:+ i)) (suffixes i) (fun j hj => hk true j (hj.trans hs)) i (List.suffix_refl _)) fun _ => ?_
  simpa [SaysContext] using hi

theorem conciseList_tr {b : Bool} (i : Str) (hi : i <:+ src) : Tr b src i (fun _ _ => True) (P.conciseList k i) :=
  preceded_tr (ws_tr i) fun r _ hr _ => cut_tr (terminated_tr
    (wsList_tr (S := (· <:+ i)) (suffixes i) (fun j hj => hk false j (hj.trans hi)) r hr) fun r' _ _ _ => ws_tr r')

theorem tuple_tr {b : Bool} (force : Bool) (i : Str) (hi : i <:+ src) : Tr b src i (fun _ _ => True) (P.tuple k force i) := by
  refine opened_tr hi fun concise id r hr hl => ?_
  have hs : r <:+ src := (List.suffix_cons _ _).trans hr
  refine Tr.bind (Q := fun _ _ => True) (context_tr (cut_tr (terminated_tr (Q := fun _ _ => True) ?_ fun r' _ _ _ => close_tr _ r')) fun _ => ?_)
    fun _ _ _ _ => ctor_tr _ _ _
  · cases concise with
    | true => exact conciseList_tr hk r hs
    | false => exact inlineList_tr hk r (.inl hr)
  · cases concise with
    | true => simpa [SaysContext] using ⟨hr, hl rfl⟩
    | false => simpa [SaysContext] using hr

theorem seq_tr {b : Bool} (force : Bool) (i : Str) (hi : i <:+ src) : Tr b src i (fun _ _ => True) (P.seqDelimited k force i) := by
  refine opened_tr hi fun concise id r hr hl => ?_
  have hs : r <:+ src := (List.suffix_cons _ _).trans hr
  refine Tr.bind (Q := fun _ _ => True) (context_tr (cut_tr (terminated_tr (Q := fun _ _ => True) ?_ fun r' _ _ _ => close_tr _ r')) fun _ => ?_)
    fun _ _ _ _ => ctor_tr _ _ _
  · cases concise with
    | true => exact conciseList_tr hk r hs
    | false => exact inlineList_tr hk r (.inr hr)
  · cases concise with
    | true => simpa [SaysContext] using ⟨hr, hl rfl⟩
    | false => simpa [SaysContext] using hr

theorem kvpKserd_tr {b : Bool} (force : Bool) (i : Str) (hi : Inside '{' src i) : Tr b src i (fun _ _ => True) (P.kvpKserd k force i) := by
  have hs : i <:+ src := by
    obtain ⟨m, h⟩ := hi
    exact (List.suffix_append _ _).trans h
  refine context_tr ?_ fun _ => by simpa [SaysContext] using hi
  refine Tr.bind (Q := fun _ _ => True) (alt_tr (k true) (hk true i hs).weak [k false] ?_) fun r _ hr _ => ?_
  · intro p hp
    simp only [List.mem_singleton] at hp
    subst hp
    exact (hk false i hs).weak
  · refine (close_tr ':' r).bind fun r' _ hr' _ => ?_
    refine Tr.bind (Q := fun _ _ => True) (ignoreWs_tr fun w l hl _ => (hk force l ?_).weak) fun _ _ _ _ => ⟨List.suffix_refl _, trivial⟩
    exact (((List.IsSuffix.trans ⟨w, hl.symm⟩ hr').trans hr).trans hs)

omit hk in
theorem inside_suffix {o : Char} : ∀ j, Inside o src j → ∀ r, r <:+ j → Inside o src r := by
  rintro j ⟨m, h⟩ r ⟨w, rfl⟩
  exact ⟨m ++ w, by simpa using h⟩

omit hk in
theorem behind_inside {o : Char} {i : Str} (h : Behind [o] src i) : Inside o src i := ⟨[], h⟩

theorem inlineMap_tr {b : Bool} (i : Str) (hi : Behind ['{'] src i) : Tr b src i (fun _ _ => True) (P.inlineMap k i) :=
  context_tr (commaList_tr inside_suffix (fun j hj => kvpKserd_tr hk true j hj) i (behind_inside hi)) fun _ => by
    simpa [SaysContext] using hi

theorem conciseMap_tr {b : Bool} (i : Str) (hi : Behind ['{'] src i) (hl : LineOver i) : Tr b src i (fun _ _ => True) (P.conciseMap k i) :=
  context_tr (preceded_tr (ws_tr i) fun r _ hr _ => terminated_tr
    (wsList_tr inside_suffix (fun j hj => kvpKserd_tr hk false j hj) r (inside_suffix i (behind_inside hi) r hr)) fun r' _ _ _ => ws_tr r') fun _ => by
    simpa [SaysContext] using ⟨hi, hl⟩

theorem map_del_tr {b : Bool} (force : Bool) (i : Str) (hi : i <:+ src) : Tr b src i (fun _ _ => True) (P.mapDelimited k force i) := by
  refine opened_tr hi fun concise id r hr hl => ?_
  refine Tr.bind (Q := fun _ _ => True) (context_tr (terminated_tr (Q := fun _ _ => True) ?_ fun r' _ _ _ => close_tr _ r') fun _ => ?_)
    fun _ _ _ _ => ctor_tr _ _ _
  · cases concise with
    | true => exact conciseMap_tr hk r hr (hl rfl)
    | false => exact inlineMap_tr hk r hr
  · cases concise with
    | true => simpa [SaysContext] using ⟨hr, hl rfl⟩
    | false => simpa [SaysContext] using hr

theorem kvpField_tr {b : Bool} (force : Bool) (i : Str) (hs : i <:+ src) (hi : Inside '(' src i ∨ ∀ r, i ≠ '[' :: r ∧ i ≠ ':' :: r) :
    Tr b src i (fun r _ => r.length < i.length) (P.kvpField k force i) := by
  refine context_tr ?_ fun _ => by simpa [SaysContext] using hi
  refine (takeWhile_tr P.isNameChar i).bind fun r _ hr _ => ?_
  refine (comma_tr '=' r).bind fun r' _ hr' h' => ?_
  refine Tr.bind (Q := fun _ _ => True) (ignoreWs_tr fun w l hl _ => cut_tr (hk force l ?_)) fun r'' _ h'' _ => ⟨List.suffix_refl _, ?_⟩
  · exact (((List.IsSuffix.trans ⟨w, hl.symm⟩ hr').trans hr).trans hs)
  · have := hr.length_le; have := h''.length_le; omega

theorem kvpIn_tr {b : Bool} (force : Bool) (i : Str) (hi : Inside '(' src i) : Tr b src i (fun _ _ => True) (P.kvpField k force i) := by
  have hs : i <:+ src := by
    obtain ⟨m, h⟩ := hi
    exact (List.suffix_append _ _).trans h
  exact (kvpField_tr hk force i hs (.inl hi)).imp fun _ _ _ _ => trivial

theorem inlineCntr_tr {b : Bool} (i : Str) (hi : Behind ['('] src i) : Tr b src i (fun _ _ => True) (P.inlineCntr k i) :=
  context_tr (commaList_tr inside_suffix (fun j hj => kvpIn_tr hk true j hj) i (behind_inside hi)) fun _ => by
    simpa [SaysContext] using hi

theorem conciseCntr_tr {b : Bool} (i : Str) (hi : Behind ['('] src i) (hl : LineOver i) : Tr b src i (fun _ _ => True) (P.conciseCntr k i) :=
  context_tr (preceded_tr (ws_tr i) fun r _ hr _ => cut_tr (terminated_tr
    (wsList_tr inside_suffix (fun j hj => kvpIn_tr hk false j hj) r (inside_suffix i (behind_inside hi) r hr)) fun r' _ _ _ => ws_tr r')) fun _ => by
    simpa [SaysContext] using ⟨hi, hl⟩

theorem cntr_tr {b : Bool} (force : Bool) (i : Str) (hi : i <:+ src) : Tr b src i (fun _ _ => True) (P.cntrDelimited k force i) := by
  refine opened_tr hi fun concise id r hr hl => ?_
  refine Tr.bind (Q := fun _ _ => True) (context_tr (terminated_tr (Q := fun _ _ => True) ?_ fun r' _ _ _ => close_tr _ r') fun _ => ?_)
    fun _ _ _ _ => ctor_tr _ _ _
  · cases concise with
    | true => exact conciseCntr_tr hk r hr (hl rfl)
    | false => exact inlineCntr_tr hk r hr
  · cases concise with
    | true => simpa [SaysContext] using ⟨hr, hl rfl⟩
    | false => simpa [SaysContext] using hr

end

theorem delimited_tr : ∀ (f : Nat) (force : Bool) (i : Str), i <:+ src → Tr true src i (fun _ _ => True) (P.kserdDelimited f force i)
  | 0, _, _, _ => trivial
  | f + 1, force, i, hi => by
    rw [P.kserdDelimited]
    have hp : Tr true src i (fun r _ => r = i) (P.patternDelimited i) := by
      rw [P.patternDelimited]
      split
      · exact ⟨List.suffix_refl _, rfl⟩
      · have h1 := opt_tr (b := true) (identA_tr (src := src) i)
        cases h : Nom.opt (P.ident true) i with
        | ok r a =>
          rw [PRes.bind]
          cases a with
          | some _ => exact ⟨List.suffix_refl _, rfl⟩
          | none =>
            have h2 := opt_tr (b := true) (identB_tr (b := false) (src := src) i fun h => by cases h)
            dsimp only
            cases h' : Nom.opt (P.ident false) i with
            | ok r a => rw [PRes.bind]; cases a <;> exact ⟨List.suffix_refl _, rfl⟩
            | err e => rw [h'] at h2; exact h2
            | fail e => rw [h'] at h2; exact h2
            | panic => trivial
            | oof => trivial
        | err e => rw [h] at h1; exact h1
        | fail e => rw [h] at h1; exact h1
        | panic => trivial
        | oof => trivial
    refine hp.bind fun r pat _ hr => ?_
    subst hr
    have hk : K src (P.kserdDelimited f) := fun b j hj => delimited_tr f b j hj
    cases pat
    · exact tuple_tr hk force r hi
    · exact cntr_tr hk force r hi
    · exact seq_tr hk force r hi
    · exact map_del_tr hk force r hi
    · exact prim_tr r hi

/-! ## Verbose form -/

theorem lineEnding_tr {i : Str} : Tr false src i (fun r _ => ∃ w n, (∀ c ∈ w, c = ' ' ∨ c = '\t') ∧ (n = ['\n'] ∨ n = ['\r', '\n']) ∧
    i = w ++ n ++ r) (P.ignoreWs Nom.lineEnding i) := by
  refine ignoreWs_tr fun w j hj hw => ?_
  unfold Nom.lineEnding
  split
  · exact ⟨List.suffix_cons _ _, w, _, hw, .inl rfl, by rw [hj]; simp⟩
  · exact ⟨(List.suffix_cons _ _).trans (List.suffix_cons _ _), w, _, hw, .inr rfl, by rw [hj]; simp⟩
  · exact fun h => by cases h

theorem ident_soft (i : Str) (e : PErr) : P.ident false i ≠ .fail e := by
  intro h
  rw [P.ident, if_neg (by decide), Nom.context] at h
  rcases validName_form (src := []) i with ⟨r, a, h', _⟩ | ⟨e, h', _⟩ <;> rw [h'] at h <;> cases h

theorem ignoreWs_eq (p : Parser α) (i : Str) : P.ignoreWs p i = p (i.dropWhile P.isInlineWs) := rfl

/-- What `verbose_field_name_and_identity` does inside its context. -/
theorem nameAndIdentity_tr {b : Bool} (i : Str) (hs : i <:+ src) (hi : b = true → Behind ['[', '['] src i) :
    Tr b src i (fun _ _ => True) (P.nameAndIdentity i) := by
  rw [P.nameAndIdentity]
  refine context_tr ?_ ?_
  · refine Tr.bind (Q := fun _ _ => True) (ignoreWs_tr fun w l hl _ => (takeWhile_tr P.isNameChar l).imp fun _ _ _ _ => trivial) fun r n hr _ => ?_
    have h1 : Tr true src r (fun r' _ => ':' :: r' <:+ src) (P.ignoreWs (Nom.char ':') r) :=
      ignoreWs_tr fun w l hl _ => (char_tr ':' l).imp fun r' _ _ h => by
        rw [← h]
        exact (List.IsSuffix.trans ⟨w, hl.symm⟩ hr).trans hs
    cases hp : P.ignoreWs (Nom.char ':') r with
    | err e => exact ⟨List.suffix_refl _, trivial⟩
    | fail e => exact ⟨List.suffix_refl _, trivial⟩
    | panic => trivial
    | oof => trivial
    | ok r' a =>
      rw [hp] at h1
      refine Tr.mono ?_ h1.1
      refine Tr.bind (Q := fun _ _ => True) (ignoreWs_tr fun w l hl hw => identB_tr l fun _ => ⟨w, hw, ?_⟩) fun _ _ _ _ =>
        ⟨List.suffix_refl _, trivial⟩
      rw [Behind, List.cons_append, ← hl]
      exact h1.2
  · rintro (⟨e, h⟩ | ⟨_, h⟩)
    · exfalso
      rw [ignoreWs_eq, P.fieldName, Nom.takeWhile, PRes.bind] at h
      split at h
      · rename_i r' _ _
        rw [ignoreWs_eq] at h
        cases hid : P.ident false (r'.dropWhile P.isInlineWs) with
        | fail e => exact ident_soft _ _ hid
        | _ => rw [hid] at h; cases h
      all_goals cases h
    · simpa [SaysContext] using hi h

theorem tag_eq (t i : Str) : Nom.tag t (t ++ i) = .ok i t := by
  have : ∀ t i : Str, Nom.stripPrefix t (t ++ i) = some i := by
    intro t i
    induction t with
    | nil => rfl
    | cons a t ih => rw [List.cons_append, Nom.stripPrefix, if_pos rfl, ih]
  rw [Nom.tag, this]

section
variable {nested : Parser Kserd} (hn : ∀ j, j <:+ src → Tr true src j (fun _ _ => True) (nested j))
include hn

theorem mapEntryValue_tr (i : Str) (hi : Behind [':'] src i) : Tr false src i (fun _ _ => True) (P.mapEntryValue nested i) := by
  have hs : i <:+ src := (List.suffix_cons _ _).trans hi
  refine context_tr (alt_tr (Nom.preceded (P.ignoreWs Nom.lineEnding) nested) (preceded_tr lineEnding_tr fun r _ hr _ => (hn r (hr.trans hs)).weak)
    [P.ignoreWs P.kserdConcise] ?_) fun _ => by simpa [SaysContext] using hi
  intro p hp
  simp only [List.mem_singleton] at hp
  subst hp
  exact ignoreWs_tr fun w l hl _ => (delimited_tr _ _ _ (List.IsSuffix.trans ⟨w, hl.symm⟩ hs)).weak

theorem entryField_tr (i r : Str) (hi : i = '[' :: '[' :: r) (hs : i <:+ src) :
    Tr false src i (fun r _ => r.length < i.length) (P.entryField nested i) := by
  subst hi
  rw [P.entryField]
  have h0 : Tr false src ('[' :: '[' :: r) (fun r' _ => r'.length < r.length + 2 ∧ [']', ']'] ++ r' <:+ src)
      (Nom.context "field name. expecting 'field_name[:identity]'"
        (Nom.cut (Nom.preceded (Nom.tag (str "[[")) (Nom.terminated P.nameAndIdentity (P.ignoreWs (Nom.tag (str "]]")))))) ('[' :: '[' :: r)) := by
    refine context_tr (cut_tr (preceded_tr (tag_tr _ _) fun r1 _ _ h1 => ?_)) fun _ => by simp [SaysContext]
    have h1 : r = r1 := by simpa [str] using h1
    subst h1
    refine terminated_tr (nameAndIdentity_tr r (((List.suffix_cons _ _).trans (List.suffix_cons _ _)).trans hs) fun _ => hs) fun r2 _ h2 _ => ?_
    refine ignoreWs_tr fun w l hl _ => (tag_tr _ l).imp fun r3 _ h3 h4 => ?_
    have e1 := h2.length_le; have e2 := h3.length_le
    have e3 : l <:+ r2 := ⟨w, hl.symm⟩
    have e4 := e3.length_le
    refine ⟨by omega, ?_⟩
    have : l = [']', ']'] ++ r3 := h4
    rw [← this]
    exact ((e3.trans h2).trans ((List.suffix_cons _ _).trans (List.suffix_cons _ _))).trans hs
  refine h0.bind fun r1 ni hr1 h1 => ?_
  refine lineEnding_tr.bind fun r2 _ hr2 ⟨w, n, hw, hn', he⟩ => ?_
  have hs2 : r2 <:+ src := (hr2.trans hr1).trans hs
  have hkey : Tr false src r2 (fun r' o => (o = none ∧ r' = r2) ∨ ∃ x, o = some x ∧ Behind [':'] src r')
      (Nom.opt (Nom.terminated (P.ignoreWs (P.uncut P.kserdInline)) (P.ignoreWs (Nom.char ':'))) r2) := by
    refine opt_tr (terminated_tr (Q := fun _ _ => True) (ignoreWs_tr fun w l hl _ =>
      uncut_tr (delimited_tr _ _ _ (List.IsSuffix.trans ⟨w, hl.symm⟩ hs2))) fun r3 _ hr3 _ => ?_)
    refine ignoreWs_tr fun w l hl _ => (char_tr ':' l).imp fun r4 _ _ h => ?_
    rw [Behind, List.singleton_append, ← h]
    exact (List.IsSuffix.trans ⟨w, hl.symm⟩ hr3).trans hs2
  refine hkey.bind fun r3 key hr3 hk => ?_
  have hlen : ∀ x : Str, x <:+ r3 → x.length < ('[' :: '[' :: r).length := by
    intro x hx
    have := hx.length_le; have := hr3.length_le; have := hr2.length_le
    simp only [List.length_cons]; omega
  rcases hk with ⟨rfl, rfl⟩ | ⟨x, rfl, hb⟩
  · refine Tr.bind (Q := fun _ _ => True) (context_tr (hn r3 hs2).weak fun _ => ?_) fun r4 _ hr4 _ => ⟨List.suffix_refl _, hlen r4 hr4⟩
    have : LineBehind [']', ']'] src r3 := by
      refine ⟨w, n, hw, hn', ?_⟩
      rw [List.append_assoc, List.append_assoc, ← List.append_assoc w, ← he]
      exact h1.2
    simpa [SaysContext] using this
  · exact (mapEntryValue_tr hn r3 hb).bind fun r4 _ hr4 _ => ⟨List.suffix_refl _, hlen r4 hr4⟩

theorem nestedField_tr (i r : Str) (hi : i = '[' :: r) (hs : i <:+ src) :
    Tr false src i (fun r _ => r.length < i.length) (P.nestedField nested i) := by
  subst hi
  rw [P.nestedField]
  have h0 : Tr false src ('[' :: r) (fun r' _ => r'.length < r.length + 1 ∧ [']'] ++ r' <:+ src)
      (Nom.preceded (Nom.tag ['[']) (Nom.terminated P.nameAndIdentity (P.ignoreWs (Nom.tag [']']))) ('[' :: r)) := by
    refine preceded_tr (tag_tr _ _) fun r1 _ _ h1 => ?_
    have h1 : r = r1 := by simpa using h1
    subst h1
    refine terminated_tr (nameAndIdentity_tr r ((List.suffix_cons _ _).trans hs) fun h => by cases h) fun r2 _ h2 _ => ?_
    refine ignoreWs_tr fun w l hl _ => (tag_tr _ l).imp fun r3 _ h3 h4 => ?_
    have e1 := h2.length_le; have e2 := h3.length_le
    have e3 : l <:+ r2 := ⟨w, hl.symm⟩
    have e4 := e3.length_le
    refine ⟨by omega, ?_⟩
    rw [← h4]
    exact ((e3.trans h2).trans (List.suffix_cons _ _)).trans hs
  refine h0.bind fun r1 ni hr1 h1 => ?_
  refine lineEnding_tr.bind fun r2 _ hr2 ⟨w, n, hw, hn', he⟩ => ?_
  have hs2 : r2 <:+ src := (hr2.trans hr1).trans hs
  refine Tr.bind (Q := fun _ _ => True) (context_tr (hn r2 hs2).weak fun _ => ?_) fun r4 _ hr4 _ => ⟨List.suffix_refl _, ?_⟩
  · have : LineBehind [']'] src r2 := by
      refine ⟨w, n, hw, hn', ?_⟩
      rw [List.append_assoc, List.append_assoc, ← List.append_assoc w, ← he]
      exact h1.2
    simpa [SaysContext] using this
  · have := hr4.length_le; have := hr2.length_le
    simp only [List.length_cons]; omega

theorem fieldBody_tr (i : Str) (hs : i <:+ src) : Tr false src i (fun r _ => r.length < i.length) (P.fieldBody nested i) := by
  unfold P.fieldBody
  split
  · exact fun h => by cases h
  · split
    · rename_i rem _
      have hrem : Tr false src rem (fun _ _ => True) ((P.ignoreWs (P.ident false) rem).bind fun i id => PRes.ok i (P.CField.id id)) :=
        Tr.bind (Q := fun _ _ => True) (ignoreWs_tr fun w l hl _ => identB_tr l fun h => by cases h) fun _ _ _ _ => ⟨List.suffix_refl _, trivial⟩
      have hrem' : Tr false src rem (fun r _ => r.length < (':' :: rem).length) ((P.ignoreWs (P.ident false) rem).bind fun i id => PRes.ok i (P.CField.id id)) :=
        hrem.imp fun r _ hr _ => by have := hr.length_le; simp only [List.length_cons]; omega
      exact hrem'.mono (List.suffix_cons _ _)
    · exact entryField_tr hn _ _ rfl hs
    · exact nestedField_tr hn _ _ rfl hs
    · rename_i h1 h2 h3
      refine Tr.bind (Q := fun r _ => r.length < i.length) (cut_tr (kvpField_tr ?_ false i hs (.inr fun r => ⟨fun h => h3 r h, fun h => h1 r h⟩)))
        fun r _ hr h => ⟨List.suffix_refl _, h⟩
      intro f j hj
      cases f
      · exact delimited_tr _ _ _ hj
      · exact delimited_tr _ _ _ hj

end

theorem expectIndents_tr : ∀ (n : Nat) (i : Str), Tr false src i (fun _ _ => True) (P.expectIndents n i)
  | 0, _ => ⟨List.suffix_refl _, trivial⟩
  | n + 1, i => by
    rw [P.expectIndents]
    refine Tr.bind (Q := fun _ _ => True) (alt_tr (Nom.tag ['\t']) ((tag_tr _ i).imp fun _ _ _ _ => trivial) [Nom.tag (str "    ")] ?_)
      fun r _ _ _ => expectIndents_tr n r
    intro p hp
    simp only [List.mem_singleton] at hp
    subst hp
    exact (tag_tr _ i).imp fun _ _ _ _ => trivial

theorem skipBlank_tr : ∀ (n : Nat) (i : Str), Tr false src i (fun _ _ => True) (P.skipBlank n i)
  | 0, _ => trivial
  | n + 1, i => by
    rw [P.skipBlank]
    have h1 := opt_tr (b := false) (lineEnding_tr (src := src) (i := i))
    cases hp : Nom.opt (P.ignoreWs Nom.lineEnding) i with
    | err e => rw [hp] at h1; exact h1
    | fail e => rw [hp] at h1; exact h1
    | panic => trivial
    | oof => trivial
    | ok r a =>
      rw [hp] at h1
      rw [PRes.bind]
      split
      · exact (skipBlank_tr n r).mono h1.1
      · exact ⟨List.suffix_refl _, trivial⟩

theorem verboseField_tr {nested : Parser Kserd} (hn : ∀ j, j <:+ src → Tr true src j (fun _ _ => True) (nested j)) (n : Nat) (i : Str)
    (hs : i <:+ src) : Tr false src i (fun r _ => r.length < i.length) (P.verboseField nested n i) := by
  rw [P.verboseField]
  refine Tr.bind (Q := fun _ _ => True) (skipBlank_tr _ i) fun r _ hr _ => ?_
  refine (expectIndents_tr n r).bind fun r1 _ hr1 _ => ?_
  refine (takeWhile_tr _ r1).bind fun r2 _ hr2 _ => ?_
  have h := (hr2.trans hr1).trans hr
  exact (fieldBody_tr hn r2 (h.trans hs)).imp fun r3 _ _ h3 => by have := h.length_le; omega

theorem nested_tr : ∀ (f n : Nat) (i : Str), i <:+ src → Tr true src i (fun _ _ => True) (P.kserdNested f n i)
  | 0, _, _, _ => trivial
  | f + 1, n, i, hi => by
    rw [P.kserdNested]
    split
    · rw [P.verbose]
      exact (many0Loop_tr (S := (· <:+ src)) (fun j hj r hr => hr.trans hj)
        (fun j hj => verboseField_tr (fun l hl => nested_tr f (n + 1) l hl) n j hj) _ i [] hi).bind fun _ _ _ _ => ⟨List.suffix_refl _, trivial⟩
    · exact ignoreWs_tr fun w l hl _ => delimited_tr _ _ _ (List.IsSuffix.trans ⟨w, hl.symm⟩ hi)

theorem root_tr (i : Str) : Tr true i i (fun _ _ => True) (P.kserdRoot i) := by
  rw [P.kserdRoot]
  split
  · rename_i h
    have h : i = [] := by simpa using h
    subst h
    intro _
    have h1 : G [] [] [([], EKind.eof)] := G.single (by simp [Says])
    exact h1.snoc (k := .ctx "empty input") (by simp [Says, SaysContext])
  · refine Tr.bind (Q := fun _ _ => True) (terminated_tr (nested_tr _ _ i (List.suffix_refl _)) fun r _ _ _ => ws_tr r) fun r _ _ _ => ?_
    split
    · exact ⟨List.suffix_refl _, trivial⟩
    · rename_i h
      exact fun _ => G.single (.inl (by simpa using h))

end KS.TR
