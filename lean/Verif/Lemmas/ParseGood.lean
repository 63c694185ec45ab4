import Verif.Model.Parse
import Verif.Spec.Parse
import Verif.Lemmas.BTree
import Verif.Lemmas.F64
import Mathlib.Data.List.TakeWhile
/-!
# Parsers consume a prefix, report errors inside their input, and neither panic nor run out of fuel
-/

namespace KS.PG
open KS.Spec

variable {α β γ : Type}

/-- At least one trace, all of them inside the input. -/
def ErrOk (i : Str) (e : PErr) : Prop := e ≠ [] ∧ ∀ x ∈ e, x.1 <:+ i

/-- The result is an error inside the input or leaves a suffix satisfying `Q`. -/
def Res (i : Str) (Q : Str → α → Prop) : PRes α → Prop
  | .ok r a => r <:+ i ∧ Q r a
  | .err e => ErrOk i e
  | .fail e => ErrOk i e
  | .panic => False
  | .oof => False

theorem suffix_len {r i : Str} (h : r <:+ i) : r.length ≤ i.length := h.length_le

theorem ErrOk.mono {i j : Str} {e : PErr} (h : ErrOk j e) (hs : j <:+ i) : ErrOk i e :=
  ⟨h.1, fun x hx => (h.2 x hx).trans hs⟩

theorem Res.mono {i j : Str} {Q : Str → α → Prop} {x : PRes α} (h : Res j Q x) (hs : j <:+ i) : Res i Q x := by
  cases x with
  | ok r a => exact ⟨h.1.trans hs, h.2⟩
  | err e => exact ErrOk.mono h hs
  | fail e => exact ErrOk.mono h hs
  | panic => exact h
  | oof => exact h

theorem Res.imp {i : Str} {Q R : Str → α → Prop} {x : PRes α} (h : Res i Q x) (hq : ∀ r a, r <:+ i → Q r a → R r a) : Res i R x := by
  cases x with
  | ok r a => exact ⟨h.1, hq r a h.1 h.2⟩
  | err e => exact h
  | fail e => exact h
  | panic => exact h
  | oof => exact h

theorem Res.bind {i : Str} {Q : Str → α → Prop} {R : Str → β → Prop} {x : PRes α} {f : Str → α → PRes β} (h : Res i Q x)
    (hf : ∀ r a, r <:+ i → Q r a → Res r R (f r a)) : Res i R (x.bind f) := by
  cases x with
  | ok r a => exact (hf r a h.1 h.2).mono h.1
  | err e => exact h
  | fail e => exact h
  | panic => exact h
  | oof => exact h

/-! ## Combinators -/

theorem single (i : Str) (k : EKind) : ErrOk i [(i, k)] := ⟨by simp, fun x hx => by simp at hx; subst hx; exact List.suffix_refl _⟩

theorem char_res (c : Char) (i : Str) : Res i (fun r _ => r.length < i.length) (Nom.char c i) := by
  cases i with
  | nil => exact single _ _
  | cons x r =>
    rw [Nom.char]
    split
    · exact ⟨List.suffix_cons _ _, by simp⟩
    · exact single _ _

theorem stripPrefix_some : ∀ {t i r : Str}, Nom.stripPrefix t i = some r → i = t ++ r
  | [], i, r, h => by simp only [Nom.stripPrefix] at h; cases h; rfl
  | _ :: _, [], r, h => by simp [Nom.stripPrefix] at h
  | a :: t, b :: i, r, h => by
    rw [Nom.stripPrefix] at h
    split at h
    · rename_i e; subst e; rw [stripPrefix_some h]; rfl
    · cases h

theorem tag_res (t i : Str) : Res i (fun r _ => i = t ++ r) (Nom.tag t i) := by
  rw [Nom.tag]
  split
  · rename_i r h
    have := stripPrefix_some h
    exact ⟨by rw [this]; exact List.suffix_append _ _, this⟩
  · exact single _ _

theorem dropWhile_suffix (p : Char → Bool) (i : Str) : i.dropWhile p <:+ i := List.dropWhile_suffix p

theorem takeWhile_res (p : Char → Bool) (i : Str) : Res i (fun _ a => ∀ c ∈ a, p c = true) (Nom.takeWhile p i) :=
  ⟨dropWhile_suffix p i, fun _ hc => List.mem_takeWhile_imp hc⟩

theorem takeTill_res (p : Char → Bool) (i : Str) : Res i (fun _ _ => True) (Nom.takeTill p i) :=
  (takeWhile_res _ i).imp fun _ _ _ _ => trivial

theorem takeWhile1_res (p : Char → Bool) (i : Str) : Res i (fun _ a => a = i.takeWhile p ∧ a ≠ []) (Nom.takeWhile1 p i) := by
  rw [Nom.takeWhile1]
  split
  · exact single _ _
  · rename_i h; exact ⟨dropWhile_suffix p i, rfl, h⟩

theorem alpha1_res (i : Str) : Res i (fun _ _ => ∃ c r, i = c :: r ∧ isAlpha c = true) (Nom.alpha1 i) := by
  rw [Nom.alpha1]
  split
  · exact single _ _
  · rename_i h
    refine ⟨dropWhile_suffix _ i, ?_⟩
    cases i with
    | nil => exact absurd rfl h
    | cons c r =>
      refine ⟨c, r, rfl, ?_⟩
      by_contra hc
      apply h
      rw [List.takeWhile_cons, if_neg hc]

theorem lineEnding_res (i : Str) : Res i (fun r _ => r.length < i.length) (Nom.lineEnding i) := by
  unfold Nom.lineEnding
  split
  · exact ⟨List.suffix_cons _ _, by simp⟩
  · exact ⟨(List.suffix_cons _ _).trans (List.suffix_cons _ _), by simp; omega⟩
  · exact single _ _

theorem opt_res {p : Parser α} {i : Str} {Q : Str → α → Prop} (h : Res i Q (p i)) :
    Res i (fun r a => (a = none ∧ r = i) ∨ ∃ x, a = some x ∧ Q r x) (Nom.opt p i) := by
  rw [Nom.opt]
  cases hp : p i with
  | ok r a => rw [hp] at h; exact ⟨h.1, .inr ⟨a, rfl, h.2⟩⟩
  | err e => exact ⟨List.suffix_refl _, .inl ⟨rfl, rfl⟩⟩
  | fail e => rw [hp] at h; exact h
  | panic => rw [hp] at h; exact h
  | oof => rw [hp] at h; exact h

theorem cut_res {p : Parser α} {i : Str} {Q : Str → α → Prop} (h : Res i Q (p i)) : Res i Q (Nom.cut p i) := by
  rw [Nom.cut]
  cases hp : p i with
  | ok r a => rw [hp] at h; exact h
  | err e => rw [hp] at h; exact h
  | fail e => rw [hp] at h; exact h
  | panic => rw [hp] at h; exact h
  | oof => rw [hp] at h; exact h

theorem errOk_snoc {i : Str} {e : PErr} (h : ErrOk i e) (k : EKind) : ErrOk i (e ++ [(i, k)]) := by
  refine ⟨by simp, ?_⟩
  intro x hx
  rcases List.mem_append.mp hx with hx | hx
  · exact h.2 x hx
  · simp at hx; subst hx; exact List.suffix_refl _

theorem context_res {s : String} {p : Parser α} {i : Str} {Q : Str → α → Prop} (h : Res i Q (p i)) :
    Res i Q (Nom.context s p i) := by
  rw [Nom.context]
  cases hp : p i with
  | ok r a => rw [hp] at h; exact h
  | err e => rw [hp] at h; exact errOk_snoc h _
  | fail e => rw [hp] at h; exact errOk_snoc h _
  | panic => rw [hp] at h; exact h
  | oof => rw [hp] at h; exact h

theorem uncut_res {p : Parser α} {i : Str} {Q : Str → α → Prop} (h : Res i Q (p i)) : Res i Q (P.uncut p i) := by
  rw [P.uncut]
  cases hp : p i with
  | ok r a => rw [hp] at h; exact h
  | err e => rw [hp] at h; exact h
  | fail e => rw [hp] at h; exact h
  | panic => rw [hp] at h; exact h
  | oof => rw [hp] at h; exact h

theorem alt_res {i : Str} {Q : Str → α → Prop} : ∀ (ps : List (Parser α)), (∀ p ∈ ps, Res i Q (p i)) → Res i Q (Nom.alt ps i)
  | [], _ => single _ _
  | [p], h => by
    have h := h p (by simp)
    rw [Nom.alt]
    cases hp : p i with
    | ok r a => rw [hp] at h; exact h
    | err e => rw [hp] at h; exact errOk_snoc h _
    | fail e => rw [hp] at h; exact h
    | panic => rw [hp] at h; exact h
    | oof => rw [hp] at h; exact h
  | p :: q :: ps, h => by
    have h1 := h p (by simp)
    rw [Nom.alt]
    cases hp : p i with
    | ok r a => rw [hp] at h1; exact h1
    | err e => exact alt_res (q :: ps) (fun p' hp' => h p' (List.mem_cons_of_mem _ hp'))
    | fail e => rw [hp] at h1; exact h1
    | panic => rw [hp] at h1; exact h1
    | oof => rw [hp] at h1; exact h1
    · simp

theorem map_res {p : Parser α} {f : α → β} {i : Str} {Q : Str → α → Prop} {R : Str → β → Prop} (h : Res i Q (p i))
    (hf : ∀ r a, r <:+ i → Q r a → R r (f a)) : Res i R (Nom.map p f i) :=
  h.bind fun r a hr hq => ⟨List.suffix_refl _, hf r a hr hq⟩

theorem preceded_res {p : Parser α} {q : Parser β} {i : Str} {Q : Str → α → Prop} {R : Str → β → Prop} (h : Res i Q (p i))
    (hq : ∀ r a, r <:+ i → Q r a → Res r R (q r)) : Res i R (Nom.preceded p q i) :=
  h.bind fun r a hr ha => hq r a hr ha

theorem terminated_res {p : Parser α} {q : Parser β} {i : Str} {Q : Str → α → Prop} {R : Str → α → Prop} (h : Res i Q (p i))
    (hq : ∀ r a, r <:+ i → Q r a → Res r (fun r' _ => R r' a) (q r)) : Res i R (Nom.terminated p q i) :=
  h.bind fun r a hr ha => (hq r a hr ha).bind fun r' b _ hb => ⟨List.suffix_refl _, hb⟩

theorem sep_res {p : Parser α} {s : Parser β} {q : Parser γ} {i : Str} {Q : α → Prop} {R : γ → Prop}
    (h : Res i (fun _ a => Q a) (p i)) (hs : ∀ j, j <:+ i → Res j (fun _ _ => True) (s j))
    (hq : ∀ j, j <:+ i → Res j (fun _ a => R a) (q j)) :
    Res i (fun _ a => Q a.1 ∧ R a.2) (Nom.separatedPair p s q i) :=
  h.bind fun r a hr ha => (hs r hr).bind fun r' _ hr' _ => (hq r' (hr'.trans hr)).bind fun r'' c _ hc => ⟨List.suffix_refl _, ha, hc⟩

theorem ignoreWs_res {p : Parser α} {i : Str} {Q : Str → α → Prop} (h : ∀ j, j <:+ i → Res j Q (p j)) : Res i Q (P.ignoreWs p i) := by
  have h1 : Res i (fun _ _ => True) (P.inlineWs i) := (takeWhile_res _ i).imp fun _ _ _ _ => trivial
  exact (opt_res h1).bind fun r _ hr _ => h r hr

theorem sepLoop_res {sep : Parser β} {f : Parser α} {Q : α → Prop} : ∀ (n : Nat) (i : Str) (acc : List α), i.length < n →
    (∀ j, j <:+ i → Res j (fun _ _ => True) (sep j)) → (∀ j, j <:+ i → Res j (fun _ a => Q a) (f j)) → (∀ a ∈ acc, Q a) →
    Res i (fun _ l => ∀ a ∈ l, Q a) (Nom.sepLoop sep f n i acc)
  | 0, _, _, h, _, _, _ => by omega
  | n + 1, i, acc, hn, hs, hf, ha => by
    rw [Nom.sepLoop]
    have h1 := hs i (List.suffix_refl _)
    cases hp : sep i with
    | err e => exact ⟨List.suffix_refl _, fun a h => ha a (List.mem_reverse.mp h)⟩
    | fail e => rw [hp] at h1; exact h1
    | panic => rw [hp] at h1; exact h1
    | oof => rw [hp] at h1; exact h1
    | ok i1 x =>
      rw [hp] at h1
      dsimp only
      split
      · exact (single _ _).mono h1.1
      · rename_i hl
        have h2 := hf i1 h1.1
        cases hq : f i1 with
        | err e => exact ⟨List.suffix_refl _, fun a h => ha a (List.mem_reverse.mp h)⟩
        | fail e => rw [hq] at h2; exact ErrOk.mono h2 h1.1
        | panic => rw [hq] at h2; exact h2
        | oof => rw [hq] at h2; exact h2
        | ok i2 a =>
          rw [hq] at h2
          have hs2 : i2 <:+ i := h2.1.trans h1.1
          have l1 := suffix_len h2.1
          have l2 := suffix_len h1.1
          refine (sepLoop_res n i2 (a :: acc) (by omega) (fun j hj => hs j (hj.trans hs2)) (fun j hj => hf j (hj.trans hs2)) ?_).mono hs2
          intro b hb
          rcases List.mem_cons.mp hb with rfl | hb
          · exact h2.2
          · exact ha b hb

theorem separatedList0_res {sep : Parser β} {f : Parser α} {Q : α → Prop} {i : Str}
    (hs : ∀ j, j <:+ i → Res j (fun _ _ => True) (sep j)) (hf : ∀ j, j <:+ i → Res j (fun _ a => Q a) (f j)) :
    Res i (fun _ l => ∀ a ∈ l, Q a) (Nom.separatedList0 sep f i) := by
  rw [Nom.separatedList0]
  have h := hf i (List.suffix_refl _)
  cases hp : f i with
  | err e => exact ⟨List.suffix_refl _, by simp⟩
  | fail e => rw [hp] at h; exact h
  | panic => rw [hp] at h; exact h
  | oof => rw [hp] at h; exact h
  | ok r a =>
    rw [hp] at h
    exact (sepLoop_res _ r [a] (by omega) (fun j hj => hs j (hj.trans h.1)) (fun j hj => hf j (hj.trans h.1))
      (by intro b hb; simp at hb; subst hb; exact h.2)).mono h.1

theorem many0Loop_res {f : Parser α} {Q : α → Prop} : ∀ (n : Nat) (i : Str) (acc : List α), i.length < n →
    (∀ j, j <:+ i → Res j (fun _ a => Q a) (f j)) → (∀ a ∈ acc, Q a) →
    Res i (fun _ l => ∀ a ∈ l, Q a) (Nom.many0Loop f n i acc)
  | 0, _, _, h, _, _ => by omega
  | n + 1, i, acc, hn, hf, ha => by
    rw [Nom.many0Loop]
    have h1 := hf i (List.suffix_refl _)
    cases hp : f i with
    | err e => exact ⟨List.suffix_refl _, fun a h => ha a (List.mem_reverse.mp h)⟩
    | fail e => rw [hp] at h1; exact h1
    | panic => rw [hp] at h1; exact h1
    | oof => rw [hp] at h1; exact h1
    | ok i1 x =>
      rw [hp] at h1
      dsimp only
      split
      · exact single _ _
      · rename_i hl
        have l2 := suffix_len h1.1
        refine (many0Loop_res n i1 (x :: acc) (by omega) (fun j hj => hf j (hj.trans h1.1)) ?_).mono h1.1
        intro b hb
        rcases List.mem_cons.mp hb with rfl | hb
        · exact h1.2
        · exact ha b hb

theorem many0_res {f : Parser α} {Q : α → Prop} {i : Str} (hf : ∀ j, j <:+ i → Res j (fun _ a => Q a) (f j)) :
    Res i (fun _ l => ∀ a ∈ l, Q a) (Nom.many0 f i) :=
  many0Loop_res _ i [] (by omega) hf (by simp)

/-! ## Names -/

theorem isAlpha_iff (c : Char) : isAlpha c = true ↔ Letter c := by
  simp only [isAlpha, decide_eq_true_eq, Letter, Char.le_def]
  exact Iff.rfl

theorem isDigit_iff' (c : Char) : isDigit c = true ↔ DigitC c := by
  simp only [isDigit, decide_eq_true_eq, DigitC, Char.le_def]
  exact Iff.rfl

theorem isNameChar_iff (c : Char) : P.isNameChar c = true ↔ NameChar c := by
  simp only [P.isNameChar, isAlnum, Bool.or_eq_true, isAlpha_iff, isDigit_iff', NameChar, beq_iff_eq]
  tauto

theorem validName_res (i : Str) : Res i (fun _ s => ValidName s) (P.validName i) := by
  rw [P.validName]
  have h : Res i (fun _ _ => ∃ c r, i = c :: r ∧ (Letter c ∨ c = '_')) (Nom.alt [Nom.alpha1, Nom.tag ['_']] i) := by
    apply alt_res
    intro p hp
    simp only [List.mem_cons, List.not_mem_nil, or_false] at hp
    rcases hp with rfl | rfl
    · exact (alpha1_res i).imp fun _ _ _ ⟨c, r, e, h⟩ => ⟨c, r, e, .inl ((isAlpha_iff c).mp h)⟩
    · exact (tag_res _ i).imp fun r _ _ e => ⟨'_', r, e, .inr rfl⟩
  cases hp : Nom.alt [Nom.alpha1, Nom.tag ['_']] i with
  | ok r a =>
    rw [hp] at h
    obtain ⟨_, c, t, rfl, hc⟩ := h
    rw [PRes.bind]
    refine (context_res (cut_res (takeWhile1_res _ _))).imp ?_
    rintro _ s _ ⟨rfl, _⟩
    have hcn : P.isNameChar c = true := (isNameChar_iff c).mpr (by
      rcases hc with h | h
      · exact .inl h
      · exact .inr (.inr (.inr h)))
    rw [List.takeWhile_cons, if_pos hcn]
    exact ⟨c, _, rfl, hc, fun x hx => (isNameChar_iff x).mp (List.mem_takeWhile_imp hx)⟩
  | err e => rw [hp] at h; exact h
  | fail e => rw [hp] at h; exact h
  | panic => rw [hp] at h; exact h
  | oof => rw [hp] at h; exact h

theorem ident_res (b : Bool) (i : Str) : Res i (fun _ s => ValidName s) (P.ident b i) := by
  rw [P.ident]
  split
  · exact context_res (preceded_res (char_res _ i) fun r _ _ _ => cut_res (terminated_res (validName_res r) fun r' a _ ha =>
      (char_res _ r').imp fun _ _ _ _ => ha))
  · exact context_res (validName_res i)

theorem fieldName_res (i : Str) : Res i (fun _ s => ∀ c ∈ s, NameChar c) (P.fieldName i) :=
  (takeWhile_res _ i).imp fun _ _ _ h c hc => (isNameChar_iff c).mp (h c hc)

theorem nameChar_not_reserved {c : Char} (h : NameChar c) : c ∉ Kserd.invalidIdChars := by
  intro hm
  have hb := (isNameChar_iff c).mpr h
  have key : ∀ x ∈ Kserd.invalidIdChars, P.isNameChar x = false := by decide
  rw [key c hm] at hb; cases hb

theorem validName_chars {s : Str} (h : ValidName s) : ∀ c ∈ s, NameChar c := by
  obtain ⟨c, r, rfl, hc, hr⟩ := h
  intro x hx
  rcases List.mem_cons.mp hx with rfl | hx
  · rcases hc with h | h
    · exact .inl h
    · exact .inr (.inr (.inr h))
  · exact hr x hx

theorem withId_valid {i : Str} (h : ValidName i) (v : Value) : Kserd.withId i v = .ok (.mk (some i) v) := by
  rw [Kserd.withId, if_neg]
  simp only [List.any_eq_true, not_exists, not_and]
  intro c hc hm
  exact nameChar_not_reserved (validName_chars h c hc) (List.contains_iff_mem.mp hm)

/-! ## Primitives -/

theorem unitValue_res (i : Str) : Res i (fun _ _ => True) (P.unitValue i) := by
  refine context_res (map_res (Q := fun _ _ => True) ?_ fun _ _ _ _ => trivial)
  exact preceded_res (char_res _ i) fun r _ _ _ => cut_res (terminated_res (takeWhile_res _ r) fun r' _ _ _ =>
    (char_res _ r').imp fun _ _ _ _ => trivial)

theorem boolean_res (i : Str) : Res i (fun _ _ => True) (P.boolean i) := by
  refine context_res (alt_res _ ?_)
  intro p hp
  simp only [List.mem_cons, List.not_mem_nil, or_false] at hp
  rcases hp with rfl | rfl <;> exact map_res (tag_res _ i) fun _ _ _ _ => trivial

theorem nan_WF (neg : Bool) : (F64.nan neg (2 ^ 51)).WF := by
  simp only [F64.WF]; decide

section
attribute [local irreducible] F64.ofRat

theorem parseUnsigned_WF (neg : Bool) (s : Str) (f : F64) (h : F64.parseUnsigned neg s = some f) : f.WF := by
  rw [F64.parseUnsigned] at h
  dsimp only at h
  split at h
  all_goals
    split at h
    · split at h
      · cases h; trivial
      · split at h
        · cases h; exact nan_WF _
        · cases h
    · split at h
      · cases h
      · split at h
        · rw [Option.some.injEq] at h; rw [← h]; exact F64.ofRat_WF _ (by decide)
        · rw [Option.some.injEq] at h; rw [← h]; exact F64.ofRat_WF _ (Nat.pow_pos (by decide))
end

theorem parse_WF (s : Str) (f : F64) (h : F64.parse s = some f) : f.WF := by
  rw [F64.parse.eq_def] at h
  split at h <;> exact parseUnsigned_WF _ _ _ h

theorem parseNegI128_WF (r : Str) (x : Int) (h : Number.parseNegI128 r = some x) : (Number.int x).WF := by
  rw [Number.parseNegI128] at h
  split at h
  · split at h
    · rename_i hle
      cases h
      exact ⟨hle, by have : (0 : Int) ≤ i128Max := by decide
                     omega⟩
    · cases h
  · cases h

theorem parseU128_WF (r : Str) (x : Nat) (h : Number.parseU128 r = some x) : (Number.uint x).WF := by
  rw [Number.parseU128] at h
  split at h
  · split at h
    · rename_i hle
      cases h
      exact hle
    · cases h
  · cases h

theorem fromStr_WF (s : Str) (n : Number) (h : Number.fromStr s = some n) : n.WF := by
  unfold Number.fromStr at h
  split at h
  · cases h
  · dsimp only at h
    repeat' split at h
    all_goals
      rw [Option.map_eq_some_iff] at h
      obtain ⟨x, hx, rfl⟩ := h
      first | exact parse_WF _ _ hx | exact parseNegI128_WF _ _ hx | exact parseU128_WF _ _ hx

theorem num_res (i : Str) : Res i (fun _ n => n.WF) (P.num i) := by
  refine context_res ?_
  have h : Res i (fun r o => r = i.dropWhile P.isNumChar) (Nom.takeWhile P.isNumChar i) :=
    ⟨dropWhile_suffix _ i, rfl⟩
  rw [Nom.takeWhile, PRes.bind]
  split
  · rename_i n hn; exact ⟨dropWhile_suffix _ i, fromStr_WF _ _ hn⟩
  · exact single _ _

theorem parseStr_res (d : Char) (i : Str) : Res i (fun _ _ => True) (P.parseStr d i) :=
  preceded_res (char_res _ i) fun r _ _ _ => cut_res (terminated_res (takeTill_res _ r) fun r' _ _ _ =>
    (char_res _ r').imp fun _ _ _ _ => trivial)

theorem string_res (i : Str) : Res i (fun _ _ => True) (P.string i) := by
  rw [P.string]
  split
  · rename_i suff h
    exact (context_res (parseStr_res _ suff)).mono (by rw [stripPrefix_some h]; exact List.suffix_append _ _)
  · exact context_res (parseStr_res _ i)

theorem barr_res (i : Str) : Res i (fun _ _ => True) (P.barr i) :=
  context_res (preceded_res (tag_res _ i) fun r _ _ _ => cut_res (terminated_res
    (map_res (R := fun _ _ => True) (takeTill_res _ r) fun _ _ _ _ => trivial) fun r' _ _ _ => (char_res _ r').imp fun _ _ _ _ => trivial))

/-- A primitive value. -/
def PrimV : Value → Prop
  | .unit => True
  | .bool _ => True
  | .num n => n.WF
  | .str _ => True
  | .barr _ => True
  | _ => False

theorem primValue_res (i : Str) : Res i (fun _ v => PrimV v) (P.primValue i) := by
  refine context_res (alt_res _ ?_)
  intro p hp
  simp only [List.mem_cons, List.not_mem_nil, or_false] at hp
  rcases hp with rfl | rfl | rfl | rfl | rfl
  · exact map_res (unitValue_res i) fun _ _ _ _ => trivial
  · exact map_res (boolean_res i) fun _ _ _ _ => trivial
  · exact map_res (num_res i) fun _ _ _ h => h
  · exact map_res (string_res i) fun _ _ _ _ => trivial
  · exact map_res (barr_res i) fun _ _ _ _ => trivial

theorem kserdCtor_res (id : Option Str) (v : Value) (i : Str) (hid : ∀ s, id = some s → ValidName s) (hv : Parsed (.mk id v)) :
    Res i (fun _ k => Parsed k) (P.kserdCtor id v i) := by
  cases id with
  | none => exact ⟨List.suffix_refl _, hv⟩
  | some s =>
    rw [P.kserdCtor, withId_valid (hid s rfl)]
    exact ⟨List.suffix_refl _, hv⟩

theorem parsed_prim (id : Option Str) (v : Value) (hid : ∀ s, id = some s → ValidName s) (hv : PrimV v) : Parsed (.mk id v) := by
  cases v <;> first | cases hv | skip
  all_goals
    refine ⟨⟨hid, ?_, ?_⟩, ?_⟩
    · intro n hn; first | cases hn; exact hv | cases hn
    · intro f hf; cases hf
    · simp only [AllV]

theorem prim_res (i : Str) : Res i (fun _ k => Parsed k) (P.prim i) := by
  rw [P.prim]
  have h : Res i (fun _ p => (∀ s, p.1 = some s → ValidName s) ∧ PrimV p.2)
      (Nom.context "primitive" (Nom.separatedPair (Nom.opt (P.ident true)) P.inlineWs P.primValue) i) := by
    refine context_res (sep_res (Q := fun o => ∀ s, o = some s → ValidName s) ?_ ?_ ?_)
    · refine (opt_res (ident_res true i)).imp ?_
      rintro r a _ (⟨rfl, _⟩ | ⟨x, rfl, hx⟩) s hs
      · cases hs
      · cases hs; exact hx
    · exact fun j _ => (takeWhile_res _ j).imp fun _ _ _ _ => trivial
    · exact fun j _ => primValue_res j
  exact h.bind fun r p hr hp => kserdCtor_res _ _ _ hp.1 (parsed_prim _ _ hp.1 hp.2)

end KS.PG
