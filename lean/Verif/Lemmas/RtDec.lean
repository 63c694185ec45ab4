import Verif.Lemmas.RtGlue
/-!
# Deciding the round-trip conditions on concrete Kserds (for the examples)
-/

namespace KS.RT
open KS.Spec KS.Nav

instance (c : Char) : Decidable (Letter c) := by unfold Letter; infer_instance
instance (c : Char) : Decidable (DigitC c) := by unfold DigitC; infer_instance
instance (c : Char) : Decidable (NameChar c) := by unfold NameChar; infer_instance

instance (s : Str) : Decidable (ValidName s) :=
  match s with
  | [] => isFalse (by rintro ⟨c, r, h, -⟩; cases h)
  | c :: r => decidable_of_iff ((Letter c ∨ c = '_') ∧ ∀ x ∈ r, NameChar x)
      ⟨fun h => ⟨c, r, rfl, h⟩, by rintro ⟨c', r', h, h'⟩; cases h; exact h'⟩

instance (i : Str) : Decidable (NotBool i) := by unfold NotBool; infer_instance
instance (i : Str) : Decidable (Unassigned i) := by unfold Unassigned; infer_instance
instance (i : Str) : Decidable (Quotable i) := by unfold Quotable; infer_instance
instance (i : Str) : Decidable (Delimitable i) := by unfold Delimitable; infer_instance

instance forSome (o : Option Str) (P : Str → Prop) [DecidablePred P] : Decidable (∀ i, o = some i → P i) :=
  match o with
  | none => isTrue (by intro i h; cases h)
  | some x => decidable_of_iff (P x) ⟨by rintro h _ ⟨⟩; exact h, fun h => h x rfl⟩

instance (k : Kserd) : Decidable (TextOk k) := by
  unfold TextOk
  cases k.val <;> simp only [Ascending, NameChar] <;> infer_instance

instance (P : Kserd → Prop) [DecidablePred P] (k : Kserd) : Decidable (All P k) := decidable_of_iff _ (all_mem k).symm

instance (k : Kserd) : Decidable (Bare k) := by
  unfold Bare
  have : Decidable (∃ n, k.val = .num n ∧ (n.disp = str "inf" ∨ n.disp = str "NaN")) := by
    cases k.val with
    | num n => exact decidable_of_iff (n.disp = str "inf" ∨ n.disp = str "NaN") ⟨fun h => ⟨n, rfl, h⟩, by rintro ⟨_, ⟨⟩, h⟩; exact h⟩
    | _ => exact isFalse (by rintro ⟨_, ⟨⟩, _⟩)
  infer_instance

instance (k : Kserd) : Decidable (Opens k) := by
  unfold Opens
  cases k.val <;> infer_instance

def pairs {α : Type} : List α → List (α × α)
  | a :: b :: r => (a, b) :: pairs (b :: r)
  | _ => []

theorem pairs_mem {α : Type} : ∀ (l : List α) (a b : α), (a, b) ∈ pairs l ↔ ∃ p q, l = p ++ a :: b :: q
  | [], a, b => by simp [pairs]
  | [x], a, b => by
    simp only [pairs, List.not_mem_nil, false_iff, not_exists]
    intro p q h
    have := congrArg List.length h
    simp at this
    omega
  | x :: y :: r, a, b => by
    rw [pairs, List.mem_cons, pairs_mem (y :: r) a b]
    constructor
    · rintro (h | ⟨p, q, h⟩)
      · cases h; exact ⟨[], r, rfl⟩
      · exact ⟨x :: p, q, by rw [h]; rfl⟩
    · rintro ⟨p, q, h⟩
      cases p with
      | nil => cases h; exact .inl rfl
      | cons z p => rw [List.cons_append] at h; exact .inr ⟨p, q, (List.cons.inj h).2⟩

instance decSep {α : Type} (l : List α) (P Q : α → Prop) [DecidablePred P] [DecidablePred Q] : Decidable (∀ p a b q, l = p ++ a :: b :: q → P a → ¬ Q b) :=
  decidable_of_iff (∀ x ∈ pairs l, P x.1 → ¬ Q x.2)
    ⟨fun h p a b q e => h (a, b) ((pairs_mem l a b).mpr ⟨p, q, e⟩),
     fun h x hx => by obtain ⟨p, q, e⟩ := (pairs_mem l x.1 x.2).mp hx; exact h p _ _ q e⟩

instance (v : Value) : Decidable (Separable v) := by
  cases v <;> simp only [Separable]
  case tuple l => exact decSep l Bare Opens
  case seq l => exact decSep l Bare Opens
  case map l => exact decSep l (fun a => Bare a.2) (fun b => Opens b.1)
  all_goals infer_instance

instance (k : Kserd) : Decidable (Wordy k) := by
  unfold Wordy
  have : Decidable (∃ b, k.val = .bool b) := by
    cases k.val with
    | bool b => exact isTrue ⟨b, rfl⟩
    | _ => exact isFalse (by rintro ⟨_, ⟨⟩⟩)
  infer_instance

/-- A Kserd that is a sequence without identity. -/
def plainSeq (k : Kserd) : Bool := match k.id, k.val with | none, .seq _ => true | _, _ => false

theorem plainSeq_iff (k : Kserd) : plainSeq k = true ↔ (k.id = none ∧ ∃ m, k.val = .seq m) := by
  obtain ⟨i, v⟩ := k
  cases i <;> cases v <;> simp [plainSeq, Kserd.id, Kserd.val]

instance (k : Kserd) : Decidable (NoHeading k) := by
  obtain ⟨i, v⟩ := k
  cases i with
  | some i => exact isTrue (by intro h; cases h)
  | none =>
    cases v with
    | seq l =>
      cases l with
      | nil => exact isTrue (by rintro - l ⟨⟩; exact ⟨by simp, by simp⟩)
      | cons x r =>
        refine decidable_of_iff (plainSeq x = false ∧ (r = [] → ¬ Wordy x)) ⟨?_, ?_⟩
        · rintro ⟨h1, h2⟩ - l ⟨⟩
          refine ⟨?_, ?_⟩
          · rintro _ _ ⟨⟩ h
            rw [← plainSeq_iff, h1] at h; cases h
          · rintro _ ⟨⟩; exact h2 rfl
        · intro h
          obtain ⟨h1, h2⟩ := h rfl _ rfl
          refine ⟨?_, ?_⟩
          · have := h1 x r rfl
            rw [← plainSeq_iff] at this
            simpa using this
          · rintro rfl; exact h2 x rfl
    | _ => exact isTrue (by rintro - l ⟨⟩)

/-- Deciding `Readable` node by node. -/
def readableB (f : Formatter) : Bool :=
  decide (All TextOk (displayed f)) &&
  (List.range (preorder f.root).length).all (fun i => match (preorder f.root)[i]? with
    | none => true
    | some k =>
      (flags f i || (match k.val with | .tuple _ => k.id.isNone | _ => true)) &&
      (decide (line f i = some .inline) || decide (Separable (shown (flags f) i k).val)) &&
      (match k.val with | .cntr _ => !decide (line f i = some .verbose) | _ => true)) &&
  (!decide (line f 0 = some .inline) || decide (NoHeading (displayed f)))

theorem readableB_spec {f : Formatter} (h : readableB f = true) : Readable f ∧ NoVerboseCntr f := by
  simp only [readableB, Bool.and_eq_true, decide_eq_true_eq, List.all_eq_true, List.mem_range, Bool.or_eq_true, Bool.not_eq_true',
    decide_eq_false_iff_not] at h
  obtain ⟨⟨h1, h2⟩, h3⟩ := h
  have get : ∀ i k, (preorder f.root)[i]? = some k → _ := fun i k hk => by
    have := h2 i (List.getElem?_eq_some_iff.mp hk).1
    rw [hk] at this
    exact this
  refine ⟨⟨h1, ?_, ?_, ?_⟩, ?_⟩
  · intro i k l hk hfl hv
    have := get i k hk
    simp only [hv, hfl, Bool.false_or, Bool.and_eq_true, Option.isNone_iff_eq_none] at this
    exact this.1.1
  · intro i k hk hl
    have := get i k hk
    simp only [Bool.and_eq_true, Bool.or_eq_true, decide_eq_true_eq] at this
    exact this.1.2.resolve_left hl
  · intro hl; exact h3.resolve_left (fun h => h hl)
  · intro i k fs hk hv
    have := get i k hk
    simp only [hv, Bool.and_eq_true, Bool.not_eq_true', decide_eq_false_iff_not] at this
    exact this.2

end KS.RT
