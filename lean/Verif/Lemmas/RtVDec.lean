import Verif.Lemmas.RtVMain
import Verif.Lemmas.RtDec
/-!
# Verbose texts read back; deciding the conditions on concrete Kserds
-/

namespace KS.RT
open KS.Spec KS.P KS.Nom KS.Nav KS.Wr KS.Props

theorem layout_parses {f : Formatter} (hr : Rules f) (h : Readable f) (hok : LayoutOk f) {out : Str} (ho : f.writeString [] = some out) :
    parse out = .ok (rereadK (displayed f)) := by
  have hx : At f 0 f.root := by rw [At]; cases f.root; rfl
  have hsub : AtN (At f) 0 (preorder f.root) := by intro j x hj; rw [Nat.zero_add]; exact hj
  obtain ⟨fm, hfm, hl, hmax⟩ := at_fmt hr hx
  by_cases hc : line f 0 = some .verbose ∧ ∃ fs, f.root.val = .cntr fs
  · obtain ⟨hlv, hc⟩ := hc
    have hV : VerboseOk f f.root.val (shownId (flags f 0) f.root.val f.root.id) true false 0 := by
      rw [LayoutOk] at hok
      cases hroot : f.root with
      | mk id v => rw [hroot, ValueOk] at hok; exact (hok.1 hlv).1
    obtain ⟨t, m', ht, hB⟩ := w_body hr h f.root 0 0 [] [] out true false hsub hlv hc hV (fun _ => rfl) rfl ho
    have heol : Eol (nls m') := by cases m' with
      | zero => exact .inl rfl
      | succ m' => exact .inr ⟨_, rfl⟩
    have hopen : NoOpen (nls m') := noOpen_nls _
    obtain ⟨hv, -⟩ := hB _ (fun _ => heol) (fun _ => hopen)
    have hs : displayed f = .mk (shown (flags f) 0 f.root).id (shown (flags f) 0 f.root).val := by
      rw [displayed]; cases shown (flags f) 0 f.root; rfl
    rw [List.nil_append] at ht
    cases t with
    | nil =>
      exfalso
      have hs' : Stop 0 (nls m') := ⟨m', .inl rfl⟩
      obtain ⟨x, hx, -⟩ := vev_rt _ 0 ((nls m').length + 1) _ _ _ hv (by rw [← hs]; exact h.text) hs' (by simp)
      cases hx
    | cons c t =>
      rw [List.cons_append, List.cons.injEq] at ht
      obtain ⟨rfl, rfl⟩ := ht
      rw [hs]
      exact parse_verbose hv (by rw [← hs]; exact h.text)
  · refine readable_parses hr h ?_ ho
    intro i k fs hk hv
    by_cases hlv : line f 0 = some .verbose
    · have hsm : isSeqMap f.root.val = true := by
        have hfv : fm.line = .verbose := by rw [hl] at hlv; exact Option.some.inj hlv
        rw [hfv] at hmax
        have hm := verbose_ne hmax
        cases hkv : f.root.val with
        | cntr fs => exact absurd ⟨hlv, fs, hkv⟩ hc
        | seq l => rfl
        | map l => rfl
        | tuple l => rw [hkv, maxRepr] at hm; split at hm <;> cases hm
        | _ => rw [hkv] at hm; cases hm
      exact absurd hlv (hr.root hsm)
    · exact quiet_range hr hx hlv i (Nat.zero_le _) (by rw [Nat.zero_add, ← size_preorder]; exact (List.getElem?_eq_some_iff.mp hk).1)

/-! ## Deciding -/

def isCntr : Value → Bool
  | .cntr _ => true
  | _ => false

theorem isCntr_iff (v : Value) : isCntr v = true ↔ ∃ fs, v = .cntr fs := by cases v <;> simp [isCntr]

instance decFirstOk (f : Formatter) (i : Nat) : ∀ fs, Decidable (FirstOk f i fs)
  | [] => isTrue trivial
  | (n, k) :: _ => decidable_of_iff (headed f i k = true → isCntr k.val = true → (shown (flags f) i k).id = none ∧ ValidName n)
      (by rw [isCntr_iff]; rfl)

instance decNoStr (f : Formatter) (i : Nat) : ∀ fs, Decidable (NoStr f i fs)
  | [] => isTrue trivial
  | (n, k) :: _ => inferInstanceAs (Decidable (headed f i k = false → ¬ str "str" <+: n))

instance decFlat (f : Formatter) (i : Nat) (k : Kserd) : Decidable (Flat f i k) :=
  decidable_of_iff (∀ j < k.size, ∀ x ∈ (preorder k)[j]?, isCntr x.val = true → line f (i + j) ≠ some .verbose)
    (by simp only [isCntr_iff, Flat, Option.mem_def])

instance decCntrAll (v : Value) (P : List (Str × Kserd) → Prop) [DecidablePred P] : Decidable (∀ fs, v = .cntr fs → P fs) :=
  match v with
  | .cntr fs => decidable_of_iff (P fs) ⟨by rintro h _ ⟨⟩; exact h, fun h => h fs rfl⟩
  | .unit => isTrue (by rintro _ ⟨⟩)
  | .bool _ => isTrue (by rintro _ ⟨⟩)
  | .num _ => isTrue (by rintro _ ⟨⟩)
  | .str _ => isTrue (by rintro _ ⟨⟩)
  | .barr _ => isTrue (by rintro _ ⟨⟩)
  | .tuple _ => isTrue (by rintro _ ⟨⟩)
  | .seq _ => isTrue (by rintro _ ⟨⟩)
  | .map _ => isTrue (by rintro _ ⟨⟩)

mutual
def decFieldsOk (f : Formatter) : (fs : List (Str × Kserd)) → (top q : Bool) → (i : Nat) → Decidable (FieldsOk f fs top q i)
  | [], _, _, _ => isTrue trivial
  | (n, k) :: r, top, q, i =>
    have := decFieldOk f k top (headingNext f q (i + k.size) r) i
    have := decFieldsOk f r top q (i + k.size)
    inferInstanceAs (Decidable (n ≠ [] ∧ FieldOk f k top (headingNext f q (i + k.size) r) i ∧ FieldsOk f r top q (i + k.size)))
termination_by structural a => a
def decFieldOk (f : Formatter) : (k : Kserd) → (top q : Bool) → (i : Nat) → Decidable (FieldOk f k top q i)
  | .mk id v, top, q, i =>
    have := decHeadedOk f v (shownId (flags f i) v id) top q i
    inferInstanceAs (Decidable ((headed f i (.mk id v) = true → HeadedOk f v (shownId (flags f i) v id) top q i) ∧
      (headed f i (.mk id v) = false → Bare (shown (flags f) i (.mk id v)) → q = false)))
termination_by structural a => a
def decHeadedOk (f : Formatter) : (v : Value) → (id : Option Str) → (top q : Bool) → (i : Nat) → Decidable (HeadedOk f v id top q i)
  | .cntr fs, _, _, q, i =>
    have := decFieldsOk f fs false q (i + 1)
    inferInstanceAs (Decidable (FirstOk f (i + 1) fs ∧ FieldsOk f fs false q (i + 1)))
  | .seq l, id, _, q, i =>
    have := decElemsOk f l q (i + 1)
    inferInstanceAs (Decidable (id = none ∧ ElemsOk f l q (i + 1)))
  | .map m, id, top, q, i =>
    have := decEntriesOk f m q (i + 1)
    inferInstanceAs (Decidable (id = none ∧ top = true ∧ EntriesOk f m q (i + 1)))
  | .unit, _, _, _, _ => isTrue trivial
  | .bool _, _, _, _, _ => isTrue trivial
  | .num _, _, _, _, _ => isTrue trivial
  | .str _, _, _, _, _ => isTrue trivial
  | .barr _, _, _, _, _ => isTrue trivial
  | .tuple _, _, _, _, _ => isTrue trivial
termination_by structural a => a
def decElemsOk (f : Formatter) : (l : List Kserd) → (q : Bool) → (i : Nat) → Decidable (ElemsOk f l q i)
  | [], _, _ => isTrue trivial
  | k :: r, q, i =>
    have := decValueOk f k false (q || !r.isEmpty) i
    have := decElemsOk f r q (i + k.size)
    inferInstanceAs (Decidable ((line f i = some .inline → NoHeading (shown (flags f) i k)) ∧
      (line f i = some .verbose → (shown (flags f) i k).id = none → ∀ fs, k.val = .cntr fs → NoStr f (i + 1) fs) ∧
      ValueOk f k false (q || !r.isEmpty) i ∧ ElemsOk f r q (i + k.size)))
termination_by structural a => a
def decValueOk (f : Formatter) : (k : Kserd) → (top q : Bool) → (i : Nat) → Decidable (ValueOk f k top q i)
  | .mk id v, top, q, i =>
    have := decVerboseOk f v (shownId (flags f i) v id) top q i
    inferInstanceAs (Decidable ((line f i = some .verbose → VerboseOk f v (shownId (flags f i) v id) top q i ∧ (isSeqMap v = true → Flat f i (.mk id v))) ∧
      (line f i ≠ some .verbose → Bare (shown (flags f) i (.mk id v)) → q = false)))
termination_by structural a => a
def decVerboseOk (f : Formatter) : (v : Value) → (id : Option Str) → (top q : Bool) → (i : Nat) → Decidable (VerboseOk f v id top q i)
  | .cntr fs, id, top, q, i =>
    have := decFieldsOk f fs top q (i + 1)
    inferInstanceAs (Decidable ((id = none → FirstOk f (i + 1) fs) ∧ FieldsOk f fs top q (i + 1)))
  | .seq _, _, _, _, _ => isTrue trivial
  | .map _, _, _, _, _ => isTrue trivial
  | .unit, _, _, _, _ => isTrue trivial
  | .bool _, _, _, _, _ => isTrue trivial
  | .num _, _, _, _, _ => isTrue trivial
  | .str _, _, _, _, _ => isTrue trivial
  | .barr _, _, _, _, _ => isTrue trivial
  | .tuple _, _, _, _, _ => isTrue trivial
termination_by structural a => a
def decEntriesOk (f : Formatter) : (m : List (Kserd × Kserd)) → (q : Bool) → (i : Nat) → Decidable (EntriesOk f m q i)
  | [], _, _ => isTrue trivial
  | (k, v) :: r, q, i =>
    have := decValueOk f v false (q || !r.isEmpty) (i + k.size)
    have := decEntriesOk f r q (i + k.size + v.size)
    inferInstanceAs (Decidable (line f i = some .inline ∧ ValueOk f v false (q || !r.isEmpty) (i + k.size) ∧ EntriesOk f r q (i + k.size + v.size)))
termination_by structural a => a
end

instance (f : Formatter) : Decidable (LayoutOk f) := decValueOk f f.root true false 0

/-- Deciding `Readable` node by node. -/
def readableV (f : Formatter) : Bool :=
  decide (All TextOk (displayed f)) &&
  (List.range (preorder f.root).length).all (fun i => match (preorder f.root)[i]? with
    | none => true
    | some k =>
      (flags f i || (match k.val with | .tuple _ => k.id.isNone | _ => true)) &&
      (decide (line f i = some .inline) || decide (Separable (shown (flags f) i k).val))) &&
  (!decide (line f 0 = some .inline) || decide (NoHeading (displayed f)))

theorem readableV_spec {f : Formatter} (h : readableV f = true) : Readable f := by
  simp only [readableV, Bool.and_eq_true, decide_eq_true_eq, List.all_eq_true, List.mem_range, Bool.or_eq_true, Bool.not_eq_true',
    decide_eq_false_iff_not] at h
  obtain ⟨⟨h1, h2⟩, h3⟩ := h
  have get : ∀ i k, (preorder f.root)[i]? = some k → _ := fun i k hk => by
    have := h2 i (List.getElem?_eq_some_iff.mp hk).1
    rw [hk] at this
    exact this
  refine ⟨h1, ?_, ?_, ?_⟩
  · intro i k l hk hfl hv
    have := get i k hk
    simp only [hv, hfl, Bool.false_or, Bool.and_eq_true, Option.isNone_iff_eq_none] at this
    exact this.1
  · intro i k hk hl
    have := get i k hk
    simp only [Bool.and_eq_true, Bool.or_eq_true, decide_eq_true_eq] at this
    exact this.2.resolve_left hl
  · intro hl; exact h3.resolve_left (fun h => h hl)

/-- Make one request after the other. -/
def requests : Option Formatter → List (Nat × Repr') → Option Formatter
  | none, _ => none
  | some f, [] => some f
  | some f, (i, r) :: l => match f.request i r with | .ok g => requests (some g) l | .error _ => none

theorem requests_reach {root : Kserd} : ∀ (l : List (Nat × Repr')) (f g : Formatter), Reachable root f → requests (some f) l = some g → Reachable root g
  | [], f, g, hf, h => by cases h; exact hf
  | (i, r) :: l, f, g, hf, h => by
    rw [requests] at h
    cases hr : f.request i r with
    | error e => rw [hr] at h; cases h
    | ok f' => rw [hr] at h; exact requests_reach l f' g (.repr i r hf hr) h

/-- The formatter of `k` after the requests `l`. -/
def after (k : Kserd) (l : List (Nat × Repr')) : Option Formatter := requests (Formatter.new k) l

theorem after_reach {k : Kserd} {l : List (Nat × Repr')} (P : Formatter → Bool) (h : (after k l).any P = true) : ∃ f, Reachable k f ∧ P f = true := by
  unfold after at h
  cases hn : Formatter.new k with
  | none => rw [hn, requests] at h; cases h
  | some f =>
    rw [hn] at h
    cases hg : requests (some f) l with
    | none => rw [hg] at h; cases h
    | some g => rw [hg] at h; exact ⟨g, requests_reach l f g (.new hn) hg, h⟩

end KS.RT
