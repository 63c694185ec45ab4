import Verif.Lemmas.RtVDec
import Verif.Spec.Plain
import Verif.Props.Format
/-!
# Plain Kserds are readable in every layout
-/

namespace KS.RT
open KS.Spec KS.P KS.Nom KS.Nav KS.Wr KS.Props

theorem shownV_seqMap (on : Nat → Bool) (i : Nat) (v : Value) : isSeqMap (shownV on i v) = isSeqMap v := by cases v <;> rfl

theorem shown_val (on : Nat → Bool) (i : Nat) (k : Kserd) : (shown on i k).val = shownV on (i + 1) k.val := by cases k; rfl

theorem shownV_cntr {on : Nat → Bool} {i : Nat} {v : Value} {fs} (h : v = .cntr fs) : shownV on i v = .cntr (shownF on i fs) := by subst h; rfl

mutual
theorem all_nodes {P : Kserd → Prop} : ∀ k : Kserd, All P k → All (All P) k
  | .mk i v, h => by
    have h' := h
    rw [All] at h' ⊢
    exact ⟨h, allV_nodes v h'.2⟩
theorem allV_nodes {P : Kserd → Prop} : ∀ v : Value, AllV P v → AllV (All P) v
  | .unit, _ => trivial
  | .bool _, _ => trivial
  | .num _, _ => trivial
  | .str _, _ => trivial
  | .barr _, _ => trivial
  | .tuple l, h => allL_nodes l h
  | .cntr l, h => allF_nodes l h
  | .seq l, h => allL_nodes l h
  | .map l, h => allM_nodes l h
theorem allL_nodes {P : Kserd → Prop} : ∀ l : List Kserd, AllL P l → AllL (All P) l
  | [], _ => trivial
  | k :: r, h => ⟨all_nodes k h.1, allL_nodes r h.2⟩
theorem allF_nodes {P : Kserd → Prop} : ∀ l : List (Str × Kserd), AllF P l → AllF (All P) l
  | [], _ => trivial
  | (_, k) :: r, h => ⟨all_nodes k h.1, allF_nodes r h.2⟩
theorem allM_nodes {P : Kserd → Prop} : ∀ l : List (Kserd × Kserd), AllM P l → AllM (All P) l
  | [], _ => trivial
  | (k, v) :: r, h => ⟨all_nodes k h.1, all_nodes v h.2.1, allM_nodes r h.2.2⟩
end

theorem allL_top {P : Kserd → Prop} {l : List Kserd} (h : AllL P l) : ∀ x ∈ l, P x := by
  induction l with
  | nil => simp
  | cons k r ih =>
    rw [AllL] at h
    intro x hx
    rcases List.mem_cons.mp hx with rfl | hx
    · have := h.1; cases x; rw [All] at this; exact this.1
    · exact ih h.2 x hx

theorem allM_top {P : Kserd → Prop} {l : List (Kserd × Kserd)} (h : AllM P l) : ∀ x ∈ l, P x.2 := by
  induction l with
  | nil => simp
  | cons k r ih =>
    obtain ⟨k, v⟩ := k
    rw [AllM] at h
    intro x hx
    rcases List.mem_cons.mp hx with rfl | hx
    · have := h.2.1; cases v; rw [All] at this; exact this.1
    · exact ih h.2.2 x hx

/-- Inner conditions on the fields, the first of which is left out. -/
def Inner (x : Kserd) : Prop := FirstPlain x ∧ NoMapField x

section
variable {f : Formatter} (hr : Rules f)
include hr

omit hr in
theorem noBare {i : Nat} {k : Kserd} (h : PlainNode (shown (flags f) i k)) : ¬ Bare (shown (flags f) i k) := by
  rintro ⟨-, n, hn, h'⟩
  rw [PlainNode, hn] at h
  rcases h' with h' | h'
  · exact h.1 h'
  · exact h.2 h'

omit hr in
theorem flat_plain {i : Nat} {k : Kserd} (h : NoCntr (shown (flags f) i k)) : Flat f i k := by
  intro j hj x hx ⟨fs, hfs⟩
  rw [NoCntr, all_mem] at h
  have := h (shown (flags f) (i + j) x) (List.mem_of_getElem? (by rw [preorder_shown, mapS_get, hx]; rfl : _ = _)) 
  rw [shown_val, hfs] at this
  exact absurd rfl (this _)

omit hr in
theorem first_plain {i : Nat} {k : Kserd} {fs : List (Str × Kserd)} (hv : k.val = .cntr fs) (h : FirstPlain (shown (flags f) i k))
    (hn : PlainNode (shown (flags f) i k)) : FirstOk f (i + 1) fs := by
  rw [FirstPlain, shown_val, hv, shownV] at h
  rw [PlainNode, shown_val, hv, shownV] at hn
  cases fs with
  | nil => trivial
  | cons p r =>
    obtain ⟨n, k'⟩ := p
    rw [shownF] at h hn
    intro _ hc
    obtain ⟨g, hg⟩ := hc
    exact ⟨h ⟨_, (shown_val _ _ _).trans (shownV_cntr hg)⟩, (hn _ (List.mem_cons_self ..)).1.1⟩

omit hr in
theorem noStr_plain {i : Nat} {k : Kserd} {fs : List (Str × Kserd)} (hv : k.val = .cntr fs) (hn : PlainNode (shown (flags f) i k)) :
    NoStr f (i + 1) fs := by
  rw [PlainNode, shown_val, hv, shownV] at hn
  cases fs with
  | nil => trivial
  | cons p r =>
    obtain ⟨n, k'⟩ := p
    rw [shownF] at hn
    exact fun _ => (hn _ (List.mem_cons_self ..)).1.2

/-- What the fields of a plain container satisfy. -/
def FieldPlain (p : Str × Kserd) : Prop := (ValidName p.1 ∧ ¬ str "str" <+: p.1) ∧ (isSeqMap p.2.val = true → p.2.id = none)

mutual
theorem pl_fields : ∀ (fs : List (Str × Kserd)) (top q : Bool) (i : Nat), AtN (At f) i (preorderF fs) →
    (∀ p ∈ shownF (flags f) i fs, FieldPlain p) → AllF PlainNode (shownF (flags f) i fs) → AllF Inner (shownF (flags f) i fs) →
    (top = true ∨ ∀ p ∈ shownF (flags f) i fs, ∀ m, p.2.val ≠ .map m) → FieldsOk f fs top q i
  | [], _, _, _, _, _, _, _, _ => trivial
  | (n, k) :: r, top, q, i, hsub, hf, hp, hi, ht => by
    rw [preorderF, atN_append, size_preorder] at hsub
    rw [shownF] at hf hp hi ht
    rw [AllF] at hp hi
    rw [FieldsOk]
    have h1 := hf _ (List.mem_cons_self ..)
    refine ⟨?_, ?_, ?_⟩
    · obtain ⟨⟨⟨c, s, hs, -⟩, -⟩, -⟩ := h1
      have hs : n = c :: s := hs
      rw [hs]; simp
    · exact pl_field k top _ i hsub.1 hp.1 hi.1 h1.2 (ht.imp id fun ht => ht _ (List.mem_cons_self ..))
    · exact pl_fields r top q _ hsub.2 (fun p hp => hf p (List.mem_cons_of_mem _ hp)) hp.2 hi.2
        (ht.imp id fun ht p hp => ht p (List.mem_cons_of_mem _ hp))
theorem pl_field : ∀ (k : Kserd) (top q : Bool) (i : Nat), AtN (At f) i (preorder k) →
    All PlainNode (shown (flags f) i k) → All Inner (shown (flags f) i k) →
    (isSeqMap (shown (flags f) i k).val = true → (shown (flags f) i k).id = none) →
    (top = true ∨ ∀ m, (shown (flags f) i k).val ≠ .map m) → FieldOk f k top q i
  | .mk id v, top, q, i, hsub, hp, hi, hid, ht => by
    have hp0 : PlainNode (shown (flags f) i (.mk id v)) := by
      rw [shown] at hp ⊢; rw [All] at hp; exact hp.1
    rw [FieldOk]
    refine ⟨fun _ => ?_, fun _ hb => absurd hb (noBare hp0)⟩
    cases v with
    | cntr fs =>
      rw [HeadedOk]
      rw [shown] at hp hi
      rw [All] at hp hi
      rw [preorder, preorderV, atN_cons] at hsub
      refine ⟨first_plain rfl (by rw [shown]; exact hi.1.1) hp0, ?_⟩
      refine pl_fields fs false q (i + 1) hsub.2 ?_ hp.2 hi.2 (.inr ?_)
      · exact hp.1
      · exact hi.1.2 _ rfl
    | seq l =>
      rw [HeadedOk]
      rw [shown] at hp hi hid
      rw [All] at hp hi
      rw [preorder, preorderV, atN_cons] at hsub
      refine ⟨hid rfl, ?_⟩
      exact pl_elems l q (i + 1) hsub.2 hp.1.2 hp.2 hi.2
    | map m =>
      rw [HeadedOk]
      rw [shown] at hp hi hid ht
      rw [All] at hp hi
      rw [preorder, preorderV, atN_cons] at hsub
      refine ⟨hid rfl, ?_, ?_⟩
      · rcases ht with ht | ht
        · exact ht
        · exact absurd rfl (ht _)
      · exact pl_entries m q (i + 1) hsub.2 hp.1 hp.2 hi.2
    | _ => trivial
theorem pl_value : ∀ (k : Kserd) (q : Bool) (i : Nat), AtN (At f) i (preorder k) →
    All PlainNode (shown (flags f) i k) → All Inner (shown (flags f) i k) →
    (isSeqMap (shown (flags f) i k).val = true → NoCntr (shown (flags f) i k)) → ValueOk f k false q i
  | .mk id v, q, i, hsub, hp, hi, hc => by
    have hp0 : PlainNode (shown (flags f) i (.mk id v)) := by
      rw [shown] at hp ⊢; rw [All] at hp; exact hp.1
    rw [ValueOk]
    refine ⟨fun _ => ⟨?_, ?_⟩, fun _ hb => absurd hb (noBare hp0)⟩
    · cases v with
      | cntr fs =>
        rw [VerboseOk]
        rw [shown] at hp hi
        rw [All] at hp hi
        rw [preorder, preorderV, atN_cons] at hsub
        refine ⟨fun _ => first_plain rfl (by rw [shown]; exact hi.1.1) hp0, ?_⟩
        exact pl_fields fs false q (i + 1) hsub.2 hp.1 hp.2 hi.2 (.inr (hi.1.2 _ rfl))
      | _ => trivial
    · intro hsm
      exact flat_plain (hc (by rw [shown_val, shownV_seqMap]; exact hsm))
theorem pl_elems : ∀ (l : List Kserd) (q : Bool) (i : Nat), AtN (At f) i (preorderL l) →
    (∀ x ∈ shownL (flags f) i l, isSeqMap x.val = true → NoCntr x) → AllL PlainNode (shownL (flags f) i l) →
    AllL Inner (shownL (flags f) i l) → ElemsOk f l q i
  | [], _, _, _, _, _, _ => trivial
  | k :: r, q, i, hsub, hc, hp, hi => by
    rw [preorderL, atN_append, size_preorder] at hsub
    rw [shownL] at hc hp hi
    rw [AllL] at hp hi
    have hp0 : PlainNode (shown (flags f) i k) := by
      have := hp.1
      obtain ⟨id, v⟩ := k
      rw [shown] at this ⊢; rw [All] at this; exact this.1
    rw [ElemsOk]
    refine ⟨fun _ => ?_, fun _ _ fs hfs => noStr_plain hfs hp0, ?_, ?_⟩
    · intro h0 l' hl'
      have := hp0
      rw [PlainNode, hl'] at this
      exact this.1 h0 l' hl'
    · exact pl_value k _ i hsub.1 hp.1 hi.1 (hc _ (List.mem_cons_self ..))
    · exact pl_elems r q _ hsub.2 (fun x hx => hc x (List.mem_cons_of_mem _ hx)) hp.2 hi.2
theorem pl_entries : ∀ (m : List (Kserd × Kserd)) (q : Bool) (i : Nat), AtN (At f) i (preorderM m) →
    (∀ p ∈ shownM (flags f) i m, isPrim p.1.val = true ∧ (isSeqMap p.2.val = true → NoCntr p.2)) → AllM PlainNode (shownM (flags f) i m) →
    AllM Inner (shownM (flags f) i m) → EntriesOk f m q i
  | [], _, _, _, _, _, _ => trivial
  | (k, v) :: r, q, i, hsub, hc, hp, hi => by
    rw [preorderM, atN_append, size_preorder, atN_append, size_preorder] at hsub
    rw [shownM] at hc hp hi
    rw [AllM] at hp hi
    rw [EntriesOk]
    obtain ⟨c1, c2⟩ := hc _ (List.mem_cons_self ..)
    refine ⟨?_, ?_, ?_⟩
    · have hx : At f i k := by
        have := hsub.1 0 k (by cases k; rfl)
        exact this
      obtain ⟨fm, hfm, hl, hmax⟩ := at_fmt hr hx
      rw [hl]
      have : maxRepr k.val = .inline := by
        rw [shown_val] at c1
        cases hk : k.val <;> first | rfl | (rw [hk] at c1; cases c1)
      rw [this] at hmax
      cases hfl : fm.line with
      | inline => rfl
      | _ => rw [hfl] at hmax; exact absurd hmax (by decide)
    · exact pl_value v _ _ hsub.2.1 hp.2.1 hi.2.1 c2
    · exact pl_entries r q _ hsub.2.2 (fun p hp => hc p (List.mem_cons_of_mem _ hp)) hp.2.2 hi.2.2
end

end

theorem noBare' {k : Kserd} (h : PlainNode k) : ¬ Bare k := by
  rintro ⟨-, n, hn, h'⟩
  rw [PlainNode, hn] at h
  rcases h' with h' | h'
  · exact h.1 h'
  · exact h.2 h'

/-- Every layout of a plain Kserd is readable. -/
theorem plain_readable {f : Formatter} (hr : Rules f) (h : PlainTree (displayed f))
    (hidden : ∀ i k l, (preorder f.root)[i]? = some k → flags f i = false → k.val = .tuple l → k.id = none) : Readable f ∧ LayoutOk f := by
  have hsub : AtN (At f) 0 (preorder f.root) := by intro j x hj; rw [Nat.zero_add]; exact hj
  have hself := all_nodes _ h.node
  have hp0 : PlainNode (displayed f) := by
    have := h.node
    rw [displayed] at this ⊢
    cases hroot : f.root with
    | mk id v => rw [hroot, shown, All] at this; exact this.1
  refine ⟨⟨h.text, hidden, ?_, ?_⟩, ?_⟩
  · intro i k hk _
    have hall : All PlainNode (shown (flags f) i k) := by
      refine (all_mem _).mp hself _ (List.mem_of_getElem? (i := i) ?_)
      rw [displayed, preorder_shown, mapS_get, hk, Nat.zero_add]; rfl
    generalize hx : shown (flags f) i k = x at hall
    obtain ⟨id, v⟩ := x
    rw [All] at hall
    rw [Kserd.val]
    cases v with
    | tuple l =>
      intro p a b q e hb
      exact absurd hb (noBare' (allL_top hall.2 a (by rw [e]; simp)))
    | seq l =>
      intro p a b q e hb
      exact absurd hb (noBare' (allL_top hall.2 a (by rw [e]; simp)))
    | map l =>
      intro p a b q e hb
      exact absurd hb (noBare' (allM_top hall.2 a (by rw [e]; simp)))
    | _ => trivial
  · intro _ h0 l hl
    rw [PlainNode, hl] at hp0
    exact hp0.1 h0 l hl
  · obtain ⟨-, hn, hi, h1⟩ := h
    rw [LayoutOk]
    rw [displayed] at hn hi h1 hp0
    cases hroot : f.root with
    | mk id v =>
      rw [hroot] at hn hi h1 hsub hp0
      rw [ValueOk]
      refine ⟨fun hl => ⟨?_, fun hsm => absurd hl (hr.root (by rw [hroot]; exact hsm))⟩, fun _ hb => absurd hb (noBare hp0)⟩
      cases v with
      | cntr fs =>
        rw [VerboseOk]
        rw [preorder, preorderV, atN_cons] at hsub
        refine ⟨fun h0 => first_plain rfl (h1 h0) hp0, ?_⟩
        rw [shown, All] at hn
        exact pl_fields hr fs true false 1 hsub.2 hn.1 hn.2 hi (.inl rfl)
      | _ => trivial

/-! ## Hidden identities -/

mutual
theorem all_hide {P : Kserd → Prop} {c : FormattingConfig} : ∀ k : Kserd, All P (hideIds c k) → All (fun x => P (hideIds c x)) k
  | .mk i v, h => by
    rw [hideIds, All] at h
    rw [All, hideIds]
    exact ⟨h.1, allV_hide v h.2⟩
theorem allV_hide {P : Kserd → Prop} {c : FormattingConfig} : ∀ v : Value, AllV P (hideIdsV c v) → AllV (fun x => P (hideIds c x)) v
  | .unit, _ => trivial
  | .bool _, _ => trivial
  | .num _, _ => trivial
  | .str _, _ => trivial
  | .barr _, _ => trivial
  | .tuple l, h => allL_hide l h
  | .cntr l, h => allF_hide l h
  | .seq l, h => allL_hide l h
  | .map l, h => allM_hide l h
theorem allL_hide {P : Kserd → Prop} {c : FormattingConfig} : ∀ l : List Kserd, AllL P (hideIdsL c l) → AllL (fun x => P (hideIds c x)) l
  | [], _ => trivial
  | k :: r, h => ⟨all_hide k h.1, allL_hide r h.2⟩
theorem allF_hide {P : Kserd → Prop} {c : FormattingConfig} : ∀ l : List (Str × Kserd), AllF P (hideIdsF c l) → AllF (fun x => P (hideIds c x)) l
  | [], _ => trivial
  | (_, k) :: r, h => ⟨all_hide k h.1, allF_hide r h.2⟩
theorem allM_hide {P : Kserd → Prop} {c : FormattingConfig} : ∀ l : List (Kserd × Kserd), AllM P (hideIdsM c l) → AllM (fun x => P (hideIds c x)) l
  | [], _ => trivial
  | (k, v) :: r, h => ⟨all_hide k h.1, all_hide v h.2.1, allM_hide r h.2.2⟩
end

theorem hide_key {c : FormattingConfig} : ∀ {m : List (Kserd × Kserd)}, (∀ p ∈ hideIdsM c m, isPrim p.1.val = true) → ∀ k ∈ m.map (·.1), isPrim k.val = true
  | (.mk i v, _) :: r, h, k, hk => by
    rw [hideIdsM] at h
    rw [List.map_cons, List.mem_cons] at hk
    rcases hk with rfl | hk
    · have := h _ (List.mem_cons_self ..)
      cases v <;> first | rfl | cases this
    · exact hide_key (fun p hp => h p (List.mem_cons_of_mem _ hp)) k hk

theorem smallKeys_plain {c : FormattingConfig} {root : Kserd} (h : All PlainNode (hideIds c root)) : SmallKeys root := by
  intro x hx k hk
  have := (all_mem _).mp (all_hide _ h) x hx
  obtain ⟨i, v⟩ := x
  cases v with
  | map m =>
    have hm : ∀ p ∈ hideIdsM c m, isPrim p.1.val = true := fun p hp => (this p hp).1
    have := hide_key hm k hk
    cases hv : k.val <;> rw [hv] at this <;> first | (cases this; done) | (change Repr'.inline ≤ Repr'.concise; decide)
  | _ => cases hk

/-! ## Deciding -/

instance (k : Kserd) : Decidable (NoCntr k) :=
  decidable_of_iff (All (fun x => isCntr x.val = false) k) (by
    rw [NoCntr, all_mem, all_mem]
    refine forall₂_congr fun x _ => ?_
    cases x.val <;> simp [isCntr])

instance (k : Kserd) : Decidable (PlainNode k) := by
  unfold PlainNode
  split <;> infer_instance

instance (k : Kserd) : Decidable (FirstPlain k) := by
  unfold FirstPlain
  split
  · exact decidable_of_iff (isCntr _ = true → _) (by rw [isCntr_iff])
  · infer_instance

def isMap : Value → Bool
  | .map _ => true
  | _ => false

instance (k : Kserd) : Decidable (NoMapField k) :=
  match hk : k.val with
  | .cntr f => decidable_of_iff (∀ p ∈ f, isMap p.2.val = false) (by
      have : ∀ v : Value, isMap v = false ↔ ∀ m, v ≠ .map m := by intro v; cases v <;> simp [isMap]
      simp [NoMapField, hk, this])
  | .unit => isTrue (by intro f h; rw [hk] at h; cases h)
  | .bool _ => isTrue (by intro f h; rw [hk] at h; cases h)
  | .num _ => isTrue (by intro f h; rw [hk] at h; cases h)
  | .str _ => isTrue (by intro f h; rw [hk] at h; cases h)
  | .barr _ => isTrue (by intro f h; rw [hk] at h; cases h)
  | .tuple _ => isTrue (by intro f h; rw [hk] at h; cases h)
  | .seq _ => isTrue (by intro f h; rw [hk] at h; cases h)
  | .map _ => isTrue (by intro f h; rw [hk] at h; cases h)

instance (P : Kserd → Prop) [DecidablePred P] (v : Value) : Decidable (AllV P v) := decidable_of_iff _ (allV_mem v).symm

instance (k : Kserd) : Decidable (PlainTree k) :=
  decidable_of_iff (All TextOk k ∧ All PlainNode k ∧ AllV (fun x => FirstPlain x ∧ NoMapField x) k.val ∧ (k.id = none → FirstPlain k))
    ⟨fun ⟨a, b, c, d⟩ => ⟨a, b, c, d⟩, fun ⟨a, b, c, d⟩ => ⟨a, b, c, d⟩⟩

end KS.RT
