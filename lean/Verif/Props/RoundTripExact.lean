import Verif.Props.Concise
import Verif.Lemmas.ExpressExact
import Verif.Lemmas.FixedPoint
import Verif.Props.Panics
/-!
# Exactly which texts read back

C34 and C35: `C70_back` and `C75_back` assume that the names in the Kserd are names and that no boolean is an identity. Texts with other names do not
read back, so these assumptions are not needed.
-/

namespace KS.Props
open KS.Spec KS.RT KS.Spec.Ex

/-- Strings without identity can be told from field assignments. -/
def Quoted (k : Kserd) : Prop := ∀ s, k.val = .str s → k.id = none → Quotable s

/-- The keys of maps remain ascending when their numbers are reread. -/
def SortedKeys (k : Kserd) : Prop :=
  ∀ m, k.val = .map m → (rereadM m).Pairwise (fun a b => Kserd.cmp a.1 b.1 = .lt ∧ Kserd.eq a.1 b.1 = false)

/-- What is known of the names of a Kserd that came out of the parser. -/
def Named (k : Kserd) : Prop :=
  (∀ i, k.id = some i → ValidName i) ∧ ∀ f, k.val = .cntr f → (∀ p ∈ f, ∀ c ∈ p.1, NameChar c) ∧ Ascending cmpStr f

theorem names_rereadF : ∀ f : List (Str × Kserd), (rereadF f).map Prod.fst = f.map Prod.fst
  | [] => rfl
  | (n, k) :: r => by rw [rereadF, List.map_cons, List.map_cons, names_rereadF r]

theorem named_fields {f : List (Str × Kserd)} (h : (∀ p ∈ rereadF f, ∀ c ∈ p.1, NameChar c) ∧ Ascending cmpStr (rereadF f)) :
    (∀ p ∈ f, ∀ c ∈ p.1, NameChar c) ∧ Ascending cmpStr f := by
  have e := names_rereadF f
  have h1 : ∀ n ∈ (rereadF f).map Prod.fst, ∀ c ∈ n, NameChar c := by
    intro n hn
    obtain ⟨p, hp, rfl⟩ := List.mem_map.mp hn
    exact h.1 p hp
  have h2 : ((rereadF f).map Prod.fst).Pairwise (fun a b => cmpStr a b = .lt) := List.pairwise_map.mpr h.2
  rw [e] at h1 h2
  exact ⟨fun p hp => h1 _ (List.mem_map.mpr ⟨p, hp, rfl⟩), List.pairwise_map.mp h2⟩

mutual
theorem named_back : ∀ k : Kserd, All Named (rereadK k) → All Named k
  | .mk id v, h => by
    rw [rereadK, All] at h
    refine ⟨⟨h.1.1, fun f hf => ?_⟩, named_backV v h.2⟩
    cases hf
    cases f with
    | nil => exact ⟨by simp, List.Pairwise.nil⟩
    | cons p r => exact named_fields (h.1.2 _ rfl)
termination_by structural k => k
theorem named_backV : ∀ v : Value, AllV Named (rereadV v) → AllV Named v
  | .unit, _ => trivial
  | .bool _, _ => trivial
  | .num _, _ => trivial
  | .str _, _ => trivial
  | .barr _, _ => trivial
  | .tuple l, h => named_backL l h
  | .seq l, h => named_backL l h
  | .cntr [], _ => trivial
  | .cntr (p :: r), h => named_backF (p :: r) h
  | .map m, h => named_backM m h
termination_by structural v => v
theorem named_backL : ∀ l : List Kserd, AllL Named (rereadL l) → AllL Named l
  | [], _ => trivial
  | k :: r, h => ⟨named_back k h.1, named_backL r h.2⟩
termination_by structural l => l
theorem named_backF : ∀ l : List (Str × Kserd), AllF Named (rereadF l) → AllF Named l
  | [], _ => trivial
  | (_, k) :: r, h => ⟨named_back k h.1, named_backF r h.2⟩
termination_by structural l => l
theorem named_backM : ∀ l : List (Kserd × Kserd), AllM Named (rereadM l) → AllM Named l
  | [], _ => trivial
  | (k, v) :: r, h => ⟨named_back k h.1, named_back v h.2.1, named_backM r h.2.2⟩
termination_by structural l => l
end

mutual
theorem whole_back : ∀ k : Kserd, All Spellable (rereadK k) → All (fun k => ¬ Splits k) k
  | .mk id v, h => by
    rw [rereadK, All] at h
    refine ⟨?_, whole_backV v h.2⟩
    rintro ⟨hs, hi⟩
    have key : (∀ i, id = some i → NotBool i) → False := by
      intro hn
      rcases hi with hi | hi
      · exact (hn _ hi).1 (List.prefix_refl _)
      · exact (hn _ hi).2 (List.prefix_refl _)
    cases v with
    | seq l =>
      have h1 : Spellable (.mk id (.seq (rereadL l))) := h.1
      exact key h1.2
    | map m =>
      have h1 : Spellable (.mk id (.map (rereadM m))) := h.1
      exact key h1.2
    | cntr f =>
      cases f with
      | nil =>
        have h1 : Spellable (.mk id (.tuple [])) := h.1
        exact key h1.2.1
      | cons p r =>
        have h1 : Spellable (.mk id (.cntr (rereadF (p :: r)))) := h.1
        exact key h1.2.1
    | _ => cases hs
termination_by structural k => k
theorem whole_backV : ∀ v : Value, AllV Spellable (rereadV v) → AllV (fun k => ¬ Splits k) v
  | .unit, _ => trivial
  | .bool _, _ => trivial
  | .num _, _ => trivial
  | .str _, _ => trivial
  | .barr _, _ => trivial
  | .tuple l, h => whole_backL l h
  | .seq l, h => whole_backL l h
  | .cntr [], _ => trivial
  | .cntr (p :: r), h => whole_backF (p :: r) h
  | .map m, h => whole_backM m h
termination_by structural v => v
theorem whole_backL : ∀ l : List Kserd, AllL Spellable (rereadL l) → AllL (fun k => ¬ Splits k) l
  | [], _ => trivial
  | k :: r, h => ⟨whole_back k h.1, whole_backL r h.2⟩
termination_by structural l => l
theorem whole_backF : ∀ l : List (Str × Kserd), AllF Spellable (rereadF l) → AllF (fun k => ¬ Splits k) l
  | [], _ => trivial
  | (_, k) :: r, h => ⟨whole_back k h.1, whole_backF r h.2⟩
termination_by structural l => l
theorem whole_backM : ∀ l : List (Kserd × Kserd), AllM Spellable (rereadM l) → AllM (fun k => ¬ Splits k) l
  | [], _ => trivial
  | (k, v) :: r, h => ⟨whole_back k h.1, whole_back v h.2.1, whole_backM r h.2.2⟩
termination_by structural l => l
end

/-- A Kserd that came back has ordinary names. -/
theorem ordinary_back {k : Kserd} {out : Str} (hp : parse out = .ok (rereadK k)) (hq : All Quoted k)
    (hd : All (fun x => ∀ s, x.val = .str s → Delimitable s) k) : All Ordinary k := by
  have h := named_back k (PG.all_mono (fun x hx => ⟨hx.1, hx.2.2⟩) _ (C33_parsed out _ hp).1)
  rw [all_mem] at h hq hd ⊢
  intro x hx
  have h := h x hx
  have hq := hq x hx
  have hd := hd x hx
  obtain ⟨id, v⟩ := x
  refine ⟨h.1, ?_⟩
  cases v with
  | str s => exact ⟨hd s rfl, hq s rfl⟩
  | cntr f => exact h.2 f rfl
  | _ => trivial

theorem delimitable_displayed {root : Kserd} {f : Formatter} (h : Reachable root f) {out : Str} (hout : f.writeString [] = some out) :
    All (fun x => ∀ s, x.val = .str s → Delimitable s) (displayed f) := by
  have hw := (C24_write_partial root f h []).mp ⟨out, hout⟩
  obtain ⟨rfl, -⟩ := C22_rules root f h
  rw [all_mem]
  intro x hx s hs
  obtain ⟨j, hj⟩ := List.mem_iff_getElem?.mp hx
  rw [displayed, preorder_shown, mapS_get, Option.map_eq_some_iff] at hj
  obtain ⟨⟨id, v⟩, hy, rfl⟩ := hj
  rw [shown_val] at hs
  refine hw _ (List.mem_of_getElem? hy) s ?_
  cases v <;> cases hs
  rfl

theorem legible_whole {k : Kserd} (h : Legible k) : ¬ Splits k := by
  rintro ⟨hs, hi⟩
  obtain ⟨id, v⟩ := k
  have key : (∀ i, id = some i → NotBool i) → False := by
    intro hn
    rcases hi with hi | hi
    · exact (hn _ hi).1 (List.prefix_refl _)
    · exact (hn _ hi).2 (List.prefix_refl _)
  cases v with
  | seq l => exact key h
  | map m => exact key h
  | cntr f => exact key h
  | _ => cases hs

/-- In a layout that comes back, no boolean is an identity. -/
theorem laid_whole {t : Cc.Laid} (hw : t.WF) (h : All Ordinary t.kserd) (hp : parse t.text = .ok (rereadK t.kserd)) :
    All (fun k => ¬ Splits k) t.kserd := by
  by_cases hline : ∃ k, t = .line k
  · obtain ⟨k, rfl⟩ := hline
    exact PG.all_mono (fun _ => legible_whole) _ (Inl.line_means (k := k) h hp).1
  obtain ⟨D, w, e, hww, hr, hm⟩ := C59_sound hp
  cases D with
  | value wb T =>
    rw [Doc.Reads] at hr
    rw [Doc.Means] at hm
    exact whole_back _ (EX.tree_spellable hr.2.1 hm)
  | lines l =>
    exfalso
    rw [Doc.Reads] at hr
    have : LinesAhead t.text := by rw [e]; exact hr.1
    obtain ⟨k, rfl, -⟩ := (Cc.laid_ahead hw h).mp this
    exact hline ⟨k, rfl⟩

/-- **C35, exactly.** In every formatter state without verbose containers and without hidden tuple identities (C28), for Kserds whose strings are
`Quotable` and whose map keys remain in order: the text can be written and reads back as the displayed Kserd exactly if the state is `Readable`. -/
theorem C35_exact_partial (root : Kserd) (f : Formatter) (h : Reachable root f) (hv : NoVerboseCntr f)
    (hid : ∀ i k l, (preorder f.root)[i]? = some k → flags f i = false → k.val = .tuple l → k.id = none)
    (hq : All Quoted (displayed f)) (hm : All SortedKeys (displayed f)) :
    (∃ out, f.writeString [] = some out ∧ parse out = .ok (rereadK (displayed f))) ↔ Readable f := by
  constructor
  · rintro ⟨out, hout, hp⟩
    have ho := ordinary_back hp hq (delimitable_displayed h hout)
    refine (C75_back root f h hv ⟨ho, hid, ?_⟩ hm).elim fun out' h' => ?_
    · obtain ⟨rfl, hr⟩ := C22_rules root f h
      obtain ⟨t, rfl, h1, h2, -, -⟩ := Cc.state_laid hr hv ho hid hout
      rw [← h1] at ho hp ⊢
      exact laid_whole h2 ho hp
    · obtain ⟨e, h'⟩ := h'
      rw [hout] at e
      cases e
      exact h'.mp hp
  · intro hr
    obtain ⟨out, hout, hp, -⟩ := C35_roundtrip_partial root f h hv hr
    exact ⟨out, hout, hp⟩

/-- **C34, exactly.** On one line, for Kserds whose strings are `Quotable` and whose map keys remain in order, and without hidden tuple identities:
the text can be written and reads back as the Kserd without the hidden identities exactly if every part is `TextOk` and the line is not taken for a
heading. -/
theorem C34_exact (root : Kserd) (c : FormattingConfig) (hc : c.widthLimit = none)
    (htu : c.idOnTuples = false → ∀ x ∈ preorder root, ∀ l, x.val = .tuple l → x.id = none)
    (hq : All Quoted (hideIds c root)) (hm : All SortedKeys (hideIds c root)) :
    (∃ out, root.asStrWithConfig c = some out ∧ parse out = .ok (rereadK (hideIds c root))) ↔
      All TextOk (hideIds c root) ∧ NoHeading (hideIds c root) := by
  constructor
  · rintro ⟨out, hout, hp⟩
    have hw : Writable (preorder root) := by
      by_contra hn
      rw [(C24_unlimited_partial root c hc).mpr hn] at hout
      cases hout
    have hd : All (fun x => ∀ s, x.val = .str s → Delimitable s) (hideIds c root) := by
      refine Renum.all_hide (fun id v h i s hs => h s ?_) _ ((all_mem _).mpr hw)
      cases v <;> cases hs
      rfl
    obtain ⟨out', hout', h⟩ := C70_back root c hc (ordinary_back hp hq hd) hm htu
    rw [hout] at hout'
    cases hout'
    exact h.mp hp
  · rintro ⟨h1, h2⟩
    obtain ⟨out, ho, hp, -⟩ := C34_inline root c hc h1 htu h2
    exact ⟨out, ho, hp⟩

/-! ## Non-vacuity: names that are no names -/

instance (k : Kserd) : Decidable (Quoted k) := by
  unfold Quoted
  cases k.val with
  | str s => exact decidable_of_iff (k.id = none → Quotable s) ⟨fun h s' e => by cases e; exact h, fun h => h s rfl⟩
  | _ => exact isTrue (by intro s e; cases e)

instance (k : Kserd) : Decidable (SortedKeys k) := by
  unfold SortedKeys
  cases k.val with
  | map m =>
    exact decidable_of_iff ((rereadM m).Pairwise (fun a b => Kserd.cmp a.1 b.1 = .lt ∧ Kserd.eq a.1 b.1 = false))
      ⟨fun h s' e => by cases e; exact h, fun h => h m rfl⟩
  | _ => exact isTrue (by intro s e; cases e)

/-- An identity with a blank, and the identity `false`. -/
def misnamed : Kserd :=
  .mk none (.cntr [(str "n", .mk (some (str "a b")) (.seq [.mk none (.str (str "x")), .mk (some (str "false")) (.map [])]))])

/-- Without conditions on names, neither C70 nor C75 says anything of this Kserd. Its text does not come back. -/
example : ∃ f, Reachable misnamed f ∧ NoVerboseCntr f ∧ (∀ i k l, (preorder f.root)[i]? = some k → flags f i = false → k.val = .tuple l → k.id = none) ∧
    All Quoted (displayed f) ∧ All SortedKeys (displayed f) ∧ line f 0 = some .concise ∧ ¬ All TextOk (displayed f) := by
  obtain ⟨f, hf, h⟩ := conciseRoot_reach (k := misnamed) (fun f => f.fmts.all (fun x => x.line ≠ .verbose && x.id) &&
    (decide (f.fmts.length = (preorder f.root).length) && (decide (All Quoted (displayed f)) && (decide (All SortedKeys (displayed f)) &&
      (decide (line f 0 = some .concise) && !decide (All TextOk (displayed f))))))) (by decide +kernel)
  simp only [Bool.and_eq_true, decide_eq_true_eq, List.all_eq_true, Bool.not_eq_true', decide_eq_false_iff_not] at h
  obtain ⟨h3, h4, h5, h6, h7, h8⟩ := h
  refine ⟨f, hf, fun i k fs _ _ e => ?_, fun i k l hk hf _ => ?_, h5, h6, h7, h8⟩
  · rw [line, Option.map_eq_some_iff] at e
    obtain ⟨fm, hfm, e⟩ := e
    exact (h3 fm (List.mem_of_getElem? hfm)).1 e
  · exfalso
    rw [flags, idOn] at hf
    cases hfm : f.fmts[i]? with
    | none =>
      rw [List.getElem?_eq_none_iff, h4] at hfm
      have := (List.getElem?_eq_some_iff.mp hk).1
      omega
    | some fm =>
      rw [hfm] at hf
      have := (h3 fm (List.mem_of_getElem? hfm)).2
      simp [this] at hf

example : All Quoted (hideIds { widthLimit := none, idOnSeqs := true } misnamed) ∧ All SortedKeys (hideIds { widthLimit := none, idOnSeqs := true } misnamed) ∧
    ¬ All TextOk (hideIds { widthLimit := none, idOnSeqs := true } misnamed) ∧ All Quoted (hideIds { widthLimit := none } sample) ∧
    All SortedKeys (hideIds { widthLimit := none } sample) ∧ All TextOk (hideIds { widthLimit := none } sample) := by
  decide +kernel

end KS.Props
