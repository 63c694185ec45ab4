import Verif.Lemmas.FixedPoint
import Verif.Lemmas.RtEq
import Verif.Spec.Plain
/-! What a plain Kserd reads back as is plain again. -/

namespace KS.Renum
open Spec F64 KS.Props KS.RT

mutual
theorem all_reread {P Q : Kserd → Prop} (hPQ : ∀ x, All P x → Q (rereadK x)) : ∀ (k : Kserd), All P k → All Q (rereadK k)
  | .mk id v, h => by
    have h0 := hPQ _ h
    rw [All] at h
    rw [rereadK] at h0 ⊢
    rw [All]
    refine ⟨h0, ?_⟩
    cases v with
    | tuple l => exact allL_reread hPQ l h.2
    | seq l => exact allL_reread hPQ l h.2
    | cntr l =>
      rcases l with _ | ⟨⟨_, k⟩, r⟩
      · trivial
      · exact allF_reread hPQ _ h.2
    | map l => exact allM_reread hPQ l h.2
    | _ => trivial
theorem allL_reread {P Q : Kserd → Prop} (hPQ : ∀ x, All P x → Q (rereadK x)) : ∀ (l : List Kserd), AllL P l → AllL Q (rereadL l)
  | [], _ => trivial
  | k :: r, h => ⟨all_reread hPQ k h.1, allL_reread hPQ r h.2⟩
theorem allF_reread {P Q : Kserd → Prop} (hPQ : ∀ x, All P x → Q (rereadK x)) : ∀ (l : List (Str × Kserd)), AllF P l → AllF Q (rereadF l)
  | [], _ => trivial
  | (n, k) :: r, h => ⟨all_reread hPQ k h.1, allF_reread hPQ r h.2⟩
theorem allM_reread {P Q : Kserd → Prop} (hPQ : ∀ x, All P x → Q (rereadK x)) : ∀ (l : List (Kserd × Kserd)), AllM P l → AllM Q (rereadM l)
  | [], _ => trivial
  | (k, v) :: r, h => ⟨all_reread hPQ k h.1, all_reread hPQ v h.2.1, allM_reread hPQ r h.2.2⟩
end

theorem allV_reread {P Q : Kserd → Prop} (hPQ : ∀ x, All P x → Q (rereadK x)) (v : Value) (h : AllV P v) : AllV Q (rereadV v) := by
  cases v with
  | tuple l => exact allL_reread hPQ l h
  | seq l => exact allL_reread hPQ l h
  | cntr l =>
    rcases l with _ | ⟨⟨_, k⟩, r⟩
    · trivial
    · exact allF_reread hPQ _ h
  | map l => exact allM_reread hPQ l h
  | _ => trivial

theorem minus_zero {n : Number} (h : n.disp = str "-0") : reread n = .int 0 := by
  rw [reread, h, show Number.fromStr (str "-0") = some (.int 0) by decide +kernel]; rfl

/-- The text of a number that reads back reads back, and it is not `-0`. -/
theorem disp_twice {n : Number} (hw : n.WF) (hr : Number.fromStr n.disp ≠ none) :
    (reread n).disp ≠ str "-0" ∧ Number.fromStr (reread n).disp ≠ none ∧
      ((reread n).disp = n.disp ∨ (n.disp = str "-0" ∧ (reread n).disp = str "0")) := by
  by_cases h0 : n.disp = str "-0"
  · rw [minus_zero h0]
    have : Number.disp (.int 0) = str "0" := by decide +kernel
    rw [this]
    exact ⟨by decide, by decide +kernel, Or.inr ⟨h0, rfl⟩⟩
  · rw [disp_reread n hw hr h0]
    exact ⟨h0, hr, Or.inl rfl⟩

theorem reread_twice {n : Number} (hw : n.WF) (hr : Number.fromStr n.disp ≠ none) (h0 : n.disp ≠ str "-0") : reread (reread n) = reread n := by
  have := reread_reads n hr
  rw [reread.eq_def (reread n), disp_reread n hw hr h0, this]; rfl

theorem rereadL_map {l : List Kserd} : rereadL l = l.map rereadK := by
  induction l with
  | nil => rfl
  | cons p r ih => rw [rereadL, ih]; rfl

theorem rereadF_map {l : List (Str × Kserd)} : rereadF l = l.map (fun p => (p.1, rereadK p.2)) := by
  induction l with
  | nil => rfl
  | cons p r ih => obtain ⟨a, b⟩ := p; rw [rereadF, ih]; rfl

theorem hideIdsM_map {c : FormattingConfig} {l : List (Kserd × Kserd)} : hideIdsM c l = l.map (fun p => (hideIds c p.1, hideIds c p.2)) := by
  induction l with
  | nil => rfl
  | cons p r ih => obtain ⟨a, b⟩ := p; rw [hideIdsM, ih]; rfl

theorem val_reread (k : Kserd) : (rereadK k).val = rereadV k.val := by cases k; rfl
theorem id_reread (k : Kserd) : (rereadK k).id = k.id := by cases k; rfl

mutual
theorem hide_reread {c : FormattingConfig} (hc : c.idOnTuples = true) : ∀ (k : Kserd),
    hideIds c (rereadK (hideIds c k)) = rereadK (hideIds c k)
  | .mk id v => by
    rw [hideIds, rereadK, hideIds]
    cases v with
    | tuple l =>
      simp only [hideIdsV, rereadV, showsId, shownId, hc, if_true]
      rw [hideL_reread hc l]
    | seq l =>
      simp only [hideIdsV, rereadV, showsId, shownId]
      rw [hideL_reread hc l]
      by_cases hb : c.idOnSeqs = true <;> simp [hb]
    | map l =>
      simp only [hideIdsV, rereadV, showsId, shownId]
      rw [hideM_reread hc l]
      by_cases hb : c.idOnMaps = true <;> simp [hb]
    | cntr l =>
      have := hideF_reread hc l
      rcases l with _ | ⟨⟨_, k⟩, r⟩
      · simp [hideIdsV, hideIdsF, rereadV, hideIdsL, showsId, shownId, hc]
      · simp only [hideIdsF, rereadF, List.cons.injEq, Prod.mk.injEq, true_and] at this
        simp [hideIdsV, hideIdsF, rereadV, rereadF, showsId, shownId, this]
        by_cases hb : c.idOnContainers = true <;> simp [hb]
    | unit => rfl
    | _ => simp only [hideIdsV, rereadV, showsId, shownId]; by_cases hb : c.idOnPrimitives = true <;> simp [hb]
theorem hideL_reread {c : FormattingConfig} (hc : c.idOnTuples = true) : ∀ (l : List Kserd),
    hideIdsL c (rereadL (hideIdsL c l)) = rereadL (hideIdsL c l)
  | [] => rfl
  | k :: r => by rw [hideIdsL, rereadL, hideIdsL, hide_reread hc k, hideL_reread hc r]
theorem hideF_reread {c : FormattingConfig} (hc : c.idOnTuples = true) : ∀ (l : List (Str × Kserd)),
    hideIdsF c (rereadF (hideIdsF c l)) = rereadF (hideIdsF c l)
  | [] => rfl
  | (n, k) :: r => by rw [hideIdsF, rereadF, hideIdsF, hide_reread hc k, hideF_reread hc r]
theorem hideM_reread {c : FormattingConfig} (hc : c.idOnTuples = true) : ∀ (l : List (Kserd × Kserd)),
    hideIdsM c (rereadM (hideIdsM c l)) = rereadM (hideIdsM c l)
  | [] => rfl
  | (k, v) :: r => by rw [hideIdsM, rereadM, hideIdsM, hide_reread hc k, hide_reread hc v, hideM_reread hc r]
end

/-- Well-formed numbers, and no map key `-0`. -/
def Calm (x : Kserd) : Prop :=
  (∀ n, x.val = .num n → n.WF) ∧ ∀ m, x.val = .map m → ∀ p ∈ m, ∀ n, p.1.val = .num n → n.disp ≠ str "-0"

theorem calm_hide {c : FormattingConfig} {k : Kserd} (h : All Calm k) : All Calm (hideIds c k) := by
  refine all_hide ?_ k h
  rintro id v ⟨h1, h2⟩ i
  refine ⟨?_, ?_⟩
  · intro n hn
    cases v <;> simp only [Kserd.val, hideIdsV, Value.num.injEq, reduceCtorEq] at hn
    exact h1 n (by rw [← hn]; rfl)
  · intro m hm p hp n hn
    cases v <;> simp only [Kserd.val, hideIdsV, Value.map.injEq, reduceCtorEq] at hm
    rename_i m0
    rw [← hm, hideIdsM_map, List.mem_map] at hp
    obtain ⟨q, hq, rfl⟩ := hp
    refine h2 m0 rfl q hq n ?_
    rcases q with ⟨⟨qi, qv⟩, b⟩
    cases qv <;> simp only [hideIds, Kserd.val, hideIdsV, Value.num.injEq, reduceCtorEq] at hn
    rw [← hn]; rfl

/-- A primitive key that is not `-0` reads back as itself. -/
theorem key_twice {k : Kserd} (h : isPrim k.val = true) (hn : ∀ n, k.val = .num n → n.WF ∧ n.disp ≠ str "-0" ∧ Number.fromStr n.disp ≠ none) :
    rereadK (rereadK k) = rereadK k := by
  rcases k with ⟨id, v⟩
  cases v with
  | num n =>
    obtain ⟨a, b, d⟩ := hn n rfl
    rw [rereadK, rereadV, rereadK, rereadV, reread_twice a d b]
  | unit => rfl
  | bool _ => rfl
  | str _ => rfl
  | barr _ => rfl
  | _ => cases h

theorem seqmap_reread (v : Value) : isSeqMap (rereadV v) = isSeqMap v := by
  cases v with
  | cntr f => cases f <;> rfl
  | _ => rfl

theorem prim_reread (v : Value) : isPrim (rereadV v) = isPrim v := by
  cases v with
  | cntr f => cases f <;> rfl
  | _ => rfl

theorem cntr_reread {v : Value} {g : List (Str × Kserd)} (h : rereadV v = .cntr g) : ∃ f, v = .cntr f ∧ f ≠ [] ∧ g = rereadF f := by
  cases v with
  | cntr f =>
    rcases f with _ | ⟨p, r⟩
    · cases h
    · refine ⟨_, rfl, by simp, ?_⟩
      have : Value.cntr (rereadF (p :: r)) = .cntr g := h
      exact (Value.cntr.inj this).symm
  | _ => cases h

theorem noCntr_reread {k : Kserd} (h : NoCntr k) : NoCntr (rereadK k) := by
  refine all_reread (fun x hx f hf => ?_) k h
  rw [val_reread] at hf
  obtain ⟨g, hg, -⟩ := cntr_reread hf
  rcases x with ⟨i, v⟩
  exact hx.1 g hg

/-- How a finite number reads back is finite. -/
theorem finite_reread {n : Number} (hw : n.WF) (hr : Number.fromStr n.disp ≠ none) (h : n.disp ≠ str "inf" ∧ n.disp ≠ str "NaN") :
    (reread n).disp ≠ str "inf" ∧ (reread n).disp ≠ str "NaN" := by
  obtain ⟨-, -, e | ⟨-, e⟩⟩ := disp_twice hw hr
  · rw [e]; exact h
  · rw [e]; exact ⟨by decide, by decide⟩

theorem wordy_reread {k : Kserd} (hn : PlainNode k) (ht : TextOk k) (hc : Calm k) (h : Wordy (rereadK k)) : Wordy k := by
  rcases k with ⟨i, v⟩
  obtain ⟨h1, h2⟩ := h
  refine ⟨h1, ?_⟩
  cases v with
  | num n =>
    rcases h2 with ⟨b, hb⟩ | ⟨-, m, hm, hd⟩
    · cases hb
    · have hm' : Value.num (reread n) = .num m := hm
      rw [← Value.num.inj hm'] at hd
      have := finite_reread (hc.1 n rfl) ht.2 hn
      exact absurd hd (not_or.mpr this)
  | bool b => exact Or.inl ⟨b, rfl⟩
  | cntr f =>
    cases f with
    | nil => rcases h2 with ⟨b, hb⟩ | ⟨-, m, hm, -⟩ <;> [cases hb; cases hm]
    | cons _ _ => rcases h2 with ⟨b, hb⟩ | ⟨-, m, hm, -⟩ <;> [cases hb; cases hm]
  | _ => rcases h2 with ⟨b, hb⟩ | ⟨-, m, hm, -⟩ <;> [cases hb; cases hm]

theorem seq_reread {v : Value} {l : List Kserd} (h : rereadV v = .seq l) : ∃ m, v = .seq m ∧ l = m.map rereadK := by
  cases v with
  | seq m =>
    refine ⟨m, rfl, ?_⟩
    have : Value.seq (rereadL m) = .seq l := h
    rw [← rereadL_map]; exact (Value.seq.inj this).symm
  | cntr f => cases f <;> cases h
  | _ => cases h

theorem allL_of {P : Kserd → Prop} {l : List Kserd} (h : AllL P l) : ∀ x ∈ l, All P x := by
  induction l with
  | nil => intro x hx; cases hx
  | cons a r ih =>
    intro x hx
    rcases List.mem_cons.mp hx with rfl | hx
    · exact h.1
    · exact ih h.2 x hx

theorem allM_of {P : Kserd → Prop} {l : List (Kserd × Kserd)} (h : AllM P l) : ∀ p ∈ l, All P p.1 ∧ All P p.2 := by
  induction l with
  | nil => intro x hx; cases hx
  | cons a r ih =>
    intro x hx
    rcases List.mem_cons.mp hx with rfl | hx
    · exact ⟨h.1, h.2.1⟩
    · exact ih h.2.2 x hx

theorem all_at {P : Kserd → Prop} {k : Kserd} (h : All P k) : P k := by cases k; exact h.1

theorem heading_reread {k : Kserd} (h : NoHeading k) (hn : All PlainNode k) (ht : All TextOk k) (hc : All Calm k) : NoHeading (rereadK k) := by
  intro hi l hl
  rcases k with ⟨i, v⟩
  obtain ⟨m, rfl, rfl⟩ := seq_reread hl
  obtain ⟨h1, h2⟩ := h hi m rfl
  refine ⟨?_, ?_⟩
  · intro x r e ⟨hx, w, hw⟩
    obtain ⟨y, s, rfl, rfl, rfl⟩ := List.map_eq_cons_iff.mp e
    rw [id_reread] at hx
    rw [val_reread] at hw
    obtain ⟨u, hu, -⟩ := seq_reread hw
    exact h1 y s rfl ⟨hx, u, hu⟩
  · intro x e hx
    obtain ⟨y, s, rfl, rfl, es⟩ := List.map_eq_cons_iff.mp e
    obtain rfl := List.map_eq_nil_iff.mp es
    exact h2 y rfl (wordy_reread (all_at (allL_of hn.2 y (by simp))) (all_at (allL_of ht.2 y (by simp))) (all_at (allL_of hc.2 y (by simp))) hx)

theorem asc_reread {f : List (Str × Kserd)} (h : Ascending cmpStr f) : Ascending cmpStr (rereadF f) := by
  rw [rereadF_map]
  unfold Ascending at h ⊢
  rw [List.pairwise_map]
  exact h

theorem text_reread {k : Kserd} (hn : All PlainNode k) (ht : All TextOk k) (hc : All Calm k) : TextOk (rereadK k) := by
  rcases k with ⟨i, v⟩
  obtain ⟨h1, h2⟩ := ht.1
  refine ⟨h1, ?_⟩
  cases v with
  | num n => exact (disp_twice (hc.1.1 n rfl) h2).2.1
  | tuple l =>
    refine ⟨h2.1, fun hi => ?_⟩
    have := h2.2 hi
    rw [rereadL_map]
    simpa using this
  | cntr f =>
    obtain ⟨a, b, d, e⟩ := h2
    rcases f with _ | ⟨p, r⟩
    · exact ⟨a, fun hi => absurd rfl (b hi)⟩
    · refine ⟨a, fun hi => by rw [rereadF_map]; simp, ?_, asc_reread e⟩
      intro q hq
      rw [rereadF_map, List.mem_map] at hq
      obtain ⟨q', hq', rfl⟩ := hq
      exact d q' hq'
  | map m =>
    refine ⟨h2.1, ?_⟩
    have h3 := h2.2
    rw [mem_rereadM, List.pairwise_map] at h3
    change (rereadM (rereadM m)).Pairwise _
    rw [mem_rereadM, mem_rereadM, List.map_map, List.pairwise_map]
    have hk : ∀ p ∈ m, rereadK (rereadK p.1) = rereadK p.1 := by
      intro p hp
      refine key_twice (hn.1 p hp).1 fun n hx => ?_
      have w := (all_at (allM_of hc.2 p hp).1).1 n hx
      have z := hc.1.2 m rfl p hp n hx
      refine ⟨w, z, ?_⟩
      have := (all_at (allM_of ht.2 p hp).1).2
      rw [hx] at this
      exact this
    refine List.Pairwise.imp_of_mem ?_ h3
    intro p q hp hq hpq
    simp only [Function.comp, hk p hp, hk q hq]
    exact hpq
  | seq l => exact h2
  | unit => exact h2
  | bool b => trivial
  | str s => exact h2
  | barr b => trivial

theorem node_reread {k : Kserd} (hn : All PlainNode k) (ht : All TextOk k) (hc : All Calm k) : PlainNode (rereadK k) := by
  have h0 := hn
  rcases k with ⟨i, v⟩
  have h2 := hn.1
  cases v with
  | num n => exact finite_reread (hc.1.1 n rfl) ht.1.2 h2
  | cntr f =>
    rcases f with _ | ⟨p, r⟩
    · trivial
    · change ∀ q ∈ rereadF (p :: r), _
      intro q hq
      rw [rereadF_map, List.mem_map] at hq
      obtain ⟨q', hq', rfl⟩ := hq
      refine ⟨(h2 q' hq').1, fun hs => ?_⟩
      rw [val_reread, seqmap_reread] at hs
      rw [id_reread]
      exact (h2 q' hq').2 hs
  | seq l =>
    refine ⟨heading_reread h2.1 h0 ht hc, ?_⟩
    change ∀ q ∈ rereadL l, _
    intro q hq hs
    rw [rereadL_map, List.mem_map] at hq
    obtain ⟨q', hq', rfl⟩ := hq
    rw [val_reread, seqmap_reread] at hs
    exact noCntr_reread (h2.2 q' hq' hs)
  | map m =>
    change ∀ q ∈ rereadM m, _
    intro q hq
    rw [mem_rereadM, List.mem_map] at hq
    obtain ⟨q', hq', rfl⟩ := hq
    simp only [val_reread, seqmap_reread, prim_reread]
    exact ⟨(h2 q' hq').1, fun hs => noCntr_reread ((h2 q' hq').2 hs)⟩
  | _ => trivial

theorem first_reread {k : Kserd} (h : FirstPlain k) : FirstPlain (rereadK k) := by
  rcases k with ⟨i, v⟩
  cases v with
  | cntr f =>
    rcases f with _ | ⟨⟨_, p⟩, r⟩
    · trivial
    · change (∃ g, (rereadK p).val = .cntr g) → (rereadK p).id = none
      rintro ⟨g, hg⟩
      rw [val_reread] at hg
      obtain ⟨f, hf, -⟩ := cntr_reread hg
      rw [id_reread]
      exact h ⟨f, hf⟩
  | _ => trivial

theorem noMap_reread {k : Kserd} (h : NoMapField k) : NoMapField (rereadK k) := by
  rcases k with ⟨i, v⟩
  intro g hg p hp m hm
  obtain ⟨f, hf, -, rfl⟩ := cntr_reread hg
  rw [rereadF_map, List.mem_map] at hp
  obtain ⟨q, hq, rfl⟩ := hp
  rw [val_reread] at hm
  have hv : ∃ u, q.2.val = .map u := by
    revert hm
    generalize q.2.val = w
    intro hm
    cases w with
    | map u => exact ⟨u, rfl⟩
    | cntr f => cases f <;> cases hm
    | _ => cases hm
  obtain ⟨u, hu⟩ := hv
  exact h f hf q hq u hu

theorem plain_reread {k : Kserd} (h : PlainTree k) (hc : All Calm k) : PlainTree (rereadK k) := by
  have hall : All (fun x => PlainNode x ∧ TextOk x ∧ Calm x) k := by
    rw [all_mem]
    exact fun x hx => ⟨(all_mem k).mp h.node x hx, (all_mem k).mp h.text x hx, (all_mem k).mp hc x hx⟩
  have sep : ∀ x, All (fun x => PlainNode x ∧ TextOk x ∧ Calm x) x → All PlainNode x ∧ All TextOk x ∧ All Calm x := fun x hx =>
    ⟨RT.all_mono (fun _ h => h.1) hx, RT.all_mono (fun _ h => h.2.1) hx, RT.all_mono (fun _ h => h.2.2) hx⟩
  refine ⟨?_, ?_, ?_, ?_⟩
  · exact all_reread (fun x hx => text_reread (sep x hx).1 (sep x hx).2.1 (sep x hx).2.2) k hall
  · exact all_reread (fun x hx => node_reread (sep x hx).1 (sep x hx).2.1 (sep x hx).2.2) k hall
  · rw [val_reread]
    exact allV_reread (fun x hx => ⟨first_reread (all_at hx).1, noMap_reread (all_at hx).2⟩) _ h.inner
  · rw [id_reread]; exact fun hi => first_reread (h.first hi)

theorem ne_reread (k : Kserd) : NoEmptyCntr (rereadK k) := by
  refine all_reread (P := fun _ => True) (fun x _ => ?_) k ((all_mem k).mpr fun _ _ => trivial)
  rcases x with ⟨i, v⟩
  cases v with
  | cntr f => cases f <;> simp [rereadK, rereadV, rereadF, Kserd.val]
  | _ => trivial

theorem nums_reread {k : Kserd} (ht : All TextOk k) (hc : All Calm k) : AllNums (fun n => n.WF ∧ n.disp ≠ str "-0") (rereadK k) := by
  have hall : All (fun x => TextOk x ∧ Calm x) k := by
    rw [all_mem]
    exact fun x hx => ⟨(all_mem k).mp ht x hx, (all_mem k).mp hc x hx⟩
  refine all_reread (fun x hx => ?_) k hall
  obtain ⟨h1, h2⟩ := all_at hx
  rcases x with ⟨i, v⟩
  cases v with
  | num n => exact ⟨PG.fromStr_WF _ _ (reread_reads n h1.2), (disp_twice (h2.1 n rfl) h1.2).1⟩
  | cntr f => cases f <;> trivial
  | _ => trivial

end KS.Renum
