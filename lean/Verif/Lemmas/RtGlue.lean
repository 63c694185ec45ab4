import Verif.Lemmas.RtWrite
import Verif.Lemmas.RtRoot
import Verif.Props.Layout
/-!
# From formatter states to layouts
-/

namespace KS.RT
open KS.Spec KS.Nav KS.Wr KS.Props

/-! ## Preorders of the Kserd without hidden identities -/

/-- Every Kserd of the list without hidden identities, numbered from `i`. -/
def mapS (on : Nat → Bool) : Nat → List Kserd → List Kserd
  | _, [] => []
  | i, x :: r => shown on i x :: mapS on (i + 1) r

theorem mapS_append (on : Nat → Bool) : ∀ i a b, mapS on i (a ++ b) = mapS on i a ++ mapS on (i + a.length) b
  | i, [], b => rfl
  | i, x :: a, b => by
    simp only [List.cons_append, mapS, mapS_append on (i + 1) a b, List.length_cons]
    rw [show i + (a.length + 1) = i + 1 + a.length by omega]

theorem mapS_get (on : Nat → Bool) : ∀ i l j, (mapS on i l)[j]? = (l[j]?).map (shown on (i + j))
  | i, [], j => by simp [mapS]
  | i, x :: l, 0 => by simp [mapS]
  | i, x :: l, j + 1 => by
    simp only [mapS, List.getElem?_cons_succ, mapS_get on (i + 1) l j]
    rw [show i + 1 + j = i + (j + 1) by omega]

mutual
theorem preorder_shown (on : Nat → Bool) (i : Nat) (k : Kserd) : preorder (shown on i k) = mapS on i (preorder k) := by
  obtain ⟨id, v⟩ := k
  simp only [shown, preorder, mapS, preorderV_shown on (i + 1) v]
theorem preorderV_shown (on : Nat → Bool) (i : Nat) (v : Value) : preorderV (shownV on i v) = mapS on i (preorderV v) := by
  cases v with
  | tuple l => simp only [shownV, preorderV, preorderL_shown on i l]
  | seq l => simp only [shownV, preorderV, preorderL_shown on i l]
  | cntr l => simp only [shownV, preorderV, preorderF_shown on i l]
  | map l => simp only [shownV, preorderV, preorderM_shown on i l]
  | _ => rfl
theorem preorderL_shown (on : Nat → Bool) (i : Nat) (l : List Kserd) : preorderL (shownL on i l) = mapS on i (preorderL l) := by
  match l with
  | [] => rfl
  | k :: r => simp only [shownL, preorderL, preorder_shown on i k, preorderL_shown on (i + k.size) r, mapS_append, size_preorder]
theorem preorderF_shown (on : Nat → Bool) (i : Nat) (l : List (Str × Kserd)) : preorderF (shownF on i l) = mapS on i (preorderF l) := by
  match l with
  | [] => rfl
  | (n, k) :: r => simp only [shownF, preorderF, preorder_shown on i k, preorderF_shown on (i + k.size) r, mapS_append, size_preorder]
theorem preorderM_shown (on : Nat → Bool) (i : Nat) (l : List (Kserd × Kserd)) : preorderM (shownM on i l) = mapS on i (preorderM l) := by
  match l with
  | [] => rfl
  | (k, v) :: r =>
    simp only [shownM, preorderM, preorder_shown on i k, preorder_shown on (i + k.size) v, preorderM_shown on (i + (k.size + v.size)) r,
      mapS_append, size_preorder, Nat.add_assoc]
end

mutual
theorem all_mem {P : Kserd → Prop} (k : Kserd) : All P k ↔ ∀ x ∈ preorder k, P x := by
  obtain ⟨id, v⟩ := k
  rw [All, preorder, allV_mem v]; simp
theorem allV_mem {P : Kserd → Prop} (v : Value) : AllV P v ↔ ∀ x ∈ preorderV v, P x := by
  cases v with
  | tuple l => rw [AllV, preorderV, allL_mem l]
  | seq l => rw [AllV, preorderV, allL_mem l]
  | cntr l => rw [AllV, preorderV, allF_mem l]
  | map l => rw [AllV, preorderV, allM_mem l]
  | _ => simp [AllV, preorderV]
theorem allL_mem {P : Kserd → Prop} (l : List Kserd) : AllL P l ↔ ∀ x ∈ preorderL l, P x := by
  match l with
  | [] => simp [AllL, preorderL]
  | k :: r => rw [AllL, preorderL, all_mem k, allL_mem r]; simp only [List.mem_append, or_imp, forall_and]
theorem allF_mem {P : Kserd → Prop} (l : List (Str × Kserd)) : AllF P l ↔ ∀ x ∈ preorderF l, P x := by
  match l with
  | [] => simp [AllF, preorderF]
  | (n, k) :: r => rw [AllF, preorderF, all_mem k, allF_mem r]; simp only [List.mem_append, or_imp, forall_and]
theorem allM_mem {P : Kserd → Prop} (l : List (Kserd × Kserd)) : AllM P l ↔ ∀ x ∈ preorderM l, P x := by
  match l with
  | [] => simp [AllM, preorderM]
  | (k, v) :: r => rw [AllM, preorderM, all_mem k, all_mem v, allM_mem r]; simp only [List.mem_append, or_imp, forall_and, and_assoc]
end

theorem all_mono {P Q : Kserd → Prop} (h : ∀ x, P x → Q x) {k : Kserd} (hk : All P k) : All Q k := by
  rw [all_mem] at hk ⊢; exact fun x hx => h x (hk x hx)

mutual
theorem erase_shown (on : Nat → Bool) (i : Nat) (k : Kserd) : eraseIds (shown on i k) = eraseIds k := by
  obtain ⟨id, v⟩ := k
  simp only [shown, eraseIds, eraseV_shown on (i + 1) v]
theorem eraseV_shown (on : Nat → Bool) (i : Nat) (v : Value) : eraseIdsV (shownV on i v) = eraseIdsV v := by
  cases v with
  | tuple l => simp only [shownV, eraseIdsV, eraseL_shown on i l]
  | seq l => simp only [shownV, eraseIdsV, eraseL_shown on i l]
  | cntr l => simp only [shownV, eraseIdsV, eraseF_shown on i l]
  | map l => simp only [shownV, eraseIdsV, eraseM_shown on i l]
  | _ => rfl
theorem eraseL_shown (on : Nat → Bool) (i : Nat) (l : List Kserd) : eraseIdsL (shownL on i l) = eraseIdsL l := by
  match l with
  | [] => rfl
  | k :: r => simp only [shownL, eraseIdsL, erase_shown on i k, eraseL_shown on (i + k.size) r]
theorem eraseF_shown (on : Nat → Bool) (i : Nat) (l : List (Str × Kserd)) : eraseIdsF (shownF on i l) = eraseIdsF l := by
  match l with
  | [] => rfl
  | (n, k) :: r => simp only [shownF, eraseIdsF, erase_shown on i k, eraseF_shown on (i + k.size) r]
theorem eraseM_shown (on : Nat → Bool) (i : Nat) (l : List (Kserd × Kserd)) : eraseIdsM (shownM on i l) = eraseIdsM l := by
  match l with
  | [] => rfl
  | (k, v) :: r => simp only [shownM, eraseIdsM, erase_shown on i k, erase_shown on (i + k.size) v, eraseM_shown on (i + k.size + v.size) r]
end

/-! ## Identities by configuration -/

/-- The flag of the node follows the configuration. -/
abbrev ByConfig (on : Nat → Bool) (c : FormattingConfig) : Nat → Kserd → Prop := fun i x => on i = showsId c x.val

mutual
theorem shown_hide {on : Nat → Bool} {c : FormattingConfig} (i : Nat) (k : Kserd) (h : AtN (ByConfig on c) i (preorder k)) :
    shown on i k = hideIds c k := by
  obtain ⟨id, v⟩ := k
  rw [preorder, atN_cons] at h
  have h1 : on i = showsId c v := h.1
  rw [shown, hideIds, h1, shownV_hide (i + 1) v h.2]
theorem shownV_hide {on : Nat → Bool} {c : FormattingConfig} (i : Nat) (v : Value) (h : AtN (ByConfig on c) i (preorderV v)) :
    shownV on i v = hideIdsV c v := by
  cases v with
  | tuple l => rw [preorderV] at h; rw [shownV, hideIdsV, shownL_hide i l h]
  | seq l => rw [preorderV] at h; rw [shownV, hideIdsV, shownL_hide i l h]
  | cntr l => rw [preorderV] at h; rw [shownV, hideIdsV, shownF_hide i l h]
  | map l => rw [preorderV] at h; rw [shownV, hideIdsV, shownM_hide i l h]
  | _ => rfl
theorem shownL_hide {on : Nat → Bool} {c : FormattingConfig} (i : Nat) (l : List Kserd) (h : AtN (ByConfig on c) i (preorderL l)) :
    shownL on i l = hideIdsL c l := by
  match l with
  | [] => rfl
  | k :: r =>
    rw [preorderL, atN_append, size_preorder] at h
    rw [shownL, hideIdsL, shown_hide i k h.1, shownL_hide (i + k.size) r h.2]
theorem shownF_hide {on : Nat → Bool} {c : FormattingConfig} (i : Nat) (l : List (Str × Kserd)) (h : AtN (ByConfig on c) i (preorderF l)) :
    shownF on i l = hideIdsF c l := by
  match l with
  | [] => rfl
  | (n, k) :: r =>
    rw [preorderF, atN_append, size_preorder] at h
    rw [shownF, hideIdsF, shown_hide i k h.1, shownF_hide (i + k.size) r h.2]
theorem shownM_hide {on : Nat → Bool} {c : FormattingConfig} (i : Nat) (l : List (Kserd × Kserd)) (h : AtN (ByConfig on c) i (preorderM l)) :
    shownM on i l = hideIdsM c l := by
  match l with
  | [] => rfl
  | (k, v) :: r =>
    rw [preorderM, atN_append, atN_append, size_preorder, size_preorder] at h
    rw [shownM, hideIdsM, shown_hide i k h.1, shown_hide (i + k.size) v h.2.1, shownM_hide (i + k.size + v.size) r h.2.2]
end

/-! ## Formatter states -/

theorem flag_eq (f : Formatter) : flag f.fmts = flags f := by
  funext i
  rw [flag, flags, idOn]

/-- Below an inline node everything is inline. -/
theorem inline_range {f : Formatter} (hr : Rules f) {i : Nat} {n : NavNode} (hn : f.nav[i]? = some n) (hl : line f i = some .inline) :
    ∀ j, i ≤ j → j < i + n.kserd.size → line f j = some .inline := by
  intro j hij hj
  by_cases hji : j = i
  · rw [hji]; exact hl
  have hn' := hn; rw [hr.nav] at hn'
  have hb := below_of_range hn' j (by omega) hj
  rw [← hr.nav] at hb
  clear hji hj hij
  induction hb with
  | @child j m hm hp =>
    obtain ⟨r, h⟩ := line_some ⟨hr.nav, hr.len⟩ hm
    have := hr.parent j i m r .inline hm hp h hl
    rw [h, Fm.rle_inline this]
  | @step j p m hm hp _ ih =>
    obtain ⟨r, h⟩ := line_some ⟨hr.nav, hr.len⟩ hm
    have := hr.parent j p m r .inline hm hp h ih
    rw [h, Fm.rle_inline this]

theorem nav_get {f : Formatter} (hr : Rules f) {j : Nat} {x : Kserd} (h : (preorder f.root)[j]? = some x) :
    ∃ n, f.nav[j]? = some n ∧ n.kserd = x := by
  rw [← (C18_preorder f.root).1, List.getElem?_map, ← hr.nav] at h
  cases hn : f.nav[j]? with
  | none => rw [hn] at h; cases h
  | some n => rw [hn] at h; cases h; exact ⟨n, rfl, rfl⟩

theorem shown_get (f : Formatter) {j : Nat} {x : Kserd} (h : (preorder f.root)[j]? = some x) :
    (preorder (displayed f))[j]? = some (shown (flags f) j x) := by
  rw [displayed, preorder_shown, mapS_get, h, Nat.zero_add]; rfl

/-- The nodes of a readable formatter without verbose containers. -/
theorem readable_plain {f : Formatter} (hr : Rules f) (h : Readable f) (hv : NoVerboseCntr f) : AtN (Plain f.fmts) 0 (preorder f.root) := by
  intro j x hx
  rw [Nat.zero_add]
  obtain ⟨n, hn, rfl⟩ := nav_get hr hx
  have hs : Fm.Shape f := ⟨hr.nav, hr.len⟩
  have hline : ∀ fm, f.fmts[j]? = some fm → line f j = some fm.line := fun fm hfm => by rw [line, hfm]; rfl
  refine ⟨hs.fmt hn, ?_, ?_, ?_, ?_, ?_, ?_⟩
  · intro fm hfm; exact hr.max j n fm.line hn (hline fm hfm)
  · intro fm hfm fs hfs e
    exact hv j _ fs hx hfs (by rw [hline fm hfm, e])
  · intro fm hfm e ⟨l, hl⟩
    refine h.hidden j _ l hx ?_ hl
    rw [← flag_eq, flag_of hfm, e]
  · intro fm hfm e m hm fm' hfm'
    have := inline_range hr hn (by rw [hline fm hfm, e]) (j + m) (by omega) (by omega)
    rw [line, hfm'] at this
    exact Option.some.inj this
  · intro fm hfm e
    have := h.lines j _ hx (by rw [hline fm hfm]; intro h; exact e (Option.some.inj h))
    rw [flag_eq]
    rcases hk : n.kserd with ⟨id, v⟩
    rw [hk, shown] at this
    exact this
  · intro e
    have := (all_mem _).mp h.text _ (List.mem_of_getElem? (shown_get f hx))
    rcases hk : n.kserd with ⟨id, v⟩
    rw [hk] at e this
    cases e
    exact this.2

/-- A root sequence that is not on one line begins with a line break. -/
theorem seq_head {fmts : List Fmt} {id : Option Str} {l : List Kserd} {out : Str} (h : AtN (Plain fmts) 0 (preorder (.mk id (.seq l))))
    (hl : (fmts[0]?).map (·.line) ≠ some .inline) (hid : (shown (flag fmts) 0 (.mk id (.seq l))).id = none)
    (ho : W.node fmts (.mk id (.seq l)) 0 0 [] = some out) : ∃ x, out = '[' :: '\n' :: x := by
  rw [preorder, atN_cons] at h
  obtain ⟨hp, h⟩ := h
  obtain ⟨fm, hfm⟩ := hp.fm
  have hne : fm.line ≠ .inline := by intro e; rw [hfm] at hl; exact hl (by rw [← e]; rfl)
  have hsep := hp.sep fm hfm hne
  rw [shown, flag_of hfm] at hid
  simp only [shownId, Kserd.id] at hid
  simp only [W.node, hfm] at ho
  simp only [preorderV] at h
  have key : ∀ b, W.listConcise fmts l (0 + 1) (0 + W.indentW) (W.nonprimIdent [] fm.id id ++ ['[', '\n']) = some b → W.indent b 0 ++ [']'] = out →
      ∃ x, out = '[' :: '\n' :: x := by
    intro b hb ho
    rw [nonprim_txt, hid, show [] ++ nid [' '] none ++ ['[', '\n'] = ['['] ++ ['\n'] from rfl] at hb
    obtain ⟨b', rfl, ht⟩ := listConcise_txt l _ _ _ _ h hsep hb
    obtain ⟨r, hr⟩ := txtC_cons (ht 0)
    rw [List.replicate_zero] at hr
    refine ⟨r ++ [']'], ?_⟩
    rw [← ho, W.indent]
    simp only [List.replicate_zero, List.append_nil, List.append_assoc, List.cons_append, List.nil_append]
    rw [show b' ++ '\n' :: [']'] = (b' ++ ['\n']) ++ [']'] by simp, hr]; rfl
  cases hln : fm.line with
  | inline => exact absurd hln hne
  | concise =>
    simp only [Option.map_eq_some_iff] at ho
    obtain ⟨b, hb, ho⟩ := ho
    exact key b hb ho
  | verbose =>
    simp only [Option.map_eq_some_iff] at ho
    obtain ⟨b, hb, ho⟩ := ho
    exact key b hb ho

/-- What a readable formatter writes is a text in the sense of `Txt`, not taken for a heading. -/
theorem readable_txt {f : Formatter} (hr : Rules f) (h : Readable f) (hv : NoVerboseCntr f) {out : Str} (ho : f.writeString [] = some out) :
    Txt false (displayed f) out ∧ ((¬ ∃ x, out = '[' :: '\n' :: x) → NoHeading (displayed f)) := by
  have hp := readable_plain hr h hv
  rw [Formatter.writeString] at ho
  obtain ⟨t, rfl, ht⟩ := node_txt f.root 0 0 [] out hp false (by simp) ho
  rw [flag_eq] at ht
  refine ⟨ht, fun hn => ?_⟩
  by_cases hl : line f 0 = some .inline
  · exact h.heading hl
  · intro hid l hval
    exfalso; apply hn
    rcases hk : f.root with ⟨id, v⟩
    rw [displayed, hk] at hid hval
    rw [hk] at hp ho
    cases v <;> simp only [shown, shownV, Kserd.val, reduceCtorEq] at hval
    rw [← flag_eq] at hid
    exact seq_head hp hl hid ho

/-- What a readable formatter writes parses. -/
theorem readable_parses {f : Formatter} (hr : Rules f) (h : Readable f) (hv : NoVerboseCntr f) {out : Str} (ho : f.writeString [] = some out) :
    parse out = .ok (rereadK (displayed f)) := by
  obtain ⟨ht, hn⟩ := readable_txt hr h hv ho
  exact parse_txt h.text ht hn

/-- The switches are set by the configuration. -/
theorem displayed_config {f0 f : Formatter} (hr0 : Rules f0) {c : FormattingConfig} (h : Solver.applyConfig f0 c = some f) (hroot : f.root = f0.root) :
    displayed f = hideIds c f0.root ∧ ∀ i x, (preorder f0.root)[i]? = some x → flags f i = showsId c x.val := by
  have key : ∀ i x, (preorder f0.root)[i]? = some x → flags f i = showsId c x.val := by
    intro i x hx
    obtain ⟨n, hn, rfl⟩ := nav_get hr0 hx
    have := config_id hr0 h i n hn
    rw [flags, this]
    have e : Solver.idFlag c n.kserd.val.kind = showsId c n.kserd.val := by cases n.kserd.val <;> rfl
    rw [e]; cases showsId c n.kserd.val <;> rfl
  refine ⟨?_, key⟩
  rw [displayed, hroot]
  apply shown_hide
  intro j x hx
  rw [Nat.zero_add]; exact key j x hx

/-- Text that reads back can be written. -/
theorem writable_of_text {k : Kserd} (on : Nat → Bool) (h : All TextOk (shown on 0 k)) : Writable (preorder k) := by
  intro x hx s hs
  obtain ⟨j, hj⟩ := List.mem_iff_getElem?.mp hx
  have hm : (preorder (shown on 0 k))[j]? = some (shown on (0 + j) x) := by rw [preorder_shown, mapS_get, hj]; rfl
  have := (all_mem _).mp h _ (List.mem_of_getElem? hm)
  obtain ⟨id, v⟩ := x
  cases hs
  exact this.2.1

end KS.RT
