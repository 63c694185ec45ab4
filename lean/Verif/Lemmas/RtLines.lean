import Verif.Lemmas.RtKeys
/-!
# The shape of verbose text, and reading it back
-/

namespace KS.RT
open KS.Spec KS.P KS.Nom

/-! `VFs d fol fs b`: `b` is the text of the fields `fs` of a verbose container at depth `d`, before `fol`; each field begins
with line breaks, unless it follows the closing bracket of an element of the field before it. -/
mutual
def VFs (d : Nat) (fol : Str) : List (Str × Kserd) → Str → Prop
  | [], b => b = []
  | (n, k) :: r, b => ∃ b1 b2, b = b1 ++ b2 ∧ n ≠ [] ∧ VF d (b2 ++ fol) n k b1 ∧ VFs d fol r b2
termination_by structural a => a
/-- One field: a line `name = ..`, or a heading and what belongs to it. -/
def VF (d : Nat) (fol n : Str) : Kserd → Str → Prop
  | .mk id v, b =>
    (∃ m T, b = nls m ++ (ind d ++ (n ++ (str " = " ++ T))) ∧ TxtV false id v T ∧ Eol fol ∧ (Bare (.mk id v) → NoOpen fol)) ∨ VV d fol n id v b
termination_by structural a => a
/-- A field under a heading. -/
def VV (d : Nat) (fol n : Str) (id : Option Str) : Value → Str → Prop
  | .cntr f, b => f ≠ [] ∧ ∃ m b', b = nls (m + 1) ++ (ind d ++ '[' :: (n ++ (hid id ++ ']' :: '\n' :: b'))) ∧
      VFs (d + 1) fol f ('\n' :: b') ∧ patternVerbose (b' ++ fol) = true
  | .seq l, b => id = none ∧ l ≠ [] ∧ VSs d fol n l b
  | .map m, b => id = none ∧ d = 0 ∧ m ≠ [] ∧ VMs fol n m b
  | .unit, _ => False
  | .bool _, _ => False
  | .num _, _ => False
  | .str _, _ => False
  | .barr _, _ => False
  | .tuple _, _ => False
termination_by structural a => a
/-- Elements under headings. -/
def VSs (d : Nat) (fol n : Str) : List Kserd → Str → Prop
  | [], b => b = []
  | k :: r, b => ∃ m t b2, b = nls (m + 1) ++ (ind d ++ (str "[[" ++ (n ++ (str "]]" ++ (t ++ b2))))) ∧ VE d (b2 ++ fol) k t ∧ VSs d fol n r b2
termination_by structural a => a
/-- An element. -/
def VE (d : Nat) (fol : Str) : Kserd → Str → Prop
  | .mk id v, t =>
    (∃ j T, t = '\n' :: (List.replicate j ' ' ++ T) ∧ TxtV false id v T ∧ Ended (.mk id v) T fol ∧ (Bare (.mk id v) → NoOpen fol) ∧
      ((¬ ∃ x, T = '[' :: '\n' :: x) → NoHeading (.mk id v))) ∨
    (VEV (d + 1) fol id v t ∧ NoKey (t.tail ++ fol))
termination_by structural a => a
/-- A verbose container that is an element, the value of a map entry or the whole text. -/
def VEV (d : Nat) (fol : Str) (id : Option Str) : Value → Str → Prop
  | .cntr f, t => f ≠ [] ∧ ∃ b, VFs d fol f ('\n' :: b) ∧ ((id = none ∧ t = '\n' :: b ∧ patternVerbose (b ++ fol) = true) ∨
      ∃ i, id = some i ∧ t = '\n' :: (ind d ++ ':' :: (i ++ '\n' :: b)))
  | .seq _, _ => False
  | .map _, _ => False
  | .unit, _ => False
  | .bool _, _ => False
  | .num _, _ => False
  | .str _, _ => False
  | .barr _, _ => False
  | .tuple _, _ => False
termination_by structural a => a
/-- Map entries under headings. -/
def VMs (fol n : Str) : List (Kserd × Kserd) → Str → Prop
  | [], b => b = []
  | (k, v) :: r, b => ∃ m K t b2, b = nls (m + 1) ++ (str "[[" ++ (n ++ (str "]]" ++ '\n' :: (K ++ ':' :: (t ++ b2))))) ∧ Txt true k K ∧
      VMV (b2 ++ fol) v t ∧ VMs fol n r b2
termination_by structural a => a
/-- The value of a map entry. -/
def VMV (fol : Str) : Kserd → Str → Prop
  | .mk id v, t =>
    (∃ T, t = ' ' :: T ∧ TxtV false id v T ∧ Eol fol ∧ (Bare (.mk id v) → NoOpen fol)) ∨
    (∃ j T, t = '\n' :: (List.replicate j ' ' ++ T) ∧ TxtV false id v T ∧ Eol fol ∧ (Bare (.mk id v) → NoOpen fol) ∧
      ((¬ ∃ x, T = '[' :: '\n' :: x) → NoHeading (.mk id v))) ∨
    VEV 1 fol id v t
termination_by structural a => a
end

/-! ## Lines read one by one -/

/-- `b` is read by `P` piece by piece. -/
def Chain (P : Parser CField) : List CField → Str → Str → Prop
  | [], b, _ => b = []
  | c :: cs, b, fol => ∃ t b', b = t ++ b' ∧ 2 ≤ t.length ∧ P (t ++ (b' ++ fol)) = .ok (b' ++ fol) c ∧ Chain P cs b' fol

theorem Chain.append {P : Parser CField} : ∀ {c1 c2 : List CField} {b1 b2 fol : Str}, Chain P c1 b1 (b2 ++ fol) → Chain P c2 b2 fol →
    Chain P (c1 ++ c2) (b1 ++ b2) fol
  | [], _, _, _, _, h1, h2 => by rw [Chain] at h1; subst h1; exact h2
  | c :: cs, _, _, b2, fol, h1, h2 => by
    rw [Chain] at h1
    obtain ⟨t, b', rfl, h3, h4, h5⟩ := h1
    rw [List.cons_append, Chain]
    exact ⟨t, b' ++ b2, by simp, h3, by simpa using h4, Chain.append h5 h2⟩

theorem Chain.one {P : Parser CField} {c : CField} {b fol : Str} (h2 : 2 ≤ b.length) (h : P (b ++ fol) = .ok fol c) : Chain P [c] b fol := by
  rw [Chain]; exact ⟨b, [], by simp, h2, by simpa using h, rfl⟩

theorem Chain.many {P : Parser CField} {fol : Str} (hf : ∃ e, P fol = .err e) : ∀ (cs : List CField) (b : Str) (n : Nat) (acc : List CField),
    Chain P cs b fol → (b ++ fol).length < n → many0Loop P n (b ++ fol) acc = .ok fol (acc.reverse ++ cs)
  | _, _, 0, _, _, hn => by omega
  | [], b, n + 1, acc, h, _ => by
    rw [Chain] at h; subst h
    obtain ⟨e, he⟩ := hf
    simp only [List.nil_append, many0Loop, he, List.append_nil]
  | c :: cs, b, n + 1, acc, h, hn => by
    rw [Chain] at h
    obtain ⟨t, b', rfl, h1, h2, h3⟩ := h
    have hl : (t ++ b' ++ fol).length = t.length + (b' ++ fol).length := by simp
    rw [hl] at hn
    have := Chain.many hf cs b' n (c :: acc) h3 (by omega)
    rw [List.append_assoc, many0Loop]
    simp only [h2]
    rw [if_neg (by rw [List.length_append (as := t)]; omega), this]
    simp

/-- A line break before the first line makes no difference. -/
theorem vf_nl (nested : Parser Kserd) (d : Nat) (x : Str) : verboseField nested d ('\n' :: x) = verboseField nested d x := by
  have h : verboseField.skipBlank' ('\n' :: x) = verboseField.skipBlank' x := by
    have h1 : opt (ignoreWs lineEnding) ('\n' :: x) = .ok x (some ['\n']) := opt_ok (wsLine_nl x)
    simp only [verboseField.skipBlank', List.length_cons]
    rw [skipBlank]
    simp only [h1, bind_ok, Option.isSome_some, if_true]
  simp only [verboseField, h]

theorem Chain.many0 {nested : Parser Kserd} {d : Nat} {cs : List CField} {x fol : Str} (hne : cs ≠ []) (hf : Stop d fol)
    (h : Chain (verboseField nested d) cs ('\n' :: x) fol) : many0 (verboseField nested d) (x ++ fol) = .ok fol cs := by
  obtain ⟨c, cs, rfl⟩ := List.exists_cons_of_ne_nil hne
  rw [Chain] at h
  obtain ⟨t, b', hb, h1, h2, h3⟩ := h
  match t, h1 with
  | a :: b :: t, _ =>
    injection hb with ha hb
    subst ha
    rw [List.cons_append, vf_nl] at h2
    have hx : x ++ fol = (b :: t) ++ (b' ++ fol) := by rw [hb]; simp
    have := Chain.many (vf_stop hf) cs b' (x ++ fol).length [c] h3 (by rw [hx]; simp; omega)
    rw [Nom.many0, many0Loop]
    have h2' : verboseField nested d (x ++ fol) = .ok (b' ++ fol) c := by rw [hx]; exact h2
    simp only [h2']
    rw [if_neg (by rw [hx]; simp; omega), this]
    rfl

/-! ## What follows -/

theorem stop_of {d m : Nat} {c : Char} {y : Str} (hc : isMultiWs c = false) : Stop (d + 1) (nls m ++ (ind d ++ c :: y)) :=
  ⟨m, .inr ⟨d, c, y, by omega, hc, rfl⟩⟩

theorem name_cons {n : Str} (hn : ∀ c ∈ n, NameChar c) (hne : n ≠ []) : ∃ c r, n = c :: r ∧ isMultiWs c = false := by
  obtain ⟨c, r, rfl⟩ := List.exists_cons_of_ne_nil hne
  exact ⟨c, r, rfl, (nameChar_facts (hn c (by simp))).1⟩

/-- The text begins, perhaps after line breaks, at depth `d`. -/
def Line (d : Nat) (b : Str) : Prop := ∃ m c y, isMultiWs c = false ∧ b = nls m ++ (ind d ++ c :: y)

theorem Line.append {d : Nat} {b : Str} (h : Line d b) (x : Str) : Line d (b ++ x) := by
  obtain ⟨m, c, y, hc, rfl⟩ := h
  exact ⟨m, c, y ++ x, hc, by simp⟩

theorem Line.stop {d : Nat} {b : Str} (h : Line d b) : Stop (d + 1) b := by
  obtain ⟨m, c, y, hc, rfl⟩ := h
  exact stop_of hc

theorem vss_line {d : Nat} {fol n b : Str} {l : List Kserd} (hl : l ≠ []) (h : VSs d fol n l b) : Line d b := by
  obtain ⟨k, r, rfl⟩ := List.exists_cons_of_ne_nil hl
  rw [VSs] at h
  obtain ⟨m, t, b2, rfl, -⟩ := h
  exact ⟨m + 1, '[', _, by decide, rfl⟩

theorem vms_line {fol n b : Str} {l : List (Kserd × Kserd)} (hl : l ≠ []) (h : VMs fol n l b) : Line 0 b := by
  obtain ⟨⟨k, v⟩, r, rfl⟩ := List.exists_cons_of_ne_nil hl
  rw [VMs] at h
  obtain ⟨m, K, t, b2, rfl, -⟩ := h
  exact ⟨m + 1, '[', _, by decide, rfl⟩

theorem vf_line' {d : Nat} {fol n b : Str} {k : Kserd} (hn : ∀ c ∈ n, NameChar c) (hne : n ≠ []) (h : VF d fol n k b) : Line d b := by
  obtain ⟨id, v⟩ := k
  rw [VF] at h
  rcases h with ⟨m, T, rfl, -⟩ | h
  · obtain ⟨c, r, rfl, hc⟩ := name_cons hn hne
    exact ⟨m, c, _, hc, rfl⟩
  · cases v with
    | cntr f =>
      rw [VV] at h
      obtain ⟨-, m, b', rfl, -⟩ := h
      exact ⟨m + 1, '[', _, by decide, rfl⟩
    | seq l => rw [VV] at h; exact vss_line h.2.1 h.2.2
    | map l =>
      rw [VV] at h
      obtain ⟨-, rfl, h1, h2⟩ := h
      exact vms_line h1 h2
    | _ => rw [VV] at h; exact h.elim

theorem vfs_line {d : Nat} {fol b : Str} {fs : List (Str × Kserd)} (hn : ∀ p ∈ fs, ∀ c ∈ p.1, NameChar c) (hne : fs ≠ []) (h : VFs d fol fs b) :
    Line d b := by
  obtain ⟨⟨n, k⟩, r, rfl⟩ := List.exists_cons_of_ne_nil hne
  rw [VFs] at h
  obtain ⟨b1, b2, rfl, h1, h2, -⟩ := h
  exact (vf_line' (hn (n, k) (by simp)) h1 h2).append b2

theorem stop_app {d : Nat} {b fol : Str} (hs : Stop d fol) (h : b = [] ∨ Line d b) : Stop (d + 1) (b ++ fol) := by
  rcases h with rfl | h
  · exact hs.mono (by omega)
  · exact (h.append fol).stop

theorem vfs_stop {d : Nat} {fol b : Str} {fs : List (Str × Kserd)} (hn : ∀ p ∈ fs, ∀ c ∈ p.1, NameChar c) (h : VFs d fol fs b) (hs : Stop d fol) :
    Stop (d + 1) (b ++ fol) := by
  apply stop_app hs
  cases fs with
  | nil => rw [VFs] at h; exact .inl h
  | cons p r => exact .inr (vfs_line hn (by simp) h)

theorem vss_stop {d : Nat} {fol n b : Str} {l : List Kserd} (h : VSs d fol n l b) (hs : Stop (d + 1) fol) : Stop (d + 1) (b ++ fol) := by
  cases l with
  | nil => rw [VSs] at h; subst h; exact hs
  | cons p r => exact ((vss_line (by simp) h).append fol).stop

theorem vms_stop {fol n b : Str} {l : List (Kserd × Kserd)} (h : VMs fol n l b) (hs : Stop 1 fol) : Stop 1 (b ++ fol) := by
  cases l with
  | nil => rw [VMs] at h; subst h; exact hs
  | cons p r => exact ((vms_line (by simp) h).append fol).stop

/-! ## Reading -/

theorem coll_ne {F : List (Str × Kserd)} {cs : List CField} (h : Coll F cs) (hF : F ≠ []) : cs ≠ [] := by
  cases h with
  | nil => exact absurd rfl hF
  | direct _ => simp
  | nested _ => simp
  | seq hl _ => simp [hl]
  | map hm _ _ => simp [hm]

/-- The lines of a container read back. -/
theorem body_read {fs : List (Str × Kserd)} {cs : List CField} {d F : Nat} {x fol : Str} (hs : Stop d fol)
    (hc : Coll fs cs) (hne : fs ≠ []) (ha : Ascending cmpStr fs) (h : Chain (verboseField (kserdNested F (d + 1)) d) cs ('\n' :: x) fol) :
    verbose (kserdNested F (d + 1)) d (x ++ fol) = .ok fol (.mk none (.cntr fs)) := by
  rw [verbose, Chain.many0 (coll_ne hc hne) hs h, bind_ok]
  have := coll_finish (id := none) hc ha
  exact congrArg _ this

/-- The same after a line with the identity. -/
theorem body_read_id {fs : List (Str × Kserd)} {cs : List CField} {d F : Nat} {i b fol : Str} (hi : ValidName i) (hs : Stop d fol)
    (hc : Coll fs cs) (hb : Eol (b ++ fol)) (ha : Ascending cmpStr fs) (h : Chain (verboseField (kserdNested F (d + 1)) d) cs b fol) :
    verbose (kserdNested F (d + 1)) d (ind d ++ ':' :: (i ++ b) ++ fol) = .ok fol (.mk (some i) (.cntr fs)) := by
  have h1 : Chain (verboseField (kserdNested F (d + 1)) d) (.id i :: cs) ('\n' :: (ind d ++ ':' :: (i ++ b))) fol := by
    rw [Chain]
    refine ⟨'\n' :: (ind d ++ ':' :: i), b, by simp, by simp; omega, ?_, h⟩
    have := vf_line (nested := kserdNested F (d + 1)) d 1 (i ++ (b ++ fol)) (c := ':') (by decide)
    rw [body_id hi hb] at this
    rw [← this]
    simp [nls]
  rw [verbose, Chain.many0 (by simp) hs h1, bind_ok]
  have := coll_finish (id := some i) hc ha
  exact congrArg _ this

theorem plain_read {k : Kserd} {T rest : Str} (j d F : Nat) (hk : All TextOk k) (h : Txt false k T) (hr : Ended k T rest) (hb : Bare k → NoOpen rest)
    (hh : (¬ ∃ x, T = '[' :: '\n' :: x) → NoHeading k) : kserdNested (F + 1) d (List.replicate j ' ' ++ T ++ rest) = .ok rest (rereadK k) := by
  have hv := notVerbose hk h hh hr
  obtain ⟨c, r, ht, hws, -⟩ := txt_head (all_self hk) h
  have hdrop : (List.replicate j ' ' ++ T ++ rest).dropWhile isMultiWs = (T ++ rest).dropWhile isMultiWs := by
    rw [List.append_assoc, List.dropWhile_append_of_pos (by intro a ha; rw [List.eq_of_mem_replicate ha]; decide)]
  have hv' : patternVerbose (List.replicate j ' ' ++ T ++ rest) = false := by
    rw [patternVerbose, hdrop]; exact hv
  have h1 := txt_rtG k false T hk h ((T ++ rest).length + 1) false rest (by simp) (by omega) (by
    intro n hn
    rcases hr with hr | hr
    · exact eol_sep hr
    · rw [Multi, hn] at hr; cases hr.1) hb
  have h2 : kserdConcise (T ++ rest) = .ok rest (rereadK k) := h1
  rw [kserdNested, if_neg (by rw [hv']; decide), List.append_assoc]
  have e : T ++ rest = c :: (r ++ rest) := by rw [ht]; rfl
  rw [e] at h2 ⊢
  rw [ignoreWs_sp _ j _ (inline_multi hws), h2]

theorem rereadK_cntr {id : Option Str} {f : List (Str × Kserd)} (hf : f ≠ []) : rereadK (.mk id (.cntr f)) = .mk id (.cntr (rereadF f)) := by
  rw [rereadK, rereadV, if_neg (by simpa using hf)]

theorem reread_asc {f : List (Str × Kserd)} (h : Ascending cmpStr f) : Ascending cmpStr (rereadF f) := by
  have h1 : ((rereadF f).map (·.1)).Pairwise (fun a b => cmpStr a b = .lt) := by
    rw [rereadF_keys, List.pairwise_map]; exact h
  rwa [List.pairwise_map] at h1

theorem rereadF_ne {f : List (Str × Kserd)} (hf : f ≠ []) : rereadF f ≠ [] := by
  obtain ⟨⟨n, k⟩, r, rfl⟩ := List.exists_cons_of_ne_nil hf
  simp [rereadF]

theorem rereadL_ne {f : List Kserd} (hf : f ≠ []) : rereadL f ≠ [] := by
  obtain ⟨k, r, rfl⟩ := List.exists_cons_of_ne_nil hf
  simp [rereadL]

theorem rereadM_ne {f : List (Kserd × Kserd)} (hf : f ≠ []) : rereadM f ≠ [] := by
  obtain ⟨⟨n, k⟩, r, rfl⟩ := List.exists_cons_of_ne_nil hf
  simp [rereadM]

mutual
theorem vfs_rt (fs : List (Str × Kserd)) (d F : Nat) (fol b : Str) (h : VFs d fol fs b) (hk : AllF TextOk fs) (hn : ∀ p ∈ fs, ∀ c ∈ p.1, NameChar c)
    (hs : Stop d fol) (hF : (b ++ fol).length ≤ F + 1) :
    ∃ cs, Coll (rereadF fs) cs ∧ Chain (verboseField (kserdNested F (d + 1)) d) cs b fol := by
  match fs with
  | [] => rw [VFs] at h; exact ⟨[], by rw [rereadF]; exact .nil, h⟩
  | (n, k) :: r =>
    rw [VFs] at h
    obtain ⟨b1, b2, rfl, hne, h1, h2⟩ := h
    have hk' := allF_cons hk
    have hn' : ∀ p ∈ r, ∀ c ∈ p.1, NameChar c := fun p hp => hn p (List.mem_cons_of_mem _ hp)
    rw [List.append_assoc] at hF
    obtain ⟨c2, hc2, hch2⟩ := vfs_rt r d F fol b2 h2 hk'.2 hn' hs (by rw [List.length_append] at hF; omega)
    obtain ⟨c1, hc1, hch1⟩ := vf_rt k d F (b2 ++ fol) n b1 h1 hk'.1 (hn (n, k) (by simp)) hne (vfs_stop hn' h2 hs) hF
    refine ⟨c1 ++ c2, ?_, hch1.append hch2⟩
    rw [rereadF]
    exact hc1.append hc2
theorem vf_rt (k : Kserd) (d F : Nat) (fol n b : Str) (h : VF d fol n k b) (hk : All TextOk k) (hn : ∀ c ∈ n, NameChar c) (hne : n ≠ [])
    (hs : Stop (d + 1) fol) (hF : (b ++ fol).length ≤ F + 1) :
    ∃ cs, Coll [(n, rereadK k)] cs ∧ Chain (verboseField (kserdNested F (d + 1)) d) cs b fol := by
  obtain ⟨id, v⟩ := k
  rw [VF] at h
  rcases h with ⟨m, T, rfl, hT, heol, hb⟩ | h
  · refine ⟨_, .direct .nil, Chain.one (by simp [show (str " = ").length = 3 from rfl]; omega) ?_⟩
    obtain ⟨c, r, rfl, hc⟩ := name_cons hn hne
    have h1 := vf_line (nested := kserdNested F (d + 1)) d m (r ++ (str " = " ++ (T ++ fol))) hc
    have h2 := body_direct (nested := kserdNested F (d + 1)) hn hne hk (by rw [Txt]; exact hT) heol hb
    rw [List.cons_append] at h2
    rw [h2] at h1
    rw [← h1]
    simp
  · exact vv_rt v d F fol n id b h hk hn hne hs hF
theorem vv_rt (v : Value) (d F : Nat) (fol n : Str) (id : Option Str) (b : Str) (h : VV d fol n id v b) (hk : All TextOk (.mk id v))
    (hn : ∀ c ∈ n, NameChar c) (hne : n ≠ []) (hs : Stop (d + 1) fol) (hF : (b ++ fol).length ≤ F + 1) :
    ∃ cs, Coll [(n, rereadK (.mk id v))] cs ∧ Chain (verboseField (kserdNested F (d + 1)) d) cs b fol := by
  match v with
  | .cntr f =>
    rw [VV] at h
    obtain ⟨hf, m, x, rfl, h1, h2⟩ := h
    refine ⟨_, .nested .nil, Chain.one (by simp [nls]; omega) ?_⟩
    have hk1 := all_self hk
    have hall : AllF TextOk f := by rw [All, AllV] at hk; exact hk.2
    have hnames : ∀ p ∈ f, ∀ c ∈ p.1, NameChar c := hk1.2.2.2.1
    have hlen : (('\n' :: x) ++ fol).length + 3 ≤ F + 1 := by
      simp [nls] at hF ⊢
      have : 0 < n.length := List.length_pos_iff.mpr hne
      omega
    obtain ⟨G, rfl⟩ : ∃ G, F = G + 1 := ⟨F - 1, by omega⟩
    obtain ⟨cs, hcs, hch⟩ := vfs_rt f (d + 1) G fol ('\n' :: x) h1 hall hnames hs (by omega)
    have hread := body_read hs hcs (rereadF_ne hf) (reread_asc hk1.2.2.2.2) hch
    have hnest : kserdNested (G + 1) (d + 1) (x ++ fol) = .ok fol (.mk none (.cntr (rereadF f))) := by
      rw [kserdNested, if_pos h2, hread]
    have h3 := body_nested (nested := kserdNested (G + 1) (d + 1)) hn hne (id := id) (fun i hi => hk1.1 i hi) hnest
    have h4 := vf_line (nested := kserdNested (G + 1) (d + 1)) d (m + 1) (c := '[') (n ++ (hid id ++ ']' :: ('\n' :: (x ++ fol)))) (by decide)
    rw [h3] at h4
    rw [rereadK_cntr hf, ← h4]
    simp
  | .seq l =>
    rw [VV] at h
    obtain ⟨rfl, hl, h⟩ := h
    have hall : AllL TextOk l := by rw [All, AllV] at hk; exact hk.2
    refine ⟨(rereadL l).map (.seqEntry none n) ++ [], ?_, ?_⟩
    · rw [rereadK, rereadV]; exact .seq (rereadL_ne hl) .nil
    · rw [List.append_nil]; exact vss_rt l d F fol n b h hall hn hne hs hF
  | .map l =>
    rw [VV] at h
    obtain ⟨rfl, rfl, hl, h⟩ := h
    have hall : AllM TextOk l := by rw [All, AllV] at hk; exact hk.2
    refine ⟨(rereadM l).map (fun p => .mapEntry none n p.1 p.2) ++ [], ?_, ?_⟩
    · rw [rereadK, rereadV]
      exact .map (rereadM_ne hl) ((all_self hk).2.2.imp fun h => h.1) .nil
    · rw [List.append_nil]; exact vms_rt l F fol n b h hall hn hne hs hF
  | .unit => rw [VV] at h; exact h.elim
  | .bool _ => rw [VV] at h; exact h.elim
  | .num _ => rw [VV] at h; exact h.elim
  | .str _ => rw [VV] at h; exact h.elim
  | .barr _ => rw [VV] at h; exact h.elim
  | .tuple _ => rw [VV] at h; exact h.elim
theorem vss_rt (l : List Kserd) (d F : Nat) (fol n b : Str) (h : VSs d fol n l b) (hk : AllL TextOk l) (hn : ∀ c ∈ n, NameChar c) (hne : n ≠ [])
    (hs : Stop (d + 1) fol) (hF : (b ++ fol).length ≤ F + 1) :
    Chain (verboseField (kserdNested F (d + 1)) d) ((rereadL l).map (.seqEntry none n)) b fol := by
  match l with
  | [] => rw [VSs] at h; subst h; rw [rereadL]; rfl
  | k :: r =>
    rw [VSs] at h
    obtain ⟨m, t, b2, rfl, h1, h2⟩ := h
    have hk' := allL_cons hk
    have hlen : (t ++ (b2 ++ fol)).length + 3 ≤ F + 1 := by
      simp [nls, show (str "[[").length = 2 from rfl, show (str "]]").length = 2 from rfl] at hF ⊢
      omega
    have ih := vss_rt r d F fol n b2 h2 hk'.2 hn hne hs (by simp at hlen ⊢; omega)
    obtain ⟨x, rfl, hx, hkey, hread⟩ := ve_rt k d F (b2 ++ fol) t h1 hk'.1 (vss_stop h2 hs) hlen
    rw [rereadL, List.map_cons, Chain]
    refine ⟨nls (m + 1) ++ (ind d ++ (str "[[" ++ (n ++ (str "]]" ++ '\n' :: x)))), b2, by simp, by simp [nls]; omega, ?_, ih⟩
    have h3 := body_seq hn hne hkey hread
    have h4 := vf_line (nested := kserdNested F (d + 1)) d (m + 1) (c := '[') ('[' :: (n ++ (str "]]" ++ '\n' :: (x ++ (b2 ++ fol))))) (by decide)
    rw [show '[' :: '[' :: (n ++ (str "]]" ++ '\n' :: (x ++ (b2 ++ fol)))) = str "[[" ++ (n ++ (str "]]" ++ '\n' :: (x ++ (b2 ++ fol)))) from rfl, h3] at h4
    rw [← h4]
    simp
theorem ve_rt (k : Kserd) (d F : Nat) (fol t : Str) (h : VE d fol k t) (hk : All TextOk k) (hs : Stop (d + 1) fol) (hF : (t ++ fol).length + 3 ≤ F + 1) :
    ∃ x, t = '\n' :: x ∧ x ≠ [] ∧ NoKey (x ++ fol) ∧ kserdNested F (d + 1) (x ++ fol) = .ok fol (rereadK k) := by
  obtain ⟨id, v⟩ := k
  rw [VE] at h
  rcases h with ⟨j, T, rfl, hT, hend, hb, hh⟩ | ⟨h, hkey⟩
  · refine ⟨_, rfl, ?_, ?_, ?_⟩
    · obtain ⟨c, r, hT', -⟩ := txt_head (inl := false) (t := T) (all_self hk) (by rw [Txt]; exact hT)
      simp [hT']
    · rw [List.append_assoc]; exact noKey_txt j hk (by rw [Txt]; exact hT) hend hb
    · obtain ⟨G, rfl⟩ : ∃ G, F = G + 1 := ⟨F - 1, by omega⟩
      exact plain_read j (d + 1) G hk (by rw [Txt]; exact hT) hend hb hh
  · obtain ⟨x, rfl, hx, hr⟩ := vev_rt v (d + 1) F fol id t h hk hs (by omega)
    exact ⟨x, rfl, hx, hkey, hr⟩
theorem vev_rt (v : Value) (d F : Nat) (fol : Str) (id : Option Str) (t : Str) (h : VEV d fol id v t) (hk : All TextOk (.mk id v))
    (hs : Stop d fol) (hF : (t ++ fol).length ≤ F) :
    ∃ x, t = '\n' :: x ∧ x ≠ [] ∧ kserdNested F d (x ++ fol) = .ok fol (rereadK (.mk id v)) := by
  match v with
  | .cntr f =>
    rw [VEV] at h
    obtain ⟨hf, x, h1, h2⟩ := h
    have hk1 := all_self hk
    have hall : AllF TextOk f := by rw [All, AllV] at hk; exact hk.2
    have hnames : ∀ p ∈ f, ∀ c ∈ p.1, NameChar c := hk1.2.2.2.1
    have hasc : Ascending cmpStr (rereadF f) := reread_asc hk1.2.2.2.2
    have hx : x ≠ [] := by
      obtain ⟨m, c, y, hc, e⟩ := vfs_line hnames hf h1
      rintro rfl
      have := congrArg (List.any · (fun c => !isMultiWs c)) e
      simp [hc] at this
      revert this; decide
    have hlen : (('\n' :: x) ++ fol).length ≤ F := by
      rcases h2 with ⟨-, rfl, -⟩ | ⟨i, -, rfl⟩
      · exact hF
      · simp at hF ⊢; omega
    obtain ⟨G, rfl⟩ : ∃ G, F = G + 1 := ⟨F - 1, by simp at hlen; omega⟩
    obtain ⟨cs, hcs, hch⟩ := vfs_rt f d G fol ('\n' :: x) h1 hall hnames hs hlen
    rw [rereadK_cntr hf]
    rcases h2 with ⟨rfl, rfl, hv⟩ | ⟨i, rfl, rfl⟩
    · have hread := body_read hs hcs (rereadF_ne hf) hasc hch
      exact ⟨x, rfl, hx, by rw [kserdNested, if_pos hv, hread]⟩
    · have hread := body_read_id (hk1.1 i rfl) hs hcs (.inr ⟨_, rfl⟩) hasc hch
      have hv : patternVerbose (ind d ++ ':' :: (i ++ '\n' :: x) ++ fol) = true := by
        have hdrop : (ind d ++ ':' :: (i ++ '\n' :: x) ++ fol).dropWhile isMultiWs = ':' :: (i ++ '\n' :: x) ++ fol := by
          rw [List.append_assoc, ind, List.dropWhile_append_of_pos (by intro a ha; rw [List.eq_of_mem_replicate ha]; decide)]
          exact dropWs _ (by decide)
        rw [patternVerbose, hdrop]
        rfl
      exact ⟨_, rfl, by simp, by rw [kserdNested, if_pos hv, hread]⟩
  | .seq _ => rw [VEV] at h; exact h.elim
  | .map _ => rw [VEV] at h; exact h.elim
  | .unit => rw [VEV] at h; exact h.elim
  | .bool _ => rw [VEV] at h; exact h.elim
  | .num _ => rw [VEV] at h; exact h.elim
  | .str _ => rw [VEV] at h; exact h.elim
  | .barr _ => rw [VEV] at h; exact h.elim
  | .tuple _ => rw [VEV] at h; exact h.elim
theorem vms_rt (l : List (Kserd × Kserd)) (F : Nat) (fol n b : Str) (h : VMs fol n l b) (hk : AllM TextOk l) (hn : ∀ c ∈ n, NameChar c) (hne : n ≠ [])
    (hs : Stop 1 fol) (hF : (b ++ fol).length ≤ F + 1) :
    Chain (verboseField (kserdNested F 1) 0) ((rereadM l).map (fun p => .mapEntry none n p.1 p.2)) b fol := by
  match l with
  | [] => rw [VMs] at h; subst h; rw [rereadM]; rfl
  | (k, v) :: r =>
    rw [VMs] at h
    obtain ⟨m, K, t, b2, rfl, hK, h1, h2⟩ := h
    have hk' := allM_cons hk
    have hlen : (t ++ (b2 ++ fol)).length + 3 ≤ F + 1 := by
      simp [nls, show (str "[[").length = 2 from rfl, show (str "]]").length = 2 from rfl] at hF ⊢
      omega
    have ih := vms_rt r F fol n b2 h2 hk'.2.2 hn hne hs (by simp at hlen ⊢; omega)
    have hread := vmv_rt v F (b2 ++ fol) t h1 hk'.2.1 (vms_stop h2 hs) hlen
    rw [rereadM, List.map_cons, Chain]
    refine ⟨nls (m + 1) ++ (str "[[" ++ (n ++ (str "]]" ++ '\n' :: (K ++ ':' :: t)))), b2, by simp, by simp [nls, show (str "[[").length = 2 from rfl]; omega, ?_, ih⟩
    have h3 := body_map hn hne hk'.1 hK hread
    have h4 := vf_line (nested := kserdNested F 1) 0 (m + 1) (c := '[') ('[' :: (n ++ (str "]]" ++ '\n' :: (K ++ ':' :: (t ++ (b2 ++ fol)))))) (by decide)
    rw [show '[' :: '[' :: (n ++ (str "]]" ++ '\n' :: (K ++ ':' :: (t ++ (b2 ++ fol))))) =
      str "[[" ++ (n ++ (str "]]" ++ '\n' :: (K ++ ':' :: (t ++ (b2 ++ fol))))) from rfl, h3, ind_zero, List.nil_append] at h4
    rw [← h4]
    simp
theorem vmv_rt (k : Kserd) (F : Nat) (fol t : Str) (h : VMV fol k t) (hk : All TextOk k) (hs : Stop 1 fol) (hF : (t ++ fol).length + 3 ≤ F + 1) :
    mapEntryValue (kserdNested F 1) (t ++ fol) = .ok fol (rereadK k) := by
  obtain ⟨id, v⟩ := k
  rw [VMV] at h
  apply ctx_ok
  have second : ∀ x, t = '\n' :: x → kserdNested F 1 (x ++ fol) = .ok fol (rereadK (.mk id v)) →
      alt [ignoreWs kserdConcise, preceded (ignoreWs lineEnding) (kserdNested F 1)] (t ++ fol) = .ok fol (rereadK (.mk id v)) := by
    rintro x rfl h
    rw [List.cons_append, alt_skip]
    · apply alt_ok
      rw [preceded, wsLine_nl, bind_ok, h]
    · rw [ignoreWs_none _ _ (by decide)]
      exact kd_nl _ false _
  rcases h with ⟨T, rfl, hT, heol, hb⟩ | ⟨j, T, rfl, hT, heol, hb, hh⟩ | h
  · apply alt_ok
    have hT' : Txt false (.mk id v) T := by rw [Txt]; exact hT
    obtain ⟨c, r, ht, hws, -⟩ := txt_head (all_self hk) hT'
    have h1 := txt_rt _ false T hk hT' ((T ++ fol).length + 1) false fol (by simp) (by omega) (eol_sep heol) hb
    have h2 : kserdConcise (T ++ fol) = .ok fol (rereadK (.mk id v)) := h1
    have e : T ++ fol = c :: (r ++ fol) := by rw [ht]; rfl
    rw [List.cons_append]
    rw [e] at h2 ⊢
    rw [ignoreWs_one _ _ (inline_multi hws), h2]
  · obtain ⟨G, rfl⟩ : ∃ G, F = G + 1 := ⟨F - 1, by omega⟩
    exact second _ rfl (plain_read j 1 G hk (by rw [Txt]; exact hT) (.inl heol) hb hh)
  · obtain ⟨x, hx, -, hr⟩ := vev_rt v 1 F fol id t h hk hs (by omega)
    exact second x hx hr
end

/-- A whole verbose text reads back. -/
theorem parse_verbose {id : Option Str} {v : Value} {t : Str} {m : Nat} (h : VEV 0 (nls m) id v ('\n' :: t)) (hk : All TextOk (.mk id v)) :
    parse (t ++ nls m) = .ok (rereadK (.mk id v)) := by
  have hs : Stop 0 (nls m) := ⟨m, .inl rfl⟩
  obtain ⟨x, hx, hne, hr⟩ := vev_rt v 0 ((t ++ nls m).length + 1) _ id _ h hk hs (by simp)
  cases hx
  have hr' : kserdRoot (t ++ nls m) = .ok [] (rereadK (.mk id v)) := by
    have hw : multiWs (nls m) = .ok [] (nls m) := by
      have h1 : ∀ c ∈ nls m, isMultiWs c = true := by intro c hc; rw [List.eq_of_mem_replicate hc]; decide
      rw [multiWs, takeWhile, (takeWhile_all_nil h1).1, (takeWhile_all_nil h1).2]
    rw [kserdRoot, if_neg (by simp [hne])]
    simp only [allConsuming, terminated, hr, bind_ok, hw]
    rfl
  rw [parse, hr']

end KS.RT
