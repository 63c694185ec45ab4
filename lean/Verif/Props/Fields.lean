import Verif.Props.RoundTrip
/-!
# C39: repeated field names
-/

namespace KS.RT
open KS.Spec KS.P KS.Nom

/-- Reading a single-line container whose field names may repeat. -/
theorem dup_rt {id : Option Str} (hid : CId id) {sp : Str} (hsp : Blank sp) {l : List (Str × Kserd)} (hne : l ≠ []) {b : Str} (hk : AllF TextOk l)
    (hn : ∀ p ∈ l, ∀ c ∈ p.1, NameChar c) (hd : TxtFI l [] b) (f : Nat) (rest : Str) (hlen : (b ++ ')' :: rest).length < f) (force : Bool) :
    kserdDelimited (f + 1) force (nid sp id ++ '(' :: (b ++ ')' :: rest)) =
      .ok rest (.mk id (.cntr (BTree.fromIter cmpStr (fun a b => a == b) (rereadF l)))) := by
  cases l with
  | nil => exact absurd rfl hne
  | cons p r =>
  obtain ⟨n, k⟩ := p
  have hn1 : ∀ c ∈ n, NameChar c := hn (n, k) (by simp)
  have hin := finl_rt ((n, k) :: r) b hk hn hd f rest hlen
  obtain ⟨X, eX⟩ : ∃ X, b ++ ')' :: rest = n ++ (str " = " ++ X) := by
    rw [TxtFI] at hd; obtain ⟨t, b', rfl, -⟩ := hd
    exact ⟨t ++ (b' ++ ')' :: rest), by simp⟩
  have hnu : NotUnit id (b ++ ')' :: rest) := by
    intro _ c x hx
    obtain ⟨s, hsb, hdr⟩ := field_drop_inline hn1 X
    rw [eX, hdr] at hx
    cases n with
    | nil =>
      rcases hsb with rfl | rfl
      · cases hx; decide
      · cases hx; decide
    | cons c' n' =>
      injection hx with hx _
      subst hx
      rintro rfl
      exact absurd ((PG.isNameChar_iff _).mpr (hn1 ')' (by simp))) (by decide)
  have hrfa : recogniseFieldAssign ((b ++ ')' :: rest).dropWhile isMultiWs) = true := by
    obtain ⟨s, hsb, hdr⟩ := field_drop hn1 X
    rw [eX, hdr]; exact rfa_true hn1 hsb X
  simp only [kserdDelimited, comp_pat hid hsp (o := '(') (by decide) _, PRes.bind, next_paren hnu, hrfa, if_true]
  rw [cntrDelimited, opened_eq hid hsp (by decide)]
  have hrc : recogniseConcise (b ++ ')' :: rest) = false := by
    rw [eX]
    cases n with
    | nil =>
      show recogniseConcise (' ' :: '=' :: _) = false
      rw [concise_sp]; exact concise_head (by decide) _
    | cons c' n' =>
      refine concise_head ?_ _
      have hc := (PG.isNameChar_iff c').mpr (hn1 c' (by simp))
      rw [isMultiWs, ← Bool.not_eq_true, List.contains_iff_mem]
      intro hm
      have : ∀ x ∈ str " \t\r\n", isNameChar x = false := by decide
      rw [this c' hm] at hc; cases hc
  simp only [hrc, Bool.false_and, Bool.false_eq_true, if_false]
  rw [ctx_ok (show terminated _ _ _ = .ok rest (rereadF ((n, k) :: r)) by simp only [terminated, hin, PRes.bind, close_ok (c := ')') (by decide)])]
  simp only [PRes.bind]
  exact ctor_ok (fun i hi => (hid i hi).1) _ rest

/-- The single-line text written with no width limit. -/
theorem inline_txt (root : Kserd) (c : FormattingConfig) (hc : c.widthLimit = none) (ht : All TextOk (hideIds c root))
    (htu : c.idOnTuples = false → ∀ x ∈ preorder root, ∀ l, x.val = .tuple l → x.id = none) {out : Str} (ho : root.asStrWithConfig c = some out) :
    Txt true (hideIds c root) out := by
  obtain ⟨f0, hf0, rfl, hr0⟩ := Props.C22_new root
  obtain ⟨f, hf, hroot, hin⟩ := Props.C25_inline f0.root f0 (.new hf0) c hc
  have hre : Reachable f0.root f := .config c (.new hf0) hf
  obtain ⟨-, hr⟩ := Props.C22_rules f0.root f hre
  obtain ⟨hdis, hfl⟩ := displayed_config hr0 hf hroot
  rw [Kserd.asStrWithConfig, hf0, Option.bind_some, hf, Option.bind_some] at ho
  have hli : ∀ i, i < (preorder f0.root).length → line f i = some .inline := hin
  have hp : AtN (Plain f.fmts) 0 (preorder f.root) := by
    intro j x hx
    rw [hroot] at hx
    rw [Nat.zero_add]
    have hlj := hli j (List.getElem?_eq_some_iff.mp hx).1
    obtain ⟨n, hnn, rfl⟩ := nav_get hr (by rw [hroot]; exact hx)
    have hs : Fm.Shape f := ⟨hr.nav, hr.len⟩
    have hline : ∀ fm, f.fmts[j]? = some fm → line f j = some fm.line := fun fm hfm => by rw [line, hfm]; rfl
    refine ⟨hs.fmt hnn, ?_, ?_, ?_, ?_, ?_, ?_⟩
    · intro fm hfm; exact hr.max j n fm.line hnn (hline fm hfm)
    · intro fm hfm fs _ e
      rw [hline fm hfm, e] at hlj; cases hlj
    · intro fm hfm e ⟨l, hl⟩
      have h1 : flags f j = false := by rw [← flag_eq, flag_of hfm, e]
      rw [hfl j _ hx, hl] at h1
      exact htu h1 _ (List.mem_of_getElem? hx) l hl
    · intro fm hfm e m hm fm' hfm'
      have := inline_range hr hnn hlj (j + m) (by omega) (by omega)
      rw [line, hfm'] at this
      exact Option.some.inj this
    · intro fm hfm e
      rw [hline fm hfm] at hlj
      exact absurd (Option.some.inj hlj) e
    · intro e
      rw [← hdis] at ht
      have := (all_mem _).mp ht _ (List.mem_of_getElem? (shown_get f (by rw [hroot]; exact hx)))
      rcases hk : n.kserd with ⟨id, v⟩
      rw [hk] at e this
      cases e
      exact this.2
  rw [Formatter.writeString] at ho
  obtain ⟨t, rfl, hT⟩ := node_txt f.root 0 0 [] out hp true (by
    intro _ m hm fm hfm
    rw [Nat.zero_add] at hfm
    have := hli m (by rw [Wr.size_preorder, ← hroot]; exact hm)
    rw [line, hfm] at this
    exact Option.some.inj this) ho
  rw [flag_eq, ← displayed, hdis] at hT
  exact hT

end KS.RT

namespace KS.Props
open KS.Spec KS.Nav KS.RT

/-- `name = text` for every field, separated by commas. -/
def fieldsText : List (Str × Str) → Str
  | [] => []
  | [(n, t)] => n ++ (str " = " ++ t)
  | (n, t) :: p :: r => n ++ (str " = " ++ (t ++ (str ", " ++ fieldsText (p :: r))))

/-- What may stand as a field of the text: the value is readable as in C34. -/
def FieldOk (c : FormattingConfig) (p : Str × Kserd) : Prop :=
  (∀ ch ∈ p.1, NameChar ch) ∧ All TextOk (hideIds c p.2) ∧ (c.idOnTuples = false → ∀ x ∈ preorder p.2, ∀ l, x.val = .tuple l → x.id = none)

theorem fieldsText_txt (c : FormattingConfig) (hc : c.widthLimit = none) : ∀ (l : List (Str × Kserd)) (ts : List Str), (∀ p ∈ l, FieldOk c p) →
    l.map (fun p => p.2.asStrWithConfig c) = ts.map some →
    (l ≠ [] → TxtFI (hideIdsF c l) [] (fieldsText ((l.map (·.1)).zip ts))) ∧
    TxtFI (hideIdsF c l) (str ", ") (if l.isEmpty then [] else str ", " ++ fieldsText ((l.map (·.1)).zip ts))
  | [], ts, _, _ => ⟨fun h => absurd rfl h, by rw [hideIdsF, TxtFI]; rfl⟩
  | (n, k) :: r, [], _, h => by simp at h
  | (n, k) :: r, t :: ts, ho, h => by
    simp only [List.map_cons, List.cons.injEq] at h
    obtain ⟨h1, h2⟩ := h
    obtain ⟨-, ok2, ok3⟩ := ho (n, k) (by simp)
    have ht := inline_txt k c hc ok2 ok3 h1
    have ih := (fieldsText_txt c hc r ts (fun p hp => ho p (by simp [hp])) h2).2
    have key : ∀ pre, TxtFI (hideIdsF c ((n, k) :: r)) pre (pre ++ fieldsText ((((n, k) :: r).map (·.1)).zip (t :: ts))) := by
      intro pre
      rw [hideIdsF, TxtFI]
      refine ⟨t, _, ?_, ht, ih⟩
      cases r with
      | nil => simp [fieldsText]
      | cons q r =>
        cases ts with
        | nil => simp at h2
        | cons u ts => simp [fieldsText]
    exact ⟨fun _ => by simpa using key [], by simpa using key (str ", ")⟩

theorem hideIdsF_map (c : FormattingConfig) : ∀ l : List (Str × Kserd), rereadF (hideIdsF c l) = l.map (fun p => (p.1, rereadK (hideIds c p.2)))
  | [] => rfl
  | (n, k) :: r => by rw [hideIdsF, rereadF, hideIdsF_map c r]; rfl

theorem hideIdsF_keys (c : FormattingConfig) : ∀ l : List (Str × Kserd), (hideIdsF c l).map (·.1) = l.map (·.1)
  | [] => rfl
  | (n, k) :: r => by rw [hideIdsF, List.map_cons, List.map_cons, hideIdsF_keys c r]

theorem allF_hide (c : FormattingConfig) : ∀ l : List (Str × Kserd), (∀ p ∈ l, FieldOk c p) → AllF TextOk (hideIdsF c l)
  | [], _ => by rw [hideIdsF, AllF]; trivial
  | (n, k) :: r, h => by
    rw [hideIdsF, AllF]
    exact ⟨(h (n, k) (by simp)).2.1, allF_hide c r (fun p hp => h p (by simp [hp]))⟩

/-- **C39.** A container written on one line as `id (n1 = v1, n2 = v2, …)`, where every value is written as the crate writes it
without a width limit, parses to a container in ascending name order that holds exactly, for every name, the value written last
(as it reads back). Names may repeat and stand in any order. -/
theorem C39_last_field (c : FormattingConfig) (hc : c.widthLimit = none) (id : Option Str) (hid : ∀ i, id = some i → ValidName i ∧ NotBool i)
    (l : List (Str × Kserd)) (ts : List Str) (hne : l ≠ []) (hok : ∀ p ∈ l, FieldOk c p) (ht : l.map (fun p => p.2.asStrWithConfig c) = ts.map some) :
    ∃ f, parse (id.getD [] ++ (str "(" ++ (fieldsText ((l.map (·.1)).zip ts) ++ str ")"))) = .ok (.mk id (.cntr f)) ∧
      Ascending cmpStr f ∧ ∀ p, p ∈ f ↔ LastFor (· = ·) (l.map (fun p => (p.1, rereadK (hideIds c p.2)))) p := by
  have htx := (fieldsText_txt c hc l ts hok ht).1 hne
  generalize fieldsText ((l.map (·.1)).zip ts) = b at htx ⊢
  have hne' : hideIdsF c l ≠ [] := by
    cases l with
    | nil => exact absurd rfl hne
    | cons p r => obtain ⟨n, k⟩ := p; rw [hideIdsF]; simp
  have hnm : ∀ p ∈ hideIdsF c l, ∀ ch ∈ p.1, NameChar ch := by
    intro p hp
    have : p.1 ∈ (hideIdsF c l).map (·.1) := List.mem_map.mpr ⟨p, hp, rfl⟩
    rw [hideIdsF_keys] at this
    obtain ⟨q, hq, e⟩ := List.mem_map.mp this
    rw [← e]; exact (hok q hq).1
  have hrt := dup_rt hid (.inl rfl : Blank []) hne' (allF_hide c l hok) hnm htx
  have eid : ∀ x, id.getD [] ++ x = nid [] id ++ x := by intro x; cases id <;> simp [nid]
  have et : id.getD [] ++ (str "(" ++ (b ++ str ")")) = nid [] id ++ '(' :: (b ++ ')' :: []) := by rw [eid]; rfl
  rw [et]
  refine ⟨BTree.fromIter cmpStr (fun a b => a == b) (rereadF (hideIdsF c l)), ?_, ?_, ?_⟩
  · -- not taken for a verbose container
    have hpv : P.patternVerbose (nid [] id ++ '(' :: (b ++ ')' :: [])) = false := by
      have hrfa : P.recogniseFieldAssign (nid [] id ++ '(' :: (b ++ ')' :: [])) = false := by
        refine rfa_stop _ ?_ (by decide) (by decide)
        cases id with
        | none => simp [nid]
        | some i => intro ch hch; simp [nid] at hch; exact maybe_of_name (name_chars (hid i rfl).1 ch hch)
      obtain ⟨ch, x, h1, h2, h3⟩ := nid_head (sp := []) (id := id) hid (o := '(') (by decide) (b ++ ')' :: [])
      have h4 : ch ≠ ':' ∧ ch ≠ '[' := by
        cases id with
        | none => cases h1; decide
        | some i =>
          obtain ⟨c0, r0, rfl, -⟩ := name_head (hid i rfl).1
          have hc := name_chars (hid _ rfl).1 c0 (by simp)
          cases h1
          constructor <;> (rintro rfl; exact absurd hc (by decide))
      have hdw : (ch :: x).dropWhile P.isMultiWs = ch :: x := by rw [List.dropWhile_cons, h2]; rfl
      have e1 : P.startsWith [':'] (ch :: x) = false := startsWith_head [] x h4.1
      have e2 : P.startsWith (str "[[") (ch :: x) = false := startsWith_head ['['] x h4.2
      have e3 : P.encasedName (ch :: x) = false := by
        rw [P.encasedName]; simp only [Nom.preceded, tag_err _ h4.2, PRes.bind, PRes.isOk]
      rw [h1] at hrfa ⊢
      simp only [P.patternVerbose, hdw, e1, e2, e3, hrfa, Bool.or_false]
    have hk := hrt ((nid [] id ++ '(' :: (b ++ ')' :: [])).length) [] (by simp; omega) false
    obtain ⟨ch, x, h1, h2, h3⟩ := nid_head (sp := []) (id := id) hid (o := '(') (by decide) (b ++ ')' :: [])
    have hcc : P.ignoreWs P.kserdConcise (nid [] id ++ '(' :: (b ++ ')' :: [])) =
        .ok [] (.mk id (.cntr (BTree.fromIter cmpStr (fun a b => a == b) (rereadF (hideIdsF c l))))) := by
      rw [h1, ignoreWs_none _ _ (inline_multi h2), ← h1]; exact hk
    have hn : P.kserdNested ((nid [] id ++ '(' :: (b ++ ')' :: [])).length + 1) 0 (nid [] id ++ '(' :: (b ++ ')' :: [])) =
        .ok [] (.mk id (.cntr (BTree.fromIter cmpStr (fun a b => a == b) (rereadF (hideIdsF c l))))) := by
      rw [P.kserdNested, if_neg (by rw [hpv]; decide)]; exact hcc
    rw [parse, P.kserdRoot, if_neg (by rw [h1]; simp)]
    simp only [Nom.allConsuming, Nom.terminated, hn, PRes.bind]
    rfl
  · exact (BTree.fromIter_spec lawStr _ (fun _ _ => trivial)).2.2.2.1
  · obtain ⟨-, -, -, -, h5⟩ := BTree.fromIter_spec lawStr (rereadF (hideIdsF c l)) (fun _ _ => trivial)
    intro p
    rw [h5, hideIdsF_map]; unfold LastFor; simp only [cmpStr_eq]

/-- The hypotheses are met: three fields, the name `a` twice. -/
example : (∀ p ∈ [(str "a", Kserd.mk none (.num (.uint 1))), (str "b", .mk none (.bool true)), (str "a", .mk none (.str (str "x")))],
      FieldOk { widthLimit := none } p) ∧
    [(str "a", Kserd.mk none (.num (.uint 1))), (str "b", .mk none (.bool true)), (str "a", .mk none (.str (str "x")))].map
      (fun p => p.2.asStrWithConfig { widthLimit := none }) = [str "1", str "true", str "\"x\""].map some ∧
    parse (str "(a = 1, b = true, a = \"x\")") = .ok (.mk none (.cntr [(str "a", .mk none (.str (str "x"))), (str "b", .mk none (.bool true))])) := by
  refine ⟨?_, by decide +kernel, by decide +kernel⟩
  have hn : ∀ n ∈ [str "a", str "b"], ∀ ch ∈ n, NameChar ch := by decide +kernel
  have ht : ∀ k ∈ [Kserd.mk none (.num (.uint 1)), .mk none (.bool true), .mk none (.str (str "x"))],
      All TextOk (hideIds { widthLimit := none } k) := by decide +kernel
  intro p hp
  simp only [List.mem_cons, List.not_mem_nil, or_false] at hp
  rcases hp with rfl | rfl | rfl
  · exact ⟨hn _ (by simp), ht _ (by simp), fun h => by cases h⟩
  · exact ⟨hn _ (by simp), ht _ (by simp), fun h => by cases h⟩
  · exact ⟨hn _ (by simp), ht _ (by simp), fun h => by cases h⟩

end KS.Props
