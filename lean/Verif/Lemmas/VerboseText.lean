import Verif.Lemmas.Assemble
import Verif.Lemmas.RtVWrite
import Verif.Props.Fields
/-!
# Reading verbose text line by line
-/

namespace KS.AS
open KS.Spec KS.P KS.Nom KS.RT KS.Props

theorem txt_any {k : Kserd} {t : Str} (h : Txt true k t) : Txt false k t := by
  obtain ⟨id, v⟩ := k
  rw [Txt] at h ⊢
  cases v with
  | tuple l => rw [TxtV] at h ⊢; obtain ⟨sp, b, h1, h2, h3 | h3⟩ := h; exacts [⟨sp, b, h1, h2, .inl h3⟩, absurd h3.1 (by decide)]
  | seq l => rw [TxtV] at h ⊢; obtain ⟨sp, b, h1, h2, h3 | h3⟩ := h; exacts [⟨sp, b, h1, h2, .inl h3⟩, absurd h3.1 (by decide)]
  | cntr l => rw [TxtV] at h ⊢; obtain ⟨sp, b, h1, h2, h3 | h3⟩ := h; exacts [⟨sp, b, h1, h2, .inl h3⟩, absurd h3.1 (by decide)]
  | map l => rw [TxtV] at h ⊢; obtain ⟨sp, b, h1, h2, h3 | h3⟩ := h; exacts [⟨sp, b, h1, h2, .inl h3⟩, absurd h3.1 (by decide)]
  | _ => rw [TxtV] at h ⊢; exact h

theorem oneLine_txt {c : FormattingConfig} (hc : c.widthLimit = none) {k : Kserd} (h : OnLine c k) : Txt true (hideIds c k) (oneLine c k) := by
  obtain ⟨ht, htu, -⟩ := h
  obtain ⟨f0, hf0, rfl, hr0⟩ := C22_new k
  obtain ⟨f, hf, hroot, -⟩ := C25_inline f0.root f0 (.new hf0) c hc
  have hre : Reachable f0.root f := .config c (.new hf0) hf
  obtain ⟨hdis, -⟩ := displayed_config hr0 hf hroot
  obtain ⟨out, ho⟩ := (C24_write_partial f0.root f hre []).mpr (by
    rw [← hroot]
    exact writable_of_text (flags f) (by rw [← hdis] at ht; exact ht))
  have : f0.root.asStrWithConfig c = some out := by
    rw [Kserd.asStrWithConfig, hf0, Option.bind_some, hf, Option.bind_some, ho]
  rw [oneLine, this]
  exact inline_txt f0.root c hc ht htu this

theorem head_eq (n : Str) (i : Option Str) : headName n i = n ++ hid i := by cases i <;> simp [headName, hid]

theorem newLine_eq (d : Nat) : newLine d = '\n' :: ind d := rfl

/-! ## Headings with identities -/

theorem body_nested' {nested : Parser Kserd} {n x rest : Str} {id : Option Str} {k : Kserd} (hn : ∀ c ∈ n, NameChar c) (hne : n ≠ [])
    (hi : IdOk id) (h : nested (x ++ rest) = .ok rest k) :
    fieldBody nested ('[' :: (n ++ (hid id ++ ']' :: ('\n' :: (x ++ rest))))) = .ok rest (.nested n (.mk (k.id.or id) k.val)) := by
  have hname := name_id hn hne hi ('\n' :: (x ++ rest))
  have hb : fieldBody nested ('[' :: (n ++ (hid id ++ ']' :: ('\n' :: (x ++ rest))))) = nestedField nested ('[' :: (n ++ (hid id ++ ']' :: ('\n' :: (x ++ rest))))) := by
    unfold fieldBody
    rw [if_neg (body_cond _ (by decide))]
    obtain ⟨c, n', rfl⟩ := List.exists_cons_of_ne_nil hne
    have hc := nameChar_facts (hn c (by simp))
    rw [List.cons_append]
    split
    · rename_i heq; injection heq with heq _; exact absurd heq (by decide)
    · rename_i heq; injection heq with _ heq; injection heq with heq _; exact absurd heq hc.2.2.1
    · rfl
    · rename_i heq; exact absurd rfl (heq _)
  rw [hb, nestedField]
  have h1 : tag ['['] ('[' :: (n ++ (hid id ++ ']' :: ('\n' :: (x ++ rest))))) = .ok (n ++ (hid id ++ ']' :: ('\n' :: (x ++ rest)))) ['['] := rfl
  have h2 : ignoreWs (tag [']']) (']' :: ('\n' :: (x ++ rest))) = .ok ('\n' :: (x ++ rest)) [']'] := by
    rw [ignoreWs_none _ _ (by decide)]; rfl
  simp only [preceded, terminated, h1, PRes.bind, hname, h2, wsLine_nl, context, h]

theorem entry_head' {nested : Parser Kserd} {n x : Str} {id : Option Str} (hn : ∀ c ∈ n, NameChar c) (hne : n ≠ []) (hi : IdOk id) :
    (opt (terminated (ignoreWs (uncut kserdInline)) (ignoreWs (Nom.char ':'))) x = .ok x none →
      fieldBody nested (str "[[" ++ (n ++ (hid id ++ (str "]]" ++ '\n' :: x)))) =
        (context "verbose sequence entry" nested x).bind fun i v => .ok i (.seqEntry id n v)) ∧
    ∀ i key, opt (terminated (ignoreWs (uncut kserdInline)) (ignoreWs (Nom.char ':'))) x = .ok i (some key) →
      fieldBody nested (str "[[" ++ (n ++ (hid id ++ (str "]]" ++ '\n' :: x)))) =
        (mapEntryValue nested i).bind fun i v => .ok i (.mapEntry id n key v) := by
  have hname := name_id (id := id) hn hne hi (']' :: ('\n' :: x))
  have e : str "[[" ++ (n ++ (hid id ++ (str "]]" ++ '\n' :: x))) = '[' :: '[' :: (n ++ (hid id ++ (']' :: ']' :: '\n' :: x))) := rfl
  have hf : fieldBody nested ('[' :: '[' :: (n ++ (hid id ++ (']' :: ']' :: '\n' :: x)))) = entryField nested ('[' :: '[' :: (n ++ (hid id ++ (']' :: ']' :: '\n' :: x)))) := by
    unfold fieldBody
    rw [if_neg (body_cond _ (by decide))]
    rfl
  rw [e, hf, entryField]
  have h1 : tag (str "[[") ('[' :: '[' :: (n ++ (hid id ++ (']' :: ']' :: '\n' :: x)))) = .ok (n ++ (hid id ++ (']' :: ']' :: '\n' :: x))) (str "[[") := rfl
  have h2 : ignoreWs (tag (str "]]")) (']' :: ']' :: '\n' :: x) = .ok ('\n' :: x) (str "]]") := by
    rw [ignoreWs_none _ _ (by decide)]; rfl
  have h3 : context "field name. expecting 'field_name[:identity]'"
      (cut (preceded (tag (str "[[")) (terminated nameAndIdentity (ignoreWs (tag (str "]]")))))) ('[' :: '[' :: (n ++ (hid id ++ (']' :: ']' :: '\n' :: x)))) =
      .ok ('\n' :: x) (n, id) := by
    apply ctx_ok
    apply cut_ok
    simp only [preceded, terminated, h1, PRes.bind, hname, h2]
  rw [h3, bind_ok, wsLine_nl, bind_ok]
  constructor
  · intro h; rw [h, bind_ok]
  · intro i key h; rw [h, bind_ok]

theorem body_seq' {nested : Parser Kserd} {n x rest : Str} {id : Option Str} {k : Kserd} (hn : ∀ c ∈ n, NameChar c) (hne : n ≠ []) (hi : IdOk id)
    (hk : NoKey (x ++ rest)) (h : nested (x ++ rest) = .ok rest k) :
    fieldBody nested (str "[[" ++ (n ++ (hid id ++ (str "]]" ++ '\n' :: (x ++ rest))))) = .ok rest (.seqEntry id n k) := by
  rw [(entry_head' hn hne hi).1 (opt_err hk)]
  simp only [PRes.bind, ctx_ok h]

theorem body_map' {nested : Parser Kserd} {n t x rest : Str} {id : Option Str} {k v : Kserd} (j : Nat) (hn : ∀ c ∈ n, NameChar c) (hne : n ≠ [])
    (hi : IdOk id) (hk : All TextOk k) (ht : Txt true k t) (h : mapEntryValue nested (x ++ rest) = .ok rest v) :
    fieldBody nested (str "[[" ++ (n ++ (hid id ++ (str "]]" ++ '\n' :: (List.replicate j ' ' ++ (t ++ ':' :: (x ++ rest))))))) =
      .ok rest (.mapEntry id n (rereadK k) v) := by
  have hf := follow (c := ':') (.inr (.inl rfl)) (x ++ rest)
  have h1 := txt_rt k true t hk ht ((t ++ ':' :: (x ++ rest)).length + 1) true (':' :: (x ++ rest)) (by simp) (by omega) hf.1 (fun _ => hf.2)
  have h2 : uncut kserdInline (t ++ ':' :: (x ++ rest)) = .ok (':' :: (x ++ rest)) (rereadK k) := by
    have : kserdInline (t ++ ':' :: (x ++ rest)) = .ok (':' :: (x ++ rest)) (rereadK k) := h1
    rw [uncut, this]
  have h3 : opt (terminated (ignoreWs (uncut kserdInline)) (ignoreWs (Nom.char ':'))) (List.replicate j ' ' ++ (t ++ ':' :: (x ++ rest))) =
      .ok (x ++ rest) (some (rereadK k)) := by
    apply opt_ok
    obtain ⟨c', r', rfl, hws, -⟩ := txt_head (all_self hk) ht
    rw [List.cons_append] at h2 ⊢
    have h4 : ignoreWs (Nom.char ':') (':' :: (x ++ rest)) = .ok (x ++ rest) ':' := by
      rw [ignoreWs_none _ _ (by decide)]; rfl
    simp only [terminated, ignoreWs_sp _ j _ (inline_multi hws), h2, PRes.bind, h4]
  rw [(entry_head' hn hne hi).2 _ _ h3]
  simp only [PRes.bind, h]

/-! ## Headings are not keys -/

theorem seq_inv {f : Nat} {i r : Str} {k : Kserd} (h : kserdDelimited (f + 1) true ('[' :: i) = .ok r k) :
    ∃ i' l c, inlineList (kserdDelimited f) i = .ok i' l ∧ ignoreWs (Nom.char ']') i' = .ok r c := by
  have hp := comp_pat (id := none) (fun i e => by cases e) (sp := []) (.inl rfl) (o := '[') (by decide) i
  simp only [nid, List.nil_append, next_seq] at hp
  simp only [kserdDelimited, hp, bind_ok] at h
  have ho := opened_eq (id := none) (fun i e => by cases e) (sp := []) (.inl rfl) (o := '[') (by decide) i true
    (fun concise id i =>
    (context (if concise then "multi-line (concise) sequence" else "inline sequence")
      (cut (terminated (if concise then conciseList (kserdDelimited f) else inlineList (kserdDelimited f)) (ignoreWs (Nom.char ']')))) i).bind
      fun r l => kserdCtor id (.seq l) r)
  simp only [nid, List.nil_append] at ho
  rw [seqDelimited, ho, Bool.not_true, Bool.and_false] at h
  obtain ⟨r', l, h1, h2⟩ := bind_inv h
  simp only [kserdCtor] at h2
  injection h2 with h2 _
  subst h2
  have h1 := ctx_inv h1
  rw [cut] at h1
  obtain ⟨i', l', h3, h4⟩ : ∃ i' l', inlineList (kserdDelimited f) i = .ok i' l' ∧
      ((ignoreWs (Nom.char ']') i').bind fun r _ => PRes.ok r l') = .ok r' l := by
    have : terminated (inlineList (kserdDelimited f)) (ignoreWs (Nom.char ']')) i = .ok r' l := by
      simp only [Bool.false_eq_true, if_false] at h1
      revert h1
      cases terminated (inlineList (kserdDelimited f)) (ignoreWs (Nom.char ']')) i <;> intro h1 <;> first | exact h1 | cases h1
    rw [terminated] at this
    exact bind_inv this
  obtain ⟨r2, c, h5, h6⟩ := bind_inv h4
  injection h6 with h6 _
  subst h6
  exact ⟨i', l', c, h3, h5⟩

theorem list_inv {p : Bool → Parser Kserd} {i r : Str} {l : List Kserd} (h : inlineList p i = .ok r l)
    (hs : ∀ r1 a, ignoreWs (p true) i = .ok r1 a → ∃ e, ignoreWs (Nom.char ',') r1 = .err e) :
    r = i ∨ ∃ a, ignoreWs (p true) i = .ok r a := by
  have h := ctx_inv h
  rw [separatedList0] at h
  cases hp : ignoreWs (p true) i with
  | err e => rw [hp] at h; injection h with h _; exact .inl h.symm
  | ok r1 a =>
    rw [hp] at h
    have h : sepLoop (ignoreWs (Nom.char ',')) (ignoreWs (p true)) (r1.length + 1) r1 [a] = .ok r l := h
    rw [sepLoop_stop (hs r1 a hp)] at h
    injection h with h _
    exact .inr ⟨a, by rw [h]⟩
  | _ => rw [hp] at h; cases h

theorem char_inv {c d : Char} {i r : Str} {a : Char} (hd : isInlineWs d = false) (h : ignoreWs (Nom.char c) (d :: i) = .ok r a) : d = c ∧ r = i := by
  rw [ignoreWs_none _ _ hd, Nom.char] at h
  split at h
  · rename_i e; injection h with h _; exact ⟨e, h.symm⟩
  · cases h

/-- `[name]` or `[name:identity]`, read as a sequence, is left at its end. -/
theorem seq_heading {n y r : Str} {id : Option Str} {k : Kserd} {f : Nat} (hn : ∀ c ∈ n, NameChar c) (hne : n ≠ []) (hs : ¬ str "str" <+: n)
    (h : kserdDelimited (f + 1) true ('[' :: (n ++ (hid id ++ ']' :: y))) = .ok r k) : r = y := by
  obtain ⟨d, z, hq, hd, hy⟩ : ∃ d z, hid id ++ ']' :: y = d :: z ∧ (d = ']' ∨ d = ':') ∧ (d = ']' → z = y) := by
    cases id with
    | none => exact ⟨']', y, rfl, .inl rfl, fun _ => rfl⟩
    | some i => exact ⟨':', _, rfl, .inr rfl, fun e => by cases e⟩
  rw [hq] at h
  obtain ⟨i', l, c, h1, h2⟩ := seq_inv h
  have hd' : d = ' ' ∨ d = ']' ∨ d = ':' := .inr hd
  have hp : nextDelim .nonprim ((d :: z).dropWhile isMultiWs) = .none := by rcases hd with rfl | rfl <;> rfl
  obtain ⟨c0, n0, hc0⟩ := List.exists_cons_of_ne_nil hne
  have hw0 := nameChar_facts (hn c0 (by rw [hc0]; simp))
  have hin : ignoreWs (kserdDelimited f true) (n ++ d :: z) = kserdDelimited f true (n ++ d :: z) := by
    rw [hc0, List.cons_append, ignoreWs_none _ _ (inline_multi hw0.1)]
  have hk : ∀ r1 a, ignoreWs (kserdDelimited f true) (n ++ d :: z) = .ok r1 a → ∃ n', n' <:+ n ∧ r1 = n' ++ d :: z := by
    intro r1 a e
    rw [hin] at e
    cases f with
    | zero => cases e
    | succ f => exact kd_name hd' hp hn hne hs e
  have hws : isInlineWs d = false := by rcases hd with rfl | rfl <;> decide
  have hi : ∃ n', n' <:+ n ∧ i' = n' ++ d :: z := by
    rcases list_inv h1 (by
      intro r1 a e
      obtain ⟨n', hn', rfl⟩ := hk r1 a e
      cases n' with
      | nil => exact ignore_err hws (char_err _ (by rcases hd with rfl | rfl <;> decide))
      | cons x n' =>
        have hx := hn x (hn'.subset (by simp))
        refine ignore_err (inline_multi (nameChar_facts hx).1) (char_err _ ?_)
        rintro rfl
        have := (PG.isNameChar_iff _).mpr hx; revert this; decide) with rfl | ⟨a, e⟩
    · exact ⟨n, List.suffix_refl _, rfl⟩
    · exact hk _ _ e
  obtain ⟨n', hn', rfl⟩ := hi
  cases n' with
  | nil =>
    obtain ⟨e1, e2⟩ := char_inv hws h2
    rw [e2, hy e1]
  | cons x n' =>
    have hx := nameChar_facts (hn x (hn'.subset (by simp)))
    exact absurd (char_inv (inline_multi hx.1) h2).1 hx.2.2.2.2

theorem colon_nl (x : Str) : ∃ e, ignoreWs (Nom.char ':') ('\n' :: x) = .err e := ignore_err (by decide) (char_err _ (by decide))

theorem noKey_sub (j : Nat) {n x : Str} {id : Option Str} (hn : ∀ c ∈ n, NameChar c) (hne : n ≠ []) (hs : ¬ str "str" <+: n) :
    NoKey (List.replicate j ' ' ++ '[' :: (n ++ (hid id ++ ']' :: '\n' :: x))) := by
  refine noKey_of (by decide) ?_
  intro r k h
  rw [seq_heading hn hne hs h]
  exact colon_nl x

theorem noKey_entry (j : Nat) {n x : Str} {id : Option Str} (hn : ∀ c ∈ n, NameChar c) (hne : n ≠ []) (hs : ¬ str "str" <+: n) :
    NoKey (List.replicate j ' ' ++ '[' :: '[' :: (n ++ (hid id ++ ']' :: ']' :: '\n' :: x))) := by
  refine noKey_of (by decide) ?_
  intro r k h
  obtain ⟨i', l, c, h1, h2⟩ := seq_inv h
  have hk : ∀ r1 a, ignoreWs (kserdDelimited ('[' :: '[' :: (n ++ (hid id ++ ']' :: ']' :: '\n' :: x))).length true)
      ('[' :: (n ++ (hid id ++ ']' :: ']' :: '\n' :: x))) = .ok r1 a → r1 = ']' :: '\n' :: x := by
    intro r1 a e
    rw [ignoreWs_none _ _ (by decide), List.length_cons] at e
    exact seq_heading hn hne hs e
  rcases list_inv h1 (by
    intro r1 a e
    rw [hk r1 a e]
    exact ignore_err (by decide) (char_err _ (by decide))) with rfl | ⟨a, e⟩
  · exact absurd (char_inv (by decide) h2).1 (by decide)
  · rw [hk _ _ e] at h2
    rw [(char_inv (by decide) h2).2]
    exact colon_nl x

/-! ## Beginnings -/

theorem line_begins {c : FormattingConfig} (d : Nat) {l : VLine} (h : LineOk c l) : Line d (lineText c d l) := by
  have nm : ∀ {n : Str}, GoodName n → ∃ ch r, n = ch :: r ∧ isMultiWs ch = false := fun hn => name_cons hn.2 hn.1
  cases l with
  | id i => rw [lineText]; exact ⟨1, ':', i, by decide, rfl⟩
  | field n k =>
    rw [LineOk] at h
    obtain ⟨ch, r, rfl, hch⟩ := nm h.1
    rw [lineText]; exact ⟨1, ch, _, hch, rfl⟩
  | sub n i ls => rw [lineText]; exact ⟨1, '[', _, by decide, rfl⟩
  | elem n i k => rw [lineText]; exact ⟨1, '[', _, by decide, rfl⟩
  | elemLines n i ls => rw [lineText]; exact ⟨1, '[', _, by decide, rfl⟩
  | entry n i key k => rw [lineText]; exact ⟨1, '[', _, by decide, rfl⟩
  | entryLines n i key ls => rw [lineText]; exact ⟨1, '[', _, by decide, rfl⟩

theorem line_nl (c : FormattingConfig) (d : Nat) (l : VLine) : ∃ x, lineText c d l = '\n' :: x := by
  cases l <;> rw [lineText] <;> exact ⟨_, rfl⟩

theorem lines_eol (c : FormattingConfig) (d : Nat) (ls : List VLine) {fol : Str} (hf : Eol fol) : Eol (linesText c d ls ++ fol) := by
  cases ls with
  | nil => rw [linesText]; exact hf
  | cons l r =>
    obtain ⟨x, hx⟩ := line_nl c d l
    rw [linesText, hx]; exact .inr ⟨_, rfl⟩

theorem lines_stop {c : FormattingConfig} {d : Nat} {ls : List VLine} (h : LinesOk c ls) {fol : Str} (hs : Stop d fol) :
    Stop (d + 1) (linesText c d ls ++ fol) := by
  cases ls with
  | nil => rw [linesText]; exact hs.mono (by omega)
  | cons l r =>
    rw [LinesOk] at h
    rw [linesText, List.append_assoc]
    exact ((line_begins d h.1).append _).stop

theorem pv_lines {c : FormattingConfig} {d : Nat} {ls : List VLine} (h : LinesOk c ls) (hb : Begins ls) {x : Str} (hx : linesText c d ls = '\n' :: x)
    (fol : Str) : patternVerbose (x ++ fol) = true := by
  cases ls with
  | nil => exact hb.elim
  | cons l r =>
    rw [LinesOk] at h
    rw [linesText] at hx
    have h := h.1
    cases l with
    | id i =>
      rw [lineText, newLine_eq] at hx
      have : x ++ fol = nls 0 ++ (ind d ++ ':' :: (i ++ (linesText c d r ++ fol))) := by
        have := (List.cons.inj hx).2
        rw [← this]; simp [nls]; rfl
      rw [this, pv_line _ _ _ (by decide), patternVerbose, dropWs _ (by decide)]
      rfl
    | field n k =>
      rw [LineOk] at h
      rw [lineText, newLine_eq] at hx
      have : x ++ fol = nls 0 ++ (ind d ++ (n ++ (str " = " ++ (oneLine c k ++ (linesText c d r ++ fol))))) := by
        have := (List.cons.inj hx).2
        rw [← this]; simp [nls]
      rw [this]; exact pv_direct _ _ h.1.2 h.1.1 _
    | sub n i ls =>
      obtain ⟨rfl, hv⟩ := hb
      rw [lineText, newLine_eq] at hx
      have : x ++ fol = nls 0 ++ (ind d ++ '[' :: (n ++ ']' :: (linesText c (d + 1) ls ++ (linesText c d r ++ fol)))) := by
        have := (List.cons.inj hx).2
        rw [← this]; simp [nls, headName]; rfl
      rw [this]; exact pv_nested _ _ hv _
    | elem n i k =>
      rw [lineText, newLine_eq] at hx
      have := (List.cons.inj hx).2
      rw [← this]
      show patternVerbose (((ind d ++ _) ++ linesText c d r) ++ fol) = true
      rw [List.append_assoc, List.append_assoc, List.append_assoc]
      exact pv_entry 0 d _
    | elemLines n i ls =>
      rw [lineText, newLine_eq] at hx
      have := (List.cons.inj hx).2
      rw [← this]
      show patternVerbose (((ind d ++ _) ++ linesText c d r) ++ fol) = true
      rw [List.append_assoc, List.append_assoc, List.append_assoc]
      exact pv_entry 0 d _
    | entry n i key k =>
      rw [lineText, newLine_eq] at hx
      have := (List.cons.inj hx).2
      rw [← this]
      show patternVerbose (((ind d ++ _) ++ linesText c d r) ++ fol) = true
      rw [List.append_assoc, List.append_assoc, List.append_assoc]
      exact pv_entry 0 d _
    | entryLines n i key ls =>
      rw [lineText, newLine_eq] at hx
      have := (List.cons.inj hx).2
      rw [← this]
      show patternVerbose (((ind d ++ _) ++ linesText c d r) ++ fol) = true
      rw [List.append_assoc, List.append_assoc, List.append_assoc]
      exact pv_entry 0 d _

theorem noKey_lines {c : FormattingConfig} {d : Nat} {ls : List VLine} (h : LinesOk c ls) (hb : BeginsElem ls) {x : Str}
    (hx : linesText c d ls = '\n' :: x) (fol : Str) : NoKey (x ++ fol) := by
  obtain ⟨hb, hs⟩ := hb
  cases ls with
  | nil => exact hb.elim
  | cons l r =>
    rw [LinesOk] at h
    have h := h.1
    have hs : ∀ n, l.name? = some n → ¬ str "str" <+: n := fun n => hs l n rfl
    have block : ∀ {ls' : List VLine}, Begins ls' → ∃ y, linesText c (d + 1) ls' = '\n' :: y := by
      intro ls' hb'
      cases ls' with
      | nil => exact hb'.elim
      | cons l' r' =>
        obtain ⟨y, hy⟩ := line_nl c (d + 1) l'
        exact ⟨_, by rw [linesText, hy]; rfl⟩
    have ent : ∀ {n : Str} {i : Option Str} {y : Str}, GoodName n → ¬ str "str" <+: n → lineText c d l = newLine d ++ (str "[[" ++ (headName n i ++ (str "]]" ++ '\n' :: y))) →
        NoKey (x ++ fol) := by
      intro n i y hn hns e
      rw [linesText, e, newLine_eq, head_eq] at hx
      have : x ++ fol = ind d ++ '[' :: '[' :: (n ++ (hid i ++ ']' :: ']' :: '\n' :: (y ++ (linesText c d r ++ fol)))) := by
        have := (List.cons.inj hx).2
        rw [← this]; simp [str]
      rw [this]; exact noKey_entry _ hn.2 hn.1 hns
    cases l with
    | id i =>
      rw [linesText, lineText, newLine_eq] at hx
      have : x ++ fol = ind d ++ ':' :: (i ++ (linesText c d r ++ fol)) := by
        have := (List.cons.inj hx).2
        rw [← this]; simp; rfl
      rw [this]; exact noKey_colon _ _
    | field n k =>
      rw [LineOk] at h
      rw [linesText, lineText, newLine_eq] at hx
      have : x ++ fol = ind d ++ (n ++ (str " = " ++ (oneLine c k ++ (linesText c d r ++ fol)))) := by
        have := (List.cons.inj hx).2
        rw [← this]; simp
      rw [this]; exact noKey_name _ h.1.2 h.1.1 (hs n rfl)
    | sub n i ls' =>
      rw [LineOk] at h
      obtain ⟨y, hy⟩ := block h.2.2.1
      rw [linesText, lineText, newLine_eq, head_eq, hy] at hx
      have : x ++ fol = ind d ++ '[' :: (n ++ (hid i ++ ']' :: '\n' :: (y ++ (linesText c d r ++ fol)))) := by
        have := (List.cons.inj hx).2
        rw [← this]; simp [str]
      rw [this]; exact noKey_sub _ h.1.2 h.1.1 (hs n rfl)
    | elem n i k =>
      rw [LineOk] at h
      exact ent h.1 (hs n rfl) (by rw [lineText]; rfl)
    | elemLines n i ls' =>
      rw [LineOk] at h
      obtain ⟨y, hy⟩ := block h.2.2.1.1
      exact ent h.1 (hs n rfl) (by rw [lineText, hy])
    | entry n i key k =>
      rw [LineOk] at h
      exact ent h.1 (hs n rfl) (by rw [lineText]; rfl)
    | entryLines n i key ls' =>
      rw [LineOk] at h
      exact ent h.1 (hs n rfl) (by rw [lineText]; rfl)

/-! ## Values of map entries -/

theorem entry_value {nested : Parser Kserd} {k : Kserd} {T fol : Str} (hk : All TextOk k) (hT : Txt false k T) (heol : Eol fol) (hb : ¬ Bare k) :
    mapEntryValue nested (' ' :: T ++ fol) = .ok fol (rereadK k) := by
  apply ctx_ok
  apply alt_ok
  obtain ⟨c, r, ht, hws, -⟩ := txt_head (all_self hk) hT
  have h1 := txt_rt _ false T hk hT ((T ++ fol).length + 1) false fol (by simp) (by omega) (eol_sep heol) (fun h => absurd h hb)
  have h2 : kserdConcise (T ++ fol) = .ok fol (rereadK k) := h1
  have e : T ++ fol = c :: (r ++ fol) := by rw [ht]; rfl
  rw [List.cons_append]
  rw [e] at h2 ⊢
  rw [ignoreWs_one _ _ (inline_multi hws), h2]

theorem entry_block {nested : Parser Kserd} {k : Kserd} {x fol : Str} (h : nested (x ++ fol) = .ok fol k) :
    mapEntryValue nested ('\n' :: x ++ fol) = .ok fol k := by
  apply ctx_ok
  rw [List.cons_append, alt_skip]
  · apply alt_ok
    rw [preceded, wsLine_nl, bind_ok, h]
  · rw [ignoreWs_none _ _ (by decide)]
    exact kd_nl _ false _

/-! ## Lines -/

/-- Keys as read. -/
def KeysOk (l : List Item) : Prop := ∀ n, ∀ e ∈ entriesFor n l, AllNums lawful e.2.1

theorem keysOk_cons {x : Item} {l : List Item} (hx : ∀ n i key k, x = .entry n i key k → AllNums lawful key) (h : KeysOk l) : KeysOk (x :: l) := by
  intro n e he
  rw [entriesFor, List.filterMap_cons] at he
  cases x with
  | entry m i key k =>
    simp only at he
    by_cases hm : m = n
    · simp only [hm, if_true, List.mem_cons] at he
      rcases he with rfl | he
      · exact hx m i key k rfl
      · exact h n e he
    · simp only [hm, if_false] at he; exact h n e he
  | _ => exact h n e he

/-- One line, then the others. -/
theorem chain_line {nested : Parser Kserd} {d : Nat} {ch : Char} {y b fol : Str} {cf : CField} {cs : List CField} (hch : isMultiWs ch = false)
    (h : fieldBody nested (ch :: (y ++ (b ++ fol))) = .ok (b ++ fol) cf) (hc : Chain (verboseField nested d) cs b fol) :
    Chain (verboseField nested d) (cf :: cs) (newLine d ++ ch :: y ++ b) fol := by
  rw [Chain]
  refine ⟨newLine d ++ ch :: y, b, rfl, by simp [newLine]; omega, ?_, hc⟩
  have := vf_line (nested := nested) d 1 (y ++ (b ++ fol)) hch
  rw [h] at this
  rw [← this]
  simp [nls, newLine, ind]

theorem block_rt {c : FormattingConfig} {ls : List VLine} {d F : Nat} {fol : Str} (h : LinesOk c ls) (hb : Begins ls)
    (hs : Stop d fol) (hF : (linesText c d ls ++ fol).length ≤ F)
    (hl : ∀ G, F = G + 1 → ∃ cs, Items c ls (cs.map item) ∧ KeysOk (cs.map item) ∧ (ls ≠ [] → cs ≠ []) ∧
      Chain (verboseField (kserdNested G (d + 1)) d) cs (linesText c d ls) fol) :
    ∃ x, linesText c d ls = '\n' :: x ∧ ∃ k, kserdNested F d (x ++ fol) = .ok fol k ∧ Means c ls k := by
  have hne : ls ≠ [] := by rintro rfl; exact hb
  obtain ⟨x, hx⟩ : ∃ x, linesText c d ls = '\n' :: x := by
    obtain ⟨l, r, rfl⟩ := List.exists_cons_of_ne_nil hne
    obtain ⟨x, hx⟩ := line_nl c d l
    exact ⟨_, by rw [linesText, hx]; rfl⟩
  obtain ⟨G, rfl⟩ : ∃ G, F = G + 1 := ⟨F - 1, by rw [hx] at hF; simp at hF; omega⟩
  obtain ⟨cs, h1, h2, h3, h4⟩ := hl G rfl
  obtain ⟨f, hf, ha, hv⟩ := finish_means h2
  refine ⟨x, hx, _, ?_, .mk h1 ha hv⟩
  rw [kserdNested, if_pos (pv_lines h hb hx fol), verbose]
  rw [hx] at h4
  rw [Chain.many0 (h3 hne) hs h4, bind_ok, hf]

mutual
theorem lines_rt {c : FormattingConfig} (hc : c.widthLimit = none) (ls : List VLine) (d F : Nat) (fol : Str) (h : LinesOk c ls) (hs : Stop d fol)
    (he : Eol fol) (hF : (linesText c d ls ++ fol).length ≤ F + 1) :
    ∃ cs, Items c ls (cs.map item) ∧ KeysOk (cs.map item) ∧ (ls ≠ [] → cs ≠ []) ∧
      Chain (verboseField (kserdNested F (d + 1)) d) cs (linesText c d ls) fol := by
  match ls with
  | [] => exact ⟨[], .nil, by intro n e he; simp [entriesFor] at he, fun h => absurd rfl h, by rw [linesText, Chain]⟩
  | l :: r =>
    rw [LinesOk] at h
    rw [linesText, List.append_assoc] at hF
    obtain ⟨cs, h1, h2, -, h4⟩ := lines_rt hc r d F fol h.2 hs he (by rw [List.length_append] at hF; omega)
    obtain ⟨cf, hi, hk, hch⟩ := line_rt hc l d F (linesText c d r) fol cs h.1 (lines_stop h.2 hs) (lines_eol c d r he) hF h4
    refine ⟨cf :: cs, hi r (cs.map item) h1, keysOk_cons hk h2, fun _ => by simp, ?_⟩
    rw [linesText]; exact hch
termination_by structural ls
theorem line_rt {c : FormattingConfig} (hc : c.widthLimit = none) (l : VLine) (d F : Nat) (b fol : Str) (cs : List CField) (h : LineOk c l)
    (hs : Stop (d + 1) (b ++ fol)) (he : Eol (b ++ fol)) (hF : (lineText c d l ++ (b ++ fol)).length ≤ F + 1)
    (hch : Chain (verboseField (kserdNested F (d + 1)) d) cs b fol) :
    ∃ cf, (∀ r its, Items c r its → Items c (l :: r) (item cf :: its)) ∧ (∀ n i key k, item cf = .entry n i key k → AllNums lawful key) ∧
      Chain (verboseField (kserdNested F (d + 1)) d) (cf :: cs) (lineText c d l ++ b) fol := by
  match l with
  | .id i =>
    rw [LineOk] at h
    refine ⟨.id i, fun r its hr => .id hr, (by intro _ _ _ _ e; cases e), ?_⟩
    have h1 := body_id (nested := kserdNested F (d + 1)) h he
    rw [lineText]
    exact chain_line (y := i) (by decide) h1 hch
  | .field n k =>
    rw [LineOk] at h
    refine ⟨.direct n (rereadK (hideIds c k)), fun r its hr => .field hr, (by intro _ _ _ _ e; cases e), ?_⟩
    have h1 := body_direct (nested := kserdNested F (d + 1)) h.1.2 h.1.1 h.2.1 (txt_any (oneLine_txt hc h.2)) he (fun hb => absurd hb h.2.2.2)
    obtain ⟨ch, n', rfl, hw⟩ := name_cons h.1.2 h.1.1
    rw [lineText]
    have := chain_line (d := d) (y := n' ++ (str " = " ++ oneLine c k)) (b := b) (fol := fol) hw (by simpa using h1) hch
    simpa using this
  | .sub n i ls =>
    rw [LineOk] at h
    obtain ⟨hn, hi, hb, hls⟩ := h
    rw [lineText] at hF ⊢
    have hF' : (linesText c (d + 1) ls ++ (b ++ fol)).length ≤ F := by simp [newLine, show (str "[[").length = 2 from rfl] at hF ⊢; omega
    obtain ⟨x, hx, k, hr, hm⟩ := block_rt hls hb hs hF' fun G e => lines_rt hc ls (d + 1) G (b ++ fol) hls hs he (by omega)
    obtain ⟨j, v⟩ := k
    refine ⟨.nested n (.mk (j.or i) v), fun r its hr => .sub hm hr, (by intro _ _ _ _ e; cases e), ?_⟩
    have h1 := body_nested' (nested := kserdNested F (d + 1)) (x := x) (rest := b ++ fol) hn.2 hn.1 (id := i) hi hr
    rw [hx, head_eq]
    have := chain_line (d := d) (y := n ++ (hid i ++ ']' :: '\n' :: x)) (b := b) (fol := fol) (ch := '[') (by decide) (by simpa using h1) hch
    simpa [str] using this
  | .elem n i k =>
    rw [LineOk] at h
    obtain ⟨hn, hi, hk, hh⟩ := h
    rw [lineText] at hF ⊢
    refine ⟨.seqEntry i n (rereadK (hideIds c k)), fun r its hr => .elem hr, (by intro _ _ _ _ e; cases e), ?_⟩
    have ht := txt_any (oneLine_txt hc hk)
    obtain ⟨G, rfl⟩ : ∃ G, F = G + 1 := ⟨F - 1, by simp [newLine, show (str "[[").length = 2 from rfl] at hF; omega⟩
    have hr := plain_read (4 * (d + 1)) (d + 1) G hk.1 ht (.inl he) (fun hb => absurd hb hk.2.2) (fun _ => hh)
    have hno := noKey_txt (4 * (d + 1)) hk.1 ht (.inl he) (fun hb => absurd hb hk.2.2)
    have h1 := body_seq' (nested := kserdNested (G + 1) (d + 1)) (x := List.replicate (4 * (d + 1)) ' ' ++ oneLine c k) (rest := b ++ fol) hn.2 hn.1 (id := i) hi
      (by rw [List.append_assoc]; exact hno) hr
    rw [head_eq]
    have := chain_line (d := d) (y := '[' :: (n ++ (hid i ++ (str "]]" ++ '\n' :: (List.replicate (4 * (d + 1)) ' ' ++ oneLine c k))))) (b := b) (fol := fol)
      (ch := '[') (by decide) (by simpa [str] using h1) hch
    simpa [str, newLine] using this
  | .elemLines n i ls =>
    rw [LineOk] at h
    obtain ⟨hn, hi, hb, hls⟩ := h
    rw [lineText] at hF ⊢
    have hF' : (linesText c (d + 1) ls ++ (b ++ fol)).length ≤ F := by simp [newLine, show (str "[[").length = 2 from rfl] at hF ⊢; omega
    obtain ⟨x, hx, k, hr, hm⟩ := block_rt hls hb.1 hs hF' fun G e => lines_rt hc ls (d + 1) G (b ++ fol) hls hs he (by omega)
    refine ⟨.seqEntry i n k, fun r its hr => .elemLines hm hr, (by intro _ _ _ _ e; cases e), ?_⟩
    have h1 := body_seq' (nested := kserdNested F (d + 1)) (x := x) (rest := b ++ fol) hn.2 hn.1 (id := i) hi (noKey_lines hls hb hx _) hr
    rw [hx, head_eq]
    have := chain_line (d := d) (y := '[' :: (n ++ (hid i ++ (str "]]" ++ '\n' :: x)))) (b := b) (fol := fol) (ch := '[') (by decide)
      (by simpa [str] using h1) hch
    simpa [str] using this
  | .entry n i key k =>
    rw [LineOk] at h
    obtain ⟨hn, hi, hkey, hk⟩ := h
    rw [lineText]
    refine ⟨.mapEntry i n (rereadK (hideIds c key)) (rereadK (hideIds c k)), fun r its hr => .entry hr, (by intro _ _ _ _ e; cases e; exact hkey.2), ?_⟩
    have hv := entry_value (nested := kserdNested F (d + 1)) hk.1 (txt_any (oneLine_txt hc hk)) he hk.2.2
    have h1 := body_map' (nested := kserdNested F (d + 1)) (x := ' ' :: oneLine c k) (rest := b ++ fol) (4 * (d + 1)) hn.2 hn.1 (id := i) hi hkey.1.1
      (oneLine_txt hc hkey.1) hv
    rw [head_eq]
    have := chain_line (d := d) (y := '[' :: (n ++ (hid i ++ (str "]]" ++ '\n' :: (List.replicate (4 * (d + 1)) ' ' ++ (oneLine c key ++ ':' :: ' ' :: oneLine c k))))))
      (b := b) (fol := fol) (ch := '[') (by decide) (by simpa [str] using h1) hch
    simpa [str, newLine] using this
  | .entryLines n i key ls =>
    rw [LineOk] at h
    obtain ⟨hn, hi, hkey, hb, hls⟩ := h
    rw [lineText] at hF ⊢
    have hF' : (linesText c (d + 1) ls ++ (b ++ fol)).length ≤ F := by simp [newLine, show (str "[[").length = 2 from rfl] at hF ⊢; omega
    obtain ⟨x, hx, k, hr, hm⟩ := block_rt hls hb hs hF' fun G e => lines_rt hc ls (d + 1) G (b ++ fol) hls hs he (by omega)
    refine ⟨.mapEntry i n (rereadK (hideIds c key)) k, fun r its hr => .entryLines hm hr, (by intro _ _ _ _ e; cases e; exact hkey.2), ?_⟩
    have hv := entry_block hr
    have h1 := body_map' (nested := kserdNested F (d + 1)) (x := '\n' :: x) (rest := b ++ fol) (4 * (d + 1)) hn.2 hn.1 (id := i) hi hkey.1.1
      (oneLine_txt hc hkey.1) hv
    rw [hx, head_eq]
    have := chain_line (d := d) (y := '[' :: (n ++ (hid i ++ (str "]]" ++ '\n' :: (List.replicate (4 * (d + 1)) ' ' ++ (oneLine c key ++ ':' :: '\n' :: x))))))
      (b := b) (fol := fol) (ch := '[') (by decide) (by simpa [str] using h1) hch
    simpa [str, newLine] using this
termination_by structural l
end

/-! ## The lines determine the container -/

theorem items_cons {c : FormattingConfig} {l : VLine} {r : List VLine} {its : List Item} (h : Items c (l :: r) its) :
    ∃ x t, its = x :: t ∧ Items c [l] [x] ∧ Items c r t := by
  cases h with
  | id hr => exact ⟨_, _, rfl, .id .nil, hr⟩
  | field hr => exact ⟨_, _, rfl, .field .nil, hr⟩
  | sub a hr => exact ⟨_, _, rfl, .sub a .nil, hr⟩
  | elem hr => exact ⟨_, _, rfl, .elem .nil, hr⟩
  | elemLines a hr => exact ⟨_, _, rfl, .elemLines a .nil, hr⟩
  | entry hr => exact ⟨_, _, rfl, .entry .nil, hr⟩
  | entryLines a hr => exact ⟨_, _, rfl, .entryLines a .nil, hr⟩

theorem means_unique {c : FormattingConfig} {ls : List VLine}
    (hu : ∀ its its', Items c ls its → Items c ls its' → its = its') {k k' : Kserd} (h1 : Means c ls k) (h2 : Means c ls k') : k = k' := by
  obtain ⟨hi, ha, hf⟩ := h1
  obtain ⟨hi', ha', hf'⟩ := h2
  cases hu _ _ hi hi'
  rw [BTree.Ascending.ext lawStr ha ha' (fun p => (hf p.1 p.2).trans (hf' p.1 p.2).symm)]

mutual
theorem items_unique {c : FormattingConfig} (ls : List VLine) (its its' : List Item) (h1 : Items c ls its) (h2 : Items c ls its') :
    its = its' := by
  match ls with
  | [] => cases h1; cases h2; rfl
  | l :: r =>
    obtain ⟨x, t, rfl, hx, ht⟩ := items_cons h1
    obtain ⟨x', t', rfl, hx', ht'⟩ := items_cons h2
    rw [items_unique r t t' ht ht', item_unique l x x' hx hx']
termination_by structural ls
theorem item_unique {c : FormattingConfig} (l : VLine) (x x' : Item) (h1 : Items c [l] [x]) (h2 : Items c [l] [x']) : x = x' := by
  match l with
  | .id i => cases h1; cases h2; rfl
  | .field n k => cases h1; cases h2; rfl
  | .sub n i ls =>
    cases h1 with | sub a _ => cases h2 with | sub b _ =>
    have := means_unique (fun its its' h1 h2 => items_unique ls its its' h1 h2) a b
    injection this with e1 e2
    rw [e1, e2]
  | .elem n i k => cases h1; cases h2; rfl
  | .elemLines n i ls =>
    cases h1 with | elemLines a _ => cases h2 with | elemLines b _ =>
    rw [means_unique (fun its its' h1 h2 => items_unique ls its its' h1 h2) a b]
  | .entry n i key k => cases h1; cases h2; rfl
  | .entryLines n i key ls =>
    cases h1 with | entryLines a _ => cases h2 with | entryLines b _ =>
    rw [means_unique (fun its its' h1 h2 => items_unique ls its its' h1 h2) a b]
termination_by structural l
end

end KS.AS
