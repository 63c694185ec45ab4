import Verif.Lemmas.GrammarDoc
import Verif.Lemmas.ParseFuel
/-!
# Text of the grammar is accepted by the parser: lines
-/

namespace KS.GR
open KS.Spec KS.P KS.Nom KS.RT KS.AS KS.Ext

variable {α β γ : Type}

/-- `kserd_nested` with enough fuel. -/
def N (d : Nat) : Parser Kserd := fun i => kserdNested (i.length + 1) d i

theorem N_eq (d : Nat) (i : Str) : N d i = if patternVerbose i then verbose (N (d + 1)) d i else ignoreWs kserdConcise i := by
  unfold N
  rw [kserdNested]
  split
  · rw [verbose, verbose]
    congr 1
    refine PG.many0Loop_congr (Q := PG.CFieldOk) _ i [] (fun j hj => PG.verboseField_res d j fun l _ hl => ?_) fun j hj =>
      PG.verboseField_congr d fun l _ hl => ⟨?_, ?_⟩
    · exact PG.nested_res _ (d + 1) l (by have := hj.length_le; omega)
    · exact PG.nested_res _ (d + 1) l (by have := hj.length_le; omega)
    · exact PG.nested_fuel _ _ (d + 1) l (by have := hj.length_le; omega) (by omega)
  · rfl

theorem N_shrinks (d : Nat) : Shrinks (N d) := fun i r a h => nested_shrinks _ _ i r a h

/-! ## Line ends, blank lines, indentation -/

theorem lineEnding_ok {e : Str} (h : LineEnd e) (r : Str) : lineEnding (e ++ r) = .ok r e := by
  rcases h with rfl | rfl <;> rfl

theorem lineEnd_ends {e : Str} (h : LineEnd e) (r : Str) : Ends isInlineWs (e ++ r) := by
  rcases h with rfl | rfl <;> exact ends_cons (by decide) _

theorem ign_line {w e : Str} (hw : Blanks w) (h : LineEnd e) (r : Str) : ignoreWs lineEnding (w ++ (e ++ r)) = .ok r e := by
  rw [ignoreWs_ok hw (lineEnd_ends h r), lineEnding_ok h]

theorem lineEnding_err {c : Char} (h : isMultiWs c = false) (r : Str) : ∃ e, lineEnding (c :: r) = .err e := by
  refine ⟨[(c :: r, .crlf)], ?_⟩
  rw [lineEnding]
  · rintro r' he; cases he; cases h
  · rintro r' he; cases he; cases h

/-- Neither a blank nor a line end follows. -/
def NoLine (t : Str) : Prop := Ends isInlineWs t ∧ ∃ e, lineEnding t = .err e

theorem noLine_of_multi {t : Str} (ht : Ends isMultiWs t) : NoLine t := by
  refine ⟨inline_of_multi ht, ?_⟩
  cases t with
  | nil => exact ⟨_, rfl⟩
  | cons c r => exact lineEnding_err (ht c r rfl) r

theorem ign_line_err' {b t : Str} (hb : Blanks b) (ht : NoLine t) : ∃ e, ignoreWs lineEnding (b ++ t) = .err e := by
  rw [ignoreWs_ok hb ht.1]
  exact ht.2

theorem ign_line_err {b t : Str} (hb : Blanks b) (ht : Ends isMultiWs t) : ∃ e, ignoreWs lineEnding (b ++ t) = .err e :=
  ign_line_err' hb (noLine_of_multi ht)

theorem skip_ok {s : Str} (hs : BlankLines s) {x : Str} (hx : ∃ e, ignoreWs lineEnding x = .err e) :
    ∀ n, (s ++ x).length < n → skipBlank n (s ++ x) = .ok x () := by
  induction hs with
  | nil =>
    intro n hn
    obtain ⟨n, rfl⟩ : ∃ m, n = m + 1 := ⟨n - 1, by omega⟩
    rw [skipBlank, List.nil_append, opt_err hx, bind_ok]
    rfl
  | cons hw he _ ih =>
    intro n hn
    obtain ⟨n, rfl⟩ : ∃ m, n = m + 1 := ⟨n - 1, by omega⟩
    rw [skipBlank, List.append_assoc, List.append_assoc, opt_ok (ign_line hw he _), bind_ok, Option.isSome_some, if_pos rfl]
    refine ih n ?_
    simp only [List.length_append] at hn ⊢
    rcases he with rfl | rfl <;> simp only [List.length_cons, List.length_nil] at hn <;> omega

theorem indents_total : ∀ (d : Nat) (i : Str), (∃ e, expectIndents d i = .err e) ∨ ∃ r, expectIndents d i = .ok r ()
  | 0, i => .inr ⟨i, rfl⟩
  | d + 1, i => by
    have ht : ∀ t : Str, (∃ e, tag t i = .err e) ∨ ∃ r, tag t i = .ok r t := by
      intro t
      rw [tag]
      cases stripPrefix t i with
      | none => exact .inl ⟨_, rfl⟩
      | some r => exact .inr ⟨r, rfl⟩
    have ha : (∃ e, alt [tag (str "    "), tag ['\t']] i = .err e) ∨ ∃ r a, alt [tag (str "    "), tag ['\t']] i = .ok r a := by
      rcases ht (str "    ") with h1 | ⟨r, h1⟩
      · rw [alt_skip _ h1]
        rcases ht ['\t'] with h2 | ⟨r, h2⟩
        · exact .inl (alt_last h2)
        · exact .inr ⟨r, _, alt_ok _ h2⟩
      · exact .inr ⟨r, _, alt_ok _ h1⟩
    rw [expectIndents]
    rcases ha with ⟨e, he⟩ | ⟨r, a, hr⟩
    · rw [he]; exact .inl ⟨e, rfl⟩
    · rw [hr, bind_ok]; exact indents_total d r

/-- No line at level `d` follows. -/
def Stops (d : Nat) (rest : Str) : Prop :=
  ∃ s b t, rest = s ++ (b ++ t) ∧ BlankLines s ∧ Blanks b ∧ NoLine t ∧ (t = [] ∨ ¬ ∃ i p, Indent d i ∧ b = i ++ p)

theorem indent_less {d : Nat} {i : Str} (h : Indent (d + 1) i) : ∃ a p, Indent d a ∧ i = a ++ p := by
  induction d generalizing i with
  | zero => exact ⟨[], i, .zero, rfl⟩
  | succ d ih =>
    cases h with
    | blanks h =>
      obtain ⟨a, p, ha, rfl⟩ := ih h
      exact ⟨str "    " ++ a, p, .blanks ha, by simp⟩
    | tab h =>
      obtain ⟨a, p, ha, rfl⟩ := ih h
      exact ⟨'\t' :: a, p, .tab ha, rfl⟩

theorem Stops.deeper {d : Nat} {rest : Str} (h : Stops d rest) : Stops (d + 1) rest := by
  obtain ⟨s, b, t, h1, h2, h3, h4, h5⟩ := h
  refine ⟨s, b, t, h1, h2, h3, h4, h5.imp id ?_⟩
  rintro h5 ⟨i, p, hi, rfl⟩
  obtain ⟨a, q, ha, rfl⟩ := indent_less hi
  exact h5 ⟨a, q ++ p, ha, by simp⟩

theorem Stops.err {d : Nat} {rest : Str} (h : Stops d rest) (nested : Parser Kserd) : ∃ e, verboseField nested d rest = .err e := by
  obtain ⟨s, b, t, rfl, hs, hb, ht, hor⟩ := h
  rw [verboseField, verboseField.skipBlank', skip_ok hs (ign_line_err' hb ht) _ (Nat.lt_succ_self _), bind_ok]
  rcases indents_total d (b ++ t) with ⟨e, he⟩ | ⟨r, hr⟩
  · rw [he]; exact ⟨e, rfl⟩
  · obtain ⟨i, hi, e⟩ := expectIndents_inv _ _ _ _ hr
    have hib := indent_blanks hi
    have hp : ∃ p, b = i ++ p ∧ r = p ++ t := by
      rcases List.append_eq_append_iff.mp e with ⟨a', e1, e2⟩ | ⟨c', e1, e2⟩
      · cases a' with
        | nil => exact ⟨[], by simpa using e1.symm, by simpa using e2.symm⟩
        | cons c a' =>
          have := ht.1 c _ e2
          rw [← Bool.not_eq_true, GR.inline_iff] at this
          have hc := hib c (by rw [e1]; simp)
          tauto
      · exact ⟨c', e1, e2⟩
    obtain ⟨p, e1, e2⟩ := hp
    rcases hor with rfl | hn
    · rw [hr, bind_ok, e2, inlineWs_ok (fun c hc => hb c (by rw [e1]; simp [hc])) ht.1, bind_ok]
      exact ⟨_, rfl⟩
    · exact absurd ⟨i, p, hi, e1⟩ hn

/-! ## Headings -/

theorem heading_ok {hd : Heading} (h : hd.Ok) (o : Str) {c : Str} (hc : ∃ t, c = ']' :: t) (r : Str) :
    preceded (tag o) (terminated nameAndIdentity (ignoreWs (tag c))) (hd.text o c ++ r) = .ok (hd.tail ++ (hd.eol ++ r)) (hd.name, hd.identity) := by
  obtain ⟨pre, name, id, post, tail, eol⟩ := hd
  obtain ⟨h1, h2, h3, h4, h5, h6, h7⟩ := h
  simp only at h1 h2 h3 h4 h5 h6 h7
  obtain ⟨t, rfl⟩ := hc
  have hcl : ignoreWs (tag (']' :: t)) (post ++ (']' :: t ++ (tail ++ (eol ++ r)))) = .ok (tail ++ (eol ++ r)) (']' :: t) := by
    rw [ignoreWs_ok (i := ']' :: t ++ (tail ++ (eol ++ r))) h5 (ends_cons (c := ']') (by decide) _), tag_ok]
  cases id with
  | none =>
    have e : Heading.text o (']' :: t) ⟨pre, name, none, post, tail, eol⟩ ++ r = o ++ (pre ++ (name ++ (post ++ (']' :: t ++ (tail ++ (eol ++ r)))))) := by
      simp [Heading.text]
    rw [e]
    refine preceded_ok (tag_ok _ _) (terminated_ok (ctx_ok ?_) hcl)
    have hst : Ends isInlineWs (name ++ (post ++ (']' :: t ++ (tail ++ (eol ++ r))))) := by
      cases name with
      | nil => rw [h4 rfl rfl]; exact ends_cons (by decide) _
      | cons ch n => exact inline_of_multi (ends_cons (nameChar_not (h2 ch (by simp))).1 _)
    rw [ignoreWs_ok h1 hst]
    rw [show fieldName (name ++ (post ++ (']' :: t ++ (tail ++ (eol ++ r))))) = .ok (post ++ (']' :: t ++ (tail ++ (eol ++ r)))) name from
      tw_ends (nameChar_of h2) (ends_blank_bracket (white_of_blanks h5) (by decide)), bind_ok]
    have hch : ∃ e, ignoreWs (char ':') (post ++ (']' :: t ++ (tail ++ (eol ++ r)))) = .err e := by
      rw [ignoreWs_ok (i := ']' :: t ++ (tail ++ (eol ++ r))) h5 (ends_cons (c := ']') (by decide) _)]
      exact char_err _ (by decide)
    obtain ⟨e', he'⟩ := hch
    rw [he']
    rfl
  | some x =>
    obtain ⟨a, b, i⟩ := x
    obtain ⟨ha, hb, hi, hna⟩ := h3 a b i rfl
    have e : Heading.text o (']' :: t) ⟨pre, name, some (a, b, i), post, tail, eol⟩ ++ r =
        o ++ (pre ++ (name ++ (a ++ ':' :: (b ++ (i ++ (post ++ (']' :: t ++ (tail ++ (eol ++ r))))))))) := by
      simp [Heading.text]
    rw [e]
    refine preceded_ok (tag_ok _ _) (terminated_ok (ctx_ok ?_) hcl)
    have hz : Ends isNameChar (post ++ (']' :: t ++ (tail ++ (eol ++ r)))) := ends_blank_bracket (white_of_blanks h5) (by decide)
    generalize (']' :: t ++ (tail ++ (eol ++ r))) = z at *
    have hst : Ends isInlineWs (name ++ (a ++ ':' :: (b ++ (i ++ (post ++ z))))) := by
      cases name with
      | nil => rw [hna rfl]; exact ends_cons (by decide) _
      | cons ch n => exact inline_of_multi (ends_cons (nameChar_not (h2 ch (by simp))).1 _)
    rw [ignoreWs_ok h1 hst]
    rw [show fieldName (name ++ (a ++ ':' :: (b ++ (i ++ (post ++ z))))) = .ok (a ++ ':' :: (b ++ (i ++ (post ++ z)))) name from
      tw_ends (nameChar_of h2) (ends_blank_bracket (white_of_blanks ha) (by decide)), bind_ok, ign_char (by decide) ha]
    obtain ⟨c, y, ei, -, hm, -⟩ := name_start hi
    have : ignoreWs (ident false) (b ++ (i ++ (post ++ z))) = .ok (post ++ z) i := by
      rw [ignoreWs_ok hb (by rw [ei]; exact inline_of_multi (ends_cons hm _))]
      exact ident_ok hi hz
    simp only
    rw [this, bind_ok]
    rfl

/-! ## Lines -/

theorem key_total (x : Str) : (∃ e, terminated (ignoreWs (uncut kserdInline)) (ignoreWs (char ':')) x = .err e) ∨
    ∃ r a, terminated (ignoreWs (uncut kserdInline)) (ignoreWs (char ':')) x = .ok r a := by
  rw [terminated, ignoreWs_eq, uncut]
  have hr := K_res true (x.dropWhile isInlineWs)
  rw [show kserdInline (x.dropWhile isInlineWs) = K true (x.dropWhile isInlineWs) from rfl]
  cases hk : K true (x.dropWhile isInlineWs) with
  | ok r a =>
    simp only [bind_ok]
    by_cases hc : ∃ z, r.dropWhile isInlineWs = ':' :: z
    · obtain ⟨z, hz⟩ := hc
      right
      rw [ignoreWs_eq, hz, char_ok, bind_ok]
      exact ⟨_, _, rfl⟩
    · left
      obtain ⟨e, he⟩ := close_err (c := ':') (i := r) (fun z hz => hc ⟨z, hz⟩)
      rw [he]; exact ⟨_, rfl⟩
  | err e => exact .inl ⟨_, rfl⟩
  | fail e => exact .inl ⟨_, rfl⟩
  | panic => rw [hk] at hr; exact hr.elim
  | oof => rw [hk] at hr; exact hr.elim

/-- What is to be shown of a nested value. -/
def DocGood (D : Doc) : Prop :=
  ∀ d rest, D.Reads d rest → (D.isLines = true → Stops d rest) → ∃ k, N d (D.text ++ rest) = .ok rest k ∧ D.Val k

def LineGood (L : Line) : Prop :=
  ∀ d rest, L.Reads d rest → (L.open = true → Stops (d + 1) rest) → ∃ c, fieldBody (N (d + 1)) (L.text ++ rest) = .ok rest c ∧ L.Val c

def LinesGood (L : Lines) : Prop :=
  ∀ d rest, L.Reads d rest → Stops d rest → ∃ cs, MChain (verboseField (N (d + 1)) d) (L.text ++ rest) cs rest ∧ L.Val cs

theorem not_blank {c : Char} (h : isMultiWs c = false) (r : Str) : ¬ ((c :: r).isEmpty || (ignoreWs lineEnding (c :: r)).isOk) = true := by
  obtain ⟨e, he⟩ := ign_line_err (b := []) (t := c :: r) blanks_empty (ends_cons h r)
  rw [List.nil_append] at he
  rw [he]
  simp [PRes.isOk]

theorem id_good (w i : Str) : LineGood (.id w i) := by
  rintro d rest ⟨hw, hi, hend⟩ -
  refine ⟨.id i, ?_, rfl⟩
  have e : (Line.id w i).text ++ rest = ':' :: (w ++ (i ++ rest)) := by simp [Line.text]
  rw [e, fieldBody.eq_def, if_neg (not_blank (by decide) _)]
  obtain ⟨c, y, ei, -, hm, -⟩ := name_start hi
  have : ignoreWs (ident false) (w ++ (i ++ rest)) = .ok rest i := by
    rw [ignoreWs_ok hw (by rw [ei]; exact inline_of_multi (ends_cons hm _))]
    exact ident_ok hi (ends_of PG.isNameChar_iff hend)
  simp only [this, bind_ok]

theorem field_good (name mid gap : Str) (t : Tree) : LineGood (.field name mid gap t) := by
  rintro d rest ⟨hn, he, hm, hg, hr⟩ -
  obtain ⟨k, hk, hmean⟩ := kvpField_ok hn hm hg (tree_good t) hr
  refine ⟨.direct name k, ?_, k, hmean, rfl⟩
  have e : (Line.field name mid gap t).text ++ rest = name ++ (mid ++ '=' :: (gap ++ (t.text ++ rest))) := by simp [Line.text]
  obtain ⟨ch, r, eh, hch, -⟩ := assign_head hn he (gap ++ (t.text ++ rest))
  rw [e, fieldBody.eq_def, if_neg (by rw [eh]; exact not_blank hch r)]
  have h1 : ch ≠ ':' ∧ ch ≠ '[' := by
    cases name with
    | nil => rw [he rfl] at eh; cases eh; decide
    | cons c n =>
      cases eh
      have := nameChar_of hn ch (by simp)
      constructor <;> rintro rfl <;> revert this <;> decide
  rw [eh] at hk ⊢
  split
  · rename_i heq; cases heq; exact absurd rfl h1.1
  · rename_i heq; cases heq; exact absurd rfl h1.2
  · rename_i heq; cases heq; exact absurd rfl h1.2
  · have : cut (kvpField (fun force => if force then kserdInline else kserdConcise) false) (ch :: r) = .ok rest (name, k) := cut_ok hk
    rw [this, bind_ok]

theorem bracket_head (hd : Heading) (h : hd.Ok) (r : Str) : ∃ c z, hd.text (str "[") (str "]") ++ r = '[' :: c :: z ∧ c ≠ '[' := by
  obtain ⟨pre, name, id, post, tail, eol⟩ := hd
  obtain ⟨h1, h2, h3, h4, h5, h6, h7⟩ := h
  simp only at h1 h2 h3 h4
  have e : str "[" = ['['] ∧ str "]" = [']'] := ⟨rfl, rfl⟩
  rw [e.1, e.2]
  cases pre with
  | cons c p => exact ⟨c, _, rfl, by rcases h1 c (by simp) with rfl | rfl <;> decide⟩
  | nil =>
    cases name with
    | cons c n =>
      refine ⟨c, _, rfl, ?_⟩
      have := nameChar_of h2 c (by simp)
      rintro rfl; revert this; decide
    | nil =>
      cases id with
      | none => rw [h4 rfl rfl]; exact ⟨']', _, rfl, by decide⟩
      | some x =>
        obtain ⟨a, b, i⟩ := x
        rw [(h3 a b i rfl).2.2.2 rfl]
        exact ⟨':', _, rfl, by decide⟩

theorem sub_good (hd : Heading) (D : Doc) (hD : DocGood D) : LineGood (.sub hd D) := by
  rintro d rest ⟨hok, hr⟩ hs
  obtain ⟨k, hk, hm⟩ := hD _ _ hr hs
  refine ⟨.nested hd.name (.mk (k.id.or hd.identity) k.val), ?_, k, hm, rfl⟩
  have e : (Line.sub hd D).text ++ rest = hd.text ['['] [']'] ++ (D.text ++ rest) := by simp only [Line.text, List.append_assoc]; rfl
  obtain ⟨c, z, e2, hc⟩ := bracket_head hd hok (D.text ++ rest)
  have e2 : hd.text ['['] [']'] ++ (D.text ++ rest) = '[' :: c :: z := e2
  have hf : nestedField (N (d + 1)) (hd.text ['['] [']'] ++ (D.text ++ rest)) = .ok rest (.nested hd.name (.mk (k.id.or hd.identity) k.val)) := by
    rw [nestedField, heading_ok hok ['['] ⟨[], rfl⟩, bind_ok, ign_line hok.2.2.2.2.2.1 hok.2.2.2.2.2.2, bind_ok, ctx_ok hk, bind_ok]
  rw [e, fieldBody.eq_def, if_neg (by rw [e2]; exact not_blank (by decide) _)]
  rw [e2] at hf ⊢
  split
  · rename_i heq; cases heq
  · rename_i heq; cases heq; exact absurd rfl hc
  · exact hf
  · rename_i h; exact absurd rfl (h _)

theorem entry_body {nested : Parser Kserd} {hd : Heading} (hok : hd.Ok) (x : Str) :
    fieldBody nested (hd.text (str "[[") (str "]]") ++ x) = (opt (terminated (ignoreWs (uncut kserdInline)) (ignoreWs (char ':'))) x).bind fun i key =>
      match key with
      | some key => (mapEntryValue nested i).bind fun i v => .ok i (.mapEntry hd.identity hd.name key v)
      | none => (context "verbose sequence entry" nested i).bind fun i v => .ok i (.seqEntry hd.identity hd.name v) := by
  have hh := heading_ok hok (str "[[") (c := str "]]") ⟨[']'], rfl⟩ x
  have hf : entryField nested (hd.text (str "[[") (str "]]") ++ x) = (opt (terminated (ignoreWs (uncut kserdInline)) (ignoreWs (char ':'))) x).bind fun i key =>
      match key with
      | some key => (mapEntryValue nested i).bind fun i v => .ok i (.mapEntry hd.identity hd.name key v)
      | none => (context "verbose sequence entry" nested i).bind fun i v => .ok i (.seqEntry hd.identity hd.name v) := by
    rw [entryField, ctx_ok (cut_ok hh), bind_ok, ign_line hok.2.2.2.2.2.1 hok.2.2.2.2.2.2, bind_ok]
    rfl
  have e2 : ∃ z, hd.text (str "[[") (str "]]") ++ x = '[' :: '[' :: z := ⟨_, rfl⟩
  obtain ⟨z, e2⟩ := e2
  rw [← hf, e2, fieldBody.eq_def, if_neg (not_blank (by decide) _)]
  rfl

theorem elem_good (hd : Heading) (D : Doc) (hD : DocGood D) : LineGood (.elem hd D) := by
  rintro d rest ⟨hok, hka, hr⟩ hs
  obtain ⟨k, hk, hm⟩ := hD _ _ hr hs
  refine ⟨.seqEntry hd.identity hd.name k, ?_, k, hm, rfl⟩
  have e : (Line.elem hd D).text ++ rest = hd.text (str "[[") (str "]]") ++ (D.text ++ rest) := by simp only [Line.text, List.append_assoc]
  rw [e, entry_body hok]
  rcases key_total (D.text ++ rest) with h | ⟨r, a, h⟩
  · rw [opt_err h, bind_ok]
    simp only
    rw [ctx_ok hk, bind_ok]
  · exact absurd (key_inv h) hka

theorem key_read {w mid z : Str} {Y : Tree} (hw : Blanks w) (hm : Blanks mid) (hr : Y.Reads true (mid ++ ':' :: z)) :
    ∃ k, terminated (ignoreWs (uncut kserdInline)) (ignoreWs (char ':')) (w ++ (Y.text ++ (mid ++ ':' :: z))) = .ok z k ∧ Y.Val k := by
  obtain ⟨k, hk, hmean⟩ := tree_good Y _ _ hr
  refine ⟨k, ?_, hmean⟩
  have hu : uncut kserdInline (Y.text ++ (mid ++ ':' :: z)) = .ok (mid ++ ':' :: z) k := by
    rw [uncut, show kserdInline (Y.text ++ (mid ++ ':' :: z)) = _ from hk]
  exact terminated_ok (by rw [ignoreWs_ok hw (tree_ends hr _)]; exact hu) (ign_char (by decide) hm z)

theorem entry_good (hd : Heading) (w : Str) (Y : Tree) (mid gap : Str) (T : Tree) : LineGood (.entry hd w Y mid gap T) := by
  rintro d rest ⟨hok, hw, hy, hm, hg, hr⟩ -
  obtain ⟨a, ha, hma⟩ := key_read hw hm hy
  obtain ⟨k, hk, hmk⟩ := tree_good T _ _ hr
  refine ⟨.mapEntry hd.identity hd.name a k, ?_, a, k, hma, hmk, rfl⟩
  have e : (Line.entry hd w Y mid gap T).text ++ rest = hd.text (str "[[") (str "]]") ++ (w ++ (Y.text ++ (mid ++ ':' :: (gap ++ (T.text ++ rest))))) := by
    simp [Line.text]
  rw [e, entry_body hok, opt_ok ha, bind_ok]
  simp only
  have : mapEntryValue (N (d + 1)) (gap ++ (T.text ++ rest)) = .ok rest k :=
    ctx_ok (alt_ok _ (by rw [ignoreWs_ok hg (tree_ends hr rest)]; exact hk))
  rw [this, bind_ok]

theorem entryBelow_good (hd : Heading) (w : Str) (Y : Tree) (mid gap eol : Str) (D : Doc) (hD : DocGood D) : LineGood (.entryBelow hd w Y mid gap eol D) := by
  rintro d rest ⟨hok, hw, hy, hm, hg, heol, hr⟩ hs
  obtain ⟨a, ha, hma⟩ := key_read hw hm hy
  obtain ⟨k, hk, hmk⟩ := hD _ _ hr hs
  refine ⟨.mapEntry hd.identity hd.name a k, ?_, a, k, hma, hmk, rfl⟩
  have e : (Line.entryBelow hd w Y mid gap eol D).text ++ rest =
      hd.text (str "[[") (str "]]") ++ (w ++ (Y.text ++ (mid ++ ':' :: (gap ++ (eol ++ (D.text ++ rest)))))) := by
    simp [Line.text]
  rw [e, entry_body hok, opt_ok ha, bind_ok]
  simp only
  have hh : Halt (eol ++ (D.text ++ rest)) := by
    rcases heol with rfl | rfl
    · exact .inr ⟨'\n', _, rfl, by simp⟩
    · exact .inr ⟨'\r', _, rfl, by simp⟩
  have : mapEntryValue (N (d + 1)) (gap ++ (eol ++ (D.text ++ rest))) = .ok rest k := by
    refine ctx_ok ?_
    rw [alt_skip _ (by rw [ignoreWs_ok hg (lineEnd_ends heol _)]; exact halt_K hh false)]
    exact alt_ok _ (preceded_ok (ign_line hg heol _) hk)
  rw [this, bind_ok]

/-- Lines begin with something else than white space. -/
theorem line_head {L : Line} {d : Nat} {rest : Str} (h : L.Reads d rest) (x : Str) : ∃ c r, L.text ++ x = c :: r ∧ isMultiWs c = false := by
  cases L with
  | id w i => exact ⟨':', _, rfl, by decide⟩
  | field name mid gap t =>
    obtain ⟨hn, he, -⟩ := h
    obtain ⟨ch, r, e, hch, -⟩ := assign_head hn he (gap ++ (t.text ++ x))
    exact ⟨ch, r, by rw [← e]; simp [Line.text], hch⟩
  | sub hd D => exact ⟨'[', _, rfl, by decide⟩
  | elem hd D => exact ⟨'[', _, rfl, by decide⟩
  | entry hd w key mid gap t => exact ⟨'[', _, rfl, by decide⟩
  | entryBelow hd w key mid gap eol D => exact ⟨'[', _, rfl, by decide⟩

theorem line_ends {L : Line} {d : Nat} {rest : Str} (h : L.Reads d rest) (x : Str) : Ends isMultiWs (L.text ++ x) := by
  obtain ⟨c, r, e, hc⟩ := line_head h x
  rw [e]; exact ends_cons hc r

theorem field_at (nested : Parser Kserd) {skip ind pre : Str} {x : Line} {d : Nat} {y : Str} (h1 : BlankLines skip) (h2 : Indent d ind) (h3 : Blanks pre)
    (h4 : x.Reads d y) : verboseField nested d (skip ++ (ind ++ (pre ++ (x.text ++ y)))) = fieldBody nested (x.text ++ y) := by
  rw [verboseField, verboseField.skipBlank', ← List.append_assoc ind,
    skip_ok h1 (ign_line_err (blanks_append (indent_blanks h2) h3) (line_ends h4 _)) _ (Nat.lt_succ_self _), bind_ok,
    List.append_assoc, indent_ok h2, bind_ok, inlineWs_ok h3 (inline_of_multi (line_ends h4 _)), bind_ok]

theorem lines_cons {skip ind pre : Str} {x : Line} {r : Lines} (hx : LineGood x) (hr : LinesGood r) : LinesGood (.cons skip ind pre x r) := by
  rintro d rest ⟨h1, h2, h3, h4, h5, h6⟩ hs
  obtain ⟨cs, hc, hm⟩ := hr _ _ h6 hs
  have hopen : x.open = true → Stops (d + 1) (r.text ++ rest) := by
    intro ho
    have hn := h5 ho
    cases r with
    | nil => exact hs.deeper
    | cons skip' ind' pre' x' r' =>
      obtain ⟨g1, g2, g3, g4, -⟩ := h6
      refine ⟨skip', ind' ++ pre', x'.text ++ (r'.text ++ rest), ?_, g1, blanks_append (indent_blanks g2) g3, noLine_of_multi (line_ends g4 _), .inr hn⟩
      simp [Lines.text]
  obtain ⟨c, hb, hmc⟩ := hx _ _ h4 hopen
  refine ⟨c :: cs, .cons ?_ hc, _, _, hmc, hm, rfl⟩
  have e : (Lines.cons skip ind pre x r).text ++ rest = skip ++ (ind ++ (pre ++ (x.text ++ (r.text ++ rest)))) := by simp [Lines.text]
  rw [e, field_at _ h1 h2 h3 h4, hb]

theorem many0_run {f : Parser α} (hf : ∀ i r a, f i = .ok r a → r.length < i.length) {i r : Str} {l : List α} (h : MChain f i l r) :
    ∀ n acc, i.length < n → many0Loop f n i acc = .ok r (acc.reverse ++ l) := by
  induction h with
  | nil he =>
    intro n acc hn
    obtain ⟨n, rfl⟩ : ∃ m, n = m + 1 := ⟨n - 1, by omega⟩
    rw [many0Loop.eq_def]
    simp only [he, List.append_nil]
  | cons h1 _ ih =>
    intro n acc hn
    obtain ⟨n, rfl⟩ : ∃ m, n = m + 1 := ⟨n - 1, by omega⟩
    have := hf _ _ _ h1
    rw [many0Loop.eq_def]
    simp only [h1]
    rw [if_neg (by omega), ih n _ (by omega)]
    simp

theorem doc_lines {L : Lines} (hL : LinesGood L) : DocGood (.lines L) := by
  rintro d rest ⟨h1, h2⟩ hs
  obtain ⟨cs, hc, hm⟩ := hL _ _ h2 (hs rfl)
  refine ⟨(cs.foldl CAcc.step {}).finish, ?_, _, hm, rfl⟩
  rw [show (Doc.lines L).text = L.text from rfl, N_eq, if_pos ((verbose_iff _).mpr h1), verbose, many0]
  have := many0_run (fun i r a h => field_len (N_shrinks (d + 1)) d h) hc _ [] (Nat.lt_succ_self _)
  rw [this, bind_ok]
  rfl

theorem doc_value (w : Str) (T : Tree) : DocGood (.value w T) := by
  rintro d rest ⟨h1, h2, h3⟩ -
  obtain ⟨k, hk, hm⟩ := tree_good T _ _ h2
  refine ⟨k, ?_, hm⟩
  have e : (Doc.value w T).text ++ rest = w ++ (T.text ++ rest) := by simp [Doc.text]
  rw [e, N_eq, if_neg (fun h => h3 ((verbose_iff _).mp h)), ignoreWs_ok h1 (tree_ends h2 rest)]
  exact hk

mutual
theorem doc_good : ∀ D : Doc, DocGood D
  | .value w t => doc_value w t
  | .lines l => doc_lines (lines_good l)
termination_by structural t => t
theorem lines_good : ∀ L : Lines, LinesGood L
  | .nil => fun _ _ _ hs => by
    obtain ⟨e, he⟩ := hs.err (N _)
    exact ⟨[], .nil he, rfl⟩
  | .cons _ _ _ x r => lines_cons (line_good x) (lines_good r)
termination_by structural t => t
theorem line_good : ∀ L : Line, LineGood L
  | .id w i => id_good w i
  | .field n m g t => field_good n m g t
  | .sub h d => sub_good h d (doc_good d)
  | .elem h d => elem_good h d (doc_good d)
  | .entry h w k m g t => entry_good h w k m g t
  | .entryBelow h w k m g e d => entryBelow_good h w k m g e d (doc_good d)
termination_by structural t => t
end

theorem parse_complete_val {D : Doc} {w : Str} (hw : EndsWith D w) (hr : D.Reads 0 w) : ∃ k, parse (D.text ++ w) = .ok k ∧ D.Val k := by
  obtain ⟨k, hk, hm⟩ := doc_good D 0 w hr (fun hl => by
    obtain ⟨s, b, rfl, hs, hb⟩ := hw.2 hl
    exact ⟨s, b, [], by simp, hs, hb, noLine_of_multi (by intro c r e; cases e), .inl rfl⟩)
  refine ⟨k, ?_, hm⟩
  have hne : ¬ (D.text ++ w).isEmpty = true := by
    rw [List.isEmpty_iff]
    cases D with
    | value w' T =>
      obtain ⟨c, r, e, -⟩ := tree_head hr.2.1
      simp [Doc.text, e]
    | lines L =>
      intro he
      have h1 : LinesAhead (L.text ++ w) := hr.1
      rw [show L.text ++ w = [] from he, ← verbose_iff] at h1
      revert h1; decide
  have h1 : kserdRoot (D.text ++ w) = .ok [] k := by
    have h2 : multiWs w = .ok [] w := by
      have := multiWs_ok (r := []) hw.1 (by intro c r e; cases e)
      rwa [List.append_nil] at this
    have h3 : terminated (kserdNested ((D.text ++ w).length + 1) 0) multiWs (D.text ++ w) = .ok [] k := terminated_ok (j := w) hk h2
    rw [kserdRoot, if_neg hne, allConsuming, h3, bind_ok]
    rfl
  rw [parse, h1]

theorem parse_complete {D : Doc} {w : Str} (hw : EndsWith D w) (hr : D.Reads 0 w) : ∃ k, parse (D.text ++ w) = .ok k ∧ D.Means k := by
  obtain ⟨k, h1, h2⟩ := parse_complete_val hw hr
  exact ⟨k, h1, doc_means D h2⟩

end KS.GR
