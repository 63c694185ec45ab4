import Verif.Lemmas.GrammarComplete
/-!
# What the parser accepts is text of the grammar: lines
-/

namespace KS.GR
open KS.Spec KS.P KS.Nom KS.RT KS.AS KS.Ext

variable {α β γ : Type}

theorem inline_sound {i r : Str} {x : Kserd} (hi : Ends isInlineWs i) (h : kserdInline i = .ok r x) : Gives true i r x := delimited_sound _ _ _ _ _ hi h
theorem concise_sound {i r : Str} {x : Kserd} (hi : Ends isInlineWs i) (h : kserdConcise i = .ok r x) : Gives false i r x := delimited_sound _ _ _ _ _ hi h

theorem uncut_inv {p : Parser α} {i r : Str} {a : α} (h : uncut p i = .ok r a) : p i = .ok r a := by
  rw [uncut] at h
  cases hp : p i <;> rw [hp] at h <;> first | exact h | cases h

/-! ## Blank lines and indentation -/

theorem skipBlank_inv : ∀ (n : Nat) (i r : Str) (u : Unit), skipBlank n i = .ok r u → ∃ s, BlankLines s ∧ i = s ++ r ∧ ∃ e, ignoreWs lineEnding r = .err e
  | 0, _, _, _, h => by cases h
  | n + 1, i, r, u, h => by
    obtain ⟨j, o, h1, h2⟩ := bind_inv h
    rcases opt_inv h1 with ⟨x, rfl, hx⟩ | ⟨rfl, rfl, he⟩
    · obtain ⟨s, hs, e, hx'⟩ := skipBlank_inv n j r u h2
      obtain ⟨w, j2, e1, hw, -, h3⟩ := ignoreWs_inv hx
      obtain ⟨e2, he⟩ := lineEnding_inv h3
      exact ⟨w ++ (x ++ s), .cons hw he hs, by rw [e1, e2, e]; simp, hx'⟩
    · cases h2; exact ⟨[], .nil, rfl, he⟩

theorem expectIndents_inv : ∀ (n : Nat) (i r : Str) (u : Unit), expectIndents n i = .ok r u → ∃ s, Indent n s ∧ i = s ++ r
  | 0, _, _, _, h => by cases h; exact ⟨[], .zero, rfl⟩
  | n + 1, i, r, u, h => by
    obtain ⟨j, o, h1, h2⟩ := bind_inv h
    obtain ⟨s, hs, e⟩ := expectIndents_inv n j r u h2
    obtain ⟨p, hp, hpi⟩ := alt_inv _ h1
    simp only [List.mem_cons, List.not_mem_nil, or_false] at hp
    rcases hp with rfl | rfl
    · exact ⟨str "    " ++ s, .blanks hs, by rw [tag_inv hpi, e]; simp⟩
    · exact ⟨'\t' :: s, .tab hs, by rw [tag_inv hpi, e]; simp⟩

theorem tag_ok (t r : Str) : tag t (t ++ r) = .ok r t := by
  have : ∀ t r : Str, stripPrefix t (t ++ r) = some r := by
    intro t
    induction t with
    | nil => intro r; rfl
    | cons a t ih => intro r; simp [stripPrefix, ih]
  rw [tag, this]

theorem indent_ok {n : Nat} {s : Str} (h : Indent n s) : ∀ r, expectIndents n (s ++ r) = .ok r () := by
  induction h with
  | zero => intro r; rfl
  | blanks h ih =>
    intro r
    rw [expectIndents, List.append_assoc, alt_ok _ (tag_ok _ _)]
    exact ih r
  | tab h ih =>
    intro r
    rw [expectIndents]
    rw [alt_skip _ (by rw [List.cons_append]; exact ⟨_, rfl⟩)]
    have : ∀ t : Str, alt [tag ['\t']] ('\t' :: t ++ r) = .ok (t ++ r) ['\t'] := fun t => alt_ok _ (tag_ok ['\t'] (t ++ r))
    rw [this]
    exact ih r

theorem indent_blanks {n : Nat} {s : Str} (h : Indent n s) : Blanks s := by
  induction h with
  | zero => intro c hc; cases hc
  | blanks h ih =>
    intro c hc
    rcases List.mem_append.mp hc with hc | hc
    · left
      have : c ∈ [' ', ' ', ' ', ' '] := hc
      simpa using this
    · exact ih c hc
  | tab h ih =>
    intro c hc
    rcases List.mem_cons.mp hc with hc | hc
    · exact .inr hc
    · exact ih c hc

/-! ## Headings -/

theorem heading_inv {i j r x : Str} {ni : Str × Option Str} {o c y : Str}
    (h : preceded (tag o) (terminated nameAndIdentity (ignoreWs (tag c))) i = .ok j ni) (h2 : ignoreWs lineEnding j = .ok r x) (_ : y = x) :
    ∃ hd : Heading, hd.Ok ∧ hd.name = ni.1 ∧ hd.identity = ni.2 ∧ i = hd.text o c ++ r := by
  obtain ⟨j1, t, h3, h4⟩ := preceded_inv h
  obtain ⟨j2, t2, h5, h6⟩ := terminated_inv h4
  obtain ⟨post, j3, e6, hpost, -, h7⟩ := ignoreWs_inv h6
  obtain ⟨tl, j4, e7, htl, -, h8⟩ := ignoreWs_inv h2
  obtain ⟨e8, heol⟩ := lineEnding_inv h8
  obtain ⟨j5, fname, h9, h10⟩ := bind_inv (ctx_inv h5)
  obtain ⟨pre, j6, e9, hpre, hj6, h11⟩ := ignoreWs_inv h9
  obtain ⟨e11, hn, -⟩ := takeWhile_inv h11
  have hn : ∀ ch ∈ fname, NameChar ch := fun ch hch => (PG.isNameChar_iff ch).mp (hn ch hch)
  have e3 := tag_inv h3
  have e77 := tag_inv h7
  cases hc : ignoreWs (char ':') j5 with
  | ok j7 z =>
    simp only [hc] at h10
    obtain ⟨j8, id, h12, h13⟩ := bind_inv h10
    cases h13
    obtain ⟨a, j9, ea, ha, -, hch⟩ := ignoreWs_inv hc
    obtain ⟨b, j10, eb, hb, -, hid⟩ := ignoreWs_inv h12
    obtain ⟨ei, hv, -⟩ := ident_inv hid
    refine ⟨⟨pre, fname, some (a, b, id), post, tl, x⟩, ⟨hpre, hn, ?_, (by intro _ h; cases h), hpost, htl, heol⟩, rfl, rfl, ?_⟩
    · rintro a' b' i' ⟨⟩
      refine ⟨ha, hb, hv, ?_⟩
      intro hf
      have hf : fname = [] := hf
      rw [hf, List.nil_append] at e11
      exact blanks_nil hj6 ha (e11.trans ea)
    · rw [e3, e9, e11, ea, char_inv hch, eb, ei, e6, e77, e7, e8]; simp [Heading.text]
  | err e =>
    simp only [hc] at h10
    cases h10
    refine ⟨⟨pre, fname, none, post, tl, x⟩, ⟨hpre, hn, (by rintro a b i ⟨⟩), (fun hf _ => ?_), hpost, htl, heol⟩, rfl, rfl, ?_⟩
    · have hf : fname = [] := hf
      rw [hf, List.nil_append] at e11
      exact blanks_nil hj6 hpost (e11.trans e6)
    · rw [e3, e9, e11, e6, e77, e7, e8]; simp [Heading.text]
  | fail e =>
    simp only [hc] at h10
    cases h10
    refine ⟨⟨pre, fname, none, post, tl, x⟩, ⟨hpre, hn, (by rintro a b i ⟨⟩), (fun hf _ => ?_), hpost, htl, heol⟩, rfl, rfl, ?_⟩
    · have hf : fname = [] := hf
      rw [hf, List.nil_append] at e11
      exact blanks_nil hj6 hpost (e11.trans e6)
    · rw [e3, e9, e11, e6, e77, e7, e8]; simp [Heading.text]
  | panic => simp only [hc] at h10; cases h10
  | oof => simp only [hc] at h10; cases h10

/-! ## Lines -/

/-- Reading goes on no further at level `d`. -/
def Ended (d : Nat) (r : Str) : Prop := ∃ (f : Nat) (e : PErr), verboseField (kserdNested f (d + 1)) d r = .err e

/-- What a parser for nested values at level `d` gives. -/
def DocGives (d : Nat) (i r : Str) (k : Kserd) : Prop :=
  ∃ D : Doc, D.Reads d r ∧ D.Val k ∧ i = D.text ++ r ∧ (D.isLines = true → Ended d r)

/-- What a line gives at level `d`. -/
def LineGives (d : Nat) (i r : Str) (c : CField) : Prop :=
  ∃ L : Line, L.Reads d r ∧ L.Val c ∧ i = L.text ++ r ∧ (L.open = true → Ended (d + 1) r)

/-- The key of an entry is read. -/
theorem key_ok {x : Str} (h : KeyAhead x) : ∃ r a, terminated (ignoreWs (uncut kserdInline)) (ignoreWs (char ':')) x = .ok r a := by
  obtain ⟨w, Y, mid, z, rfl, hw, hm, hr⟩ := h
  obtain ⟨k, hk, -⟩ := tree_good Y _ _ hr
  refine ⟨z, k, ?_⟩
  have hu : uncut kserdInline (Y.text ++ (mid ++ ':' :: z)) = .ok (mid ++ ':' :: z) k := by
    rw [uncut, show kserdInline (Y.text ++ (mid ++ ':' :: z)) = _ from hk]
  exact terminated_ok (by rw [ignoreWs_ok hw (tree_ends hr _)]; exact hu) (ign_char (by decide) hm z)

theorem key_inv {x r : Str} {k : Kserd} (h : terminated (ignoreWs (uncut kserdInline)) (ignoreWs (char ':')) x = .ok r k) : KeyAhead x := by
  obtain ⟨j5, z, h9, h10⟩ := terminated_inv h
  obtain ⟨w, j6, e6, hw, hj6, h11⟩ := ignoreWs_inv h9
  obtain ⟨Y, k1, k2, k3⟩ := inline_sound hj6 (uncut_inv h11)
  obtain ⟨mid, j7, e7, hmid, -, h12⟩ := ignoreWs_inv h10
  have e8 := char_inv h12
  refine ⟨w, Y, mid, r, ?_, hw, hmid, ?_⟩
  · rw [e6, k3, e7, e8]
  · rw [e7, e8] at k1; exact k1

section Line

variable {nested : Parser Kserd} {d : Nat} (hn : ∀ i r k, nested i = .ok r k → DocGives (d + 1) i r k)

include hn

theorem entry_sound {i r : Str} {c : CField} (h : entryField nested i = .ok r c) : LineGives d i r c := by
  obtain ⟨j, ni, h1, h2⟩ := bind_inv h
  obtain ⟨j2, x, h3, h4⟩ := bind_inv h2
  obtain ⟨hd, hok, hname, hid, e⟩ := heading_inv (cut_inv (ctx_inv h1)) h3 rfl
  obtain ⟨j3, key, h5, h6⟩ := bind_inv h4
  rcases opt_inv h5 with ⟨k, rfl, hk⟩ | ⟨rfl, rfl, hk⟩
  · obtain ⟨j4, v, h7, h8⟩ := bind_inv h6
    cases h8
    obtain ⟨j5, z, h9, h10⟩ := terminated_inv hk
    obtain ⟨w, j6, e6, hw, hj6, h11⟩ := ignoreWs_inv h9
    obtain ⟨Y, k1, k2, k3⟩ := inline_sound hj6 (uncut_inv h11)
    obtain ⟨mid, j7, e7, hmid, -, h12⟩ := ignoreWs_inv h10
    have e8 := char_inv h12
    obtain ⟨p, hp, hpi⟩ := alt_inv _ (ctx_inv h7)
    simp only [List.mem_cons, List.not_mem_nil, or_false] at hp
    rcases hp with rfl | rfl
    · obtain ⟨gap, j8, e9, hgap, hj8, h13⟩ := ignoreWs_inv hpi
      obtain ⟨T, t1, t2, t3⟩ := concise_sound hj8 h13
      refine ⟨.entry hd w Y mid gap T, ⟨hok, hw, ?_, hmid, hgap, t1⟩, ⟨k, v, k2, t2, ?_⟩, ?_, ?_⟩
      · rw [e7, e8, e9, t3] at k1; exact k1
      · rw [hname, hid]
      · rw [e, e6, k3, e7, e8, e9, t3]; simp [Line.text]
      · intro ho; cases ho
    · obtain ⟨j8, y, h13, h14⟩ := preceded_inv hpi
      obtain ⟨gap, j9, e9, hgap, -, h15⟩ := ignoreWs_inv h13
      obtain ⟨e10, heol⟩ := lineEnding_inv h15
      obtain ⟨D, d1, d2, d3, d4⟩ := hn _ _ _ h14
      refine ⟨.entryBelow hd w Y mid gap y D, ⟨hok, hw, ?_, hmid, hgap, heol, d1⟩, ⟨k, v, k2, d2, ?_⟩, ?_, d4⟩
      · rw [e7, e8, e9, e10, d3] at k1; exact k1
      · rw [hname, hid]
      · rw [e, e6, k3, e7, e8, e9, e10, d3]; simp [Line.text]
  · obtain ⟨j4, v, h7, h8⟩ := bind_inv h6
    cases h8
    obtain ⟨D, d1, d2, d3, d4⟩ := hn _ _ _ (ctx_inv h7)
    refine ⟨.elem hd D, ⟨hok, ?_, d1⟩, ⟨v, d2, ?_⟩, ?_, d4⟩
    · rw [← d3]
      intro hka
      obtain ⟨r', a, ha⟩ := key_ok hka
      obtain ⟨e', he'⟩ := hk
      rw [ha] at he'; cases he'
    · rw [hname, hid]
    · rw [e, d3]; simp [Line.text]

theorem sub_sound {i r : Str} {c : CField} (h : nestedField nested i = .ok r c) : LineGives d i r c := by
  obtain ⟨j, ni, h1, h2⟩ := bind_inv h
  obtain ⟨j2, x, h3, h4⟩ := bind_inv h2
  obtain ⟨hd, hok, hname, hid, e⟩ := heading_inv h1 h3 rfl
  obtain ⟨j4, v, h7, h8⟩ := bind_inv h4
  cases h8
  obtain ⟨D, d1, d2, d3, d4⟩ := hn _ _ _ (ctx_inv h7)
  refine ⟨.sub hd D, ⟨hok, d1⟩, ⟨v, d2, ?_⟩, ?_, d4⟩
  · rw [hname, hid]
  · rw [e, d3]; simp only [Line.text, List.append_assoc]; rfl

theorem body_sound {i r : Str} {c : CField} (hi : Ends isInlineWs i) (h : fieldBody nested i = .ok r c) : LineGives d i r c := by
  rw [fieldBody.eq_def] at h
  split at h
  · cases h
  · split at h
    · obtain ⟨j, id, h1, h2⟩ := bind_inv h
      cases h2
      obtain ⟨w, j2, e, hw, -, h3⟩ := ignoreWs_inv h1
      obtain ⟨e2, hv, hend⟩ := ident_inv h3
      refine ⟨.id w id, ⟨hw, hv, notContinued_of PG.isNameChar_iff hend⟩, rfl, ?_, (by intro ho; cases ho)⟩
      rw [e, e2]; simp [Line.text]
    · exact entry_sound hn h
    · exact sub_sound hn h
    · obtain ⟨j, p, h1, h2⟩ := bind_inv h
      cases h2
      have hk : ∀ b i r x, Ends isInlineWs i → (fun force : Bool => if force then kserdInline else kserdConcise) b i = .ok r x → Gives b i r x := by
        intro b i r x hi hb
        cases b with
        | true => exact inline_sound hi hb
        | false => exact concise_sound hi hb
      obtain ⟨name, mid, gap, T, n1, n2, n3, n4, n5, n6, n7, n8⟩ := kvpField_sound hk true hi (cut_inv h1)
      refine ⟨.field name mid gap T, ⟨n1, n2, n3, n4, n5⟩, ⟨p.2, n7, ?_⟩, ?_, (by intro ho; cases ho)⟩
      · rw [← n6]
      · rw [n8]; simp [Line.text]

end Line

/-! ## Whoever stops early stops for good -/

/-- Where `p` errs, `q` does not succeed. -/
def Errs (p q : Parser α) : Prop := ∀ i e, p i = .err e → ∀ r a, q i ≠ .ok r a

theorem bind_err {x : PRes α} {f : Str → α → PRes β} {e : PErr} (h : x.bind f = .err e) : x = .err e ∨ ∃ r a, x = .ok r a ∧ f r a = .err e := by
  cases x with
  | ok r a => exact .inr ⟨r, a, rfl, h⟩
  | err e' => cases h; exact .inl rfl
  | _ => cases h

theorem ctx_err_inv {s : String} {p : Parser α} {i : Str} {e : PErr} (h : context s p i = .err e) : ∃ e', p i = .err e' := by
  rw [context] at h
  cases hp : p i <;> rw [hp] at h <;> first | exact ⟨_, rfl⟩ | cases h

theorem opt_not_err {p : Parser α} {i : Str} {e : PErr} (h : opt p i = .err e) : False := by
  rw [opt] at h
  cases hp : p i <;> rw [hp] at h <;> cases h

theorem many0Loop_not_err {f : Parser α} (hf : ∀ i r a, f i = .ok r a → r.length ≠ i.length) : ∀ (n : Nat) (i : Str) (acc : List α) (e : PErr),
    many0Loop f n i acc ≠ .err e
  | 0, _, _, _, h => by cases h
  | n + 1, i, acc, e, h => by
    rw [many0Loop.eq_def] at h
    simp only at h
    cases hi : f i with
    | ok r a =>
      simp only [hi] at h
      rw [if_neg (hf _ _ _ hi)] at h
      exact many0Loop_not_err hf n r (a :: acc) e h
    | err e' => simp only [hi] at h; cases h
    | fail e' => simp only [hi] at h; cases h
    | panic => simp only [hi] at h; cases h
    | oof => simp only [hi] at h; cases h

theorem alt2_err {p q : Parser α} {i : Str} {e : PErr} (h : alt [p, q] i = .err e) : (∃ e', p i = .err e') ∧ ∃ e', q i = .err e' := by
  rw [alt] at h
  · cases hp : p i with
    | err e' =>
      rw [hp] at h
      rw [alt] at h
      cases hq : q i <;> rw [hq] at h <;> first | exact ⟨⟨_, rfl⟩, ⟨_, rfl⟩⟩ | cases h
    | _ => rw [hp] at h; cases h
  · simp

theorem errs_entry {p q : Parser Kserd} (hpq : Errs p q) {i : Str} {e : PErr} (h : entryField p i = .err e) : ∀ r a, entryField q i ≠ .ok r a := by
  intro r a hq
  obtain ⟨j, ni, q1, q2⟩ := bind_inv hq
  obtain ⟨j2, x, q3, q4⟩ := bind_inv q2
  obtain ⟨j3, key, q5, q6⟩ := bind_inv q4
  rw [entryField, q1, bind_ok, q3, bind_ok, q5, bind_ok] at h
  cases key with
  | some key =>
    obtain ⟨j4, v, q7, -⟩ := bind_inv q6
    rcases bind_err h with h7 | ⟨_, _, -, h8⟩
    · obtain ⟨e', h8⟩ := ctx_err_inv h7
      obtain ⟨⟨e1, he1⟩, e2, he2⟩ := alt2_err h8
      obtain ⟨p', hp', hpi⟩ := alt_inv _ (ctx_inv q7)
      simp only [List.mem_cons, List.not_mem_nil, or_false] at hp'
      rcases hp' with rfl | rfl
      · rw [he1] at hpi; cases hpi
      · obtain ⟨j5, y, q8, q9⟩ := preceded_inv hpi
        rw [preceded, q8, bind_ok] at he2
        exact hpq _ _ he2 _ _ q9
    · cases h8
  | none =>
    obtain ⟨j4, v, q7, -⟩ := bind_inv q6
    rcases bind_err h with h7 | ⟨_, _, -, h8⟩
    · obtain ⟨e', h8⟩ := ctx_err_inv h7
      exact hpq _ _ h8 _ _ (ctx_inv q7)
    · cases h8

theorem errs_nested {p q : Parser Kserd} (hpq : Errs p q) {i : Str} {e : PErr} (h : nestedField p i = .err e) : ∀ r a, nestedField q i ≠ .ok r a := by
  intro r a hq
  obtain ⟨j, ni, q1, q2⟩ := bind_inv hq
  obtain ⟨j2, x, q3, q4⟩ := bind_inv q2
  obtain ⟨j3, v, q5, q6⟩ := bind_inv q4
  rw [nestedField, q1, bind_ok, q3, bind_ok] at h
  rcases bind_err h with h7 | ⟨_, _, -, h8⟩
  · obtain ⟨e', h8⟩ := ctx_err_inv h7
    exact hpq _ _ h8 _ _ (ctx_inv q5)
  · cases h8

theorem errs_body {p q : Parser Kserd} (hpq : Errs p q) {i : Str} {e : PErr} (h : fieldBody p i = .err e) : ∀ r a, fieldBody q i ≠ .ok r a := by
  intro r a hq
  rw [fieldBody.eq_def] at h hq
  split at h
  · rename_i hc; rw [if_pos hc] at hq; cases hq
  · rename_i hc
    rw [if_neg hc] at hq
    split at h
    · simp only at hq; rw [h] at hq; cases hq
    · exact errs_entry hpq h _ _ hq
    · rename_i h1
      split at hq
      · rename_i heq; cases heq
      · rename_i heq; injection heq with _ heq; exact absurd heq (h1 _)
      · exact errs_nested hpq h _ _ hq
      · rename_i h3; exact absurd rfl (h3 _)
    · simp only at hq; rw [h] at hq; cases hq

/-! ## Lines consume something -/

def Shrinks (p : Parser α) : Prop := ∀ i r a, p i = .ok r a → r.length ≤ i.length

theorem len_of {i w r : Str} (e : i = w ++ r) : r.length ≤ i.length := by rw [e, List.length_append]; omega

theorem ignoreWs_shrinks {p : Parser α} (h : Shrinks p) : Shrinks (ignoreWs p) := by
  intro i r a hi
  obtain ⟨w, j, e, -, -, hj⟩ := ignoreWs_inv hi
  exact (h _ _ _ hj).trans (len_of e)

theorem K_shrinks (b : Bool) : Shrinks (K b) := fun i r a h => ((K_res b i).ok_suffix h).length_le

theorem concise_shrinks : Shrinks kserdConcise := K_shrinks false

theorem inline_shrinks : Shrinks kserdInline := K_shrinks true

theorem heading_len {o c : Str} (ho : o ≠ []) (h : Heading) : 0 < (h.text o c).length := by
  have := List.length_pos_iff.mpr ho
  rw [Heading.text, List.length_append]; omega

theorem entry_len {nested : Parser Kserd} (hn : Shrinks nested) {i r : Str} {c : CField} (h : entryField nested i = .ok r c) : r.length < i.length := by
  obtain ⟨j, ni, h1, h2⟩ := bind_inv h
  obtain ⟨j2, x, h3, h4⟩ := bind_inv h2
  obtain ⟨hd, -, -, -, e⟩ := heading_inv (cut_inv (ctx_inv h1)) h3 rfl
  obtain ⟨j3, key, h5, h6⟩ := bind_inv h4
  have l1 : j2.length < i.length := by
    have := heading_len (o := str "[[") (c := str "]]") (by decide) hd
    rw [e, List.length_append]; omega
  rcases opt_inv h5 with ⟨k, rfl, hk⟩ | ⟨rfl, rfl, -⟩
  · obtain ⟨j4, v, h7, h8⟩ := bind_inv h6
    cases h8
    obtain ⟨j5, z, h9, h10⟩ := terminated_inv hk
    obtain ⟨w, j6, e6, hw, -, h11⟩ := ignoreWs_inv h9
    have l2 := inline_shrinks _ _ _ (uncut_inv h11)
    obtain ⟨mid, j7, e7, hmid, -, h12⟩ := ignoreWs_inv h10
    have e8 := char_inv h12
    have l3 : j3.length < i.length := by
      have := len_of e6
      have := len_of e7
      rw [e8, List.length_cons] at this
      omega
    obtain ⟨p, hp, hpi⟩ := alt_inv _ (ctx_inv h7)
    simp only [List.mem_cons, List.not_mem_nil, or_false] at hp
    rcases hp with rfl | rfl
    · exact lt_of_le_of_lt (ignoreWs_shrinks concise_shrinks _ _ _ hpi) l3
    · obtain ⟨j8, y, h13, h14⟩ := preceded_inv hpi
      obtain ⟨gap, j9, e9, hgap, -, h15⟩ := ignoreWs_inv h13
      have := len_of (lineEnding_inv h15).1
      have := len_of e9
      have := hn _ _ _ h14
      omega
  · obtain ⟨j4, v, h7, h8⟩ := bind_inv h6
    cases h8
    exact lt_of_le_of_lt (hn _ _ _ (ctx_inv h7)) l1

theorem sub_len {nested : Parser Kserd} (hn : Shrinks nested) {i r : Str} {c : CField} (h : nestedField nested i = .ok r c) : r.length < i.length := by
  obtain ⟨j, ni, h1, h2⟩ := bind_inv h
  obtain ⟨j2, x, h3, h4⟩ := bind_inv h2
  obtain ⟨hd, -, -, -, e⟩ := heading_inv h1 h3 rfl
  obtain ⟨j4, v, h7, h8⟩ := bind_inv h4
  cases h8
  have := heading_len (o := ['[']) (c := [']']) (by decide) hd
  have := hn _ _ _ (ctx_inv h7)
  rw [e, List.length_append]; omega

theorem body_len {nested : Parser Kserd} (hn : Shrinks nested) {i r : Str} {c : CField} (h : fieldBody nested i = .ok r c) : r.length < i.length := by
  rw [fieldBody.eq_def] at h
  split at h
  · cases h
  · split at h
    · obtain ⟨j, id, h1, h2⟩ := bind_inv h
      cases h2
      obtain ⟨w, j2, e, hw, -, h3⟩ := ignoreWs_inv h1
      have := len_of (ident_inv h3).1
      have := len_of e
      rw [List.length_cons]; omega
    · exact entry_len hn h
    · exact sub_len hn h
    · obtain ⟨j, p, h1, h2⟩ := bind_inv h
      cases h2
      obtain ⟨j, j2, b, h1, h2, h3⟩ := sepPair_inv (ctx_inv (cut_inv h1))
      obtain ⟨e1, -, -⟩ := takeWhile_inv h1
      obtain ⟨w, j3, e2, hw, -, h4⟩ := ignoreWs_inv h2
      obtain ⟨w', j4, e3, hw', -, h5⟩ := ignoreWs_inv h3
      have := concise_shrinks _ _ _ (cut_inv h5)
      have := len_of e1
      have := len_of e2
      have := len_of e3
      have := congrArg List.length (char_inv h4)
      rw [List.length_cons] at this
      omega

theorem field_len {nested : Parser Kserd} (hn : Shrinks nested) (d : Nat) {i r : Str} {c : CField} (h : verboseField nested d i = .ok r c) :
    r.length < i.length := by
  obtain ⟨j1, u, h1, h2⟩ := bind_inv h
  obtain ⟨j2, u, h3, h4⟩ := bind_inv h2
  obtain ⟨j3, w, h5, h6⟩ := bind_inv h4
  obtain ⟨s, -, e1, -⟩ := skipBlank_inv _ _ _ _ h1
  obtain ⟨s2, -, e2⟩ := expectIndents_inv _ _ _ _ h3
  obtain ⟨e3, -⟩ := inlineWs_inv h5
  have := body_len hn h6
  have := len_of e1
  have := len_of e2
  have := len_of e3
  omega

/-- The lines found by a loop. -/
inductive MChain (f : Parser α) : Str → List α → Str → Prop
  | nil {i : Str} {e : PErr} : f i = .err e → MChain f i [] i
  | cons {i i1 r : Str} {a : α} {l : List α} : f i = .ok i1 a → MChain f i1 l r → MChain f i (a :: l) r

theorem many0Loop_inv {f : Parser α} : ∀ (n : Nat) (i : Str) (acc : List α) (r : Str) (l : List α), many0Loop f n i acc = .ok r l →
    ∃ l', l = acc.reverse ++ l' ∧ MChain f i l' r
  | 0, _, _, _, _, h => by cases h
  | n + 1, i, acc, r, l, h => by
    rw [many0Loop.eq_def] at h
    simp only at h
    cases hf : f i with
    | err e => simp only [hf] at h; cases h; exact ⟨[], by simp, .nil hf⟩
    | fail e => simp only [hf] at h; cases h
    | panic => simp only [hf] at h; cases h
    | oof => simp only [hf] at h; cases h
    | ok i1 a =>
      simp only [hf] at h
      split at h
      · cases h
      · obtain ⟨l', e, hc⟩ := many0Loop_inv n i1 (a :: acc) r l h
        exact ⟨a :: l', by rw [e]; simp, .cons hf hc⟩

theorem verbose_inv {nested : Parser Kserd} {d : Nat} {i r : Str} {k : Kserd} (h : verbose nested d i = .ok r k) :
    ∃ cs, MChain (verboseField nested d) i cs r ∧ k = (cs.foldl CAcc.step {}).finish := by
  obtain ⟨r', cs, h1, h2⟩ := bind_inv h
  cases h2
  obtain ⟨l', e, hc⟩ := many0Loop_inv _ _ _ _ _ h1
  rw [List.reverse_nil, List.nil_append] at e
  subst e
  exact ⟨_, hc, rfl⟩

theorem mchain_len {nested : Parser Kserd} (hn : Shrinks nested) {d : Nat} {i r : Str} {cs : List CField} (h : MChain (verboseField nested d) i cs r) :
    r.length ≤ i.length := by
  induction h with
  | nil => exact le_refl _
  | cons h1 _ ih => exact ih.trans (le_of_lt (field_len hn d h1))

theorem nested_shrinks : ∀ (f d : Nat), Shrinks (kserdNested f d)
  | 0, _ => fun i r a h => by cases h
  | f + 1, d => fun i r a h => by
    rw [kserdNested] at h
    split at h
    · obtain ⟨cs, hc, -⟩ := verbose_inv h
      exact mchain_len (nested_shrinks f _) hc
    · exact ignoreWs_shrinks concise_shrinks _ _ _ h

theorem verbose_not_err {nested : Parser Kserd} (hn : Shrinks nested) (d : Nat) (i : Str) (e : PErr) : verbose nested d i ≠ .err e := by
  intro h
  rcases bind_err h with h1 | ⟨_, _, -, h8⟩
  · refine many0Loop_not_err ?_ _ _ _ _ h1
    intro i r a h
    exact Nat.ne_of_lt (field_len hn d h)
  · cases h8

/-- What cannot be read at the deeper level cannot be read at all. -/
theorem errs_levels (f g d e : Nat) : Errs (kserdNested f d) (kserdNested g e) := by
  intro i x h r a hq
  cases f with
  | zero => cases h
  | succ f =>
    cases g with
    | zero => cases hq
    | succ g =>
      rw [kserdNested] at h hq
      split at h
      · exact verbose_not_err (nested_shrinks f _) _ _ _ h
      · rename_i hp
        rw [if_neg hp, h] at hq; cases hq

/-! ## All lines -/

/-- A line that is read, with what precedes it. -/
theorem field_inv {nested : Parser Kserd} {d : Nat} {i r : Str} {c : CField} (h : verboseField nested d i = .ok r c) :
    ∃ skip ind pre j, BlankLines skip ∧ Indent d ind ∧ Blanks pre ∧ i = skip ++ (ind ++ (pre ++ j)) ∧ fieldBody nested j = .ok r c ∧
      ∀ (g e : Nat) (x : PErr), Ends isInlineWs j ∧ ((∃ a p, Indent e a ∧ ind ++ pre = a ++ p) → verboseField (kserdNested g (e + 1)) e i = .err x →
        fieldBody (kserdNested g (e + 1)) j = .err x) := by
  obtain ⟨j1, u, h1, h2⟩ := bind_inv h
  obtain ⟨j2, u, h3, h4⟩ := bind_inv h2
  obtain ⟨j3, w, h5, h6⟩ := bind_inv h4
  obtain ⟨s, hs, e1, -⟩ := skipBlank_inv _ _ _ _ h1
  obtain ⟨s2, hs2, e2⟩ := expectIndents_inv _ _ _ _ h3
  obtain ⟨e3, hw, hend⟩ := inlineWs_inv h5
  refine ⟨s, s2, w, j3, hs, hs2, hw, by rw [e1, e2, e3], h6, fun g e x => ⟨hend, ?_⟩⟩
  rintro ⟨a, p, ha, eap⟩ he
  have hb : Blanks (a ++ p) := by rw [← eap]; exact blanks_append (indent_blanks hs2) hw
  have hp : Blanks p := fun c hc => hb c (by simp [hc])
  have ej1 : j1 = a ++ (p ++ j3) := by rw [e2, e3, ← List.append_assoc, eap, List.append_assoc]
  rw [verboseField, h1, bind_ok, ej1, indent_ok ha, bind_ok, inlineWs_ok hp hend, bind_ok] at he
  exact he

theorem lines_sound {f d : Nat} (hn : ∀ i r k, kserdNested f (d + 1) i = .ok r k → DocGives (d + 1) i r k) {i r : Str} {cs : List CField}
    (h : MChain (verboseField (kserdNested f (d + 1)) d) i cs r) :
    ∃ L : Lines, L.Reads d r ∧ L.Val cs ∧ i = L.text ++ r ∧ Ended d r ∧ (Ended (d + 1) i → L.NotAt (d + 1)) := by
  induction h with
  | nil he => exact ⟨.nil, trivial, rfl, rfl, ⟨f, _, he⟩, fun _ => trivial⟩
  | cons h1 _ ih =>
    obtain ⟨L, l1, l2, l3, l4, l5⟩ := ih
    obtain ⟨skip, ind, pre, j, hs, hi, hp, e, hb, hdeep⟩ := field_inv h1
    obtain ⟨x, x1, x2, x3, x4⟩ := body_sound hn (hdeep 0 0 []).1 hb
    refine ⟨.cons skip ind pre x L, ⟨hs, hi, hp, by rw [← l3]; exact x1, fun ho => l5 (x4 ho), l1⟩, ⟨_, _, x2, l2, rfl⟩, ?_, l4, ?_⟩
    · rw [e, x3, l3]; simp [Lines.text]
    · rintro ⟨g, x, hx⟩ hat
      exact errs_body (errs_levels g f (d + 1 + 1) (d + 1)) ((hdeep g (d + 1) x).2 hat hx) _ _ hb

theorem inserted_mem : ∀ (l : List (Kserd × Kserd)) (p : Kserd × Kserd), p ∈ inserted l → (∃ e ∈ l, e.1 = p.1) ∧ ∃ e ∈ l, e.2 = p.2 := by
  intro l
  induction l using List.reverseRecOn with
  | nil => intro p hp; cases hp
  | append_singleton l q ih =>
    intro p hp
    rw [inserted_snoc] at hp
    rcases BTree.insert_mem _ _ _ _ hp with ⟨h1, h2 | ⟨v', h2⟩⟩ | h1
    · exact ⟨⟨q, by simp, h2.symm⟩, q, by simp, h1.symm⟩
    · obtain ⟨⟨e, he, e1⟩, -⟩ := ih _ h2
      exact ⟨⟨e, by simp [he], e1⟩, q, by simp, h1.symm⟩
    · obtain ⟨⟨e, he, e1⟩, e', he', e2⟩ := ih _ h1
      exact ⟨⟨e, by simp [he], e1⟩, e', by simp [he'], e2⟩

theorem linesOf_finish (cs : List CField) : LinesOf (cs.map item) (cs.foldl CAcc.step {}).finish := by
  have h := inv_fold cs inv_nil
  rw [List.nil_append] at h
  generalize cs.foldl CAcc.step {} = a at h ⊢
  generalize cs.map item = l at h ⊢
  rw [CAcc.finish]
  have gs := fun n => get_fold (fun p : Str × (Option Str × List Kserd) => Kserd.mk p.2.1 (.seq p.2.2)) n _ _ h.aS h.aR
  have gm := fun n => get_fold (fun p : Str × (Option Str × KMap) => Kserd.mk p.2.1 (.map p.2.2)) n _ _ h.aM (gs n).1
  have key : ∀ n x, (n, x) ∈ (a.maps.foldl (fun r p => BTree.insert cmpStr p.1 (Kserd.mk p.2.1 (.map p.2.2)) r)
      (a.seqs.foldl (fun r p => BTree.insert cmpStr p.1 (Kserd.mk p.2.1 (.seq p.2.2)) r) a.rfields)) ↔
      (if entriesFor n l ≠ [] then x = .mk (lastId ((entriesFor n l).map (·.1))) (.map (inserted ((entriesFor n l).map (·.2))))
       else if elemsOf n l ≠ [] then x = .mk (lastId ((elemsOf n l).map (·.1))) (.seq ((elemsOf n l).map (·.2)))
       else (givenFor n l).getLast? = some x) := by
    intro n x
    rw [mem_get (gm n).1, (gm n).2, (gs n).2, h.gM n, h.gS n, h.gR n]
    by_cases h1 : entriesFor n l = []
    · rw [if_pos h1, if_neg (show ¬ entriesFor n l ≠ [] from not_not.mpr h1)]
      by_cases h2 : elemsOf n l = []
      · rw [if_pos h2, if_neg (show ¬ elemsOf n l ≠ [] from not_not.mpr h2)]
      · rw [if_neg h2, if_pos h2]; simp [eq_comm]
    · rw [if_neg h1, if_pos h1]; simp [eq_comm]
  refine ⟨_, by rw [h.id], (gm []).1, fun n => ?_, fun n x hx => ?_⟩
  · constructor
    · rintro ⟨x, hx⟩
      rw [key] at hx
      rw [Named]
      by_cases h1 : entriesFor n l = []
      · by_cases h2 : elemsOf n l = []
        · simp only [h1, h2, ne_eq, not_true_eq_false, if_false] at hx
          left; intro h3; rw [h3] at hx; cases hx
        · exact .inr (.inl h2)
      · exact .inr (.inr h1)
    · intro hn
      by_cases h1 : entriesFor n l = []
      · by_cases h2 : elemsOf n l = []
        · rcases hn with h3 | h3 | h3
          · refine ⟨(givenFor n l).getLast h3, (key n _).mpr ?_⟩
            · simp only [h1, h2, ne_eq, not_true_eq_false, if_false]
              exact List.getLast?_eq_some_getLast h3
          · exact absurd h2 h3
          · exact absurd h1 h3
        · refine ⟨.mk (lastId ((elemsOf n l).map (·.1))) (.seq ((elemsOf n l).map (·.2))), (key n _).mpr ?_⟩
          · simp [h1, h2]
      · refine ⟨.mk (lastId ((entriesFor n l).map (·.1))) (.map (inserted ((entriesFor n l).map (·.2)))), (key n _).mpr ?_⟩
        · simp [h1]
  · rw [key] at hx
    rw [ValueFor]
    by_cases h1 : entriesFor n l = []
    · simpa [h1] using hx
    · rw [if_pos h1] at hx ⊢
      refine ⟨_, hx, ?_, ?_⟩
      · intro p hp
        obtain ⟨⟨e, he, e1⟩, e', he', e2⟩ := inserted_mem _ p hp
        obtain ⟨y, hy, rfl⟩ := List.mem_map.mp he
        obtain ⟨y', hy', rfl⟩ := List.mem_map.mp he'
        exact ⟨⟨y, hy, e1⟩, y', hy', e2⟩
      · intro hl
        refine mapOf_inserted _ ?_
        intro p hp
        obtain ⟨e, he, rfl⟩ := List.mem_map.mp hp
        exact hl e he

theorem startsWith_append (t x : Str) : startsWith t x = true ↔ ∃ z, x = t ++ z := by
  rw [startsWith_iff]
  constructor
  · rintro ⟨z, h⟩; exact ⟨z, h.symm⟩
  · rintro ⟨z, h⟩; exact ⟨z, h.symm⟩

theorem encased_iff (x : Str) : encasedName x = true ↔ ∃ a n b z, x = '[' :: (a ++ (n ++ (b ++ ']' :: z))) ∧ Blanks a ∧ ValidName n ∧ Blanks b := by
  rw [encasedName]
  constructor
  · intro h
    cases hx : preceded (tag ['[']) (terminated (ignoreWs validName) (ignoreWs (tag [']']))) x with
    | ok r v =>
      obtain ⟨j, t, h1, h2⟩ := preceded_inv hx
      obtain ⟨j2, t2, h3, h4⟩ := terminated_inv h2
      obtain ⟨a, j3, e1, ha, -, h5⟩ := ignoreWs_inv h3
      obtain ⟨b, j4, e2, hb, -, h6⟩ := ignoreWs_inv h4
      obtain ⟨e3, hv, -⟩ := validName_inv h5
      refine ⟨a, v, b, r, ?_, ha, hv, hb⟩
      rw [tag_inv h1, e1, e3, e2, tag_inv h6]; rfl
    | err e => rw [hx] at h; cases h
    | fail e => rw [hx] at h; cases h
    | panic => rw [hx] at h; cases h
    | oof => rw [hx] at h; cases h
  · rintro ⟨a, n, b, z, rfl, ha, hn, hb⟩
    have h1 : ignoreWs validName (a ++ (n ++ (b ++ ']' :: z))) = .ok (b ++ ']' :: z) n := by
      obtain ⟨c, t, e, -, hm, -⟩ := name_start hn
      rw [ignoreWs_ok ha (by rw [e]; exact inline_of_multi (ends_cons hm _))]
      exact validName_ok hn (ends_blank_bracket (white_of_blanks hb) (by decide))
    have h2 : ignoreWs (tag [']']) (b ++ ']' :: z) = .ok z [']'] := by
      rw [ignoreWs_ok hb (ends_cons (by decide) z)]; exact tag_ok [']'] z
    have := preceded_ok (tag_ok ['['] (a ++ (n ++ (b ++ ']' :: z)))) (terminated_ok h1 h2)
    rw [List.singleton_append] at this
    rw [this]; rfl

/-- What decides between lines and a value. -/
theorem verbose_iff (x : Str) : patternVerbose x = true ↔ LinesAhead x := by
  rw [patternVerbose]
  simp only [Bool.or_eq_true, assign_iff, startsWith_append, encased_iff]
  obtain ⟨w, ew, hw, hend⟩ := dropWhile_split isMultiWs x
  have hww : White w := fun c hc => (multi_iff c).mp (hw c hc)
  constructor
  · rintro (((⟨z, h⟩ | ⟨z, h⟩) | h) | h)
    · exact .inr ⟨w, _, ew, hww, .inl ⟨z, h⟩⟩
    · exact .inr ⟨w, _, ew, hww, .inr (.inl ⟨z, h⟩)⟩
    · exact .inl h
    · exact .inr ⟨w, _, ew, hww, .inr (.inr h)⟩
  · rintro (h | ⟨w', y, rfl, hw', ⟨z, rfl⟩ | ⟨z, rfl⟩ | ⟨a, n, b, z, rfl, h⟩⟩)
    · exact .inl (.inr h)
    · rw [dropWhile_white hw' (by decide)]; exact .inl (.inl (.inl ⟨z, rfl⟩))
    · rw [dropWhile_white hw' (by decide)]; exact .inl (.inl (.inr ⟨z, rfl⟩))
    · rw [dropWhile_white hw' (by decide)]; exact .inr ⟨a, n, b, z, rfl, h⟩

/-- Everything read as a nested value is the text of a document, and the value is what it stands for. -/
theorem nested_sound : ∀ (f d : Nat) (i r : Str) (k : Kserd), kserdNested f d i = .ok r k → DocGives d i r k
  | 0, _, _, _, _, h => by cases h
  | f + 1, d, i, r, k, h => by
    rw [kserdNested] at h
    split at h
    · rename_i hv
      obtain ⟨cs, hc, rfl⟩ := verbose_inv h
      obtain ⟨L, l1, l2, l3, l4, -⟩ := lines_sound (nested_sound f (d + 1)) hc
      exact ⟨.lines L, ⟨by rw [← l3]; exact (verbose_iff i).mp hv, l1⟩, ⟨_, l2, rfl⟩, l3, fun _ => l4⟩
    · rename_i hv
      obtain ⟨w, j, e, hw, hj', hj⟩ := ignoreWs_inv h
      obtain ⟨T, t1, t2, t3⟩ := concise_sound hj' hj
      rw [verbose_iff, e, t3] at hv
      exact ⟨.value w T, ⟨hw, t1, hv⟩, t2, by rw [e, t3]; simp [Doc.text], (by intro e; cases e)⟩

theorem skipBlank_not_err : ∀ (n : Nat) (i : Str) (e : PErr), skipBlank n i ≠ .err e
  | 0, _, _, h => by cases h
  | n + 1, i, e, h => by
    rcases bind_err h with h1 | ⟨r, a, -, h2⟩
    · exact opt_not_err h1
    · split at h2
      · exact skipBlank_not_err n _ _ h2
      · cases h2

/-- Where reading lines has ended, no carriage return stands alone. -/
theorem ended_white {r : Str} (h : Ended 0 r) (hw : White r) : ∃ s b, r = s ++ b ∧ BlankLines s ∧ Blanks b := by
  obtain ⟨f, e, h⟩ := h
  rw [verboseField] at h
  cases h1 : skipBlank (r.length + 1) r with
  | ok j u =>
    obtain ⟨s, hs, e1, x, hx⟩ := skipBlank_inv _ _ _ _ h1
    rw [verboseField.skipBlank', h1, bind_ok, expectIndents, bind_ok] at h
    obtain ⟨b, eb, hb, hend⟩ := dropWhile_split isInlineWs j
    have hb : Blanks b := fun c hc => (inline_iff c).mp (hb c hc)
    rw [eb, inlineWs_ok hb hend, bind_ok] at h
    cases hj : j.dropWhile isInlineWs with
    | nil => exact ⟨s, b, by rw [e1, eb, hj]; simp, hs, hb⟩
    | cons c t =>
      exfalso
      rw [hj] at h hend eb
      have hcw := hw c (by rw [e1, eb]; simp)
      have hci := hend c t rfl
      rw [eb, ignoreWs_ok hb hend] at hx
      rcases hcw with rfl | rfl | rfl | rfl
      · cases hci
      · cases hci
      · rw [fieldBody.eq_def, if_neg] at h
        · have hk : ∃ e, kvpField (fun force => if force then kserdInline else kserdConcise) false ('\r' :: t) = .err e := by
            apply halt_kvpField
            exact .inr ⟨'\r', t, by rw [List.dropWhile_cons]; rfl, by simp⟩
          obtain ⟨y, hk⟩ := hk
          rw [cut, hk] at h
          cases h
        · rw [ignoreWs_ends hend, hx]; simp [PRes.isOk]
      · cases hx
  | err e => exact absurd h1 (skipBlank_not_err _ _ _)
  | fail e => rw [verboseField.skipBlank', h1] at h; cases h
  | panic => rw [verboseField.skipBlank', h1] at h; cases h
  | oof => rw [verboseField.skipBlank', h1] at h; cases h

theorem parse_sound_val {s : Str} {k : Kserd} (h : parse s = .ok k) : ∃ (D : Doc) (w : Str), s = D.text ++ w ∧ EndsWith D w ∧ D.Reads 0 w ∧ D.Val k := by
  rw [parse] at h
  cases hr : kserdRoot s with
  | ok r k' =>
    rw [hr] at h; cases h
    rw [kserdRoot] at hr
    split at hr
    · cases hr
    · obtain ⟨r', x, h1, h2⟩ := bind_inv hr
      split at h2
      · rename_i he
        cases h2
        obtain ⟨j, w, h3, h4⟩ := terminated_inv h1
        obtain ⟨e, hw, -⟩ := multiWs_inv h4
        obtain ⟨D, d1, d2, d3, d4⟩ := nested_sound _ _ _ _ _ h3
        rw [List.isEmpty_iff] at he
        subst he
        rw [List.append_nil] at e
        subst e
        exact ⟨D, j, d3, ⟨hw, fun hl => ended_white (d4 hl) hw⟩, d1, d2⟩
      · cases h2
  | err e => rw [hr] at h; cases h
  | fail e => rw [hr] at h; cases h
  | panic => rw [hr] at h; cases h
  | oof => rw [hr] at h; cases h

mutual
theorem doc_means : ∀ (D : Doc) {k : Kserd}, D.Val k → D.Means k
  | .value _ t, _, h => tree_means t h
  | .lines l, _, ⟨cs, h, e⟩ => ⟨cs.map item, lines_means l h, by rw [e]; exact linesOf_finish cs⟩
termination_by structural t => t
theorem lines_means : ∀ (L : Lines) {cs : List CField}, L.Val cs → L.Means (cs.map item)
  | .nil, _, h => by rw [Lines.Val] at h; rw [h]; rfl
  | .cons _ _ _ x r, _, ⟨c, cs, h1, h2, e⟩ => ⟨item c, cs.map item, line_means x h1, lines_means r h2, by rw [e]; rfl⟩
termination_by structural t => t
theorem line_means : ∀ (L : Line) {c : CField}, L.Val c → L.Means (item c)
  | .id _ _, _, h => by rw [Line.Val] at h; rw [h]; rfl
  | .field _ _ _ t, _, ⟨k, h, e⟩ => ⟨k, tree_means t h, by rw [e]; rfl⟩
  | .sub _ d, _, ⟨k, h, e⟩ => ⟨k, doc_means d h, by rw [e]; rfl⟩
  | .elem _ d, _, ⟨k, h, e⟩ => ⟨k, doc_means d h, by rw [e]; rfl⟩
  | .entry _ _ y _ _ t, _, ⟨a, k, h0, h, e⟩ => ⟨a, k, tree_means y h0, tree_means t h, by rw [e]; rfl⟩
  | .entryBelow _ _ y _ _ _ d, _, ⟨a, k, h0, h, e⟩ => ⟨a, k, tree_means y h0, doc_means d h, by rw [e]; rfl⟩
termination_by structural t => t
end

theorem parse_sound {s : Str} {k : Kserd} (h : parse s = .ok k) : ∃ (D : Doc) (w : Str), s = D.text ++ w ∧ EndsWith D w ∧ D.Reads 0 w ∧ D.Means k := by
  obtain ⟨D, w, h1, h2, h3, h4⟩ := parse_sound_val h
  exact ⟨D, w, h1, h2, h3, doc_means D h4⟩

end KS.GR
