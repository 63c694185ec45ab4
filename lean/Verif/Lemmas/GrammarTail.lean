import Verif.Lemmas.GrammarRoot
/-!
# White space behind a text of the grammar
-/

namespace KS.GR
open KS.Spec KS.P KS.Nom KS.RT KS.AS KS.Ext

/-- What is not white space does not belong to the white space at the end. -/
theorem tail_split {x v p z : Str} {c : Char} (hv : White v) (hc : isMultiWs c = false) (h : x ++ v = p ++ c :: z) :
    ∃ z', z = z' ++ v ∧ x = p ++ c :: z' := by
  rcases List.append_eq_append_iff.mp h with ⟨a, e1, e2⟩ | ⟨a, e1, e2⟩
  · have := (multi_iff c).mpr (hv c (by rw [e2]; simp))
    rw [hc] at this; cases this
  · cases a with
    | nil =>
      have := (multi_iff c).mpr (hv c (by rw [← show c :: z = v from e2]; simp))
      rw [hc] at this; cases this
    | cons d a =>
      rw [List.cons_append, List.cons.injEq] at e2
      obtain ⟨rfl, e2⟩ := e2
      exact ⟨a, e2, e1⟩

theorem notContinued_tail {P : Char → Prop} (hP : ∀ c, P c → isMultiWs c = false) {v : Str} (hv : White v) (r : Str) :
    NotContinued P (r ++ v) ↔ NotContinued P r := by
  cases r with
  | nil =>
    refine ⟨fun _ c r e => (by cases e), fun _ c t e hc => ?_⟩
    have := (multi_iff c).mpr (hv c (by rw [show v = c :: t from e]; simp))
    rw [hP c hc] at this; cases this
  | cons d r =>
    constructor
    · intro h c t e
      cases e
      exact h d (r ++ v) rfl
    · intro h c t e
      cases e
      exact h d r rfl

theorem numChar_multi (c : Char) (h : NumChar c) : isMultiWs c = false := by
  rw [← numChar_iff] at h
  rw [← Bool.not_eq_true, multi_iff]
  rintro (rfl | rfl | rfl | rfl) <;> revert h <;> decide

theorem bracket_multi {c : Char} (h : c = '(' ∨ c = '[' ∨ c = '{') : isMultiWs c = false := by
  rcases h with rfl | rfl | rfl <;> decide

theorem bracketAhead_tail {v : Str} (hv : White v) (x : Str) : BracketAhead (x ++ v) ↔ BracketAhead x := by
  constructor
  · rintro ⟨n, w, c, z, e, h1, h2, h3⟩
    rw [← List.append_assoc] at e
    obtain ⟨z', -, e'⟩ := tail_split hv (bracket_multi h3) e
    exact ⟨n, w, c, z', by rw [e', List.append_assoc], h1, h2, h3⟩
  · rintro ⟨n, w, c, z, e, h1, h2, h3⟩
    exact ⟨n, w, c, z ++ v, by rw [e]; simp, h1, h2, h3⟩

theorem assignAhead_tail {v : Str} (hv : White v) (x : Str) : AssignAhead (x ++ v) ↔ AssignAhead x := by
  constructor
  · rintro ⟨w, n, z, e, h1, h2⟩
    rw [← List.append_assoc] at e
    obtain ⟨z', -, e'⟩ := tail_split hv (by decide) e
    exact ⟨w, n, z', by rw [e', List.append_assoc], h1, h2⟩
  · rintro ⟨w, n, z, e, h1, h2⟩
    exact ⟨w, n, z ++ v, by rw [e]; simp, h1, h2⟩

theorem linesAhead_tail {v : Str} (hv : White v) (x : Str) : LinesAhead (x ++ v) ↔ LinesAhead x := by
  refine or_congr (assignAhead_tail hv x) ⟨?_, ?_⟩
  · rintro ⟨w, y, e, h1, h⟩
    rcases h with ⟨z, rfl⟩ | ⟨z, rfl⟩ | ⟨a, n, b, z, rfl, h2, h3, h4⟩
    · obtain ⟨z', -, e'⟩ := tail_split hv (by decide) e
      exact ⟨w, _, e', h1, .inl ⟨z', rfl⟩⟩
    · obtain ⟨z', e1, e'⟩ := tail_split (p := w ++ ['[']) (c := '[') (z := z) hv (by decide) (by rw [e]; simp)
      exact ⟨w, '[' :: '[' :: z', by rw [e']; simp, h1, .inr (.inl ⟨z', rfl⟩)⟩
    · obtain ⟨z', e1, e'⟩ := tail_split (p := w ++ '[' :: (a ++ (n ++ b))) (c := ']') (z := z) hv (by decide) (by rw [e]; simp)
      exact ⟨w, '[' :: (a ++ (n ++ (b ++ ']' :: z'))), by rw [e']; simp, h1, .inr (.inr ⟨a, n, b, z', rfl, h2, h3, h4⟩)⟩
  · rintro ⟨w, y, rfl, h1, h⟩
    refine ⟨w, y ++ v, by simp, h1, ?_⟩
    rcases h with ⟨z, rfl⟩ | ⟨z, rfl⟩ | ⟨a, n, b, z, rfl, h2, h3, h4⟩
    · exact .inl ⟨z ++ v, rfl⟩
    · exact .inr (.inl ⟨z ++ v, rfl⟩)
    · exact .inr (.inr ⟨a, n, b, z ++ v, by simp, h2, h3, h4⟩)

mutual
theorem tree_tail {v : Str} (hv : White v) : ∀ (T : Tree) (inl : Bool) (r : Str), T.Reads inl (r ++ v) ↔ T.Reads inl r
  | .prim id w l, inl, r => by
    rw [Tree.Reads, Tree.Reads]
    have h1 : l.Complete (r ++ v) ↔ l.Complete r := by
      cases l <;> first | exact Iff.rfl | exact notContinued_tail numChar_multi hv r
    have h2 : BracketAhead (l.text ++ (r ++ v)) ↔ BracketAhead (l.text ++ r) := by rw [← List.append_assoc]; exact bracketAhead_tail hv _
    rw [h1, h2]
  | .tuple id w c lead b, inl, r => by
    rw [Tree.Reads, Tree.Reads, ← List.cons_append, elems_tail hv b c (')' :: r)]
  | .seq id w c lead b, inl, r => by
    rw [Tree.Reads, Tree.Reads, ← List.cons_append, elems_tail hv b c (']' :: r)]
  | .cntr id w c lead b, inl, r => by
    rw [Tree.Reads, Tree.Reads, ← List.cons_append, assigns_tail hv b c (')' :: r)]
  | .map id w c lead b, inl, r => by
    rw [Tree.Reads, Tree.Reads, ← List.cons_append, pairs_tail hv b c ('}' :: r)]
termination_by structural t => t
theorem elems_tail {v : Str} (hv : White v) : ∀ (b : Elems) (c : Bool) (r : Str), b.Reads c (r ++ v) ↔ b.Reads c r
  | .nil, _, _ => Iff.rfl
  | .cons pre t post b, c, r => by
    rw [Elems.Reads, Elems.Reads, elems_tail hv b c r, ← tree_tail hv t (!c) (post ++ (comma c b.isNil ++ (b.text c ++ r)))]
    simp only [List.append_assoc]
termination_by structural t => t
theorem assigns_tail {v : Str} (hv : White v) : ∀ (b : Assigns) (c : Bool) (r : Str), b.Reads c (r ++ v) ↔ b.Reads c r
  | .nil, _, _ => Iff.rfl
  | .cons pre name mid gap t post b, c, r => by
    rw [Assigns.Reads, Assigns.Reads, assigns_tail hv b c r, ← tree_tail hv t (!c) (post ++ (comma c b.isNil ++ (b.text c ++ r)))]
    simp only [List.append_assoc]
termination_by structural t => t
theorem pairs_tail {v : Str} (hv : White v) : ∀ (b : Pairs) (c : Bool) (r : Str), b.Reads c (r ++ v) ↔ b.Reads c r
  | .nil, _, _ => Iff.rfl
  | .cons pre key mid gap t post b, c, r => by
    rw [Pairs.Reads, Pairs.Reads, pairs_tail hv b c r, ← tree_tail hv t (!c) (post ++ (comma c b.isNil ++ (b.text c ++ r))), ← tree_tail hv key false (mid ++ ':' :: (gap ++ (t.text ++ (post ++ (comma c b.isNil ++ (b.text c ++ r))))))]
    simp only [List.append_assoc, List.cons_append]
termination_by structural t => t
end

theorem keyAhead_tail {v : Str} (hv : White v) (x : Str) : KeyAhead (x ++ v) ↔ KeyAhead x := by
  constructor
  · rintro ⟨w, K, mid, z, e, h1, h2, h3⟩
    obtain ⟨z', e1, e2⟩ := tail_split (p := w ++ (K.text ++ mid)) (c := ':') (z := z) hv (by decide) (by rw [e]; simp)
    refine ⟨w, K, mid, z', by rw [e2]; simp, h1, h2, ?_⟩
    rw [← tree_tail hv]
    rwa [List.append_assoc, List.cons_append, ← e1]
  · rintro ⟨w, K, mid, z, rfl, h1, h2, h3⟩
    refine ⟨w, K, mid, z ++ v, by simp, h1, h2, ?_⟩
    rw [← tree_tail hv] at h3
    rwa [List.append_assoc, List.cons_append] at h3

theorem nameChar_multi (c : Char) (h : NameChar c) : isMultiWs c = false := (nameChar_not h).1

mutual
theorem doc_tail {v : Str} (hv : White v) : ∀ (D : Doc) (d : Nat) (r : Str), D.Reads d (r ++ v) ↔ D.Reads d r
  | .value w t, d, r => by
    rw [Doc.Reads, Doc.Reads, tree_tail hv t, ← linesAhead_tail hv (w ++ (t.text ++ r))]
    simp only [List.append_assoc]
  | .lines l, d, r => by
    rw [Doc.Reads, Doc.Reads, lines_tail hv l, ← linesAhead_tail hv (l.text ++ r), List.append_assoc]
termination_by structural t => t
theorem lines_tail {v : Str} (hv : White v) : ∀ (L : Lines) (d : Nat) (r : Str), L.Reads d (r ++ v) ↔ L.Reads d r
  | .nil, _, _ => Iff.rfl
  | .cons skip ind pre x l, d, r => by
    rw [Lines.Reads, Lines.Reads, lines_tail hv l, ← line_tail hv x d (l.text ++ r), List.append_assoc]
termination_by structural t => t
theorem line_tail {v : Str} (hv : White v) : ∀ (L : Line) (d : Nat) (r : Str), L.Reads d (r ++ v) ↔ L.Reads d r
  | .id w i, d, r => by rw [Line.Reads, Line.Reads, notContinued_tail nameChar_multi hv]
  | .field name mid gap t, d, r => by rw [Line.Reads, Line.Reads, tree_tail hv t]
  | .sub h x, d, r => by rw [Line.Reads, Line.Reads, doc_tail hv x]
  | .elem h x, d, r => by rw [Line.Reads, Line.Reads, doc_tail hv x, ← keyAhead_tail hv (x.text ++ r), List.append_assoc]
  | .entry h w key mid gap t, d, r => by
    rw [Line.Reads, Line.Reads, tree_tail hv t, ← tree_tail hv key true (mid ++ ':' :: (gap ++ (t.text ++ r)))]
    simp only [List.append_assoc, List.cons_append]
  | .entryBelow h w key mid gap eol x, d, r => by
    rw [Line.Reads, Line.Reads, doc_tail hv x, ← tree_tail hv key true (mid ++ ':' :: (gap ++ (eol ++ (x.text ++ r))))]
    simp only [List.append_assoc, List.cons_append]
termination_by structural t => t
end

/-- White space in which every carriage return belongs to a line end consists of blank lines and blanks. -/
theorem blank_lines : ∀ {v : Str}, White v → (∀ a b, v = a ++ '\r' :: b → ∃ r, b = '\n' :: r) → ∃ s b, v = s ++ b ∧ BlankLines s ∧ Blanks b
  | [], _, _ => ⟨[], [], rfl, .nil, by intro c hc; cases hc⟩
  | c :: v, hv, hr => by
    have hv' : White v := fun d hd => hv d (by simp [hd])
    obtain ⟨s, b, e, hs, hb⟩ := blank_lines hv' (fun x y e => hr (c :: x) y (by rw [e]; rfl))
    rcases hv c (by simp) with rfl | rfl | rfl | rfl
    · cases hs with
      | nil => exact ⟨[], ' ' :: b, by rw [e]; rfl, .nil, by intro d hd; rcases List.mem_cons.mp hd with rfl | hd; exacts [.inl rfl, hb d hd]⟩
      | @cons w el r hw he hr' =>
        refine ⟨(' ' :: w) ++ (el ++ r), b, by rw [e]; simp, .cons ?_ he hr', hb⟩
        intro d hd; rcases List.mem_cons.mp hd with rfl | hd; exacts [.inl rfl, hw d hd]
    · cases hs with
      | nil => exact ⟨[], '\t' :: b, by rw [e]; rfl, .nil, by intro d hd; rcases List.mem_cons.mp hd with rfl | hd; exacts [.inr rfl, hb d hd]⟩
      | @cons w el r hw he hr' =>
        refine ⟨('\t' :: w) ++ (el ++ r), b, by rw [e]; simp, .cons ?_ he hr', hb⟩
        intro d hd; rcases List.mem_cons.mp hd with rfl | hd; exacts [.inr rfl, hw d hd]
    · obtain ⟨t, ht⟩ := hr [] v rfl
      have hlt : t.length < v.length := by rw [ht]; exact Nat.lt_succ_self _
      subst ht
      obtain ⟨s, b, e, hs, hb⟩ := blank_lines (v := t) (fun d hd => hv' d (by simp [hd])) (fun x y e => hr ('\r' :: '\n' :: x) y (by rw [e]; rfl))
      exact ⟨[] ++ (['\r', '\n'] ++ s), b, by rw [e]; rfl, .cons (by intro d hd; cases hd) (.inr rfl) hs, hb⟩
    · exact ⟨[] ++ (['\n'] ++ s), b, by rw [e]; rfl, .cons (by intro d hd; cases hd) (.inl rfl) hs, hb⟩
termination_by v => v.length
decreasing_by
  · exact Nat.lt_succ_self _
  · exact Nat.lt_succ_of_lt (by assumption)

theorem blankLines_append {a b : Str} (ha : BlankLines a) (hb : BlankLines b) : BlankLines (a ++ b) := by
  induction ha with
  | nil => exact hb
  | cons hw he _ ih => rw [List.append_assoc, List.append_assoc]; exact .cons hw he ih

/-- White space may be added behind a document. -/
theorem endsWith_tail {D : Doc} {w v : Str} (h : EndsWith D w) (hv : White v)
    (hc : D.isLines = true → ∀ a b, v = a ++ '\r' :: b → ∃ r, b = '\n' :: r) : EndsWith D (w ++ v) := by
  refine ⟨white_append h.1 hv, fun hl => ?_⟩
  obtain ⟨s, b, rfl, hs, hb⟩ := h.2 hl
  obtain ⟨s', b', rfl, hs', hb'⟩ := blank_lines hv (hc hl)
  cases hs' with
  | nil => exact ⟨s, b ++ b', by simp, hs, blanks_append hb hb'⟩
  | @cons w' e r hw he hr =>
    exact ⟨s ++ ((b ++ w') ++ (e ++ r)), b', by simp, blankLines_append hs (.cons (blanks_append hb hw) he hr), hb'⟩

/-! ## A carriage return on its own -/

theorem lone_noLine {t : Str} (h : ∀ r, t ≠ '\n' :: r) : NoLine ('\r' :: t) := by
  refine ⟨ends_cons (by decide) t, [('\r' :: t, .crlf)], ?_⟩
  rw [lineEnding]
  · rintro r' he; cases he
  · rintro r' he; cases he; exact h _ rfl

/-- A carriage return without line feed comes next, indented by `d` levels. -/
def LoneAt (d : Nat) (rest : Str) : Prop :=
  ∃ s b t, rest = s ++ (b ++ '\r' :: t) ∧ BlankLines s ∧ Blanks b ∧ (∀ r, t ≠ '\n' :: r) ∧ ∃ i p, Indent d i ∧ b = i ++ p

theorem LoneAt.next {d : Nat} {rest : Str} (h : LoneAt d rest) : LoneAt (d + 1) rest ∨ Stops (d + 1) rest := by
  obtain ⟨s, b, t, h1, h2, h3, h4, -⟩ := h
  by_cases hi : ∃ i p, Indent (d + 1) i ∧ b = i ++ p
  · exact .inl ⟨s, b, t, h1, h2, h3, h4, hi⟩
  · exact .inr ⟨s, b, _, h1, h2, h3, lone_noLine h4, .inr hi⟩

theorem LoneAt.fail {d : Nat} {rest : Str} (h : LoneAt d rest) (nested : Parser Kserd) : ∃ e, verboseField nested d rest = .fail e := by
  obtain ⟨s, b, t, rfl, hs, hb, ht, i, p, hi, rfl⟩ := h
  have hp : Blanks p := fun c hc => hb c (by simp [hc])
  rw [verboseField, verboseField.skipBlank', skip_ok hs (ign_line_err' hb (lone_noLine ht)) _ (Nat.lt_succ_self _), bind_ok,
    List.append_assoc, indent_ok hi, bind_ok, inlineWs_ok hp (lone_noLine ht).1, bind_ok, fieldBody.eq_def]
  obtain ⟨e, he⟩ := ign_line_err' (b := []) blanks_empty (lone_noLine ht)
  rw [List.nil_append] at he
  rw [if_neg (by rw [he]; simp [PRes.isOk])]
  have hk : ∃ e, kvpField (fun force => if force then kserdInline else kserdConcise) false ('\r' :: t) = .err e := by
    refine ctx_err ?_
    obtain ⟨e, he⟩ := close_err (c := '=') (i := '\r' :: t) (by intro r h; rw [List.dropWhile_cons, if_neg (by decide)] at h; cases h)
    have hf : fieldName ('\r' :: t) = .ok ('\r' :: t) [] := tw_ends (a := []) (by intro c hc; cases hc) (ends_cons (by decide) t)
    rw [separatedPair, hf, bind_ok, he]
    exact ⟨_, rfl⟩
  obtain ⟨e', he'⟩ := hk
  simp only [cut, he']
  exact ⟨_, rfl⟩

/-- Items up to a failure. -/
inductive FChain {α : Type} (f : Parser α) : Str → Prop
  | stop {i : Str} {e : PErr} : f i = .fail e → FChain f i
  | cons {i i1 : Str} {a : α} : f i = .ok i1 a → FChain f i1 → FChain f i

theorem many0_fail {α : Type} {f : Parser α} (hf : ∀ i r a, f i = .ok r a → r.length < i.length) {i : Str} (h : FChain f i) :
    ∀ n acc, i.length < n → ∃ e, many0Loop f n i acc = .fail e := by
  induction h with
  | stop he =>
    intro n acc hn
    obtain ⟨n, rfl⟩ : ∃ m, n = m + 1 := ⟨n - 1, by omega⟩
    rw [many0Loop.eq_def]
    simp only [he]
    exact ⟨_, rfl⟩
  | cons h1 _ ih =>
    intro n acc hn
    obtain ⟨n, rfl⟩ : ∃ m, n = m + 1 := ⟨n - 1, by omega⟩
    have := hf _ _ _ h1
    rw [many0Loop.eq_def]
    simp only [h1]
    rw [if_neg (by omega)]
    exact ih n _ (by omega)

def DocFails (D : Doc) : Prop := ∀ d rest, D.isLines = true → D.Reads d rest → LoneAt d rest → ∃ e, N d (D.text ++ rest) = .fail e

def LineFails (L : Line) : Prop := ∀ d rest, L.open = true → L.Reads d rest → LoneAt (d + 1) rest → ∃ e, fieldBody (N (d + 1)) (L.text ++ rest) = .fail e

def LinesFail (L : Lines) : Prop := ∀ d rest, L.Reads d rest → LoneAt d rest → FChain (verboseField (N (d + 1)) d) (L.text ++ rest)

theorem ctx_fail {α : Type} {m : String} {p : Parser α} {i : Str} (h : ∃ e, p i = .fail e) : ∃ e, context m p i = .fail e := by
  obtain ⟨e, h⟩ := h
  exact ⟨_, by rw [context, h]⟩

theorem sub_fails (hd : Heading) (D : Doc) (hD : DocFails D) : LineFails (.sub hd D) := by
  rintro d rest hl ⟨hok, hr⟩ hs
  obtain ⟨e', hk⟩ := hD _ _ hl hr hs
  have e : (Line.sub hd D).text ++ rest = hd.text ['['] [']'] ++ (D.text ++ rest) := by simp only [Line.text, List.append_assoc]; rfl
  obtain ⟨c, z, e2, hc⟩ := bracket_head hd hok (D.text ++ rest)
  have e2 : hd.text ['['] [']'] ++ (D.text ++ rest) = '[' :: c :: z := e2
  obtain ⟨e3, he3⟩ := ctx_fail (m := "nested container") ⟨e', hk⟩
  have hf : nestedField (N (d + 1)) (hd.text ['['] [']'] ++ (D.text ++ rest)) = .fail e3 := by
    rw [nestedField, heading_ok hok ['['] ⟨[], rfl⟩, bind_ok, ign_line hok.2.2.2.2.2.1 hok.2.2.2.2.2.2, bind_ok, he3]
    rfl
  rw [e, fieldBody.eq_def, if_neg (by rw [e2]; exact not_blank (by decide) _)]
  rw [e2] at hf ⊢
  split
  · rename_i heq; cases heq
  · rename_i heq; cases heq; exact absurd rfl hc
  · exact ⟨_, hf⟩
  · rename_i h; exact absurd rfl (h _)

theorem elem_fails (hd : Heading) (D : Doc) (hD : DocFails D) : LineFails (.elem hd D) := by
  rintro d rest hl ⟨hok, hka, hr⟩ hs
  obtain ⟨e', he'⟩ := ctx_fail (m := "verbose sequence entry") (hD _ _ hl hr hs)
  have e : (Line.elem hd D).text ++ rest = hd.text (str "[[") (str "]]") ++ (D.text ++ rest) := by simp only [Line.text, List.append_assoc]
  rw [e, entry_body hok]
  rcases key_total (D.text ++ rest) with h | ⟨r, a, h⟩
  · rw [opt_err h, bind_ok]
    simp only
    rw [he']
    exact ⟨_, rfl⟩
  · exact absurd (key_inv h) hka

theorem entryBelow_fails (hd : Heading) (w : Str) (Y : Tree) (mid gap eol : Str) (D : Doc) (hD : DocFails D) : LineFails (.entryBelow hd w Y mid gap eol D) := by
  rintro d rest hl ⟨hok, hw, hy, hm, hg, heol, hr⟩ hs
  obtain ⟨a, ha, hma⟩ := key_read hw hm hy
  obtain ⟨k, hk⟩ := hD _ _ hl hr hs
  have e : (Line.entryBelow hd w Y mid gap eol D).text ++ rest =
      hd.text (str "[[") (str "]]") ++ (w ++ (Y.text ++ (mid ++ ':' :: (gap ++ (eol ++ (D.text ++ rest)))))) := by
    simp [Line.text]
  rw [e, entry_body hok, opt_ok ha, bind_ok]
  simp only
  have hh : Halt (eol ++ (D.text ++ rest)) := by
    rcases heol with rfl | rfl
    · exact .inr ⟨'\n', _, rfl, by simp⟩
    · exact .inr ⟨'\r', _, rfl, by simp⟩
  have : ∃ e, mapEntryValue (N (d + 1)) (gap ++ (eol ++ (D.text ++ rest))) = .fail e := by
    refine ctx_fail ?_
    rw [alt_skip _ (by rw [ignoreWs_ok hg (lineEnd_ends heol _)]; exact halt_K hh false)]
    refine ⟨k, ?_⟩
    rw [alt, preceded, ign_line hg heol, bind_ok, hk]
  obtain ⟨e', he'⟩ := this
  rw [he']
  exact ⟨_, rfl⟩

theorem lines_fail_cons {skip ind pre : Str} {x : Line} {r : Lines} (hx : LineFails x) (hr : LinesFail r) : LinesFail (.cons skip ind pre x r) := by
  rintro d rest ⟨h1, h2, h3, h4, h5, h6⟩ hs
  have e : (Lines.cons skip ind pre x r).text ++ rest = skip ++ (ind ++ (pre ++ (x.text ++ (r.text ++ rest)))) := by simp [Lines.text]
  have hc := hr _ _ h6 hs
  rw [e]
  have key : (x.open = true → Stops (d + 1) (r.text ++ rest)) → FChain (verboseField (N (d + 1)) d) (skip ++ (ind ++ (pre ++ (x.text ++ (r.text ++ rest))))) := by
    intro ho
    obtain ⟨c, hb, -⟩ := line_good x _ _ h4 ho
    exact .cons (by rw [field_at _ h1 h2 h3 h4, hb]) hc
  cases r with
  | nil =>
    rcases hs.next with hl | hl
    · by_cases ho : x.open = true
      · obtain ⟨e', he'⟩ := hx _ _ ho h4 hl
        exact .stop (e := e') (by rw [field_at _ h1 h2 h3 h4, he'])
      · exact key fun h => absurd h ho
    · exact key fun _ => hl
  | cons skip' ind' pre' x' r' =>
    refine key fun ho => ?_
    obtain ⟨g1, g2, g3, g4, -⟩ := h6
    refine ⟨skip', ind' ++ pre', x'.text ++ (r'.text ++ rest), ?_, g1, blanks_append (indent_blanks g2) g3, noLine_of_multi (line_ends g4 _), .inr (h5 ho)⟩
    simp [Lines.text]

theorem doc_fails_lines {L : Lines} (hL : LinesFail L) : DocFails (.lines L) := by
  rintro d rest - ⟨h1, h2⟩ hs
  rw [show (Doc.lines L).text = L.text from rfl, N_eq, if_pos ((verbose_iff _).mpr h1), verbose, many0]
  obtain ⟨e, he⟩ := many0_fail (fun i r a h => field_len (N_shrinks (d + 1)) d h) (hL _ _ h2 hs) _ [] (Nat.lt_succ_self _)
  rw [he]
  exact ⟨_, rfl⟩

mutual
theorem doc_fails : ∀ D : Doc, DocFails D
  | .value _ _ => fun _ _ h => by cases h
  | .lines l => doc_fails_lines (lines_fail l)
termination_by structural t => t
theorem lines_fail : ∀ L : Lines, LinesFail L
  | .nil => fun _ _ _ hs => by
    obtain ⟨e, he⟩ := hs.fail (N _)
    exact .stop he
  | .cons _ _ _ x r => lines_fail_cons (line_fails x) (lines_fail r)
termination_by structural t => t
theorem line_fails : ∀ L : Line, LineFails L
  | .id _ _ => fun _ _ h => by cases h
  | .field _ _ _ _ => fun _ _ h => by cases h
  | .sub h d => sub_fails h d (doc_fails d)
  | .elem h d => elem_fails h d (doc_fails d)
  | .entry _ _ _ _ _ _ => fun _ _ h => by cases h
  | .entryBelow h w k m g e d => entryBelow_fails h w k m g e d (doc_fails d)
termination_by structural t => t
end

/-- The first carriage return without line feed. -/
theorem first_lone : ∀ (v : Str), (∃ a b, v = a ++ '\r' :: b ∧ ∀ r, b ≠ '\n' :: r) →
    ∃ a b, v = a ++ '\r' :: b ∧ (∀ r, b ≠ '\n' :: r) ∧ ∀ x y, a = x ++ '\r' :: y → ∃ r, y = '\n' :: r
  | [], ⟨a, b, e, _⟩ => by simp at e
  | c :: v, ⟨a, b, e, h⟩ => by
    by_cases hc : c = '\r' ∧ ∀ r, v ≠ '\n' :: r
    · obtain ⟨rfl, hc⟩ := hc
      exact ⟨[], v, rfl, hc, by intro x y e; simp at e⟩
    · have hv : ∃ a b, v = a ++ '\r' :: b ∧ ∀ r, b ≠ '\n' :: r := by
        cases a with
        | nil => cases e; exact absurd ⟨rfl, h⟩ hc
        | cons d a => cases e; exact ⟨a, b, rfl, h⟩
      obtain ⟨a', b', e', h', hx⟩ := first_lone v hv
      refine ⟨c :: a', b', by rw [e']; rfl, h', ?_⟩
      intro x y hxy
      cases x with
      | nil =>
        cases hxy
        simp only [true_and, not_forall, ne_eq, not_not] at hc
        obtain ⟨r, hr⟩ := hc
        cases a' with
        | nil => rw [e'] at hr; cases hr
        | cons d a' =>
          rw [e'] at hr
          cases hr
          exact ⟨_, rfl⟩
      | cons d x => cases hxy; exact hx x y rfl

theorem parse_lone {s v : Str} {k : Kserd} (h : parse s = .ok k) (hv : White v) (hl : LinesAhead s)
    (hc : ∃ a b, v = a ++ '\r' :: b ∧ ∀ r, b ≠ '\n' :: r) (k' : Kserd) : parse (s ++ v) ≠ .ok k' := by
  obtain ⟨D, w, rfl, he, hr, hm⟩ := parse_sound_val h
  have hD : D.isLines = true := by
    cases D with
    | value w' t => exact absurd (by simpa [Doc.text] using hl) hr.2.2
    | lines l => rfl
  obtain ⟨a, b, rfl, hb, ha⟩ := first_lone v hc
  obtain ⟨s, x, rfl, hs, hx⟩ := he.2 hD
  obtain ⟨s', x', rfl, hs', hx'⟩ := blank_lines (v := a) (fun c hc => hv c (by simp [hc])) ha
  have hlone : LoneAt 0 ((s ++ x) ++ ((s' ++ x') ++ '\r' :: b)) := by
    cases hs' with
    | nil => exact ⟨s, x ++ x', b, by simp, hs, blanks_append hx hx', hb, [], x ++ x', .zero, rfl⟩
    | @cons w' e r hw hee hr =>
      exact ⟨s ++ ((x ++ w') ++ (e ++ r)), x', b, by simp, blankLines_append hs (.cons (blanks_append hx hw) hee hr), hx', hb, [], x', .zero, rfl⟩
  obtain ⟨e, hN⟩ := doc_fails D 0 _ hD ((doc_tail hv D 0 (s ++ x)).mpr hr) hlone
  intro hk
  rw [List.append_assoc] at hk
  obtain ⟨r, h1, -⟩ := root_ok hk
  rw [hN] at h1
  cases h1

theorem parse_tail {s v : Str} {k : Kserd} (h : parse s = .ok k) (hv : White v)
    (hc : LinesAhead s → ∀ a b, v = a ++ '\r' :: b → ∃ r, b = '\n' :: r) : parse (s ++ v) = .ok k := by
  obtain ⟨D, w, rfl, he, hr, hm⟩ := parse_sound_val h
  have hl : D.isLines = true → ∀ a b, v = a ++ '\r' :: b → ∃ r, b = '\n' :: r := by
    intro hl
    cases D with
    | value w t => cases hl
    | lines l => exact hc hr.1
  obtain ⟨k', h1, h2⟩ := parse_complete_val (endsWith_tail he hv hl) ((doc_tail hv D 0 w).mpr hr)
  rw [List.append_assoc, h1, D.val_unique h2 hm]

end KS.GR
