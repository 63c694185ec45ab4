import Verif.Lemmas.ExpressLines
/-!
# Lines for a container
-/

namespace KS.EX
open KS.Spec KS.Spec.Ex
open KS.GR hiding Stop Stops

/-- A tree is not taken for lines. -/
theorem value_not_lines {T : Spec.Tree} {k : Kserd} (hT : Spells T k) (hl : Lead k) (z : Str) : ¬ LinesAhead (T.text ++ '\n' :: z) := by
  obtain ⟨c, r, e, hc, hb⟩ := hT.head
  have hx : ∀ c t, T.text ++ '\n' :: z = c :: t → c ∉ str " \t\r\n" := by
    rw [e]
    rintro _ _ ⟨⟩ hx
    apply hc
    have : ∀ c ∈ str " \t\r\n", c ∈ str " \t\r\n:" := by decide
    exact this c hx
  rintro (ha | ⟨w, y, ey, hw, hy⟩)
  · have hs := (hT.lead hl).append z
    rw [List.append_assoc] at hs
    exact not_assign (w := []) (by intro c hc; cases hc) hx hs ha
  · have : y = T.text ++ '\n' :: z := by
      obtain ⟨u, h1, h2⟩ := white_split (w := []) (by intro c hc; cases hc) hw hx ey
      have : u = [] := by
        cases u with
        | nil => rfl
        | cons a u => simp at h1
      rw [h2, this]; rfl
    subst this
    rw [e] at hy
    rcases hy with ⟨z, hy⟩ | ⟨z, hy⟩ | ⟨a, n, b, z, hy, ha, hn, -⟩
    · cases hy; exact hc (by decide)
    · injection hy with e1 e2
      obtain ⟨y, rfl⟩ := hb e1
      injection e2 with e3 _
      cases e3
    · injection hy with e1 e2
      obtain ⟨y, rfl⟩ := hb e1
      cases a with
      | nil =>
        obtain ⟨x, m, rfl, hx, -⟩ := hn
        injection e2 with e3 _
        subst e3
        rcases hx with (⟨a, -⟩ | ⟨a, -⟩) | a <;> revert a <;> decide
      | cons x a =>
        injection e2 with e3 _
        subst e3
        rcases ha '\n' List.mem_cons_self with h | h <;> cases h

theorem not_blank_feed {m r z : Str} (hm : Blanks m) (e : '\n' :: r = m ++ ':' :: z) : False := by
  cases m with
  | nil => cases e
  | cons a m =>
    injection e with e1 _
    subst e1
    rcases hm '\n' List.mem_cons_self with h | h <;> cases h

/-- A tree is not taken for a key. -/
theorem value_not_key {T : Spec.Tree} {k : Kserd} (hT : Spells T k) (z : Str) : ¬ KeyAhead (T.text ++ '\n' :: z) := by
  rintro ⟨w, K, mid, y, e, hw, hm, hK⟩
  obtain ⟨c, r, et, hc, -⟩ := hT.head
  have hw0 : w = [] := by
    cases w with
    | nil => rfl
    | cons a w =>
      rw [et] at e
      injection e with e1 _
      subst e1
      exfalso
      apply hc
      rcases hw c List.mem_cons_self with h | h <;> rw [h] <;> decide
  subst hw0
  rw [List.nil_append] at e
  obtain ⟨k1, h1, -⟩ := tree_good T false _ (hT.reads _ (feed_rest z))
  obtain ⟨k2, h2, -⟩ := tree_good K false _ (reads_mono K hK)
  have h1 : P.kserdConcise _ = _ := h1
  have h2 : P.kserdConcise _ = _ := h2
  rw [e, h2] at h1
  injection h1 with e1 _
  exact not_blank_feed hm e1.symm

/-- Nothing that begins with a line break is a key. -/
theorem feed_not_key (z : Str) : ¬ KeyAhead ('\n' :: z) := by
  rintro ⟨w, K, mid, y, e, hw, hm, hK⟩
  cases w with
  | nil =>
    obtain ⟨c, r, ec, hc, -⟩ := tree_head hK
    rw [List.nil_append, ec] at e
    injection e with e1 _
    subst e1
    exact absurd hc (by decide)
  | cons a w =>
    injection e with e1 _
    subst e1
    rcases hw '\n' List.mem_cons_self with h | h <;> cases h

/-! ## Lines of one depth -/

def tabs (d : Nat) : Str := List.replicate d '\t'

theorem indent_tabs : ∀ d, Indent d (tabs d)
  | 0 => .zero
  | d + 1 => .tab (indent_tabs d)

theorem indent_length {n : Nat} {i : Str} (h : Indent n i) : n ≤ i.length := by
  induction h with
  | zero => exact Nat.zero_le _
  | blanks h ih => simp [KS.str] ; omega
  | tab h ih => simp; omega

theorem blank_feed : BlankLines ['\n'] := .cons (w := []) (e := ['\n']) (r := []) no_blanks (.inl rfl) .nil

def toLines (d : Nat) : List Line → Lines
  | [] => .nil
  | x :: l => .cons ['\n'] (tabs d) [] x (toLines d l)

theorem toLines_notAt (d : Nat) (l : List Line) : (toLines d l).NotAt (d + 1) := by
  cases l with
  | nil => trivial
  | cons x l =>
    rintro ⟨i, p, h, e⟩
    have := indent_length h
    have e := congrArg List.length e
    simp [tabs] at e
    omega

theorem toLines_text (d : Nat) (l m : List Line) : (toLines d (l ++ m)).text = (toLines d l).text ++ (toLines d m).text := by
  induction l with
  | nil => rfl
  | cons x l ih => simp [toLines, Lines.text, ih]

theorem toLines_reads (d : Nat) (rest : Str) (l m : List Line) (h1 : (toLines d l).Reads d ((toLines d m).text ++ rest)) (h2 : (toLines d m).Reads d rest) :
    (toLines d (l ++ m)).Reads d rest := by
  induction l with
  | nil => exact h2
  | cons x l ih =>
    obtain ⟨a, b, c, e, f, g⟩ := h1
    refine ⟨a, b, c, ?_, fun _ => toLines_notAt d _, ih g⟩
    have : (toLines d (l ++ m)).text ++ rest = (toLines d l).text ++ ((toLines d m).text ++ rest) := by rw [toLines_text, List.append_assoc]
    rw [show toLines d (l.append m) = toLines d (l ++ m) from rfl, this]
    exact e

theorem toLines_means (d : Nat) {l m : List Line} {i j : List Item} (h1 : (toLines d l).Means i) (h2 : (toLines d m).Means j) : (toLines d (l ++ m)).Means (i ++ j) := by
  induction l generalizing i with
  | nil => rw [show i = [] from h1]; exact h2
  | cons x l ih =>
    obtain ⟨a, b, h, h', rfl⟩ := h1
    exact ⟨a, b ++ j, h, ih h', rfl⟩

theorem toLines_keys (d : Nat) {l m : List Line} (h1 : (toLines d l).KeysOk) (h2 : (toLines d m).KeysOk) : (toLines d (l ++ m)).KeysOk := by
  induction l with
  | nil => exact h2
  | cons x l ih => exact ⟨h1.1, ih h1.2⟩

/-- Some lines, that can be read if another line follows, or also at the end. -/
structure Piece (d : Nat) (l : List Line) (its : List Item) (e : Prop) : Prop where
  ne : l ≠ []
  reads : ∀ r, e ∨ LinesAhead ('\n' :: r) → (toLines d l).Reads d ('\n' :: r)
  means : (toLines d l).Means its
  keys : (toLines d l).KeysOk

/-- They begin like lines. -/
def Starts (d : Nat) (l : List Line) : Prop := ∀ y, LinesAhead ((toLines d l).text ++ y)

theorem toLines_feed {d : Nat} {l : List Line} (h : l ≠ []) : ∃ z, (toLines d l).text = '\n' :: z := by
  cases l with
  | nil => exact absurd rfl h
  | cons x l => exact ⟨_, rfl⟩

theorem Piece.append {d : Nat} {l m : List Line} {i j : List Item} {e e' : Prop} (h1 : Piece d l i e) (h2 : Piece d m j e') (h : e ∨ Starts d m) :
    Piece d (l ++ m) (i ++ j) e' where
  ne := by simp [h1.ne]
  reads r hr := by
    obtain ⟨z, hz⟩ := toLines_feed (d := d) h2.ne
    refine toLines_reads d _ l m ?_ (h2.reads r hr)
    have := h1.reads (z ++ '\n' :: r) (h.imp_right fun h => by rw [← List.cons_append, ← hz]; exact h _)
    rwa [← List.cons_append, ← hz] at this
  means := toLines_means d h1.means h2.means
  keys := toLines_keys d h1.keys h2.keys

theorem Starts.append {d : Nat} {l m : List Line} (h : Starts d l) : Starts d (l ++ m) := fun y => by
  rw [toLines_text, List.append_assoc]; exact h _

theorem single {d : Nat} {x : Line} {i : Item} {e : Prop} (hr : ∀ r, e ∨ LinesAhead ('\n' :: r) → x.Reads d ('\n' :: r)) (hm : x.Means i) (hk : x.KeysOk) :
    Piece d [x] [i] e where
  ne := by simp
  reads r h := ⟨blank_feed, indent_tabs d, no_blanks, hr r h, fun _ => trivial, trivial⟩
  means := ⟨i, [], hm, rfl, rfl⟩
  keys := ⟨hk, trivial⟩

theorem single_starts {d : Nat} {x : Line} (h : ∀ y, LinesAhead ('\n' :: (tabs d ++ (x.text ++ y)))) : Starts d [x] := fun y => by
  have := h y
  simpa [toLines, Lines.text] using this

theorem white_feed (d : Nat) : White ('\n' :: tabs d) := by
  intro c hc
  rcases List.mem_cons.mp hc with h | h
  · simp [h]
  · simp [List.eq_of_mem_replicate h]

theorem id_starts {d : Nat} (i : Str) : Starts d [.id [] i] :=
  single_starts fun y => .inr ⟨'\n' :: tabs d, ':' :: (i ++ y), by simp [Line.text], white_feed d, .inl ⟨_, rfl⟩⟩

theorem field_starts {d : Nat} {n : Str} (hn : ∀ c ∈ n, NameChar c) (t : Spec.Tree) : Starts d [.field n [] [] t] :=
  single_starts fun y => .inl ⟨'\n' :: tabs d, n, t.text ++ y, by simp [Line.text], white_feed d, fun c hc => by
    have := name_not (hn c hc)
    rw [stop_iff]
    tauto⟩

theorem head_starts {d : Nat} (h : Heading) (D : Doc) : Starts d [.elem h D] :=
  single_starts fun _ => .inr ⟨'\n' :: tabs d, _, rfl, white_feed d, .inr (.inl ⟨_, rfl⟩)⟩

theorem entry_starts {d : Nat} (h : Heading) (w : Str) (K : Spec.Tree) (mid gap : Str) (T : Spec.Tree) : Starts d [.entry h w K mid gap T] :=
  single_starts fun _ => .inr ⟨'\n' :: tabs d, _, rfl, white_feed d, .inr (.inl ⟨_, rfl⟩)⟩

theorem below_starts {d : Nat} (h : Heading) (w : Str) (K : Spec.Tree) (mid gap eol : Str) (D : Doc) : Starts d [.entryBelow h w K mid gap eol D] :=
  single_starts fun _ => .inr ⟨'\n' :: tabs d, _, rfl, white_feed d, .inr (.inl ⟨_, rfl⟩)⟩

/-! ## What the lines give -/

def itemName : Item → Option Str
  | .id _ => none
  | .value n _ => some n
  | .elem n _ _ => some n
  | .entry n _ _ _ => some n

/-- The lines are all about `n`, and give it the value `k`. -/
def Gives (n : Str) (its : List Item) (k : Kserd) : Prop := (∀ i ∈ its, itemName i = some n) ∧ Named n its ∧ ValueFor its n k

theorem given_other {n : Str} {its : List Item} (h : ∀ i ∈ its, itemName i ≠ some n) : givenFor n its = [] :=
  List.filterMap_eq_nil_iff.mpr fun i hi => by
    have := h i hi
    cases i with
    | value m k => simp only [itemName, ne_eq, Option.some.injEq] at this; simp [this]
    | _ => rfl

theorem elems_other {n : Str} {its : List Item} (h : ∀ i ∈ its, itemName i ≠ some n) : elemsOf n its = [] :=
  List.filterMap_eq_nil_iff.mpr fun i hi => by
    have := h i hi
    cases i with
    | elem m j k => simp only [itemName, ne_eq, Option.some.injEq] at this; simp [this]
    | _ => rfl

theorem entries_other {n : Str} {its : List Item} (h : ∀ i ∈ its, itemName i ≠ some n) : entriesFor n its = [] :=
  List.filterMap_eq_nil_iff.mpr fun i hi => by
    have := h i hi
    cases i with
    | entry m j a k => simp only [itemName, ne_eq, Option.some.injEq] at this; simp [this]
    | _ => rfl

theorem around {n : Str} {a b : List Item} (its : List Item) (ha : ∀ i ∈ a, itemName i ≠ some n) (hb : ∀ i ∈ b, itemName i ≠ some n) :
    givenFor n (a ++ (its ++ b)) = givenFor n its ∧ elemsOf n (a ++ (its ++ b)) = elemsOf n its ∧ entriesFor n (a ++ (its ++ b)) = entriesFor n its := by
  refine ⟨?_, ?_, ?_⟩
  · have h1 := given_other ha; have h2 := given_other hb
    unfold givenFor at *; simp only [List.filterMap_append, h1, h2, List.nil_append, List.append_nil]
  · have h1 := elems_other ha; have h2 := elems_other hb
    unfold elemsOf at *; simp only [List.filterMap_append, h1, h2, List.nil_append, List.append_nil]
  · have h1 := entries_other ha; have h2 := entries_other hb
    unfold entriesFor at *; simp only [List.filterMap_append, h1, h2, List.nil_append, List.append_nil]

/-- The lines are those of the fields, one after the other. -/
def Parts : Fields → List Item → Prop
  | [], its => its = []
  | p :: f, its => ∃ i j, Gives p.1 i p.2 ∧ Parts f j ∧ its = i ++ j

theorem parts_names : ∀ {f : Fields} {its : List Item}, Parts f its → ∀ i ∈ its, ∃ p ∈ f, itemName i = some p.1
  | [], _, h => by rw [show _ = [] from h]; simp
  | p :: f, _, h => by
    obtain ⟨i, j, h1, h2, rfl⟩ := h
    intro x hx
    rcases List.mem_append.mp hx with hx | hx
    · exact ⟨p, List.mem_cons_self, h1.1 x hx⟩
    · obtain ⟨q, hq, e⟩ := parts_names h2 x hx
      exact ⟨q, List.mem_cons_of_mem _ hq, e⟩

theorem parts_split : ∀ {f : Fields} {its : List Item}, f.Pairwise (fun a b => a.1 ≠ b.1) → Parts f its → ∀ p ∈ f,
    ∃ a i b, its = a ++ (i ++ b) ∧ Gives p.1 i p.2 ∧ (∀ x ∈ a, itemName x ≠ some p.1) ∧ ∀ x ∈ b, itemName x ≠ some p.1
  | [], _, _, _, _, hp => by cases hp
  | q :: f, _, hd, h, p, hp => by
    obtain ⟨i, j, h1, h2, rfl⟩ := h
    have hd' := List.pairwise_cons.mp hd
    rcases List.mem_cons.mp hp with rfl | hp
    · refine ⟨[], i, j, rfl, h1, by simp, fun x hx e => ?_⟩
      obtain ⟨r, hr, e'⟩ := parts_names h2 x hx
      rw [e] at e'
      exact hd'.1 r hr (Option.some.inj e')
    · obtain ⟨a, i', b, rfl, h3, h4, h5⟩ := parts_split hd'.2 h2 p hp
      refine ⟨i ++ a, i', b, by simp, h3, fun x hx => ?_, h5⟩
      rcases List.mem_append.mp hx with hx | hx
      · rw [h1.1 x hx]
        exact fun e => hd'.1 p hp (Option.some.inj e)
      · exact h4 x hx

/-- The container of the lines, with identity lines around. -/
theorem parts_lines {f g : Fields} {its u v : List Item} {id : Option Str} (ha : Ascending cmpStr f) (hg : ∀ p, p ∈ g ↔ p ∈ f)
    (hd : g.Pairwise (fun a b => a.1 ≠ b.1)) (h : Parts g its) (hu : ∀ i ∈ u, itemName i = none) (hv : ∀ i ∈ v, itemName i = none)
    (hid : (ids (u ++ (its ++ v))).getLast? = id) : LinesOf (u ++ (its ++ v)) (.mk id (.cntr f)) := by
  have split : ∀ p ∈ g, ∃ i, Gives p.1 i p.2 ∧ givenFor p.1 (u ++ (its ++ v)) = givenFor p.1 i ∧ elemsOf p.1 (u ++ (its ++ v)) = elemsOf p.1 i ∧
      entriesFor p.1 (u ++ (its ++ v)) = entriesFor p.1 i := by
    intro p hp
    obtain ⟨a, i, b, rfl, h1, h2, h3⟩ := parts_split hd h p hp
    refine ⟨i, h1, ?_⟩
    have := around (n := p.1) (a := u ++ a) (b := b ++ v) i (fun x hx => ?_) fun x hx => ?_
    · simpa using this
    · rcases List.mem_append.mp hx with hx | hx
      · rw [hu x hx]; simp
      · exact h2 x hx
    · rcases List.mem_append.mp hx with hx | hx
      · exact h3 x hx
      · rw [hv x hx]; simp
  refine ⟨f, by rw [hid], ha, fun n => ⟨?_, fun hn => ?_⟩, fun n x hx => ?_⟩
  · rintro ⟨x, hx⟩
    obtain ⟨i, h1, e1, e2, e3⟩ := split _ ((hg _).mpr hx)
    unfold Named
    rw [e1, e2, e3]
    exact h1.2.1
  · by_contra hc
    have no : ∀ i ∈ u ++ (its ++ v), itemName i ≠ some n := by
      intro i hi e
      rcases List.mem_append.mp hi with hi | hi
      · rw [hu i hi] at e; cases e
      · rcases List.mem_append.mp hi with hi | hi
        · obtain ⟨p, hp, e'⟩ := parts_names h i hi
          rw [e] at e'
          exact hc ⟨p.2, by rw [Option.some.inj e']; exact (hg p).mp hp⟩
        · rw [hv i hi] at e; cases e
    rcases hn with hn | hn | hn
    · exact hn (given_other no)
    · exact hn (elems_other no)
    · exact hn (entries_other no)
  · obtain ⟨i, h1, e1, e2, e3⟩ := split _ ((hg _).mpr hx)
    unfold ValueFor
    rw [e1, e2, e3]
    exact h1.2.2

theorem join_fields {d : Nat} : ∀ {f : Fields}, f ≠ [] →
    (∀ p ∈ f, ∃ l its, Piece d l its (¬ Hollow p.2) ∧ Starts d l ∧ Gives p.1 its p.2) →
    ∃ l its, Piece d l its (∀ p, f.getLast? = some p → ¬ Hollow p.2) ∧ Starts d l ∧ Parts f its
  | [], h, _ => absurd rfl h
  | [p], _, h => by
    obtain ⟨l, its, h1, h2, h3⟩ := h p List.mem_cons_self
    exact ⟨l, its, ⟨h1.ne, fun r hr => h1.reads r (hr.imp_left fun h => h p rfl), h1.means, h1.keys⟩, h2, its, [], h3, rfl, by simp⟩
  | p :: q :: f, _, h => by
    obtain ⟨l, its, h1, h2, h3⟩ := h p List.mem_cons_self
    obtain ⟨l', its', g1, g2, g3⟩ := join_fields (f := q :: f) (by simp) fun x hx => h x (List.mem_cons_of_mem _ hx)
    have := h1.append g1 (.inr g2)
    exact ⟨l ++ l', its ++ its', by simpa using this, h2.append, its, its', h3, g3, rfl⟩

end KS.EX
