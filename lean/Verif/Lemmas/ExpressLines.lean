import Verif.Lemmas.ExpressExact
import Verif.Lemmas.Encoded
/-!
# Containers in lines: exactly which can be written
-/

namespace KS.EX
open KS.Spec KS.Spec.Ex
open KS.GR hiding Stop Stops

/-! ## What is read -/

/-- What a document stands for. -/
def Told (k : Kserd) : Prop := ¬ (All Spellable k ∧ Lead k) → InLines k

/-- What a line says. -/
def ItemTold : Item → Prop
  | .id i => ValidName i
  | .value n k => (∀ c ∈ n, NameChar c) ∧ AsField k
  | .elem n i k => (∀ c ∈ n, NameChar c) ∧ (∀ j, i = some j → ValidName j) ∧ Told k
  | .entry n i a k => (∀ c ∈ n, NameChar c) ∧ (∀ j, i = some j → ValidName j) ∧ All Spellable a ∧ (¬ All Spellable k → InLines k)

theorem spellable_bare {id : Option Str} {v : Value} (h : All Spellable (.mk id v)) : All Spellable (.mk none v) := by
  refine ⟨⟨(by intro i hi; cases hi), ?_⟩, h.2⟩
  have h2 := h.1.2
  cases v with
  | num n => exact h2
  | tuple l => exact ⟨(by intro i hi; cases hi), h2.2⟩
  | seq l => intro i hi; cases hi
  | map m => intro i hi; cases hi
  | cntr f => exact ⟨(by intro i hi; cases hi), h2.2⟩
  | _ => trivial

theorem lastId_mem {l : List (Option Str)} {i : Str} (h : lastId l = some i) : some i ∈ l := by
  have := List.mem_of_getLast? h
  obtain ⟨a, ha, e⟩ := List.mem_filterMap.mp this
  exact e ▸ ha

theorem ids_mem {its : List Item} {i : Str} (h : i ∈ ids its) : .id i ∈ its := by
  obtain ⟨a, ha, e⟩ := List.mem_filterMap.mp h
  cases a with
  | id j => simp only [Option.some.injEq] at e; exact e ▸ ha
  | _ => cases e

/-- The value of a field. -/
theorem valueFor_told {its : List Item} (hi : ∀ x ∈ its, ItemTold x) {n : Str} {k : Kserd} (hv : ValueFor its n k) : AsField k := by
  unfold ValueFor at hv
  split at hv
  · obtain ⟨m, e, hm, -⟩ := hv
    rw [e]
    have hid : ∀ i, lastId ((entriesFor n its).map (·.1)) = some i → ValidName i := fun i hl => by
      obtain ⟨x, hx, e⟩ := List.mem_map.mp (lastId_mem hl)
      exact (hi _ (entry_mem hx)).2.1 i e
    by_cases h0 : m = []
    · subst h0
      exact .value hid ⟨⟨(by intro i hi; cases hi), by intro i hi; cases hi⟩, trivial⟩
    · refine .entries hid h0 (fun p hp => ?_) fun p hp => ?_
      · obtain ⟨⟨x, hx, ex⟩, -⟩ := hm p hp
        rw [← ex]; exact (hi _ (entry_mem hx)).2.2.1
      · obtain ⟨-, x, hx, ex⟩ := hm p hp
        rw [← ex]; exact (hi _ (entry_mem hx)).2.2.2
  · split at hv
    · rename_i hne
      rw [hv]
      refine .elems (fun i hl => ?_) (by simpa using hne) fun q hq => ?_
      · obtain ⟨x, hx, e⟩ := List.mem_map.mp (lastId_mem hl)
        exact (hi _ (elem_mem hx)).2.1 i e
      · obtain ⟨x, hx, rfl⟩ := List.mem_map.mp hq
        exact (hi _ (elem_mem hx)).2.2
    · exact (hi _ (given_mem (List.mem_of_getLast? hv))).2

theorem linesOf_told {its : List Item} {k : Kserd} (hi : ∀ x ∈ its, ItemTold x) (h : LinesOf its k) : InLines k := by
  obtain ⟨f, rfl, ha, hn, hf⟩ := h
  have named : ∀ n, Named n its → ∀ c ∈ n, NameChar c := by
    rintro n (h | h | h)
    · obtain ⟨x, hx⟩ := List.exists_mem_of_ne_nil _ h
      exact (hi _ (given_mem hx)).1
    · obtain ⟨x, hx⟩ := List.exists_mem_of_ne_nil _ h
      exact (hi _ (elem_mem hx)).1
    · obtain ⟨x, hx⟩ := List.exists_mem_of_ne_nil _ h
      exact (hi _ (entry_mem hx)).1
  exact .mk (fun i hl => hi _ (ids_mem (List.mem_of_getLast? hl))) (fun p hp => named p.1 ((hn p.1).mp ⟨p.2, hp⟩)) ha
    fun p hp => valueFor_told hi (hf p.1 p.2 hp)

theorem heading_id {h : Heading} (ho : h.Ok) : ∀ j, h.identity = some j → ValidName j := by
  intro j hj
  obtain ⟨⟨a, b, i⟩, e1, e2⟩ := Option.map_eq_some_iff.mp hj
  exact e2 ▸ (ho.2.2.1 a b i e1).2.2.1

theorem inLines_or {i : Option Str} {k : Kserd} (hi : ∀ j, i = some j → ValidName j) (h : InLines k) : InLines (.mk (k.id.or i) k.val) := by
  cases h with
  | @mk id f h1 h3 h4 h5 =>
    refine .mk ?_ h3 h4 h5
    cases id with
    | none => exact hi
    | some a => exact h1

mutual
theorem doc_told (D : Doc) {d : Nat} {rest : Str} {k : Kserd} (hr : D.Reads d rest) (h : D.Means k) : ¬ (All Spellable k ∧ Lead k) → InLines k := by
  cases D with
  | value w t =>
    exact fun hn => absurd ⟨tree_spellable hr.2.1 h, tree_lead hr.2.1 h (blanks_white hr.1) (y := rest) fun h => hr.2.2 (.inl h)⟩ hn
  | lines l =>
    obtain ⟨its, h1, h2⟩ := h
    exact fun _ => linesOf_told (lines_told l hr.2 h1) h2
termination_by structural D
theorem lines_told (l : Lines) {d : Nat} {rest : Str} {its : List Item} (hr : l.Reads d rest) (h : l.Means its) : ∀ x ∈ its, ItemTold x := by
  cases l with
  | nil => subst h; simp
  | cons skip ind pre x r =>
    obtain ⟨i, its1, h1, h2, rfl⟩ := h
    exact List.forall_mem_cons.mpr ⟨line_told x hr.2.2.2.1 h1, lines_told r hr.2.2.2.2.2 h2⟩
termination_by structural l
theorem line_told (x : Line) {d : Nat} {rest : Str} {i : Item} (hr : x.Reads d rest) (h : x.Means i) : ItemTold i := by
  cases x with
  | id w n => subst h; exact hr.2.1
  | field n mid gap t =>
    obtain ⟨⟨i, v⟩, h1, rfl⟩ := h
    have := tree_spellable hr.2.2.2.2 h1
    exact ⟨hr.1, .value this.1.1 (spellable_bare this)⟩
  | sub g D =>
    obtain ⟨k, h1, rfl⟩ := h
    refine ⟨hr.1.2.1, ?_⟩
    have hD := doc_told D hr.2 h1
    by_cases hk : All Spellable k ∧ Lead k
    · obtain ⟨id, v⟩ := k
      refine .value ?_ (spellable_bare hk.1)
      cases id with
      | none => exact heading_id hr.1
      | some a => exact hk.1.1.1
    · exact .lines (inLines_or (heading_id hr.1) (hD hk))
  | elem g D =>
    obtain ⟨k, h1, rfl⟩ := h
    exact ⟨hr.1.2.1, heading_id hr.1, doc_told D hr.2.2 h1⟩
  | entry g w key mid gap t =>
    obtain ⟨a, k, h1, h2, rfl⟩ := h
    exact ⟨hr.1.2.1, heading_id hr.1, tree_spellable hr.2.2.1 h1, fun h => absurd (tree_spellable hr.2.2.2.2.2 h2) h⟩
  | entryBelow g w key mid gap eol D =>
    obtain ⟨a, k, h1, h2, rfl⟩ := h
    exact ⟨hr.1.2.1, heading_id hr.1, tree_spellable hr.2.2.1 h1, fun h => doc_told D hr.2.2.2.2.2.2 h2 fun h' => h h'.1⟩
termination_by structural x
end

/-! ## The end of the text -/

theorem hollow_not_spellable {k : Kserd} (h : Hollow k) : ¬ All Spellable k := by
  induction h with
  | @mk f hf ih =>
    intro h
    obtain ⟨p, hp⟩ := List.exists_mem_of_ne_nil _ h.1.2.2.1
    exact ih p hp ((PG.allF_iff _ _).mp h.2 p hp)

/-- The last line gives no hollow container. -/
def ItemEnd : Item → Prop
  | .value _ k => ¬ Hollow k
  | _ => True

theorem linesOf_end {its : List Item} {i : Item} {k : Kserd} (hi : ItemEnd i) (h : LinesOf (its ++ [i]) k) : ¬ Hollow k := by
  obtain ⟨f, rfl, -, hn, hf⟩ := h
  intro hh
  have all : ∀ n x, (n, x) ∈ f → Hollow x := by
    generalize (ids (its ++ [i])).getLast? = o at hh
    cases hh with
    | mk h => exact fun n x hx => h _ hx
  have hid : ids (its ++ [i]) = [] := by
    rw [← List.getLast?_eq_none_iff]
    generalize (ids (its ++ [i])).getLast? = o at hh
    cases hh
    rfl
  have hcn : ∀ n x, (n, x) ∈ f → ∃ g, x = .mk none (.cntr g) := fun n x hx => by
    have := all n x hx
    cases this
    exact ⟨_, rfl⟩
  have noE : ∀ n x, (n, x) ∈ f → entriesFor n (its ++ [i]) = [] ∧ elemsOf n (its ++ [i]) = [] := by
    intro n x hx
    have hv := hf n x hx
    obtain ⟨g, rfl⟩ := hcn n x hx
    unfold ValueFor at hv
    by_cases h1 : entriesFor n (its ++ [i]) = []
    · rw [if_neg (by simpa using h1)] at hv
      by_cases h2 : elemsOf n (its ++ [i]) = []
      · exact ⟨h1, h2⟩
      · rw [if_pos h2] at hv; injection hv with _ hv; cases hv
    · rw [if_pos h1] at hv
      obtain ⟨m, e, -⟩ := hv
      injection e with _ e
      cases e
  cases i with
  | id j => simp [ids] at hid
  | elem n j y =>
    obtain ⟨x, hx⟩ := (hn n).mpr (.inr (.inl (by simp [elemsOf])))
    have := (noE n x hx).2
    simp [elemsOf] at this
  | entry n j a y =>
    obtain ⟨x, hx⟩ := (hn n).mpr (.inr (.inr (by simp [entriesFor])))
    have := (noE n x hx).1
    simp [entriesFor] at this
  | value n y =>
    obtain ⟨x, hx⟩ := (hn n).mpr (.inl (by simp [givenFor]))
    have hv := hf n x hx
    unfold ValueFor at hv
    rw [if_neg (by simp [(noE n x hx).1]), if_neg (by simp [(noE n x hx).2])] at hv
    simp [givenFor] at hv
    exact hi (hv ▸ all n x hx)

mutual
theorem doc_end (D : Doc) {d : Nat} {rest : Str} {k : Kserd} (hw : White rest) (hr : D.Reads d rest) (h : D.Means k) : ¬ Hollow k := by
  cases D with
  | value w t => exact fun hh => hollow_not_spellable hh (tree_spellable hr.2.1 h)
  | lines l =>
    obtain ⟨its, h1, h2⟩ := h
    have hne : its ≠ [] := by
      rintro rfl
      cases l with
      | nil => exact white_not_lines hw hr.1
      | cons skip ind pre x r =>
        obtain ⟨i, its1, -, -, e⟩ := h1
        cases e
    obtain ⟨a, i, rfl, hi⟩ := lines_end l hw hr.2 h1 hne
    exact linesOf_end hi h2
termination_by structural D
theorem lines_end (l : Lines) {d : Nat} {rest : Str} {its : List Item} (hw : White rest) (hr : l.Reads d rest) (h : l.Means its) (hne : its ≠ []) :
    ∃ a i, its = a ++ [i] ∧ ItemEnd i := by
  cases l with
  | nil => exact absurd h hne
  | cons skip ind pre x r =>
    obtain ⟨i, its1, h1, h2, rfl⟩ := h
    by_cases h0 : its1 = []
    · subst h0
      have hx := line_end x (rest := r.text ++ rest) (d := d) (i := i)
      cases r with
      | nil => exact ⟨[], i, rfl, hx hw hr.2.2.2.1 h1⟩
      | cons skip ind pre x r =>
        obtain ⟨j, its2, -, -, e⟩ := h2
        cases e
    · obtain ⟨a, j, rfl, hj⟩ := lines_end r hw hr.2.2.2.2.2 h2 h0
      exact ⟨i :: a, j, rfl, hj⟩
termination_by structural l
theorem line_end (x : Line) {d : Nat} {rest : Str} {i : Item} (hw : White rest) (hr : x.Reads d rest) (h : x.Means i) : ItemEnd i := by
  cases x with
  | id w n => subst h; trivial
  | field n mid gap t =>
    obtain ⟨k, h1, rfl⟩ := h
    exact fun hh => hollow_not_spellable hh (tree_spellable hr.2.2.2.2 h1)
  | sub g D =>
    obtain ⟨⟨id, v⟩, h1, rfl⟩ := h
    have hD := doc_end D hw hr.2 h1
    intro hh
    cases id with
    | none =>
      generalize hg : g.identity = o at hh
      have hh : Hollow (.mk o v) := hh
      cases hh with
      | mk h => exact hD (.mk h)
    | some a => cases (hh : Hollow (.mk (some a) v))
  | elem g D =>
    obtain ⟨k, h1, rfl⟩ := h
    trivial
  | entry g w key mid gap t =>
    obtain ⟨a, k, h1, h2, rfl⟩ := h
    trivial
  | entryBelow g w key mid gap eol D =>
    obtain ⟨a, k, h1, h2, rfl⟩ := h
    trivial
termination_by structural x
end

/-- What is read is of this kind. -/
theorem root_told {s : Str} {k : Kserd} (h : parse s = .ok k) : (All Spellable k ∧ Lead k) ∨ (InLines k ∧ ¬ Hollow k) := by
  obtain ⟨D, w, -, hw, hr, hm⟩ := parse_sound h
  by_cases hk : All Spellable k ∧ Lead k
  · exact .inl hk
  · exact .inr ⟨doc_told D hr hm hk, doc_end D hw.1 hr hm⟩

end KS.EX
