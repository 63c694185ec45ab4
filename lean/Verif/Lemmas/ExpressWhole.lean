import Verif.Lemmas.ExpressBuild
/-!
# A text for every container that can be written in lines
-/

namespace KS.EX
open KS.Spec KS.Spec.Ex
open KS.GR hiding Stop Stops

def hd (n : Str) (id : Option Str) : Heading := { pre := [], name := n, id := id.map fun i => ([], [], i), post := [], tail := [], eol := ['\n'] }

theorem hd_ok {n : Str} {id : Option Str} (hn : ∀ c ∈ n, NameChar c) (hi : ∀ i, id = some i → ValidName i) : (hd n id).Ok := by
  refine ⟨no_blanks, hn, ?_, fun _ _ => rfl, no_blanks, no_blanks, .inl rfl⟩
  intro a b i e
  cases id with
  | none => cases e
  | some j =>
    have e : some (([] : Str), ([] : Str), j) = some (a, b, i) := e
    cases e
    exact ⟨no_blanks, no_blanks, hi i rfl, fun _ => rfl⟩

theorem hd_id (n : Str) (id : Option Str) : (hd n id).identity = id := by cases id <;> rfl

/-- Lines for a container. -/
def LinesFor (d : Nat) (k : Kserd) : Prop :=
  ∃ (L : Lines) (its : List Item), (∀ r, ¬ Hollow k ∨ LinesAhead ('\n' :: r) → L.Reads d ('\n' :: r) ∧ LinesAhead (L.text ++ '\n' :: r)) ∧
    (∀ r, ∃ z, L.text ++ '\n' :: r = '\n' :: z) ∧ L.Means its ∧ LinesOf its k ∧ L.KeysOk

/-- A value below a heading. -/
def DocFor (d : Nat) (k : Kserd) : Prop :=
  ∃ D : Doc, (∀ r, LinesAhead ('\n' :: r) → D.Reads d ('\n' :: r) ∧ ¬ KeyAhead (D.text ++ '\n' :: r)) ∧ D.Means k ∧ D.KeysOk

/-- Lines for a field. -/
def FieldFor (d : Nat) (n : Str) (k : Kserd) : Prop := ∃ l its, Piece d l its (¬ Hollow k) ∧ Starts d l ∧ Gives n its k

theorem doc_value {T : Spec.Tree} {k : Kserd} (hT : Spells T k) (hl : Lead k) (d : Nat) (r : Str) : (Doc.value [] T).Reads d ('\n' :: r) :=
  ⟨no_blanks, hT.reads _ (feed_rest r), value_not_lines hT hl r⟩

theorem docFor_value {T : Spec.Tree} {k : Kserd} (hT : Spells T k) (hl : Lead k) (d : Nat) : DocFor d k :=
  ⟨.value [] T, fun r _ => ⟨doc_value hT hl d r, value_not_key hT r⟩, hT.means, hT.keys⟩

theorem docFor_lines {d : Nat} {k : Kserd} (h : LinesFor d k) : DocFor d k := by
  obtain ⟨L, its, h1, h2, h3, h4, h5⟩ := h
  refine ⟨.lines L, fun r hr => ⟨⟨(h1 r (.inr hr)).2, (h1 r (.inr hr)).1⟩, ?_⟩, ⟨its, h3, h4⟩, h5⟩
  obtain ⟨z, hz⟩ := h2 r
  have : (Doc.lines L).text ++ '\n' :: r = '\n' :: z := hz
  rw [this]
  exact feed_not_key z

/-! ## Something harmless -/

def zero : Kserd := .mk none (.num (.uint 0))

theorem zero_spells : ∃ T, Spells T zero :=
  spell zero ⟨⟨(by intro i hi; cases hi), ⟨(by decide), trivial⟩, by intro _ p h; cases h⟩, trivial⟩

theorem field_piece {d : Nat} {n : Str} (hn : ∀ c ∈ n, NameChar c) {T : Spec.Tree} {k : Kserd} (hT : Spells T k) (e : Prop) :
    Piece d [.field n [] [] T] [.value n k] e :=
  single (fun r _ => ⟨hn, fun _ => rfl, no_blanks, no_blanks, hT.reads _ (feed_rest r)⟩) ⟨k, hT.means, rfl⟩ hT.keys

theorem field_value {d : Nat} {n : Str} (hn : ∀ c ∈ n, NameChar c) {T : Spec.Tree} {k : Kserd} (hT : Spells T k) : FieldFor d n k := by
  refine ⟨_, _, field_piece hn hT _, field_starts hn T, ?_, .inl ?_, ?_⟩
  · simp [itemName]
  · simp [givenFor]
  · simp [ValueFor, givenFor, elemsOf, entriesFor]

theorem field_sub {d : Nat} {n : Str} (hn : ∀ c ∈ n, NameChar c) {i : Option Str} (hi : ∀ j, i = some j → ValidName j) {D : Doc} {k : Kserd}
    (h : ∀ r, ¬ Hollow (.mk (k.id.or i) k.val) ∨ LinesAhead ('\n' :: r) → D.Reads (d + 1) ('\n' :: r)) (hm : D.Means k) (hk : D.KeysOk) :
    FieldFor d n (.mk (k.id.or i) k.val) := by
  obtain ⟨Z, hZ⟩ := zero_spells
  have h2 : Piece d [.sub (hd n i) D] [.value n (.mk (k.id.or i) k.val)] (¬ Hollow (.mk (k.id.or i) k.val)) :=
    single (fun r hr => ⟨hd_ok hn hi, h r hr⟩) ⟨k, hm, by rw [hd_id]; rfl⟩ hk
  refine ⟨_, _, (field_piece hn hZ True).append h2 (.inl trivial), (field_starts hn Z).append, ?_, .inl ?_, ?_⟩
  · simp [itemName]
  · simp [givenFor]
  · simp [ValueFor, givenFor, elemsOf, entriesFor]

theorem field_lines {d : Nat} {n : Str} (hn : ∀ c ∈ n, NameChar c) {k : Kserd} (h : LinesFor (d + 1) k) : FieldFor d n k := by
  obtain ⟨L, its, h1, h2, h3, h4, h5⟩ := h
  have e : Kserd.mk (k.id.or none) k.val = k := by obtain ⟨i, v⟩ := k; cases i <;> rfl
  have := field_sub (d := d) (i := none) hn (by intro j hj; cases hj) (D := .lines L) (k := k)
    (fun r hr => ⟨(h1 r (e ▸ hr)).2, (h1 r (e ▸ hr)).1⟩) ⟨its, h3, h4⟩ h5
  rwa [e] at this

/-! ## Elements and entries -/

theorem lastId_const {α : Type} (i : Option Str) : ∀ {l : List α}, l ≠ [] → lastId (l.map fun _ => i) = i
  | [], h => absurd rfl h
  | a :: l, _ => by
    cases i with
    | none => simp [lastId]
    | some i =>
      have : ∀ l : List α, List.filterMap (fun x => x) (l.map fun _ => some i) = List.replicate l.length i := fun l => by
        induction l with
        | nil => rfl
        | cons a l ih => simp [List.replicate_succ, ih]
      show (List.filterMap (fun x => x) _).getLast? = _
      rw [this, List.getLast?_replicate]
      simp

theorem elems_lines {d : Nat} {n : Str} {i : Option Str} (hn : ∀ c ∈ n, NameChar c) (hi : ∀ j, i = some j → ValidName j) :
    ∀ l : List Kserd, (∀ x ∈ l, DocFor (d + 1) x) → ∃ ls, Piece d ls (l.map (Item.elem n i) ++ [.value n zero]) True ∧ Starts d ls
  | [], _ => by
    obtain ⟨Z, hZ⟩ := zero_spells
    exact ⟨_, field_piece hn hZ True, field_starts hn Z⟩
  | x :: l, h => by
    obtain ⟨ls, h1, h2⟩ := elems_lines hn hi l fun y hy => h y (List.mem_cons_of_mem _ hy)
    obtain ⟨D, g1, g2, g3⟩ := h x List.mem_cons_self
    have : Piece d [.elem (hd n i) D] [.elem n i x] False :=
      single (fun r hr => by
        have hr := hr.resolve_left id
        exact ⟨hd_ok hn hi, (g1 r hr).2, (g1 r hr).1⟩) ⟨x, g2, by rw [hd_id]; rfl⟩ g3
    exact ⟨_, this.append h1 (.inr h2), (head_starts _ D).append⟩

theorem field_elems {d : Nat} {n : Str} {i : Option Str} (hn : ∀ c ∈ n, NameChar c) (hi : ∀ j, i = some j → ValidName j) {l : List Kserd} (hl : l ≠ [])
    (h : ∀ x ∈ l, DocFor (d + 1) x) : FieldFor d n (.mk i (.seq l)) := by
  obtain ⟨ls, h1, h2⟩ := elems_lines hn hi l h
  have e1 : elemsOf n (l.map (Item.elem n i) ++ [.value n zero]) = l.map fun x => (i, x) := by
    have : ∀ l : List Kserd, elemsOf n (l.map (Item.elem n i)) = l.map fun x => (i, x) := fun l => by
      induction l with
      | nil => rfl
      | cons a l ih => unfold elemsOf at *; simp [ih]
    have h := this l
    unfold elemsOf at *
    rw [List.filterMap_append, h]
    simp
  have e2 : entriesFor n (l.map (Item.elem n i) ++ [.value n zero]) = [] := by
    unfold entriesFor
    rw [List.filterMap_append, List.filterMap_map]
    simp
  have hne : elemsOf n (l.map (Item.elem n i) ++ [.value n zero]) ≠ [] := by rw [e1]; simpa using hl
  refine ⟨ls, _, ⟨h1.ne, fun r _ => h1.reads r (.inl trivial), h1.means, h1.keys⟩, h2, ?_, .inr (.inl hne), ?_⟩
  · intro x hx
    rcases List.mem_append.mp hx with hx | hx
    · obtain ⟨y, -, rfl⟩ := List.mem_map.mp hx; rfl
    · rw [List.mem_singleton.mp hx]; rfl
  · unfold ValueFor
    rw [if_neg (by simp [e2]), if_pos hne, e1, List.map_map, List.map_map]
    have : lastId (l.map ((·.1) ∘ fun x => (i, x))) = i := lastId_const i hl
    rw [this]
    have : l.map ((·.2) ∘ fun x => (i, x)) = l := by
      have : ((·.2) ∘ fun x : Kserd => (i, x)) = id := rfl
      rw [this, List.map_id]
    rw [this]

/-- A line for an entry. -/
def EntryFor (d : Nat) (n : Str) (i : Option Str) (p : Kserd × Kserd) : Prop :=
  ∃ x : Line, (∀ r, LinesAhead ('\n' :: r) → x.Reads d ('\n' :: r)) ∧ x.Means (.entry n i p.1 p.2) ∧ x.KeysOk ∧ Starts d [x]

theorem entry_value {d : Nat} {n : Str} {i : Option Str} (hn : ∀ c ∈ n, NameChar c) (hi : ∀ j, i = some j → ValidName j) {K T : Spec.Tree} {a k : Kserd}
    (hK : Spells K a) (hp : ∀ rest, K.Reads false rest → K.Reads true rest) (ha : AllNums lawful a) (hT : Spells T k) : EntryFor d n i (a, k) :=
  ⟨.entry (hd n i) [] K [] [] T, fun r _ => ⟨hd_ok hn hi, no_blanks, hp _ (hK.reads _ ⟨':', _, rfl, .inr rfl⟩), no_blanks, no_blanks, hT.reads _ (feed_rest r)⟩,
    ⟨a, k, hK.means, hT.means, by rw [hd_id]; rfl⟩, ⟨hK.nums ha, hK.keys, hT.keys⟩, entry_starts _ _ _ _ _ _⟩

theorem entry_below {d : Nat} {n : Str} {i : Option Str} (hn : ∀ c ∈ n, NameChar c) (hi : ∀ j, i = some j → ValidName j) {K : Spec.Tree} {a k : Kserd}
    (hK : Spells K a) (hp : ∀ rest, K.Reads false rest → K.Reads true rest) (ha : AllNums lawful a) (hk : DocFor (d + 1) k) : EntryFor d n i (a, k) := by
  obtain ⟨D, h1, h2, h3⟩ := hk
  exact ⟨.entryBelow (hd n i) [] K [] [] ['\n'] D,
    fun r hr => ⟨hd_ok hn hi, no_blanks, hp _ (hK.reads _ ⟨':', _, rfl, .inr rfl⟩), no_blanks, no_blanks, .inl rfl, (h1 r hr).1⟩,
    ⟨a, k, hK.means, h2, by rw [hd_id]; rfl⟩, ⟨hK.nums ha, hK.keys, h3⟩, below_starts _ _ _ _ _ _ _⟩

theorem entries_lines {d : Nat} {n : Str} {i : Option Str} (hn : ∀ c ∈ n, NameChar c) :
    ∀ m : KMap, (∀ p ∈ m, EntryFor d n i p) → ∃ ls, Piece d ls (m.map (fun p => Item.entry n i p.1 p.2) ++ [.value n zero]) True ∧ Starts d ls
  | [], _ => by
    obtain ⟨Z, hZ⟩ := zero_spells
    exact ⟨_, field_piece hn hZ True, field_starts hn Z⟩
  | p :: m, h => by
    obtain ⟨ls, h1, h2⟩ := entries_lines hn m fun y hy => h y (List.mem_cons_of_mem _ hy)
    obtain ⟨x, g1, g2, g3, g4⟩ := h p List.mem_cons_self
    have : Piece d [x] [.entry n i p.1 p.2] False := single (fun r hr => g1 r (hr.resolve_left id)) g2 g3
    exact ⟨_, this.append h1 (.inr h2), g4.append⟩

theorem mapOf_self {m : KMap} (h : Ascending Kserd.cmp m) : MapOf m m := by
  have hrefl : ∀ a, Kserd.cmp a a = .eq := EN.lawCmp.refl
  refine ⟨h, fun p hp => ⟨?_, p.1, hrefl _, ?_⟩, fun p hp => ⟨p, hp, hrefl _⟩⟩
  · obtain ⟨a, b, rfl⟩ := List.append_of_mem hp
    refine ⟨a, p.2, b, rfl, fun q hq e => ?_⟩
    have := (List.pairwise_append.mp h).2.2 q hq p List.mem_cons_self
    rw [this] at e
    cases e
  · exact (lastFor_self (fun a b (h : Kserd.cmp a b = .eq) => by rw [h]; decide) m h p).mp hp

theorem field_entries {d : Nat} {n : Str} {i : Option Str} (hn : ∀ c ∈ n, NameChar c) {m : KMap} (hm : m ≠ []) (ha : Ascending Kserd.cmp m)
    (h : ∀ p ∈ m, EntryFor d n i p) : FieldFor d n (.mk i (.map m)) := by
  obtain ⟨ls, h1, h2⟩ := entries_lines hn m h
  have e1 : entriesFor n (m.map (fun p => Item.entry n i p.1 p.2) ++ [.value n zero]) = m.map fun p => (i, p) := by
    have : ∀ m : KMap, entriesFor n (m.map fun p => Item.entry n i p.1 p.2) = m.map fun p => (i, p) := fun l => by
      induction l with
      | nil => rfl
      | cons a l ih => unfold entriesFor at *; simp [ih]
    have h := this m
    unfold entriesFor at *
    rw [List.filterMap_append, h]
    simp
  have hne : entriesFor n (m.map (fun p => Item.entry n i p.1 p.2) ++ [.value n zero]) ≠ [] := by rw [e1]; simpa using hm
  refine ⟨ls, _, ⟨h1.ne, fun r _ => h1.reads r (.inl trivial), h1.means, h1.keys⟩, h2, ?_, .inr (.inr hne), ?_⟩
  · intro x hx
    rcases List.mem_append.mp hx with hx | hx
    · obtain ⟨y, -, rfl⟩ := List.mem_map.mp hx; rfl
    · rw [List.mem_singleton.mp hx]; rfl
  · unfold ValueFor
    rw [if_pos hne, e1]
    refine ⟨m, ?_, fun p hp => ⟨⟨(i, p), List.mem_map.mpr ⟨p, hp, rfl⟩, rfl⟩, (i, p), List.mem_map.mpr ⟨p, hp, rfl⟩, rfl⟩, fun _ => ?_⟩
    · rw [List.map_map]
      have : lastId (m.map ((·.1) ∘ fun p => (i, p))) = i := lastId_const i hm
      rw [this]
    · rw [List.map_map]
      have : ((·.2) ∘ fun p : Kserd × Kserd => (i, p)) = id := rfl
      rw [this, List.map_id]
      exact mapOf_self ha

/-! ## Containers -/

theorem id_piece {d : Nat} {i : Str} (h : ValidName i) : Piece d [.id [] i] [.id i] True :=
  single (fun r _ => ⟨no_blanks, h, fun c t e => by cases e; unfold NameChar Letter DigitC; decide⟩) rfl trivial

theorem piece_lines {d : Nat} {l : List Line} {its : List Item} {k : Kserd} {e : Prop} (h : Piece d l its e) (he : ¬ Hollow k → e) (hs : Starts d l) (hk : LinesOf its k) :
    LinesFor d k := by
  refine ⟨toLines d l, its, fun r hr => ⟨h.reads r (hr.imp_left he), hs _⟩, fun r => ?_, h.means, hk, h.keys⟩
  obtain ⟨z, hz⟩ := toLines_feed (d := d) h.ne
  exact ⟨z ++ '\n' :: r, by rw [hz]; rfl⟩

theorem asc_distinct {f : Fields} (h : Ascending cmpStr f) : f.Pairwise (fun a b => a.1 ≠ b.1) :=
  h.imp fun h e => by rw [e, (cmpStr_eq _ _).mpr rfl] at h; cases h

theorem parts_ids {f : Fields} {its : List Item} (h : Parts f its) : ids its = [] :=
  List.filterMap_eq_nil_iff.mpr fun i hi => by
    obtain ⟨p, -, e⟩ := parts_names h i hi
    cases i with
    | id j => cases e
    | _ => rfl

theorem cntr_lines {d : Nat} {id : Option Str} {f : Fields} (hi : ∀ i, id = some i → ValidName i) (ha : Ascending cmpStr f)
    (h : ∀ p ∈ f, FieldFor d p.1 p.2) : LinesFor d (.mk id (.cntr f)) := by
  have hd := asc_distinct ha
  cases id with
  | some i =>
    have hp := id_piece (d := d) (hi i rfl)
    by_cases hf : f = []
    · subst hf
      refine piece_lines hp (fun _ => trivial) (id_starts i) ?_
      have := parts_lines (u := []) (v := [.id i]) (id := some i) (its := []) ha (fun p => Iff.rfl) hd rfl (by simp) (by simp [itemName]) rfl
      exact this
    · obtain ⟨l, its, h1, h2, h3⟩ := join_fields hf h
      refine piece_lines (hp.append (h1.append hp (.inr (id_starts i))) (.inl trivial)) (fun _ => trivial) (id_starts i).append ?_
      refine parts_lines ha (fun p => Iff.rfl) hd h3 (by simp [itemName]) (by simp [itemName]) ?_
      have := parts_ids h3
      unfold ids at *
      simp [List.filterMap_append, this]
  | none =>
    by_cases hf : f = []
    · subst hf
      refine ⟨.nil, [], fun r hr => ⟨trivial, hr.resolve_left fun h => h (.mk (by simp))⟩, fun r => ⟨r, rfl⟩, rfl, ?_, trivial⟩
      exact parts_lines (u := []) (v := []) (id := none) (its := []) ha (fun p => Iff.rfl) hd rfl (by simp) (by simp) rfl
    · by_cases hh : Hollow (.mk none (.cntr f))
      · obtain ⟨l, its, h1, h2, h3⟩ := join_fields hf h
        refine piece_lines h1 (fun h => absurd hh h) h2 ?_
        have := parts_lines (u := []) (v := []) (id := none) ha (fun p => Iff.rfl) hd h3 (by simp) (by simp) (by simp [parts_ids h3])
        simpa using this
      · have : ∃ p ∈ f, ¬ Hollow p.2 := by
          by_contra hc
          push Not at hc
          exact hh (.mk hc)
        obtain ⟨p, hp, hnp⟩ := this
        obtain ⟨a, b, rfl⟩ := List.append_of_mem hp
        have hg : ∀ q, q ∈ (a ++ b) ++ [p] ↔ q ∈ a ++ p :: b := fun q => by simp; tauto
        obtain ⟨l, its, h1, h2, h3⟩ := join_fields (d := d) (f := (a ++ b) ++ [p]) (by simp) fun q hq => h q ((hg q).mp hq)
        refine piece_lines h1 (fun _ q hq => ?_) h2 ?_
        · simp at hq
          exact hq ▸ hnp
        · have hd' : ((a ++ b) ++ [p]).Pairwise (fun a b => a.1 ≠ b.1) := by
            have hs : (a ++ p :: b).Perm ((a ++ b) ++ [p]) := by
              rw [List.append_assoc]
              exact List.Perm.append_left a (List.perm_append_singleton p b).symm
            exact (hs.pairwise_iff fun h => h.symm).mp hd
          have := parts_lines (u := []) (v := []) (id := none) ha hg hd' h3 (by simp) (by simp) (by simp [parts_ids h3])
          simpa using this

/-! ## All of it -/

theorem prim_tree {T : Spec.Tree} {k : Kserd} (h : T.Means k) (hk : PrimV k.val) :
    ∀ rest, T.Reads false rest → T.Reads true rest := by
  cases T with
  | prim id w l => exact fun _ h => h
  | tuple id w c lead b => obtain ⟨l, -, rfl⟩ := h; exact hk.elim
  | seq id w c lead b => obtain ⟨l, -, rfl⟩ := h; exact hk.elim
  | cntr id w c lead b => obtain ⟨l, f, -, -, rfl⟩ := h; exact hk.elim
  | map id w c lead b => obtain ⟨l, f, -, -, rfl⟩ := h; exact hk.elim

theorem spellable_some {i : Str} {v : Value} (hi : ValidName i) (h : All Spellable (.mk none v)) (hv : PrimV v) :
    All Spellable (.mk (some i) v) := by
  refine ⟨⟨(by rintro _ ⟨⟩; exact hi), ?_⟩, h.2⟩
  have := h.1.2
  cases v with
  | num n => exact this
  | tuple l => exact hv.elim
  | seq l => exact hv.elim
  | map m => exact hv.elim
  | cntr f => exact hv.elim
  | _ => trivial

theorem field_own {d : Nat} {n : Str} (hn : ∀ c ∈ n, NameChar c) {id : Option Str} {v : Value} (hi : ∀ i, id = some i → ValidName i) (h : All Spellable (.mk none v))
    (hg : All Granted (.mk id v)) : FieldFor d n (.mk id v) := by
  by_cases hs : All Spellable (.mk id v)
  · obtain ⟨T, hT⟩ := spell _ (node_of hg hs)
    exact field_value hn hT
  · cases id with
    | none => exact absurd h hs
    | some i =>
      have hc : ¬ PrimV v := fun hv => hs (spellable_some (hi i rfl) h hv)
      have hg' : All Granted (.mk none v) := by
        refine ⟨?_, hg.2⟩
        have := hg.1
        cases v with
        | num n => exact absurd trivial hc
        | _ => exact this
      obtain ⟨T, hT⟩ := spell _ (node_of hg' h)
      have hl : Lead (.mk none v) := by
        rintro _ s hs
        have hs : v = .str s := hs
        subst hs
        exact absurd trivial hc
      exact field_sub (D := .value [] T) (k := .mk none v) hn hi (fun r _ => doc_value hT hl _ r) hT.means hT.keys

def LinesBuilt (k : Kserd) : Prop := All Granted k → All PrimKeys k → ∀ d, LinesFor d k
def FieldBuilt (k : Kserd) : Prop := All Granted k → All PrimKeys k → ∀ d n, (∀ c ∈ n, NameChar c) → FieldFor d n k

theorem lines_built {k : Kserd} (h : InLines k) : LinesBuilt k := by
  refine InLines.rec (motive_1 := fun k _ => LinesBuilt k) (motive_2 := fun k _ => FieldBuilt k) ?_ ?_ ?_ ?_ ?_ h
  · intro id f h1 h2 h3 _ ih hg hk d
    exact cntr_lines h1 h3 fun p hp => ih p hp ((PG.allF_iff _ _).mp hg.2 p hp) ((PG.allF_iff _ _).mp hk.2 p hp) d p.1 (h2 p hp)
  · intro id v h1 h2 hg _ d n hn
    exact field_own hn h1 h2 hg
  · intro k _ ih hg hk d n hn
    exact field_lines hn (ih hg hk (d + 1))
  · intro id l h1 h2 _ ih hg hk d n hn
    refine field_elems hn h1 h2 fun x hx => ?_
    have hg := (PG.allL_iff _ _).mp hg.2 x hx
    have hk := (PG.allL_iff _ _).mp hk.2 x hx
    by_cases hs : All Spellable x ∧ Lead x
    · obtain ⟨T, hT⟩ := spell _ (node_of hg hs.1)
      exact docFor_value hT hs.2 _
    · exact docFor_lines (ih x hx hs hg hk (d + 1))
  · intro id m h1 h2 h3 _ ih hg hk d n hn
    refine field_entries hn h2 hg.1.1 fun p hp => ?_
    have hg' := (PG.allM_iff _ _).mp hg.2 p hp
    have hk' := (PG.allM_iff _ _).mp hk.2 p hp
    obtain ⟨K, hK⟩ := spell _ (node_of hg'.1 (h3 p hp))
    have hpr := prim_tree hK.means (hk.1 _ rfl p hp)
    by_cases hs : All Spellable p.2
    · obtain ⟨T, hT⟩ := spell _ (node_of hg'.2 hs)
      exact entry_value hn h1 hK hpr (hg.1.2 p hp) hT
    · exact entry_below hn h1 hK hpr (hg.1.2 p hp) (docFor_lines (ih p hp hs hg'.2 hk'.2 (d + 1)))

theorem lines_written {k : Kserd} (h : InLines k) (hh : ¬ Hollow k) (hg : All Granted k) (hk : All PrimKeys k) : ∃ s, parse s = .ok k := by
  obtain ⟨L, its, h1, -, h3, h4, h5⟩ := lines_built h hg hk 0
  obtain ⟨hr, ha⟩ := h1 [] (.inl hh)
  have hw : EndsWith (.lines L) ['\n'] := ⟨feed_lead.1, fun _ => ⟨['\n'], [], rfl, blank_feed, no_blanks⟩⟩
  have hr : (Doc.lines L).Reads 0 ['\n'] := ⟨ha, hr⟩
  obtain ⟨k', e1, e2⟩ := parse_complete hw hr
  have : k' = k := doc_unique (.lines L) h5 hr e2 ⟨its, h3, h4⟩
  exact ⟨_, this ▸ e1⟩

end KS.EX
