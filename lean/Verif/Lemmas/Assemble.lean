import Verif.Spec.VerboseText
import Verif.Lemmas.RtAsm
import Verif.Lemmas.ParseTotal
import Verif.Lemmas.Encoded
/-!
# Assembling a container from lines in any order
-/

namespace KS.AS
open KS.Spec KS.P KS.BTree

/-- What a line gives. -/
def item : CField → Item
  | .id i => .id i
  | .direct n v => .value n v
  | .nested n v => .value n v
  | .seqEntry i n v => .elem n i v
  | .mapEntry i n k v => .entry n i k v

theorem keysT {β : Type} (L : List (Str × β)) : Keys (fun _ : Str => True) L := fun _ _ => trivial

theorem asc_insert {β : Type} {n : Str} {v : β} {L : List (Str × β)} (h : Ascending cmpStr L) : Ascending cmpStr (BTree.insert cmpStr n v L) :=
  BTree.insert_asc lawStr n v trivial L (keysT L) h

theorem get_insert {β : Type} (n m : Str) (v : β) : ∀ L : List (Str × β), Ascending cmpStr L →
    BTree.get cmpStr n (BTree.insert cmpStr m v L) = if m = n then some v else BTree.get cmpStr n L
  | [], _ => by
    by_cases h : m = n
    · subst h; simp [BTree.insert, BTree.get, lawStr.refl]
    · rw [if_neg h, BTree.insert, BTree.get]
      have : cmpStr n m ≠ .eq := fun e => h ((cmpStr_eq _ _).mp e).symm
      cases hc : cmpStr n m <;> simp_all [BTree.get]
  | (k, w) :: L, hs => by
    obtain ⟨h1, h2⟩ := List.pairwise_cons.mp hs
    rw [BTree.insert]
    cases hmk : cmpStr m k with
    | lt =>
      by_cases h : m = n
      · subst h; simp [BTree.get, lawStr.refl]
      · rw [if_neg h]
        simp only
        rw [BTree.get]
        cases hc : cmpStr n m with
        | lt =>
          have : cmpStr n k = .lt := lawStr.lt_le trivial trivial trivial hc (by rw [hmk]; decide)
          simp only [BTree.get, this]
        | eq => exact absurd ((cmpStr_eq _ _).mp hc).symm h
        | gt => rfl
    | eq =>
      have := (cmpStr_eq _ _).mp hmk
      subst this
      by_cases h : m = n
      · subst h; simp [BTree.get, lawStr.refl]
      · rw [if_neg h]
        simp only [BTree.get]
        cases hc : cmpStr n m with
        | eq => exact absurd ((cmpStr_eq _ _).mp hc).symm h
        | _ => rfl
    | gt =>
      simp only [BTree.get, get_insert n m v L h2]
      by_cases h : m = n
      · subst h; simp [hmk]
      · simp [h]

theorem mem_get {β : Type} {n : Str} {v : β} {L : List (Str × β)} (h : Ascending cmpStr L) : (n, v) ∈ L ↔ BTree.get cmpStr n L = some v := by
  rw [get_some lawStr n trivial L (keysT L) h]
  constructor
  · intro hm; exact ⟨n, hm, lawStr.refl n⟩
  · rintro ⟨k, hk, e⟩; rw [(cmpStr_eq _ _).mp e]; exact hk

theorem get_fold {β : Type} (g : Str × β → Kserd) (n : Str) : ∀ (L : List (Str × β)) (R : Fields), Ascending cmpStr L → Ascending cmpStr R →
    Ascending cmpStr (L.foldl (fun r p => BTree.insert cmpStr p.1 (g p) r) R) ∧
    BTree.get cmpStr n (L.foldl (fun r p => BTree.insert cmpStr p.1 (g p) r) R) =
      match BTree.get cmpStr n L with
      | some b => some (g (n, b))
      | none => BTree.get cmpStr n R
  | [], R, _, hR => ⟨hR, rfl⟩
  | (k, b) :: L, R, hL, hR => by
    obtain ⟨h1, h2⟩ := List.pairwise_cons.mp hL
    rw [List.foldl_cons]
    obtain ⟨ih1, ih2⟩ := get_fold g n L (BTree.insert cmpStr k (g (k, b)) R) h2 (asc_insert hR)
    refine ⟨ih1, ?_⟩
    rw [ih2, get_insert n k _ R hR]
    have hno : ∀ m, cmpStr m k ≠ .gt → BTree.get cmpStr m L = none := by
      intro m hm
      cases hg : BTree.get cmpStr m L with
      | none => rfl
      | some x =>
        have := h1 _ ((mem_get h2).mpr hg)
        simp only at this
        rw [cmpStr_swap, this] at hm; exact absurd rfl hm
    cases hc : cmpStr n k with
    | lt =>
      have hne : k ≠ n := by rintro rfl; rw [lawStr.refl] at hc; cases hc
      rw [hno n (by rw [hc]; decide)]
      simp only [BTree.get, hc, if_neg hne]
    | eq =>
      have := (cmpStr_eq _ _).mp hc; subst this
      rw [hno n (by rw [hc]; decide)]
      simp only [BTree.get, hc, if_true]
    | gt =>
      have hne : k ≠ n := by rintro rfl; rw [lawStr.refl] at hc; cases hc
      simp only [BTree.get, hc, if_neg hne]

/-! ## Lists of lines, extended at the end -/

theorem ids_snoc (l : List Item) (x : Item) : ids (l ++ [x]) = ids l ++ ids [x] := by simp [ids]
theorem given_snoc (n : Str) (l : List Item) (x : Item) : givenFor n (l ++ [x]) = givenFor n l ++ givenFor n [x] := by simp [givenFor]
theorem elems_snoc (n : Str) (l : List Item) (x : Item) : elemsOf n (l ++ [x]) = elemsOf n l ++ elemsOf n [x] := by simp [elemsOf]
theorem entries_snoc (n : Str) (l : List Item) (x : Item) : entriesFor n (l ++ [x]) = entriesFor n l ++ entriesFor n [x] := by simp [entriesFor]

theorem lastId_snoc (l : List (Option Str)) (i : Option Str) : lastId (l ++ [i]) = i.or (lastId l) := by
  cases i with
  | none => simp [lastId]
  | some i => simp [lastId]

/-- The map of entries, one after the other. -/
def inserted (l : List (Kserd × Kserd)) : KMap := l.foldl (fun m p => BTree.insert Kserd.cmp p.1 p.2 m) []

theorem inserted_snoc (l : List (Kserd × Kserd)) (p : Kserd × Kserd) : inserted (l ++ [p]) = BTree.insert Kserd.cmp p.1 p.2 (inserted l) := by
  simp [inserted]

/-- What is collected after some lines. -/
structure Inv (l : List Item) (a : CAcc) : Prop where
  aR : Ascending cmpStr a.rfields
  aS : Ascending cmpStr a.seqs
  aM : Ascending cmpStr a.maps
  id : a.identity = (ids l).getLast?
  gR : ∀ n, BTree.get cmpStr n a.rfields = (givenFor n l).getLast?
  gS : ∀ n, BTree.get cmpStr n a.seqs = if elemsOf n l = [] then none else some (lastId ((elemsOf n l).map (·.1)), (elemsOf n l).map (·.2))
  gM : ∀ n, BTree.get cmpStr n a.maps = if entriesFor n l = [] then none else
    some (lastId ((entriesFor n l).map (·.1)), inserted ((entriesFor n l).map (·.2)))

theorem inv_nil : Inv [] {} := by
  refine ⟨by simp [Ascending], by simp [Ascending], by simp [Ascending], rfl, fun n => rfl, fun n => ?_, fun n => ?_⟩
  · simp [elemsOf, BTree.get]
  · simp [entriesFor, BTree.get]

theorem inv_step {l : List Item} {a : CAcc} (h : Inv l a) (c : CField) : Inv (l ++ [item c]) (a.step c) := by
  cases c with
  | id i =>
    refine ⟨h.aR, h.aS, h.aM, ?_, ?_, ?_, ?_⟩
    · rw [ids_snoc]; simp [ids, item, CAcc.step]
    · intro n; rw [given_snoc]; simp only [givenFor, item, List.filterMap_cons, List.filterMap_nil, List.append_nil]; exact h.gR n
    · intro n; rw [elems_snoc]; simp only [elemsOf, item, List.filterMap_cons, List.filterMap_nil, List.append_nil]; exact h.gS n
    · intro n; rw [entries_snoc]; simp only [entriesFor, item, List.filterMap_cons, List.filterMap_nil, List.append_nil]; exact h.gM n
  | direct m v => exact value h m v
  | nested m v => exact value h m v
  | seqEntry i m v =>
    refine ⟨h.aR, asc_insert h.aS, h.aM, ?_, ?_, ?_, ?_⟩
    · rw [ids_snoc]; simp only [ids, item, List.filterMap_cons, List.filterMap_nil, List.append_nil]; exact h.id
    · intro n; rw [given_snoc]; simp only [givenFor, item, List.filterMap_cons, List.filterMap_nil, List.append_nil]; exact h.gR n
    · intro n
      rw [elems_snoc]
      simp only [CAcc.step]
      rw [get_insert n m _ _ h.aS, h.gS m, h.gS n]
      by_cases e : m = n
      · subst e
        have : elemsOf m [item (.seqEntry i m v)] = [(i, v)] := by simp [elemsOf, item]
        rw [this, if_pos rfl, if_neg (show elemsOf m l ++ [(i, v)] ≠ [] by simp), List.map_append, List.map_append]
        by_cases he : elemsOf m l = []
        · rw [if_pos he, he]; cases i <;> simp [lastId]
        · rw [if_neg he]; simp [lastId_snoc]
      · have : elemsOf n [item (.seqEntry i m v)] = [] := by simp [elemsOf, item, e]
        rw [this, if_neg e, List.append_nil]
    · intro n; rw [entries_snoc]; simp only [entriesFor, item, List.filterMap_cons, List.filterMap_nil, List.append_nil]; exact h.gM n
  | mapEntry i m k v =>
    refine ⟨h.aR, h.aS, asc_insert h.aM, ?_, ?_, ?_, ?_⟩
    · rw [ids_snoc]; simp only [ids, item, List.filterMap_cons, List.filterMap_nil, List.append_nil]; exact h.id
    · intro n; rw [given_snoc]; simp only [givenFor, item, List.filterMap_cons, List.filterMap_nil, List.append_nil]; exact h.gR n
    · intro n; rw [elems_snoc]; simp only [elemsOf, item, List.filterMap_cons, List.filterMap_nil, List.append_nil]; exact h.gS n
    · intro n
      rw [entries_snoc]
      simp only [CAcc.step]
      rw [get_insert n m _ _ h.aM, h.gM m, h.gM n]
      by_cases e : m = n
      · subst e
        have : entriesFor m [item (.mapEntry i m k v)] = [(i, k, v)] := by simp [entriesFor, item]
        rw [this, if_pos rfl, if_neg (show entriesFor m l ++ [(i, k, v)] ≠ [] by simp), List.map_append, List.map_append]
        by_cases he : entriesFor m l = []
        · rw [if_pos he, he]; cases i <;> simp [lastId, inserted]
        · rw [if_neg he]; simp [lastId_snoc, inserted_snoc]
      · have : entriesFor n [item (.mapEntry i m k v)] = [] := by simp [entriesFor, item, e]
        rw [this, if_neg e, List.append_nil]
where
  value {l : List Item} {a : CAcc} (h : Inv l a) (m : Str) (v : Kserd) : Inv (l ++ [.value m v]) { a with rfields := BTree.insert cmpStr m v a.rfields } := by
    refine ⟨asc_insert h.aR, h.aS, h.aM, ?_, ?_, ?_, ?_⟩
    · rw [ids_snoc]; simp only [ids, List.filterMap_cons, List.filterMap_nil, List.append_nil]; exact h.id
    · intro n
      rw [given_snoc]
      simp only
      rw [get_insert n m _ _ h.aR, h.gR n]
      by_cases e : m = n
      · subst e; simp [givenFor]
      · have : givenFor n [.value m v] = [] := by simp [givenFor, e]
        rw [this, if_neg e, List.append_nil]
    · intro n; rw [elems_snoc]; simp only [elemsOf, List.filterMap_cons, List.filterMap_nil, List.append_nil]; exact h.gS n
    · intro n; rw [entries_snoc]; simp only [entriesFor, List.filterMap_cons, List.filterMap_nil, List.append_nil]; exact h.gM n

theorem inv_fold : ∀ (cs : List CField) {l : List Item} {a : CAcc}, Inv l a → Inv (l ++ cs.map item) (cs.foldl CAcc.step a)
  | [], l, a, h => by simpa using h
  | c :: cs, l, a, h => by
    have := inv_fold cs (inv_step h c)
    simpa using this

/-! ## Maps -/

/-- Inserting one after the other: first keys, last values. -/
theorem mapOf_inserted : ∀ (l : List (Kserd × Kserd)), (∀ p ∈ l, AllNums lawful p.1) → MapOf l (inserted l) := by
  intro l
  induction l using List.reverseRecOn with
  | nil => intro _; exact ⟨by simp [inserted, Ascending], by simp [inserted], by simp⟩
  | append_singleton l p ih =>
    intro hl
    obtain ⟨k, v⟩ := p
    have hk : AllNums lawful k := hl (k, v) (by simp)
    have hl' : ∀ p ∈ l, AllNums lawful p.1 := fun p hp => hl p (by simp [hp])
    obtain ⟨h1, h2, h3⟩ := ih hl'
    have hkeys : Keys (AllNums lawful) (inserted l) := by
      intro p hp
      obtain ⟨⟨b, w, a, e, -⟩, -⟩ := h2 p hp
      exact hl' (p.1, w) (by rw [e]; simp)
    have L := KS.EN.lawCmp
    rw [inserted_snoc]
    have hasc := BTree.insert_asc L k v hk (inserted l) hkeys h1
    -- the pairs after insertion
    have hmem : ∀ (M : KMap), Keys (AllNums lawful) M → Ascending Kserd.cmp M → ∀ q, q ∈ BTree.insert Kserd.cmp k v M ↔
        (q = (k, v) ∧ ∀ r ∈ M, Kserd.cmp k r.1 ≠ .eq) ∨ (Kserd.cmp k q.1 = .eq ∧ q.2 = v ∧ ∃ w, (q.1, w) ∈ M) ∨
          (Kserd.cmp k q.1 ≠ .eq ∧ q ∈ M) := by
      intro M
      induction M with
      | nil => intro _ _ q; simp [BTree.insert]
      | cons r M ihM =>
        intro hP hs q
        obtain ⟨k', v'⟩ := r
        have hk' : AllNums lawful k' := hP (k', v') (by simp)
        have hP' : Keys (AllNums lawful) M := fun p hp => hP p (List.mem_cons_of_mem _ hp)
        obtain ⟨s1, s2⟩ := List.pairwise_cons.mp hs
        rw [BTree.insert]
        cases hc : Kserd.cmp k k' with
        | lt =>
          have hall : ∀ r ∈ (k', v') :: M, Kserd.cmp k r.1 = .lt := by
            intro r hr
            rcases List.mem_cons.mp hr with rfl | hr
            · exact hc
            · exact L.lt_le hk hk' (hP' r hr) hc (by rw [s1 r hr]; decide)
          simp only [List.mem_cons (b := (k, v))]
          constructor
          · rintro (rfl | hq)
            · exact .inl ⟨rfl, fun r hr => by rw [hall r hr]; decide⟩
            · exact .inr (.inr ⟨by rw [hall q hq]; decide, hq⟩)
          · rintro (⟨rfl, -⟩ | ⟨e, -, w, hw⟩ | ⟨-, hq⟩)
            · exact .inl rfl
            · have := hall _ hw; rw [this] at e; cases e
            · exact .inr hq
        | eq =>
          have hM : ∀ r ∈ M, Kserd.cmp k r.1 ≠ .eq := by
            intro r hr
            rw [L.eq_l hk hk' (hP' r hr) hc, s1 r hr]; decide
          simp only [List.mem_cons]
          constructor
          · rintro (rfl | hq)
            · exact .inr (.inl ⟨hc, rfl, v', .inl rfl⟩)
            · exact .inr (.inr ⟨hM q hq, .inr hq⟩)
          · rintro (⟨-, h⟩ | ⟨e, ev, w, hw | hw⟩ | ⟨e, hq | hq⟩)
            · exact absurd hc (h (k', v') (.inl rfl))
            · left; cases hw; subst ev; rfl
            · exact absurd e (hM (q.1, w) hw)
            · subst hq; exact absurd hc e
            · exact .inr hq
        | gt =>
          simp only [List.mem_cons, ihM hP' s2 q]
          constructor
          · rintro (rfl | ⟨rfl, h⟩ | ⟨e, ev, w, hw⟩ | ⟨e, hq⟩)
            · exact .inr (.inr ⟨by rw [hc]; decide, .inl rfl⟩)
            · refine .inl ⟨rfl, ?_⟩
              rintro r (rfl | hr)
              · rw [hc]; decide
              · exact h r hr
            · exact .inr (.inl ⟨e, ev, w, .inr hw⟩)
            · exact .inr (.inr ⟨e, .inr hq⟩)
          · rintro (⟨rfl, h⟩ | ⟨e, ev, w, hw | hw⟩ | ⟨e, hq | hq⟩)
            · exact .inr (.inl ⟨rfl, fun r hr => h r (.inr hr)⟩)
            · cases hw; rw [hc] at e; cases e
            · exact .inr (.inr (.inl ⟨e, ev, w, hw⟩))
            · exact .inl hq
            · exact .inr (.inr (.inr ⟨e, hq⟩))
    refine ⟨hasc, ?_, ?_⟩
    · intro q hq
      have hlast : LastFor (Kserd.cmp · · = .eq) (l ++ [(k, v)]) (k, v) := ⟨l, [], rfl, by simp⟩
      rcases (hmem _ hkeys h1 q).mp hq with ⟨rfl, hn⟩ | ⟨e, ev, w, hw⟩ | ⟨e, hq⟩
      · refine ⟨⟨l, v, [], rfl, ?_⟩, k, L.refl k, hlast⟩
        intro r hr er
        obtain ⟨s, hs, es⟩ := h3 r hr
        refine hn s hs ?_
        rw [← L.eq_l (hl' r hr) hk (hkeys s hs) er]; exact es
      · obtain ⟨⟨b, w', a, el, hb⟩, -⟩ := h2 _ hw
        refine ⟨⟨b, w', a ++ [(k, v)], by rw [el]; simp, hb⟩, k, e, ?_⟩
        rw [ev]; exact hlast
      · obtain ⟨⟨b, w', a, el, hb⟩, key, ek, b', a', el', ha'⟩ := h2 q hq
        have hq1 : AllNums lawful q.1 := hkeys q hq
        have hkey : AllNums lawful key := hl' (key, q.2) (by rw [el']; simp)
        refine ⟨⟨b, w', a ++ [(k, v)], by rw [el]; simp, hb⟩, key, ek, b', a' ++ [(k, v)], by rw [el']; simp, ?_⟩
        intro r hr
        rcases List.mem_append.mp hr with hr | hr
        · exact ha' r hr
        · simp only [List.mem_singleton] at hr; subst hr
          intro er
          simp only at er
          apply e
          have := L.eq_l hkey hk hq1 er
          rw [← this]; exact ek
    · intro p hp
      rcases List.mem_append.mp hp with hp | hp
      · obtain ⟨q, hq, e⟩ := h3 p hp
        by_cases hkq : Kserd.cmp k q.1 = .eq
        · exact ⟨(q.1, v), (hmem _ hkeys h1 _).mpr (.inr (.inl ⟨hkq, rfl, q.2, hq⟩)), e⟩
        · exact ⟨q, (hmem _ hkeys h1 _).mpr (.inr (.inr ⟨hkq, hq⟩)), e⟩
      · simp only [List.mem_singleton] at hp; subst hp
        by_cases hn : ∀ r ∈ inserted l, Kserd.cmp k r.1 ≠ .eq
        · exact ⟨(k, v), (hmem _ hkeys h1 _).mpr (.inl ⟨rfl, hn⟩), L.refl k⟩
        · simp only [not_forall, not_not] at hn
          obtain ⟨r, hr, e⟩ := hn
          exact ⟨(r.1, v), (hmem _ hkeys h1 _).mpr (.inr (.inl ⟨e, rfl, r.2, hr⟩)), e⟩

/-- Two maps of the same pairs are the same: the specification determines the map. -/
theorem mapOf_unique {l : List (Kserd × Kserd)} (hl : ∀ p ∈ l, AllNums lawful p.1) {m m' : KMap} (h : MapOf l m) (h' : MapOf l m') : m = m' := by
  have L := KS.EN.lawCmp
  have key : ∀ {m m' : KMap}, MapOf l m → MapOf l m' → ∀ p ∈ m, p ∈ m' := by
    intro m m' h h' p hp
    obtain ⟨⟨b, w, a, e, hb⟩, key, ek, b1, a1, e1, ha1⟩ := h.2.1 p hp
    obtain ⟨q, hq, eq⟩ := h'.2.2 (p.1, w) (by rw [e]; simp)
    simp only at eq
    obtain ⟨⟨b', w', a', e', hb'⟩, key', ek', b2, a2, e2, ha2⟩ := h'.2.1 q hq
    have pl : AllNums lawful p.1 := hl (p.1, w) (by rw [e]; simp)
    have ql : AllNums lawful q.1 := hl (q.1, w') (by rw [e']; simp)
    have kl : AllNums lawful key := hl (key, p.2) (by rw [e1]; simp)
    have kl' : AllNums lawful key' := hl (key', q.2) (by rw [e2]; simp)
    -- the first of the equal keys
    have hfirst : p.1 = q.1 := by
      rw [e] at e'
      rcases List.append_eq_append_iff.mp e' with ⟨c, hc1, hc2⟩ | ⟨c, hc1, hc2⟩
      · cases c with
        | nil => simp only [List.nil_append, List.cons.injEq, Prod.mk.injEq] at hc2; exact hc2.1.1
        | cons x c =>
          simp only [List.cons_append, List.cons.injEq] at hc2
          refine absurd eq (hb' (p.1, w) ?_)
          rw [hc1, hc2.1]; simp
      · cases c with
        | nil => simp only [List.nil_append, List.cons.injEq, Prod.mk.injEq] at hc2; exact hc2.1.1.symm
        | cons x c =>
          simp only [List.cons_append, List.cons.injEq] at hc2
          refine absurd (L.sw eq) (hb (q.1, w') ?_)
          rw [hc1, hc2.1]; simp
    have hsame : Kserd.cmp key key' = .eq := by
      rw [← hfirst] at ek'
      rw [L.eq_l kl pl kl' ek]; exact L.sw ek'
    have hlast : p.2 = q.2 := by
      rw [e1] at e2
      rcases List.append_eq_append_iff.mp e2 with ⟨c, hc1, hc2⟩ | ⟨c, hc1, hc2⟩
      · cases c with
        | nil => simp only [List.nil_append, List.cons.injEq, Prod.mk.injEq] at hc2; exact hc2.1.2
        | cons x c =>
          simp only [List.cons_append, List.cons.injEq] at hc2
          refine absurd hsame (ha1 (key', q.2) ?_)
          rw [hc2.2]; simp
      · cases c with
        | nil => simp only [List.nil_append, List.cons.injEq, Prod.mk.injEq] at hc2; exact hc2.1.2.symm
        | cons x c =>
          simp only [List.cons_append, List.cons.injEq] at hc2
          refine absurd (L.sw hsame) (ha2 (key, p.2) ?_)
          rw [hc2.2]; simp
    have : p = q := Prod.ext hfirst hlast
    rw [this]; exact hq
  have asc : ∀ {m : KMap}, MapOf l m → Keys (AllNums lawful) m := by
    intro m h p hp
    obtain ⟨⟨b, w, a, e, -⟩, -⟩ := h.2.1 p hp
    exact hl (p.1, w) (by rw [e]; simp)
  exact BTree.Ascending.ext L h.1 h'.1 (fun x => ⟨key h h' x, key h' h x⟩)

/-! ## The whole -/

theorem finish_means {cs : List CField} (hk : ∀ n, ∀ e ∈ entriesFor n (cs.map item), AllNums lawful e.2.1) :
    ∃ f, (cs.foldl CAcc.step {}).finish = .mk (ids (cs.map item)).getLast? (.cntr f) ∧ Ascending cmpStr f ∧
      ∀ n k, (n, k) ∈ f ↔ ValueOf (cs.map item) n k := by
  have h := inv_fold cs inv_nil
  rw [List.nil_append] at h
  generalize cs.foldl CAcc.step {} = a at h ⊢
  generalize cs.map item = l at h hk ⊢
  rw [CAcc.finish]
  refine ⟨_, by rw [h.id], ?_, ?_⟩
  · exact (get_fold (fun p : Str × (Option Str × KMap) => Kserd.mk p.2.1 (.map p.2.2)) [] _ _ h.aM
      (get_fold (fun p : Str × (Option Str × List Kserd) => Kserd.mk p.2.1 (.seq p.2.2)) [] _ _ h.aS h.aR).1).1
  · intro n k
    have g1 := get_fold (fun p : Str × (Option Str × List Kserd) => Kserd.mk p.2.1 (.seq p.2.2)) n _ _ h.aS h.aR
    have g2 := get_fold (fun p : Str × (Option Str × KMap) => Kserd.mk p.2.1 (.map p.2.2)) n _ _ h.aM g1.1
    rw [mem_get g2.1, g2.2, g1.2, h.gM n, h.gS n, h.gR n, ValueOf]
    have hin : ∀ p ∈ (entriesFor n l).map (·.2), AllNums lawful p.1 := by
      intro p hp
      obtain ⟨e, he, rfl⟩ := List.mem_map.mp hp
      exact hk n e he
    by_cases h1 : entriesFor n l = []
    · rw [if_pos h1, if_neg (show ¬ entriesFor n l ≠ [] from not_not.mpr h1)]
      by_cases h2 : elemsOf n l = []
      · rw [if_pos h2, if_neg (show ¬ elemsOf n l ≠ [] from not_not.mpr h2)]
      · rw [if_neg h2, if_pos h2]; simp [eq_comm]
    · rw [if_neg h1, if_pos h1]
      simp only [Option.some.injEq]
      constructor
      · rintro rfl; exact ⟨_, rfl, mapOf_inserted _ hin⟩
      · rintro ⟨m, rfl, hm⟩; rw [mapOf_unique hin hm (mapOf_inserted _ hin)]

end KS.AS
