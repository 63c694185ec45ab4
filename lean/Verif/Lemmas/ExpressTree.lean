import Verif.Lemmas.Express
/-!
# Writing Kserds: trees
-/

namespace KS.EX
open KS.Spec KS.Spec.Ex
open KS.GR hiding Stop Stops

/-- The tree spells the Kserd. -/
structure Spells (T : Spec.Tree) (k : Kserd) : Prop where
  reads : ∀ rest, Rest rest → T.Reads false rest
  means : T.Means k
  keys : T.KeysOk
  nums : AllNums lawful k → T.Nums lawful
  lead : Lead k → Stops (T.text ++ ['\n'])
  head : ∃ c r, T.text = c :: r ∧ c ∉ str " \t\r\n:" ∧ (c = '[' → ∃ z, r = '\n' :: z)

theorem no_blanks : Blanks [] := by intro c hc; cases hc

theorem feed_lead : LeadOk true ['\n'] := ⟨(by intro c hc; rw [List.mem_singleton.mp hc]; simp), by simp⟩

theorem feed_post : PostOk true ['\n'] := ⟨(by intro c hc; rw [List.mem_singleton.mp hc]; simp), by simp⟩

theorem feed_rest (r : Str) : Rest ('\n' :: r) := ⟨'\n', r, rfl, .inl rfl⟩

/-! ## Primitives -/

theorem prim_spells {id : Option Str} {l : Literal} {v : Value} (hi : ∀ i, id = some i → ValidName i) (hl : Lit id.isNone l v)
    (hlead : Lead (.mk id v) → id = none → LitLead l) (hn : AllNums lawful (.mk id v) → l.Num lawful) : Spells (.prim id [] l) (.mk id v) := by
  refine ⟨fun rest hr => ⟨hi, no_blanks, fun _ => rfl, hl.ok, hl.complete rest hr, fun h hb => hl.bracket (by rw [h]; rfl) hb rest hr⟩, ?_, trivial, hn, ?_, ?_⟩
  · show _ = _
    rw [hl.value]
  · intro h
    cases id with
    | none => exact hlead h rfl
    | some i =>
      refine ⟨[], '<', i ++ ['>'] ++ l.text ++ ['\n'], ?_, by simp, by unfold Stop; decide⟩
      simp [Spec.Tree.text, angled]
  · cases id with
    | none =>
      obtain ⟨c, r, h1, h2⟩ := hl.head
      refine ⟨c, r, h1, fun h => h2 ?_, fun h => absurd ?_ h2⟩
      · have : ∀ c ∈ str " \t\r\n:", c ∈ str " \t\r\n:[" := by decide
        exact this c h
      · rw [h]; decide
    | some i => exact ⟨'<', i ++ ['>'] ++ l.text, by simp [Spec.Tree.text, angled], by decide, by intro h; cases h⟩

theorem Lit.any {l : Literal} {v : Value} (h : Lit true l v) (b : Bool) : Lit b l v :=
  ⟨h.ok, h.value, h.complete, fun _ => h.bracket rfl, h.head⟩

/-! ## Lists -/

theorem elems_spell : ∀ l : List Kserd, (∀ k ∈ l, ∃ T, Spells T k) →
    ∃ b : Elems, (∀ close, b.Reads true close) ∧ b.Means l ∧ b.KeysOk ∧ ((∀ k ∈ l, AllNums lawful k) → b.Nums lawful) ∧ (b.isNil = true ↔ l = []) ∧
      (∀ k r, l = k :: r → Lead k → Stops (b.text true)) ∧ ∀ k r, l = k :: r → ∃ c z, b.text true = c :: z ∧ c ∉ str " \t\r\n:"
  | [], _ => ⟨.nil, fun _ => trivial, rfl, trivial, fun _ => trivial, by simp [Elems.isNil], (by intro k r h; cases h), (by intro k r h; cases h)⟩
  | k :: l, h => by
    obtain ⟨b, h1, h2, h3, h4, -, -, -⟩ := elems_spell l fun k hk => h k (List.mem_cons_of_mem _ hk)
    obtain ⟨T, hT⟩ := h k List.mem_cons_self
    have et : (Elems.cons [] T ['\n'] b).text true = (T.text ++ ['\n']) ++ b.text true := by simp [Elems.text, comma]
    refine ⟨.cons [] T ['\n'] b, fun close => ⟨rfl, hT.reads _ (feed_rest _), feed_post, h1 close⟩, ⟨k, l, hT.means, h2, rfl⟩, ⟨hT.keys, h3⟩, ?_, ?_, ?_, ?_⟩
    · intro hn
      exact ⟨hT.nums (hn k List.mem_cons_self), h4 fun k hk => hn k (List.mem_cons_of_mem _ hk)⟩
    · simp [Elems.isNil]
    · rintro _ _ ⟨⟩ hl
      rw [et]
      exact (hT.lead hl).append _
    · rintro _ _ ⟨⟩
      obtain ⟨c, r, h1, h2, -⟩ := hT.head
      rw [et, h1]
      exact ⟨c, _, rfl, h2⟩

theorem assigns_spell : ∀ f : Fields, (∀ p ∈ f, (∀ c ∈ p.1, NameChar c) ∧ ∃ T, Spells T p.2) →
    ∃ b : Assigns, (∀ close, b.Reads true close) ∧ b.Means f ∧ b.KeysOk ∧ ((∀ p ∈ f, AllNums lawful p.2) → b.Nums lawful) ∧ (b.isNil = true ↔ f = [])
  | [], _ => ⟨.nil, fun _ => trivial, rfl, trivial, fun _ => trivial, by simp [Assigns.isNil]⟩
  | (n, k) :: f, h => by
    obtain ⟨b, h1, h2, h3, h4, -⟩ := assigns_spell f fun p hp => h p (List.mem_cons_of_mem _ hp)
    obtain ⟨hn, T, hT⟩ := h (n, k) List.mem_cons_self
    refine ⟨.cons [] n [] [] T ['\n'] b, fun close => ⟨rfl, hn, fun _ => rfl, no_blanks, no_blanks, hT.reads _ (feed_rest _), feed_post, h1 close⟩,
      ⟨k, f, hT.means, h2, rfl⟩, ⟨hT.keys, h3⟩, ?_, by simp [Assigns.isNil]⟩
    intro hl
    exact ⟨hT.nums (hl _ List.mem_cons_self), h4 fun p hp => hl p (List.mem_cons_of_mem _ hp)⟩

theorem pairs_spell : ∀ m : KMap, (∀ p ∈ m, (∃ T, Spells T p.1) ∧ (∃ T, Spells T p.2) ∧ AllNums lawful p.1) →
    ∃ b : Pairs, (∀ close, b.Reads true close) ∧ b.Means m ∧ b.KeysOk ∧ ((∀ p ∈ m, AllNums lawful p.2) → b.Nums lawful)
  | [], _ => ⟨.nil, fun _ => trivial, rfl, trivial, fun _ => trivial⟩
  | (a, k) :: m, h => by
    obtain ⟨b, h1, h2, h3, h4⟩ := pairs_spell m fun p hp => h p (List.mem_cons_of_mem _ hp)
    obtain ⟨⟨A, hA⟩, ⟨T, hT⟩, ha⟩ := h (a, k) List.mem_cons_self
    refine ⟨.cons [] A [] [] T ['\n'] b, fun close => ⟨rfl, hA.reads _ ⟨':', _, rfl, .inr rfl⟩, no_blanks, no_blanks, hT.reads _ (feed_rest _), feed_post, h1 close⟩,
      ⟨a, k, m, hA.means, hT.means, h2, rfl⟩, ⟨hA.nums ha, hA.keys, hT.keys, h3⟩, ?_⟩
    intro hl
    exact ⟨hA.nums ha, hT.nums (hl _ List.mem_cons_self), h4 fun p hp => hl p (List.mem_cons_of_mem _ hp)⟩

/-! ## Containers and maps that are in order -/

theorem lastFor_self {κ β : Type} {cmp : κ → κ → Ordering} {same : κ → κ → Prop} (hs : ∀ a b, same a b → cmp a b ≠ .lt) :
    ∀ (l : List (κ × β)), Ascending cmp l → ∀ p, p ∈ l ↔ LastFor same l p := by
  intro l hl p
  constructor
  · intro hp
    obtain ⟨a, b, rfl⟩ := List.append_of_mem hp
    refine ⟨a, b, rfl, fun q hq hsame => ?_⟩
    have := (List.pairwise_append.mp hl).2.1
    exact hs _ _ hsame ((List.pairwise_cons.mp this).1 q hq)
  · rintro ⟨a, b, rfl, -⟩
    simp

theorem fieldsOf_self {f : Fields} (h : Ascending cmpStr f) : FieldsOf f f :=
  ⟨h, lastFor_self (cmp := cmpStr) (by rintro a b rfl; simp [lawStr.refl]) f h⟩

theorem entriesOf_self {m : KMap} (h : Ascending Kserd.cmp m) : EntriesOf m m :=
  ⟨fun _ hp => hp, fun _ => ⟨h, lastFor_self (cmp := Kserd.cmp) (by intro a b h; rw [h]; simp) m h⟩⟩

/-! ## Everything -/

theorem paren_stops {id : Option Str} (hi : ∀ i, id = some i → ValidName i) {o : Char} (ho : Stop o) (x : Str) : Stops (plainId id ++ o :: x) := by
  refine ⟨plainId id, o, x, rfl, ?_, ho⟩
  cases id with
  | none => simp [plainId]
  | some i => exact fun h => (name_not (name_chars (hi i rfl) _ h)).1 rfl

theorem bracket_stops {id : Option Str} (hi : ∀ i, id = some i → ValidName i) (x : Str) : Stops (plainId id ++ '[' :: '\n' :: x) := by
  rw [show plainId id ++ '[' :: '\n' :: x = (plainId id ++ ['[']) ++ ('\n' :: x) by simp]
  refine Stops.prepend ?_ ⟨[], '\n', x, rfl, by simp, by unfold Stop; decide⟩
  rw [List.mem_append]
  rintro (h | h)
  · cases id with
    | none => cases h
    | some i => exact (name_not (name_chars (hi i rfl) _ h)).1 rfl
  · revert h; decide

theorem open_head {id : Option Str} (hi : ∀ i, id = some i → ValidName i) {o : Char} (ho : o ∉ str " \t\r\n:") (x : Str) :
    ∃ c r, plainId id ++ o :: '\n' :: x = c :: r ∧ c ∉ str " \t\r\n:" ∧ (c = '[' → ∃ z, r = '\n' :: z) := by
  cases id with
  | none => exact ⟨o, _, rfl, ho, fun _ => ⟨x, rfl⟩⟩
  | some i =>
    obtain ⟨a, r, rfl, ha⟩ := hi i rfl
    have hn : NameChar a := name_chars (hi _ rfl) a List.mem_cons_self
    have hx : a ∉ str " \t\r\n:[" := by
      rw [← PG.isNameChar_iff] at hn
      intro h
      have : ∀ c ∈ str " \t\r\n:[", P.isNameChar c = false := by decide
      rw [this a h] at hn; cases hn
    refine ⟨a, r ++ o :: '\n' :: x, rfl, fun h => hx ?_, fun h => absurd ?_ hx⟩
    · have : ∀ c ∈ str " \t\r\n:", c ∈ str " \t\r\n:[" := by decide
      exact this a h
    · rw [h]; decide

theorem lit_nums {id : Option Str} {l : Literal} {n : Number} (h : l.value = .num n) : AllNums lawful (.mk id (.num n)) → l.Num lawful := by
  intro hn
  cases l with
  | num t m =>
    have : m = n := by injection h
    subst this
    exact hn.1
  | _ => trivial

theorem tuple_spells {id : Option Str} {l : List Kserd} (hi : ∀ i, id = some i → ValidName i) (hb : ∀ i, id = some i → NotBool i)
    (hl : ∀ x r, l = x :: r → Lead x) (h : ∀ k ∈ l, ∃ T, Spells T k) (hn : AllNums lawful (.mk id (.tuple l)) → ∀ k ∈ l, AllNums lawful k) :
    ∃ T, Spells T (.mk id (.tuple l)) := by
  obtain ⟨b, h1, h2, h3, h4, -, h6, h7⟩ := elems_spell l h
  refine ⟨.tuple id [] true ['\n'] b, fun rest _ => ⟨hi, no_blanks, fun _ => rfl, hb, feed_lead, fun _ => rfl, fun _ _ => rfl, ?_, h1 _⟩, ⟨l, h2, rfl⟩, h3,
    fun hx => h4 (hn hx), fun _ => ?_, ?_⟩
  · cases l with
    | nil =>
      have : b.text true = [] := by
        cases b with
        | nil => rfl
        | cons p t q r => obtain ⟨k, l', -, -, h⟩ := h2; cases h
      rw [this]
      refine not_assign (w := ['\n']) feed_lead.1 ?_ ⟨[], ')', [], rfl, by simp, by unfold Stop; decide⟩
      rintro c t ⟨⟩; decide
    | cons k r =>
      obtain ⟨c, z, e, hc⟩ := h7 k r rfl
      refine not_assign feed_lead.1 ?_ ((h6 k r rfl (hl k r rfl)).append _)
      rw [e]
      rintro _ _ ⟨⟩ hx
      apply hc
      have : ∀ c ∈ str " \t\r\n", c ∈ str " \t\r\n:" := by decide
      exact this c hx
  · have := paren_stops hi (o := '(') (by unfold Stop; decide) (['\n'] ++ (b.text true ++ [')']) ++ ['\n'])
    simpa [Spec.Tree.text] using this
  · exact open_head hi (o := '(') (by decide) _

theorem seq_spells {id : Option Str} {l : List Kserd} (hi : ∀ i, id = some i → ValidName i) (hb : ∀ i, id = some i → NotBool i)
    (h : ∀ k ∈ l, ∃ T, Spells T k) (hn : AllNums lawful (.mk id (.seq l)) → ∀ k ∈ l, AllNums lawful k) : ∃ T, Spells T (.mk id (.seq l)) := by
  obtain ⟨b, h1, h2, h3, h4, -, -, -⟩ := elems_spell l h
  refine ⟨.seq id [] true ['\n'] b, fun rest _ => ⟨hi, no_blanks, fun _ => rfl, hb, feed_lead, fun _ => rfl, h1 _⟩, ⟨l, h2, rfl⟩, h3,
    fun hx => h4 (hn hx), fun _ => ?_, ?_⟩
  · have := bracket_stops hi (b.text true ++ [']'] ++ ['\n'])
    simpa [Spec.Tree.text] using this
  · exact open_head hi (o := '[') (by decide) _

theorem cntr_spells {id : Option Str} {f : Fields} (hi : ∀ i, id = some i → ValidName i) (hb : ∀ i, id = some i → NotBool i) (hne : f ≠ [])
    (hf : ∀ p ∈ f, ∀ c ∈ p.1, NameChar c) (ha : Ascending cmpStr f) (h : ∀ p ∈ f, ∃ T, Spells T p.2)
    (hn : AllNums lawful (.mk id (.cntr f)) → ∀ p ∈ f, AllNums lawful p.2) : ∃ T, Spells T (.mk id (.cntr f)) := by
  obtain ⟨b, h1, h2, h3, h4, h5⟩ := assigns_spell f fun p hp => ⟨hf p hp, h p hp⟩
  refine ⟨.cntr id [] true ['\n'] b, fun rest _ => ⟨hi, no_blanks, fun _ => rfl, hb, feed_lead, fun _ => rfl, ?_, h1 _⟩, ⟨f, f, h2, fieldsOf_self ha, rfl⟩, h3,
    fun hx => h4 (hn hx), fun _ => ?_, ?_⟩
  · cases hx : b.isNil with
    | false => rfl
    | true => exact absurd (h5.mp hx) hne
  · have := paren_stops hi (o := '(') (by unfold Stop; decide) (['\n'] ++ (b.text true ++ [')']) ++ ['\n'])
    simpa [Spec.Tree.text] using this
  · exact open_head hi (o := '(') (by decide) _

theorem map_spells {id : Option Str} {m : KMap} (hi : ∀ i, id = some i → ValidName i) (hb : ∀ i, id = some i → NotBool i)
    (ha : Ascending Kserd.cmp m) (h : ∀ p ∈ m, (∃ T, Spells T p.1) ∧ (∃ T, Spells T p.2) ∧ AllNums lawful p.1)
    (hn : AllNums lawful (.mk id (.map m)) → ∀ p ∈ m, AllNums lawful p.2) : ∃ T, Spells T (.mk id (.map m)) := by
  obtain ⟨b, h1, h2, h3, h4⟩ := pairs_spell m h
  refine ⟨.map id [] true ['\n'] b, fun rest _ => ⟨hi, no_blanks, fun _ => rfl, hb, feed_lead, fun _ => rfl, h1 _⟩, ⟨m, m, h2, entriesOf_self ha, rfl⟩, h3,
    fun hx => h4 (hn hx), fun _ => ?_, ?_⟩
  · have := paren_stops hi (o := '{') (by unfold Stop; decide) (['\n'] ++ (b.text true ++ ['}']) ++ ['\n'])
    simpa [Spec.Tree.text] using this
  · exact open_head hi (o := '{') (by decide) _

theorem allL_mem {P : Kserd → Prop} : ∀ {l : List Kserd}, AllL P l → ∀ k ∈ l, All P k
  | [], _, k, h => by cases h
  | x :: l, h, k, hk => by
    rcases List.mem_cons.mp hk with rfl | hk
    · exact h.1
    · exact allL_mem h.2 k hk

theorem allF_mem {P : Kserd → Prop} : ∀ {l : List (Str × Kserd)}, AllF P l → ∀ p ∈ l, All P p.2
  | [], _, k, h => by cases h
  | (n, x) :: l, h, k, hk => by
    rcases List.mem_cons.mp hk with rfl | hk
    · exact h.1
    · exact allF_mem h.2 k hk

theorem allM_mem {P : Kserd → Prop} : ∀ {l : List (Kserd × Kserd)}, AllM P l → ∀ p ∈ l, All P p.1 ∧ All P p.2
  | [], _, k, h => by cases h
  | (n, x) :: l, h, k, hk => by
    rcases List.mem_cons.mp hk with rfl | hk
    · exact ⟨h.1, h.2.1⟩
    · exact allM_mem h.2.2 k hk

mutual
theorem spell (k : Kserd) (h : All Node k) : ∃ T, Spells T k := by
  cases k with
  | mk id v => exact spellV id v h.1 h.2
termination_by structural k
theorem spellV (id : Option Str) (v : Value) (hv : Node (.mk id v)) (ha : AllV Node v) : ∃ T, Spells T (.mk id v) := by
  obtain ⟨hi, hv⟩ := hv
  cases v with
  | unit => exact ⟨_, prim_spells hi (lit_unit.1.any _) (fun _ _ => lit_unit.2) fun _ => trivial⟩
  | bool b => exact ⟨_, prim_spells hi ((lit_bool b).1.any _) (fun _ _ => (lit_bool b).2) fun _ => trivial⟩
  | num n =>
    obtain ⟨l, h1, h2⟩ := lit_num hv.1 id.isNone (fun h => hv.2 (by simpa using h))
    exact ⟨_, prim_spells hi h1 (fun _ _ => h2) (lit_nums h1.value)⟩
  | str s =>
    obtain ⟨l, h1, h2⟩ := lit_str hv
    refine ⟨_, prim_spells hi (h1.any _) (fun h hid => h2 (h hid s rfl)) fun _ => ?_⟩
    cases l with
    | num t n => cases h1.value
    | _ => trivial
  | barr b =>
    obtain ⟨l, h1, h2⟩ := lit_bytes b
    refine ⟨_, prim_spells hi (h1.any _) (fun _ _ => h2) fun _ => ?_⟩
    cases l with
    | num t n => cases h1.value
    | _ => trivial
  | tuple l => exact tuple_spells hi hv.1 hv.2 (spellL l ha) fun h => allL_mem h.2
  | seq l => exact seq_spells hi hv (spellL l ha) fun h => allL_mem h.2
  | cntr f => exact cntr_spells hi hv.1 hv.2.1 hv.2.2.1 hv.2.2.2 (spellF f ha) fun h => allF_mem h.2
  | map m =>
    exact map_spells hi hv.1 hv.2.1 (fun p hp => ⟨(spellM m ha p hp).1, (spellM m ha p hp).2, hv.2.2 p hp⟩) fun h p hp => (allM_mem h.2 p hp).2
termination_by structural v
theorem spellL (l : List Kserd) (h : AllL Node l) : ∀ k ∈ l, ∃ T, Spells T k := by
  cases l with
  | nil => intro k hk; cases hk
  | cons x l => exact List.forall_mem_cons.mpr ⟨spell x h.1, spellL l h.2⟩
termination_by structural l
theorem spellF (l : List (Str × Kserd)) (h : AllF Node l) : ∀ p ∈ l, ∃ T, Spells T p.2 := by
  match l with
  | [] => intro k hk; cases hk
  | (n, x) :: l => exact List.forall_mem_cons.mpr ⟨spell x h.1, spellF l h.2⟩
termination_by structural l
theorem spellM (l : List (Kserd × Kserd)) (h : AllM Node l) : ∀ p ∈ l, (∃ T, Spells T p.1) ∧ ∃ T, Spells T p.2 := by
  match l with
  | [] => intro k hk; cases hk
  | (a, x) :: l => exact List.forall_mem_cons.mpr ⟨⟨spell a h.1, spell x h.2.1⟩, spellM l h.2.2⟩
termination_by structural l
end

/-- The text of a Kserd: its tree and a line feed. -/
theorem written {k : Kserd} (h : All Node k) (hl : Lead k) : ∃ s, parse s = .ok k := by
  obtain ⟨T, hT⟩ := spell k h
  have hw : EndsWith (.value [] T) ['\n'] := ⟨feed_lead.1, by intro h; cases h⟩
  have hr : (Doc.value [] T).Reads 0 ['\n'] := by
    refine ⟨no_blanks, hT.reads _ (feed_rest []), ?_⟩
    obtain ⟨c, r, e, hc, hb⟩ := hT.head
    have hx : ∀ c t, T.text ++ ['\n'] = c :: t → c ∉ str " \t\r\n" := by
      rw [e]
      rintro _ _ ⟨⟩ hx
      apply hc
      have : ∀ c ∈ str " \t\r\n", c ∈ str " \t\r\n:" := by decide
      exact this c hx
    rintro (ha | ⟨w, y, ey, hw, hy⟩)
    · exact not_assign (w := []) (by intro c hc; cases hc) hx (hT.lead hl) ha
    · have : y = T.text ++ ['\n'] := by
        obtain ⟨u, h1, h2⟩ := white_split (w := []) (by intro c hc; cases hc) hw hx ey
        have : u = [] := by
          cases u with
          | nil => rfl
          | cons a u => simp at h1
        rw [h2, this]; rfl
      subst this
      rw [e] at hy
      rcases hy with ⟨z, hy⟩ | ⟨z, hy⟩ | ⟨a, n, b, z, hy, ha, hn, -⟩
      · cases hy; exact hc (by decide)
      · injection hy with e1 e2
        obtain ⟨y, rfl⟩ := hb e1
        injection e2 with e3 _
        cases e3
      · injection hy with e1 e2
        obtain ⟨y, rfl⟩ := hb e1
        cases a with
        | nil =>
          obtain ⟨x, m, rfl, hx, -⟩ := hn
          injection e2 with e3 _
          subst e3
          rcases hx with (⟨a, -⟩ | ⟨a, -⟩) | a <;> revert a <;> decide
        | cons x a =>
          injection e2 with e3 _
          subst e3
          rcases ha '\n' List.mem_cons_self with h | h <;> cases h
  obtain ⟨k', h1, h2⟩ := parse_complete hw hr
  have : k' = k := doc_unique (.value [] T) hT.keys hr h2 hT.means
  exact ⟨_, this ▸ h1⟩

end KS.EX
