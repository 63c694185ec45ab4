import Verif.Props.Concise
import Verif.Props.Layouts
import Verif.Lemmas.GrammarMeans
/-!
# C53: texts of one Kserd are never read as different Kserds
-/

namespace KS.Props
open KS.Spec KS.RT

/-- The keys of maps contain lawful numbers only. -/
def LawKeys (k : Kserd) : Prop := ∀ m, k.val = .map m → ∀ p ∈ m, AllNums lawful p.1

/-- Lawful numbers, and no empty container. -/
def KeyNode (k : Kserd) : Prop := (match k.val with | .num n => lawful n | _ => True) ∧ (match k.val with | .cntr f => f ≠ [] | _ => True)

theorem key_parens (id : Option Str) : All KeyNode (emptyParens id) := by
  cases id <;> exact ⟨⟨trivial, trivial⟩, trivial⟩

theorem key_pairs : ∀ {l : List (Kserd × Kserd)}, (∀ p ∈ l, All KeyNode p.1 ∧ All KeyNode p.2) → AllM KeyNode l
  | [], _ => trivial
  | (_, _) :: _, h => ⟨(h _ (List.mem_cons_self ..)).1, (h _ (List.mem_cons_self ..)).2, key_pairs fun p hp => h p (List.mem_cons_of_mem _ hp)⟩

mutual
theorem read_key : ∀ (k : Kserd) {k' : Kserd}, AllNums lawful k → ReadAs k k' → All KeyNode k'
  | .mk id v, _, h, hr => read_keyV id v h hr
termination_by structural k => k
theorem read_keyV (id : Option Str) : ∀ (v : Value) {k' : Kserd}, AllNums lawful (.mk id v) → ReadAsV id v k' → All KeyNode k'
  | .unit, _, _, hr => by cases hr; exact key_parens id
  | .bool _, _, _, hr => by cases hr; exact ⟨⟨trivial, trivial⟩, trivial⟩
  | .num n, _, h, hr => by cases hr; exact ⟨⟨(reread_lawful h.1).1, trivial⟩, trivial⟩
  | .str _, _, _, hr => by cases hr; exact ⟨⟨trivial, trivial⟩, trivial⟩
  | .barr _, _, _, hr => by cases hr; exact ⟨⟨trivial, trivial⟩, trivial⟩
  | .tuple l, _, h, hr => by
    obtain ⟨l', h1, rfl⟩ := hr
    split
    · exact key_parens id
    · exact ⟨⟨trivial, trivial⟩, read_keyL l h.2 h1⟩
  | .seq l, _, h, hr => by
    obtain ⟨l', h1, rfl⟩ := hr
    exact ⟨⟨trivial, trivial⟩, read_keyL l h.2 h1⟩
  | .cntr f, _, h, hr => by
    obtain ⟨f', h1, rfl⟩ := hr
    split
    · exact key_parens id
    · rename_i hne
      refine ⟨⟨trivial, ?_⟩, read_keyF f h.2 h1⟩
      rintro rfl
      cases f with
      | nil => exact hne rfl
      | cons p r =>
        obtain ⟨_, _, _, _, e⟩ := h1
        cases e
  | .map m, _, h, hr => by
    obtain ⟨l, m', h1, h2, rfl⟩ := hr
    exact ⟨⟨trivial, trivial⟩, key_pairs fun p hp => read_keyM m h.2 h1 p (h2.1 p hp)⟩
termination_by structural v => v
theorem read_keyL : ∀ (l : List Kserd) {l' : List Kserd}, AllL (fun k => match k.val with | .num n => lawful n | _ => True) l → ReadAsL l l' → AllL KeyNode l'
  | [], _, _, hr => by cases hr; trivial
  | k :: r, _, h, hr => by
    obtain ⟨k', r', h1, h2, rfl⟩ := hr
    exact ⟨read_key k h.1 h1, read_keyL r h.2 h2⟩
termination_by structural l => l
theorem read_keyF : ∀ (l : List (Str × Kserd)) {l' : List (Str × Kserd)}, AllF (fun k => match k.val with | .num n => lawful n | _ => True) l → ReadAsF l l' →
    AllF KeyNode l'
  | [], _, _, hr => by cases hr; trivial
  | (n, k) :: r, _, h, hr => by
    obtain ⟨k', r', h1, h2, rfl⟩ := hr
    exact ⟨read_key k h.1 h1, read_keyF r h.2 h2⟩
termination_by structural l => l
theorem read_keyM : ∀ (l : List (Kserd × Kserd)) {l' : List (Kserd × Kserd)}, AllM (fun k => match k.val with | .num n => lawful n | _ => True) l → ReadAsM l l' →
    ∀ p ∈ l', All KeyNode p.1 ∧ All KeyNode p.2
  | [], _, _, hr => by cases hr; simp
  | (k, v) :: r, _, h, hr => by
    obtain ⟨k', v', r', h1, h2, h3, rfl⟩ := hr
    exact List.forall_mem_cons.mpr ⟨⟨read_key k h.1 h1, read_key v h.2.1 h2⟩, read_keyM r h.2.2 h3⟩
termination_by structural l => l
end

theorem good_keys : ∀ (m : List (Kserd × Kserd)) {l : List (Kserd × Kserd)}, (∀ p ∈ m, AllNums lawful p.1) → ReadAsM m l → GoodKeys l
  | [], _, _, h => by cases h; intro p hp; cases hp
  | (k, v) :: r, _, hm, h => by
    obtain ⟨k', v', r', h1, h2, h3, rfl⟩ := h
    refine List.forall_mem_cons.mpr ⟨?_, good_keys r (fun p hp => hm p (List.mem_cons_of_mem _ hp)) h3⟩
    have := read_key k (hm _ (List.mem_cons_self ..)) h1
    exact ⟨PG.all_mono (fun _ h => h.1) _ this, PG.all_mono (fun _ h => h.2) _ this⟩

mutual
theorem read_unique : ∀ (k : Kserd) {a b : Kserd}, All LawKeys k → ReadAs k a → ReadAs k b → a = b
  | .mk id v, _, _, hl, h, h' => read_uniqueV id v hl h h'
termination_by structural k => k
theorem read_uniqueV (id : Option Str) : ∀ (v : Value) {a b : Kserd}, All LawKeys (.mk id v) → ReadAsV id v a → ReadAsV id v b → a = b
  | .unit, _, _, _, h, h' => Eq.trans h (Eq.symm h')
  | .bool _, _, _, _, h, h' => Eq.trans h (Eq.symm h')
  | .num _, _, _, _, h, h' => Eq.trans h (Eq.symm h')
  | .str _, _, _, _, h, h' => Eq.trans h (Eq.symm h')
  | .barr _, _, _, _, h, h' => Eq.trans h (Eq.symm h')
  | .tuple l, _, _, hl, h, h' => by
    obtain ⟨l', h1, rfl⟩ := h
    obtain ⟨l'', h2, rfl⟩ := h'
    rw [read_uniqueL l hl.2 h1 h2]
  | .seq l, _, _, hl, h, h' => by
    obtain ⟨l', h1, rfl⟩ := h
    obtain ⟨l'', h2, rfl⟩ := h'
    rw [read_uniqueL l hl.2 h1 h2]
  | .cntr f, _, _, hl, h, h' => by
    obtain ⟨l', h1, rfl⟩ := h
    obtain ⟨l'', h2, rfl⟩ := h'
    rw [read_uniqueF f hl.2 h1 h2]
  | .map m, _, _, hl, h, h' => by
    obtain ⟨l, m', h1, g1, rfl⟩ := h
    obtain ⟨l', m'', h2, g2, rfl⟩ := h'
    obtain rfl := read_uniqueM m hl.2 h1 h2
    rw [GR.entriesOf_unique (good_keys m (hl.1 m rfl) h1) g1 g2]
termination_by structural v => v
theorem read_uniqueL : ∀ (l : List Kserd) {a b : List Kserd}, AllL LawKeys l → ReadAsL l a → ReadAsL l b → a = b
  | [], _, _, _, h, h' => Eq.trans h (Eq.symm h')
  | k :: r, _, _, hl, h, h' => by
    obtain ⟨k', r', h1, h2, rfl⟩ := h
    obtain ⟨k'', r'', h3, h4, rfl⟩ := h'
    rw [read_unique k hl.1 h1 h3, read_uniqueL r hl.2 h2 h4]
termination_by structural l => l
theorem read_uniqueF : ∀ (l : List (Str × Kserd)) {a b : List (Str × Kserd)}, AllF LawKeys l → ReadAsF l a → ReadAsF l b → a = b
  | [], _, _, _, h, h' => Eq.trans h (Eq.symm h')
  | (n, k) :: r, _, _, hl, h, h' => by
    obtain ⟨k', r', h1, h2, rfl⟩ := h
    obtain ⟨k'', r'', h3, h4, rfl⟩ := h'
    rw [read_unique k hl.1 h1 h3, read_uniqueF r hl.2 h2 h4]
termination_by structural l => l
theorem read_uniqueM : ∀ (l : List (Kserd × Kserd)) {a b : List (Kserd × Kserd)}, AllM LawKeys l → ReadAsM l a → ReadAsM l b → a = b
  | [], _, _, _, h, h' => Eq.trans h (Eq.symm h')
  | (k, v) :: r, _, _, hl, h, h' => by
    obtain ⟨k', v', r', h1, h2, h3, rfl⟩ := h
    obtain ⟨k'', v'', r'', g1, g2, g3, rfl⟩ := h'
    rw [read_unique k hl.1 h1 g1, read_unique v hl.2.1 h2 g2, read_uniqueM r hl.2.2 h3 g3]
termination_by structural l => l
end

/-- **C53, for texts that need not read back.** Two formatters of one Kserd, reached by any calls, have no verbose containers and display the same
identities. Whenever both texts are accepted, they are read as the same Kserd, even if it is not the one that was written (units with identity,
empty containers, and so on). The Kserd is `Usual` (C75), and the keys of its maps are lawful. -/
theorem C53_agree_partial (root : Kserd) (f g : Formatter) (hf : Reachable root f) (hg : Reachable root g) (vf : NoVerboseCntr f) (vg : NoVerboseCntr g)
    (uf : Usual f) (ug : Usual g) (hl : All LawKeys (displayed f)) (he : ∀ i < (preorder root).length, flags f i = flags g i)
    {s t : Str} {a b : Kserd} (hs : f.writeString [] = some s) (ht : g.writeString [] = some t) (ha : parse s = .ok a) (hb : parse t = .ok b) : a = b := by
  have e : displayed f = displayed g := by
    obtain ⟨rf, rulesf⟩ := C22_rules root f hf
    obtain ⟨rg, rulesg⟩ := C22_rules root g hg
    rw [displayed, displayed, rf, rg]
    congr 1
    funext i
    by_cases hi : i < (preorder root).length
    · exact he i hi
    · rw [flags_past rulesf (by rw [rf]; omega), flags_past rulesg (by rw [rg]; omega)]
  refine read_unique _ hl (C75_value root f hf vf uf hs ha) ?_
  rw [e]
  exact C75_value root g hg vg ug ht hb

/-! ## Non-vacuity -/

/-- Keys without numbers. -/
def keysB (k : Kserd) : Bool :=
  match k.val with
  | .map m => m.all fun p => (preorder p.1).all fun x => match x.val with | .num _ => false | _ => true
  | _ => true

theorem keysB_spec {k : Kserd} (h : (preorder k).all keysB = true) : All LawKeys k := by
  rw [all_mem]
  intro x hx m hm p hp
  have := List.all_eq_true.mp h x hx
  rw [keysB, hm] at this
  have := List.all_eq_true.mp this p hp
  rw [AllNums, all_mem]
  intro y hy
  have := List.all_eq_true.mp this y hy
  split
  · rename_i n hn
    rw [hn] at this
    cases this
  · trivial

/-- On one line and with a concise root, `inlineSample`, which is read but not as itself, meets the conditions. -/
example : ∃ f g, Reachable inlineSample f ∧ Reachable inlineSample g ∧ Usual f ∧ Usual g ∧ NoVerboseCntr f ∧ NoVerboseCntr g ∧
    All LawKeys (displayed f) ∧ (∀ i < (preorder inlineSample).length, flags f i = flags g i) ∧ line f 0 ≠ line g 0 := by
  obtain ⟨f, hf, h⟩ := after_reach (k := inlineSample) (l := [(0, .inline)]) (fun f => usualB f && ((preorder (displayed f)).all keysB &&
    (decide (line f 0 = some .inline) && decide ((List.range 11).map (flags f) = List.replicate 11 true)))) (by decide +kernel)
  obtain ⟨g, hg, h'⟩ := conciseRoot_reach (k := inlineSample) (fun f => usualB f && (decide (line f 0 = some .concise) &&
    decide ((List.range 11).map (flags f) = List.replicate 11 true))) (by decide +kernel)
  simp only [Bool.and_eq_true, decide_eq_true_eq] at h h'
  have hlen : (preorder inlineSample).length = 11 := by decide +kernel
  refine ⟨f, g, hf, hg, (usualB_spec h.1).1, (usualB_spec h'.1).1, (usualB_spec h.1).2, (usualB_spec h'.1).2, keysB_spec h.2.1, fun i hi => ?_, ?_⟩
  · rw [hlen] at hi
    have := congrArg (·[i]?) (h.2.2.2.trans h'.2.2.symm)
    simpa [hi] using this
  · rw [h.2.2.1, h'.2.1]; decide

end KS.Props
