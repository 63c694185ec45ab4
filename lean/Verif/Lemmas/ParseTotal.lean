import Verif.Lemmas.ParseGood
/-!
# The whole parser neither panics nor runs out of fuel, and what it returns is well-formed
-/

namespace KS.BTree
open Spec
variable {κ β : Type} {P : κ → Prop} {cmp : κ → κ → Ordering} {eq : κ → κ → Bool}

theorem insert_mem (k : κ) (v : β) : ∀ (L : List (κ × β)) (p), p ∈ insert cmp k v L →
    (p.2 = v ∧ (p.1 = k ∨ ∃ v', (p.1, v') ∈ L)) ∨ p ∈ L
  | [], p, h => by
    simp only [insert, List.mem_singleton] at h; subst h; exact .inl ⟨rfl, .inl rfl⟩
  | (k', v') :: r, p, h => by
    rw [insert] at h
    split at h
    · rcases List.mem_cons.mp h with rfl | h
      · exact .inl ⟨rfl, .inl rfl⟩
      · exact .inr h
    · rcases List.mem_cons.mp h with rfl | h
      · exact .inl ⟨rfl, .inr ⟨v', by simp⟩⟩
      · exact .inr (List.mem_cons_of_mem _ h)
    · rcases List.mem_cons.mp h with rfl | h
      · exact .inr (by simp)
      · rcases insert_mem k v r p h with ⟨h1, h2 | ⟨w, h2⟩⟩ | h1
        · exact .inl ⟨h1, .inl h2⟩
        · exact .inl ⟨h1, .inr ⟨w, List.mem_cons_of_mem _ h2⟩⟩
        · exact .inr (List.mem_cons_of_mem _ h1)

theorem insert_asc (h : Lawful P cmp eq) (k : κ) (v : β) (hk : P k) : ∀ L : List (κ × β), Keys P L → Ascending cmp L →
    Ascending cmp (insert cmp k v L)
  | [], _, _ => by simp [insert, Ascending]
  | (k', v') :: r, hP, hs => by
    have hk' : P k' := hP (k', v') (by simp)
    have hr : Keys P r := fun p hp => hP p (List.mem_cons_of_mem _ hp)
    obtain ⟨h1, h2⟩ := List.pairwise_cons.mp hs
    rw [insert]
    split
    · rename_i hc
      refine List.pairwise_cons.mpr ⟨?_, hs⟩
      intro p hp
      rcases List.mem_cons.mp hp with rfl | hp
      · exact hc
      · exact h.lt_le hk hk' (hr p hp) hc (by rw [h1 p hp]; decide)
    · exact List.pairwise_cons.mpr ⟨h1, h2⟩
    · rename_i hc
      refine List.pairwise_cons.mpr ⟨?_, insert_asc h k v hk r hr h2⟩
      intro p hp
      rcases insert_mem k v r p hp with ⟨_, h3 | ⟨w, h3⟩⟩ | h3
      · show cmp k' p.1 = .lt
        rw [h3, h.sw hc]; rfl
      · have h4 := h1 _ h3
        exact h4
      · exact h1 p h3

theorem fromIter_sub (l : List (κ × β)) (p : κ × β) (h : p ∈ fromIter cmp eq l) : p ∈ l := by
  have key : ∀ (l acc : List (κ × β)) (p : κ × β), p ∈ l.foldl (fun acc kv => sortInsert cmp kv.1 kv.2 acc) acc → p ∈ l ∨ p ∈ acc := by
    intro l
    induction l with
    | nil => intro acc p h; exact .inr h
    | cons q r ih =>
      intro acc p h
      rcases ih _ p h with h | h
      · exact .inl (List.mem_cons_of_mem _ h)
      · rcases (sortInsert_mem _ _ _ _).mp h with rfl | h
        · exact .inl (by simp)
        · exact .inr h
  rcases key l [] p (dedup_mem _ _ h) with h | h
  · exact h
  · cases h

end KS.BTree

namespace KS.PG
open KS.Spec

variable {α β γ : Type}

theorem allL_iff (P : Kserd → Prop) : ∀ l, AllL P l ↔ ∀ k ∈ l, All P k
  | [] => by simp [AllL]
  | k :: r => by simp only [AllL, allL_iff P r, List.forall_mem_cons]
theorem allF_iff (P : Kserd → Prop) : ∀ l, AllF P l ↔ ∀ p ∈ l, All P p.2
  | [] => by simp [AllF]
  | (n, k) :: r => by simp only [AllF, allF_iff P r, List.forall_mem_cons]
theorem allM_iff (P : Kserd → Prop) : ∀ l, AllM P l ↔ ∀ p ∈ l, All P p.1 ∧ All P p.2
  | [] => by simp [AllM]
  | (k, v) :: r => by simp only [AllM, allM_iff P r, List.forall_mem_cons, and_assoc]

mutual
theorem all_mono {P Q : Kserd → Prop} (h : ∀ k, P k → Q k) : ∀ k, All P k → All Q k
  | .mk i v, hk => ⟨h _ hk.1, allV_mono h v hk.2⟩
theorem allV_mono {P Q : Kserd → Prop} (h : ∀ k, P k → Q k) : ∀ v, AllV P v → AllV Q v
  | .unit, hv => trivial
  | .bool _, hv => trivial
  | .num _, hv => trivial
  | .str _, hv => trivial
  | .barr _, hv => trivial
  | .tuple l, hv => allL_mono h l hv
  | .cntr l, hv => allF_mono h l hv
  | .seq l, hv => allL_mono h l hv
  | .map l, hv => allM_mono h l hv
theorem allL_mono {P Q : Kserd → Prop} (h : ∀ k, P k → Q k) : ∀ l, AllL P l → AllL Q l
  | [], _ => trivial
  | k :: r, hl => ⟨all_mono h k hl.1, allL_mono h r hl.2⟩
theorem allF_mono {P Q : Kserd → Prop} (h : ∀ k, P k → Q k) : ∀ l, AllF P l → AllF Q l
  | [], _ => trivial
  | (_, k) :: r, hl => ⟨all_mono h k hl.1, allF_mono h r hl.2⟩
theorem allM_mono {P Q : Kserd → Prop} (h : ∀ k, P k → Q k) : ∀ l, AllM P l → AllM Q l
  | [], _ => trivial
  | (k, v) :: r, hl => ⟨all_mono h k hl.1, all_mono h v hl.2.1, allM_mono h r hl.2.2⟩
end

/-- Valid optional identity. -/
def IdOk (id : Option Str) : Prop := ∀ s, id = some s → ValidName s

theorem parsed_tuple {id : Option Str} (h : IdOk id) {l : List Kserd} (hl : ∀ k ∈ l, Parsed k) : Parsed (.mk id (.tuple l)) :=
  ⟨⟨h, fun n hn => (by cases hn), fun f hf => (by cases hf)⟩, (allL_iff _ l).mpr hl⟩
theorem parsed_seq {id : Option Str} (h : IdOk id) {l : List Kserd} (hl : ∀ k ∈ l, Parsed k) : Parsed (.mk id (.seq l)) :=
  ⟨⟨h, fun n hn => (by cases hn), fun f hf => (by cases hf)⟩, (allL_iff _ l).mpr hl⟩
theorem parsed_map {id : Option Str} (h : IdOk id) {l : KMap} (hl : ∀ p ∈ l, Parsed p.1 ∧ Parsed p.2) : Parsed (.mk id (.map l)) :=
  ⟨⟨h, fun n hn => (by cases hn), fun f hf => (by cases hf)⟩, (allM_iff _ l).mpr hl⟩

/-- Fields as parsed. -/
structure FieldsOk (l : Fields) : Prop where
  names : ∀ p ∈ l, ∀ c ∈ p.1, NameChar c
  vals : ∀ p ∈ l, Parsed p.2
  asc : Ascending cmpStr l

theorem parsed_cntr {id : Option Str} (h : IdOk id) {l : Fields} (hl : FieldsOk l) : Parsed (.mk id (.cntr l)) :=
  ⟨⟨h, fun n hn => (by cases hn), fun f hf => (by cases hf; exact ⟨hl.names, hl.asc⟩)⟩, (allF_iff _ l).mpr hl.vals⟩

theorem fieldsOk_insert {l : Fields} (h : FieldsOk l) {n : Str} {v : Kserd} (hn : ∀ c ∈ n, NameChar c) (hv : Parsed v) :
    FieldsOk (BTree.insert cmpStr n v l) where
  names := fun p hp => by
    rcases BTree.insert_mem n v l p hp with ⟨_, h2 | ⟨w, h2⟩⟩ | h2
    · rw [h2]; exact hn
    · have h3 := h.names _ h2
      exact h3
    · exact h.names _ h2
  vals := fun p hp => by
    rcases BTree.insert_mem n v l p hp with ⟨h1, _⟩ | h2
    · rw [h1]; exact hv
    · exact h.vals _ h2
  asc := BTree.insert_asc lawStr n v trivial l (fun _ _ => trivial) h.asc

theorem fieldsOk_fromIter {l : List (Str × Kserd)} (hl : ∀ p ∈ l, (∀ c ∈ p.1, NameChar c) ∧ Parsed p.2) :
    FieldsOk (BTree.fromIter cmpStr (fun a b => a == b) l) where
  names := fun p hp => (hl p (BTree.fromIter_sub l p hp)).1
  vals := fun p hp => (hl p (BTree.fromIter_sub l p hp)).2
  asc := (BTree.fromIter_spec lawStr l (fun _ _ => trivial)).2.2.2.1

theorem patternDelimited_res (i : Str) : Res i (fun r _ => r = i) (P.patternDelimited i) := by
  rw [P.patternDelimited]
  split
  · exact ⟨List.suffix_refl _, rfl⟩
  · have h1 := opt_res (ident_res true i)
    cases hp : Nom.opt (P.ident true) i with
    | err e => rw [hp] at h1; exact h1
    | fail e => rw [hp] at h1; exact h1
    | panic => rw [hp] at h1; exact h1
    | oof => rw [hp] at h1; exact h1
    | ok r a =>
      rw [PRes.bind]
      cases a with
      | some _ => exact ⟨List.suffix_refl _, rfl⟩
      | none =>
        dsimp only
        have h2 := opt_res (ident_res false i)
        cases hq : Nom.opt (P.ident false) i with
        | err e => rw [hq] at h2; exact h2
        | fail e => rw [hq] at h2; exact h2
        | panic => rw [hq] at h2; exact h2
        | oof => rw [hq] at h2; exact h2
        | ok r a =>
          rw [PRes.bind]
          cases a <;> exact ⟨List.suffix_refl _, rfl⟩

section Delimited

variable (k : Bool → Parser Kserd)

theorem comma_res (c : Char) (j : Str) : Res j (fun _ _ => True) (P.ignoreWs (Nom.char c) j) :=
  ignoreWs_res fun l _ => (char_res c l).imp fun _ _ _ _ => trivial

theorem inlineList_res (i : Str) (h : ∀ b j, j <:+ i → Res j (fun _ a => Parsed a) (k b j)) :
    Res i (fun _ l => ∀ a ∈ l, Parsed a) (P.inlineList k i) :=
  context_res (separatedList0_res (fun j _ => comma_res ',' j) fun j hj => ignoreWs_res fun l hl => h true l (hl.trans hj))

theorem conciseList_res (i : Str) (h : ∀ b j, j <:+ i → Res j (fun _ a => Parsed a) (k b j)) :
    Res i (fun _ l => ∀ a ∈ l, Parsed a) (P.conciseList k i) :=
  preceded_res (takeWhile_res _ i) fun r _ hr _ => cut_res (terminated_res
    (separatedList0_res (fun j _ => (takeWhile_res _ j).imp fun _ _ _ _ => trivial) fun j hj => h false j (hj.trans hr))
    fun r' a _ ha => (takeWhile_res _ r').imp fun _ _ _ _ => ha)

theorem kvpKserd_res (force : Bool) (i : Str) (h : ∀ b j, j <:+ i → Res j (fun _ a => Parsed a) (k b j)) :
    Res i (fun _ p => Parsed p.1 ∧ Parsed p.2) (P.kvpKserd k force i) := by
  refine context_res (sep_res ?_ (fun j _ => comma_res ':' j) fun j hj => ignoreWs_res fun l hl => h force l (hl.trans hj))
  apply alt_res
  intro p hp
  simp only [List.mem_cons, List.not_mem_nil, or_false] at hp
  rcases hp with rfl | rfl <;> exact h _ i (List.suffix_refl _)

theorem inlineMap_res (i : Str) (h : ∀ b j, j <:+ i → Res j (fun _ a => Parsed a) (k b j)) :
    Res i (fun _ l => ∀ p ∈ l, Parsed p.1 ∧ Parsed p.2) (P.inlineMap k i) :=
  context_res (separatedList0_res (fun j _ => comma_res ',' j) fun j hj => ignoreWs_res fun l hl =>
    kvpKserd_res k true l fun b m hm => h b m (hm.trans (hl.trans hj)))

theorem conciseMap_res (i : Str) (h : ∀ b j, j <:+ i → Res j (fun _ a => Parsed a) (k b j)) :
    Res i (fun _ l => ∀ p ∈ l, Parsed p.1 ∧ Parsed p.2) (P.conciseMap k i) :=
  context_res (preceded_res (takeWhile_res _ i) fun r _ hr _ => terminated_res
    (separatedList0_res (fun j _ => (takeWhile_res _ j).imp fun _ _ _ _ => trivial) fun j hj =>
      kvpKserd_res k false j fun b m hm => h b m (hm.trans (hj.trans hr)))
    fun r' a _ ha => (takeWhile_res _ r').imp fun _ _ _ _ => ha)

theorem kvpField_res (force : Bool) (i : Str) (h : ∀ b j, j <:+ i → Res j (fun _ a => Parsed a) (k b j)) :
    Res i (fun _ p => (∀ c ∈ p.1, NameChar c) ∧ Parsed p.2) (P.kvpField k force i) :=
  context_res (sep_res (Q := fun (s : Str) => ∀ c ∈ s, NameChar c) (fieldName_res i) (fun j _ => comma_res '=' j) fun j hj =>
    ignoreWs_res fun l hl => cut_res (h force l (hl.trans hj)))

theorem inlineCntr_res (i : Str) (h : ∀ b j, j <:+ i → Res j (fun _ a => Parsed a) (k b j)) :
    Res i (fun _ l => ∀ p ∈ l, (∀ c ∈ p.1, NameChar c) ∧ Parsed p.2) (P.inlineCntr k i) :=
  context_res (separatedList0_res (fun j _ => comma_res ',' j) fun j hj => ignoreWs_res fun l hl =>
    kvpField_res k true l fun b m hm => h b m (hm.trans (hl.trans hj)))

theorem conciseCntr_res (i : Str) (h : ∀ b j, j <:+ i → Res j (fun _ a => Parsed a) (k b j)) :
    Res i (fun _ l => ∀ p ∈ l, (∀ c ∈ p.1, NameChar c) ∧ Parsed p.2) (P.conciseCntr k i) :=
  context_res (preceded_res (takeWhile_res _ i) fun r _ hr _ => cut_res (terminated_res
    (separatedList0_res (fun j _ => (takeWhile_res _ j).imp fun _ _ _ _ => trivial) fun j hj =>
      kvpField_res k false j fun b m hm => h b m (hm.trans (hj.trans hr)))
    fun r' a _ ha => (takeWhile_res _ r').imp fun _ _ _ _ => ha))

theorem opened_res {force : Bool} {o : Char} {body : Bool → Option Str → Parser α} {Q : α → Prop} {i : Str}
    (h : ∀ c id j, j <:+ i → j.length < i.length → IdOk id → Res j (fun _ a => Q a) (body c id j)) :
    Res i (fun _ a => Q a) (P.opened force o body i) := by
  refine (opt_res (ident_res false i)).bind fun r id hr hid => ?_
  have hio : IdOk id := by
    rcases hid with ⟨rfl, _⟩ | ⟨x, rfl, hx⟩ <;> intro s hs <;> cases hs; exact hx
  have hc : Res r (fun r' _ => r'.length < i.length) (P.ignoreWs (Nom.char o) r) :=
    ignoreWs_res fun l hl => (char_res o l).imp fun r' _ _ h' => by
      have := suffix_len hl; have := suffix_len hr; omega
  exact hc.bind fun j _ hj hlt => h _ _ j (hj.trans hr) hlt hio

theorem close_res {α : Type} {p : Parser α} {c : Char} {i : Str} {Q : α → Prop} (h : Res i (fun _ a => Q a) (p i)) :
    Res i (fun _ a => Q a) (Nom.terminated p (P.ignoreWs (Nom.char c)) i) :=
  terminated_res h fun r' _ _ ha => (comma_res c r').imp fun _ _ _ _ => ha

theorem tuple_res (force : Bool) (i : Str) (h : ∀ b j, j <:+ i → j.length < i.length → Res j (fun _ a => Parsed a) (k b j)) :
    Res i (fun _ a => Parsed a) (P.tuple k force i) := by
  refine opened_res fun c id j hj hlt hid => ?_
  have hk : ∀ b l, l <:+ j → Res l (fun _ a => Parsed a) (k b l) := fun b l hl =>
    h b l (hl.trans hj) (by have := suffix_len hl; omega)
  refine (context_res (cut_res (close_res (Q := fun l => ∀ a ∈ l, Parsed a) ?_))).bind fun r l _ hl => kserdCtor_res _ _ _ hid (parsed_tuple hid hl)
  cases c
  · exact inlineList_res k j hk
  · exact conciseList_res k j hk

theorem seq_res (force : Bool) (i : Str) (h : ∀ b j, j <:+ i → j.length < i.length → Res j (fun _ a => Parsed a) (k b j)) :
    Res i (fun _ a => Parsed a) (P.seqDelimited k force i) := by
  refine opened_res fun c id j hj hlt hid => ?_
  have hk : ∀ b l, l <:+ j → Res l (fun _ a => Parsed a) (k b l) := fun b l hl =>
    h b l (hl.trans hj) (by have := suffix_len hl; omega)
  refine (context_res (cut_res (close_res (Q := fun l => ∀ a ∈ l, Parsed a) ?_))).bind fun r l _ hl => kserdCtor_res _ _ _ hid (parsed_seq hid hl)
  cases c
  · exact inlineList_res k j hk
  · exact conciseList_res k j hk

theorem map_del_res (force : Bool) (i : Str) (h : ∀ b j, j <:+ i → j.length < i.length → Res j (fun _ a => Parsed a) (k b j)) :
    Res i (fun _ a => Parsed a) (P.mapDelimited k force i) := by
  refine opened_res fun c id j hj hlt hid => ?_
  have hk : ∀ b l, l <:+ j → Res l (fun _ a => Parsed a) (k b l) := fun b l hl =>
    h b l (hl.trans hj) (by have := suffix_len hl; omega)
  refine (context_res (close_res (Q := fun l => ∀ p ∈ l, Parsed p.1 ∧ Parsed p.2) ?_)).bind fun r l _ hl =>
    kserdCtor_res _ _ _ hid (parsed_map hid fun p hp => hl p (BTree.fromIter_sub l p hp))
  cases c
  · exact inlineMap_res k j hk
  · exact conciseMap_res k j hk

theorem cntr_res (force : Bool) (i : Str) (h : ∀ b j, j <:+ i → j.length < i.length → Res j (fun _ a => Parsed a) (k b j)) :
    Res i (fun _ a => Parsed a) (P.cntrDelimited k force i) := by
  refine opened_res fun c id j hj hlt hid => ?_
  have hk : ∀ b l, l <:+ j → Res l (fun _ a => Parsed a) (k b l) := fun b l hl =>
    h b l (hl.trans hj) (by have := suffix_len hl; omega)
  refine (context_res (close_res (Q := fun l => ∀ p ∈ l, (∀ c ∈ p.1, NameChar c) ∧ Parsed p.2) ?_)).bind fun r l _ hl =>
    kserdCtor_res _ _ _ hid (parsed_cntr hid (fieldsOk_fromIter hl))
  cases c
  · exact inlineCntr_res k j hk
  · exact conciseCntr_res k j hk

end Delimited

theorem delimited_res : ∀ (f : Nat) (force : Bool) (i : Str), i.length < f →
    Res i (fun _ a => Parsed a) (P.kserdDelimited f force i)
  | 0, _, _, h => by omega
  | f + 1, force, i, h => by
    rw [P.kserdDelimited]
    refine (patternDelimited_res i).bind ?_
    rintro r pat _ rfl
    have hk : ∀ b (j : Str), j <:+ r → j.length < r.length → Res j (fun _ a => Parsed a) (P.kserdDelimited f b j) :=
      fun b j _ hl => delimited_res f b j (by omega)
    cases pat
    · exact tuple_res _ force r hk
    · exact cntr_res _ force r hk
    · exact seq_res _ force r hk
    · exact map_del_res _ force r hk
    · exact prim_res r

theorem inline_res (i : Str) : Res i (fun _ a => Parsed a) (P.kserdInline i) := delimited_res _ _ _ (by omega)
theorem concise_res (i : Str) : Res i (fun _ a => Parsed a) (P.kserdConcise i) := delimited_res _ _ _ (by omega)

/-! ## Verbose form -/

/-- A well-formed field. -/
def CFieldOk : P.CField → Prop
  | .id i => ValidName i
  | .direct n v => (∀ c ∈ n, NameChar c) ∧ Parsed v
  | .nested n v => (∀ c ∈ n, NameChar c) ∧ Parsed v
  | .seqEntry id n v => IdOk id ∧ (∀ c ∈ n, NameChar c) ∧ Parsed v
  | .mapEntry id n key v => IdOk id ∧ (∀ c ∈ n, NameChar c) ∧ Parsed key ∧ Parsed v

theorem expectIndents_res : ∀ (n : Nat) (i : Str), Res i (fun _ _ => True) (P.expectIndents n i)
  | 0, _ => ⟨List.suffix_refl _, trivial⟩
  | n + 1, i => by
    rw [P.expectIndents]
    refine Res.bind (Q := fun _ _ => True) (alt_res _ ?_) fun r _ _ _ => expectIndents_res n r
    intro p hp
    simp only [List.mem_cons, List.not_mem_nil, or_false] at hp
    rcases hp with rfl | rfl <;> exact (tag_res _ i).imp fun _ _ _ _ => trivial

theorem wsLineEnding_res (i : Str) : Res i (fun r _ => r.length < i.length) (P.ignoreWs Nom.lineEnding i) :=
  ignoreWs_res fun l hl => (lineEnding_res l).imp fun r _ _ h => by have := suffix_len hl; omega

theorem skipBlank_res : ∀ (n : Nat) (i : Str), i.length < n → Res i (fun _ _ => True) (P.skipBlank n i)
  | 0, _, h => by omega
  | n + 1, i, h => by
    rw [P.skipBlank]
    have h1 := opt_res (wsLineEnding_res i)
    cases hp : Nom.opt (P.ignoreWs Nom.lineEnding) i with
    | err e => rw [hp] at h1; exact h1
    | fail e => rw [hp] at h1; exact h1
    | panic => rw [hp] at h1; exact h1
    | oof => rw [hp] at h1; exact h1
    | ok r a =>
      rw [hp] at h1
      rw [PRes.bind]
      cases a with
      | none => exact ⟨List.suffix_refl _, trivial⟩
      | some s =>
        rw [if_pos (show (some s).isSome = true from rfl)]
        obtain ⟨hs, ⟨h2, _⟩ | ⟨_, _, h2⟩⟩ := h1
        · cases h2
        · exact (skipBlank_res n r (by omega)).mono hs

theorem nameAndIdentity_res (i : Str) :
    Res i (fun _ p => (∀ c ∈ p.1, NameChar c) ∧ IdOk p.2) (P.nameAndIdentity i) := by
  refine context_res ((ignoreWs_res fun l _ => fieldName_res l).bind fun r n _ hn => ?_)
  have hnone : IdOk none := fun s hs => by cases hs
  have h1 := comma_res ':' r
  cases hp : P.ignoreWs (Nom.char ':') r with
  | err e => exact ⟨List.suffix_refl _, hn, hnone⟩
  | fail e => exact ⟨List.suffix_refl _, hn, hnone⟩
  | panic => rw [hp] at h1; exact h1
  | oof => rw [hp] at h1; exact h1
  | ok r' a =>
    rw [hp] at h1
    refine ((ignoreWs_res (Q := fun _ s => ValidName s) fun l _ => ident_res false l).bind fun r2 id _ hid => ?_).mono h1.1
    exact ⟨List.suffix_refl _, hn, fun s hs => by cases hs; exact hid⟩

/-- A nested parser that is fine on every shorter suffix. -/
def NestOk (nested : Parser Kserd) (i : Str) : Prop := ∀ j, j <:+ i → j.length < i.length → Res j (fun _ a => Parsed a) (nested j)

theorem mapEntryValue_res {nested : Parser Kserd} (i : Str) (h : NestOk nested i) :
    Res i (fun _ a => Parsed a) (P.mapEntryValue nested i) := by
  refine context_res (alt_res _ ?_)
  intro p hp
  simp only [List.mem_cons, List.not_mem_nil, or_false] at hp
  rcases hp with rfl | rfl
  · exact ignoreWs_res fun l _ => concise_res l
  · exact preceded_res (wsLineEnding_res i) fun r _ hr hl => h r hr hl

theorem entryField_res {nested : Parser Kserd} (i : Str) (h : NestOk nested i) :
    Res i (fun _ f => CFieldOk f) (P.entryField nested i) := by
  rw [P.entryField]
  have h0 : Res i (fun r p => r.length < i.length ∧ (∀ c ∈ p.1, NameChar c) ∧ IdOk p.2)
      (Nom.context "field name. expecting 'field_name[:identity]'"
        (Nom.cut (Nom.preceded (Nom.tag (str "[[")) (Nom.terminated P.nameAndIdentity (P.ignoreWs (Nom.tag (str "]]")))))) i) := by
    refine context_res (cut_res (preceded_res (tag_res _ i) fun r _ _ hr => terminated_res (nameAndIdentity_res r) fun r2 a h2 ha =>
      ignoreWs_res fun l hl => (tag_res _ l).imp fun r3 _ h3 _ => ⟨?_, ha⟩))
    have := suffix_len h2; have := suffix_len hl; have := suffix_len h3
    have e : i.length = 2 + r.length := by rw [hr]; simp [str]; omega
    omega
  refine h0.bind fun r ni hr ⟨hlt, hn, hid⟩ => ?_
  refine (wsLineEnding_res r).bind fun r1 _ hr1 _ => ?_
  have hkey : Res r1 (fun _ o => ∀ k, o = some k → Parsed k)
      (Nom.opt (Nom.terminated (P.ignoreWs (P.uncut P.kserdInline)) (P.ignoreWs (Nom.char ':'))) r1) := by
    refine (opt_res (close_res (Q := Parsed) (ignoreWs_res fun l _ => uncut_res (inline_res l)))).imp ?_
    rintro _ a _ (⟨rfl, _⟩ | ⟨x, rfl, hx⟩) k hk
    · cases hk
    · cases hk; exact hx
  refine hkey.bind fun r2 key hr2 hkey => ?_
  have hno : NestOk nested r2 := fun j hj hl =>
    h j (hj.trans (hr2.trans (hr1.trans hr))) (by have := suffix_len hr2; have := suffix_len hr1; omega)
  cases key with
  | some key => exact (mapEntryValue_res r2 hno).bind fun r3 v _ hv => ⟨List.suffix_refl _, hid, hn, hkey key rfl, hv⟩
  | none =>
    refine Res.bind (Q := fun _ a => Parsed a) (context_res ?_) fun r3 v _ hv => ⟨List.suffix_refl _, hid, hn, hv⟩
    exact h r2 (hr2.trans (hr1.trans hr)) (by have := suffix_len hr2; have := suffix_len hr1; omega)

theorem parsed_reid {v : Kserd} (hv : Parsed v) {id : Option Str} (hid : IdOk id) : Parsed (.mk (v.id.or id) v.val) := by
  obtain ⟨vi, vv⟩ := v
  cases vi with
  | some s => exact hv
  | none =>
    obtain ⟨⟨_, h2, h3⟩, h4⟩ := hv
    exact ⟨⟨hid, h2, h3⟩, h4⟩

theorem nestedField_res {nested : Parser Kserd} (i : Str) (h : NestOk nested i) :
    Res i (fun _ f => CFieldOk f) (P.nestedField nested i) := by
  rw [P.nestedField]
  have h0 : Res i (fun r p => r.length < i.length ∧ (∀ c ∈ p.1, NameChar c) ∧ IdOk p.2)
        (Nom.preceded (Nom.tag ['[']) (Nom.terminated P.nameAndIdentity (P.ignoreWs (Nom.tag [']']))) i) := by
    refine preceded_res (tag_res _ i) fun r _ _ hr => terminated_res (nameAndIdentity_res r) fun r2 a h2 ha =>
      ignoreWs_res fun l hl => (tag_res _ l).imp fun r3 _ h3 _ => ⟨?_, ha⟩
    have := suffix_len h2; have := suffix_len hl; have := suffix_len h3
    have e : i.length = 1 + r.length := by rw [hr]; simp; omega
    omega
  refine h0.bind fun r ni hr ⟨hlt, hn, hid⟩ => ?_
  refine (wsLineEnding_res r).bind fun r1 _ hr1 _ => ?_
  refine Res.bind (Q := fun _ a => Parsed a) (context_res ?_) fun r3 v _ hv => ⟨List.suffix_refl _, hn, parsed_reid hv hid⟩
  exact h r1 (hr1.trans hr) (by have := suffix_len hr1; omega)

theorem fieldBody_res {nested : Parser Kserd} (i : Str) (h : NestOk nested i) :
    Res i (fun _ f => CFieldOk f) (P.fieldBody nested i) := by
  unfold P.fieldBody
  split
  · exact single _ _
  · split
    · refine Res.mono ?_ (List.suffix_cons _ _)
      refine (ignoreWs_res (Q := fun _ s => ValidName s) fun l _ => ident_res false l).bind fun r id _ hid => ?_
      exact ⟨List.suffix_refl _, hid⟩
    · exact entryField_res _ h
    · exact nestedField_res _ h
    · refine Res.bind (Q := fun _ p => (∀ c ∈ p.1, NameChar c) ∧ Parsed p.2) (cut_res (kvpField_res _ false _ ?_))
        fun r p _ hp => (show _ ∧ _ from ⟨List.suffix_refl _, hp.1, hp.2⟩)
      intro b j _
      cases b
      · exact concise_res j
      · exact inline_res j

theorem verboseField_res {nested : Parser Kserd} (n : Nat) (i : Str) (h : NestOk nested i) :
    Res i (fun _ f => CFieldOk f) (P.verboseField nested n i) := by
  rw [P.verboseField]
  refine Res.bind (Q := fun _ _ => True) (skipBlank_res _ i (by omega)) fun r _ hr _ => ?_
  refine (expectIndents_res n r).bind fun r1 _ hr1 _ => ?_
  refine (takeWhile_res _ r1).bind fun r2 _ hr2 _ => fieldBody_res r2 fun j hj hl => ?_
  have hs : r2 <:+ i := hr2.trans (hr1.trans hr)
  exact h j (hj.trans hs) (by have := suffix_len hs; omega)

/-- The accumulator. -/
structure AccOk (a : P.CAcc) : Prop where
  fields : FieldsOk a.rfields
  seqs : ∀ p ∈ a.seqs, (∀ c ∈ p.1, NameChar c) ∧ IdOk p.2.1 ∧ ∀ k ∈ p.2.2, Parsed k
  maps : ∀ p ∈ a.maps, (∀ c ∈ p.1, NameChar c) ∧ IdOk p.2.1 ∧ ∀ q ∈ p.2.2, Parsed q.1 ∧ Parsed q.2
  id : IdOk a.identity

theorem get_mem {κ β : Type} (cmp : κ → κ → Ordering) (k : κ) (v : β) : ∀ L : List (κ × β), BTree.get cmp k L = some v →
    ∃ k', (k', v) ∈ L
  | [], h => by simp [BTree.get] at h
  | (k', v') :: r, h => by
    rw [BTree.get] at h
    split at h
    · cases h
    · cases h; exact ⟨k', by simp⟩
    · obtain ⟨k2, h2⟩ := get_mem cmp k v r h
      exact ⟨k2, List.mem_cons_of_mem _ h2⟩

theorem idOk_or {a b : Option Str} (ha : IdOk a) (hb : IdOk b) : IdOk (a.or b) := by
  cases a with
  | some _ => exact ha
  | none => exact hb

theorem acc_step {a : P.CAcc} (h : AccOk a) (f : P.CField) (hf : CFieldOk f) : AccOk (a.step f) := by
  cases f with
  | id i => exact ⟨h.fields, h.seqs, h.maps, fun s hs => by cases hs; exact hf⟩
  | direct n v => exact ⟨fieldsOk_insert h.fields hf.1 hf.2, h.seqs, h.maps, h.id⟩
  | nested n v => exact ⟨fieldsOk_insert h.fields hf.1 hf.2, h.seqs, h.maps, h.id⟩
  | seqEntry id n v =>
    obtain ⟨hid, hn, hv⟩ := hf
    have hg : IdOk ((BTree.get cmpStr n a.seqs).getD (none, [])).1 ∧ ∀ k ∈ ((BTree.get cmpStr n a.seqs).getD (none, [])).2, Parsed k := by
      cases hg : BTree.get cmpStr n a.seqs with
      | none => exact ⟨fun s hs => (by cases hs), by simp⟩
      | some x =>
        obtain ⟨k', hk'⟩ := get_mem _ _ _ _ hg
        exact (h.seqs _ hk').2
    refine ⟨h.fields, ?_, h.maps, h.id⟩
    intro p hp
    rcases BTree.insert_mem _ _ _ p hp with ⟨h1, h2⟩ | h2
    · refine ⟨?_, ?_⟩
      · rcases h2 with h2 | ⟨w, h2⟩
        · rw [h2]; exact hn
        · exact (h.seqs _ h2).1
      · rw [h1]
        refine ⟨idOk_or hid hg.1, ?_⟩
        intro k hk
        rcases List.mem_append.mp hk with hk | hk
        · exact hg.2 k hk
        · simp at hk; subst hk; exact hv
    · exact h.seqs p h2
  | mapEntry id n key v =>
    obtain ⟨hid, hn, hk, hv⟩ := hf
    have hg : IdOk ((BTree.get cmpStr n a.maps).getD (none, [])).1 ∧
        ∀ q ∈ ((BTree.get cmpStr n a.maps).getD (none, [])).2, Parsed q.1 ∧ Parsed q.2 := by
      cases hg : BTree.get cmpStr n a.maps with
      | none => exact ⟨fun s hs => (by cases hs), by simp⟩
      | some x =>
        obtain ⟨k', hk'⟩ := get_mem _ _ _ _ hg
        exact (h.maps _ hk').2
    refine ⟨h.fields, h.seqs, ?_, h.id⟩
    intro p hp
    rcases BTree.insert_mem _ _ _ p hp with ⟨h1, h2⟩ | h2
    · refine ⟨?_, ?_⟩
      · rcases h2 with h2 | ⟨w, h2⟩
        · rw [h2]; exact hn
        · exact (h.maps _ h2).1
      · rw [h1]
        refine ⟨idOk_or hid hg.1, ?_⟩
        intro q hq
        rcases BTree.insert_mem _ _ _ q hq with ⟨h3, h4 | ⟨w, h4⟩⟩ | h4
        · rw [h3, h4]; exact ⟨hk, hv⟩
        · rw [h3]; exact ⟨(hg.2 _ h4).1, hv⟩
        · exact hg.2 q h4
    · exact h.maps p h2

theorem acc_fold : ∀ (l : List P.CField) (a : P.CAcc), AccOk a → (∀ f ∈ l, CFieldOk f) → AccOk (l.foldl P.CAcc.step a)
  | [], _, h, _ => h
  | f :: r, a, h, hl => acc_fold r _ (acc_step h f (hl f (by simp))) fun g hg => hl g (List.mem_cons_of_mem _ hg)

theorem fold_fields {β : Type} (g : Str × β → Kserd) : ∀ (l : List (Str × β)) (r : Fields), FieldsOk r →
    (∀ p ∈ l, (∀ c ∈ p.1, NameChar c) ∧ Parsed (g p)) →
    FieldsOk (l.foldl (fun r p => BTree.insert cmpStr p.1 (g p) r) r)
  | [], _, h, _ => h
  | p :: l, r, h, hl => fold_fields g l _ (fieldsOk_insert h (hl p (by simp)).1 (hl p (by simp)).2)
      fun q hq => hl q (List.mem_cons_of_mem _ hq)

theorem acc_finish {a : P.CAcc} (h : AccOk a) : Parsed a.finish := by
  refine parsed_cntr h.id ?_
  refine fold_fields (fun p : Str × (Option Str × KMap) => Kserd.mk p.2.1 (.map p.2.2)) _ _ (fold_fields (fun p : Str × (Option Str × List Kserd) => Kserd.mk p.2.1 (.seq p.2.2)) _ _ h.fields ?_) ?_
  · exact fun p hp => ⟨(h.seqs p hp).1, parsed_seq (h.seqs p hp).2.1 (h.seqs p hp).2.2⟩
  · exact fun p hp => ⟨(h.maps p hp).1, parsed_map (h.maps p hp).2.1 (h.maps p hp).2.2⟩

theorem acc_empty : AccOk {} where
  fields := ⟨by simp, by simp, by simp [Ascending]⟩
  seqs := by simp
  maps := by simp
  id := fun s hs => by cases hs

theorem nested_res : ∀ (f n : Nat) (i : Str), i.length < f → Res i (fun _ a => Parsed a) (P.kserdNested f n i)
  | 0, _, _, h => by omega
  | f + 1, n, i, h => by
    rw [P.kserdNested]
    split
    · rw [P.verbose]
      refine (many0_res (Q := CFieldOk) fun j hj => verboseField_res n j fun l _ hl => ?_).bind fun r fields _ hf =>
        ⟨List.suffix_refl _, acc_finish (acc_fold _ _ acc_empty hf)⟩
      exact nested_res f (n + 1) l (by have := suffix_len hj; omega)
    · exact ignoreWs_res fun l _ => concise_res l

theorem root_res (i : Str) : Res i (fun r a => r = [] ∧ Parsed a) (P.kserdRoot i) := by
  rw [P.kserdRoot]
  split
  · refine ⟨by simp, ?_⟩
    intro x hx
    simp only [List.mem_cons, List.not_mem_nil, or_false] at hx
    rcases hx with rfl | rfl <;> exact List.suffix_refl _
  · have h : Res i (fun _ a => Parsed a) (Nom.terminated (P.kserdNested (i.length + 1) 0) P.multiWs i) :=
      terminated_res (nested_res _ _ i (by omega)) fun r a _ ha => (takeWhile_res _ r).imp fun _ _ _ _ => ha
    refine h.bind fun r a _ ha => ?_
    split
    · rename_i he; exact ⟨List.suffix_refl _, List.isEmpty_iff.mp he, ha⟩
    · exact single _ _

end KS.PG
