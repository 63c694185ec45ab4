import Verif.Spec.Encoded
import Verif.Lemmas.ParseTotal
import Verif.Lemmas.KserdOrd
import Verif.Lemmas.Encode
/-!
# Encoded Kserds are well formed
-/
namespace KS.EN
open Spec

/-- The condition at one node. -/
def node (N : Number → Prop) (x : Kserd) : Prop :=
  (∀ i, x.id = some i → ¬ badName i) ∧ match x.val with
    | .num n => N n
    | .cntr f => Ascending cmpStr f
    | .map m => (∀ p ∈ m, AllNums lawful p.1) → Ascending Kserd.cmp m
    | _ => True

theorem lawCmp : BTree.Lawful (AllNums lawful) Kserd.cmp (fun a b => decide (Kserd.cmp a b = .eq)) where
  swap := KS.cmp_swap
  tr := fun a b c ha hb hc => KS.cmp_tr a b c ha hb hc
  eq := fun a b _ _ => by simp

theorem insert_keys {κ β : Type} {cmp : κ → κ → Ordering} (k : κ) (v : β) : ∀ L : List (κ × β),
    ((BTree.insert cmp k v L).map Prod.fst = L.map Prod.fst) ∨ (k ∈ (BTree.insert cmp k v L).map Prod.fst)
  | [] => Or.inr (by simp [BTree.insert])
  | (k', v') :: r => by
    rw [BTree.insert]
    split
    · exact Or.inr (by simp)
    · exact Or.inl (by simp)
    · rcases insert_keys (cmp := cmp) k v r with h | h
      · exact Or.inl (by simp [h])
      · exact Or.inr (by simp only [List.map_cons, List.mem_cons]; exact Or.inr h)

theorem keys_insert {κ β : Type} {cmp : κ → κ → Ordering} (k : κ) (v : β) : ∀ (L : List (κ × β)) (x : κ), x ∈ L.map Prod.fst →
    x ∈ (BTree.insert cmp k v L).map Prod.fst
  | (k', v') :: r, x, h => by
    rw [BTree.insert]
    simp only [List.map_cons, List.mem_cons] at h
    split
    · simp only [List.map_cons, List.mem_cons]; exact Or.inr h
    · simp only [List.map_cons, List.mem_cons]; exact h
    · simp only [List.map_cons, List.mem_cons]; exact h.imp id (keys_insert k v r x)

theorem asc_keys {κ β : Type} {cmp : κ → κ → Ordering} {l m : List (κ × β)} (h : l.map Prod.fst = m.map Prod.fst)
    (hl : Ascending cmp l) : Ascending cmp m := by
  have : (l.map Prod.fst).Pairwise (fun a b => cmp a b = .lt) := List.pairwise_map.mpr hl
  rw [h] at this
  exact List.pairwise_map.mp this

/-- What holds of a map under construction. -/
def Inv (N : Number → Prop) (m : KMap) : Prop :=
  (∀ p ∈ m, All (node N) p.1 ∧ All (node N) p.2) ∧ ((∀ p ∈ m, AllNums lawful p.1) → Ascending Kserd.cmp m)

theorem inv_insert {N : Number → Prop} {k v : Kserd} {m : KMap} (hm : Inv N m) (hk : All (node N) k) (hv : All (node N) v) :
    Inv N (BTree.insert Kserd.cmp k v m) := by
  refine ⟨?_, ?_⟩
  · intro p hp
    rcases BTree.insert_mem k v m p hp with ⟨h1, h2 | ⟨w, h2⟩⟩ | h1
    · rw [h1, h2]; exact ⟨hk, hv⟩
    · rw [h1]; exact ⟨(hm.1 _ h2).1, hv⟩
    · exact hm.1 p h1
  · intro h
    have hkeys : ∀ x ∈ (BTree.insert Kserd.cmp k v m).map Prod.fst, AllNums lawful x := by
      intro x hx
      obtain ⟨p, hp, rfl⟩ := List.mem_map.mp hx
      exact h p hp
    have hml : ∀ p ∈ m, AllNums lawful p.1 := fun p hp => hkeys _ (keys_insert k v m _ (List.mem_map_of_mem hp))
    rcases insert_keys (cmp := Kserd.cmp) k v m with he | he
    · exact asc_keys he.symm (hm.2 hml)
    · exact BTree.insert_asc lawCmp k v (hkeys k he) m hml (hm.2 hml)

theorem node_ok {N : Number → Prop} {i : Option Str} {v : Value} (hi : ∀ j, i = some j → ¬ badName j) (hv : AllV (node N) v)
    (h : match (Kserd.mk i v).val with
      | .num n => N n
      | .cntr f => Ascending cmpStr f
      | .map m => (∀ p ∈ m, AllNums lawful p.1) → Ascending Kserd.cmp m
      | _ => True) : All (node N) (.mk i v) := ⟨⟨hi, h⟩, hv⟩

theorem withId_spec {n : Str} {v : Value} {k : Kserd} (h : encId n v = .ok k) : k = .mk (some n) v ∧ ¬ badName n := by
  unfold encId at h
  unfold Kserd.withId at h
  split at h
  · rename_i k' hk
    split at hk
    · cases hk
    · rename_i hn
      cases hk; cases h
      refine ⟨rfl, ?_⟩
      rintro ⟨c, hc, hb⟩
      exact hn (List.any_eq_true.mpr ⟨c, hc, List.contains_iff_mem.mpr hb⟩)
  · cases h

theorem ident_ok (t : IntTy) : ¬ badName t.identity := by cases t <;> decide

mutual
theorem encode_node (N : Number → Prop) : ∀ (s : Ser) (k : Kserd), s.encode = .ok k → SerAll (numHere N) s → All (node N) k
  | .bool b, k, h, hs => by
    simp only [Ser.encode, Except.ok.injEq] at h; subst h
    exact node_ok (by intro j hj; cases hj; decide) trivial trivial
  | .int t v, k, h, hs => by
    simp only [Ser.encode, Except.ok.injEq] at h; subst h
    exact node_ok (by intro j hj; cases hj; exact ident_ok t) trivial hs
  | .f32 x, k, h, hs => by
    simp only [Ser.encode, Except.ok.injEq] at h; subst h
    exact node_ok (by intro j hj; cases hj; decide) trivial hs
  | .f64 x, k, h, hs => by
    simp only [Ser.encode, Except.ok.injEq] at h; subst h
    exact node_ok (by intro j hj; cases hj; decide) trivial hs
  | .char x, k, h, hs => by
    simp only [Ser.encode, Except.ok.injEq] at h; subst h
    exact node_ok (by intro j hj; cases hj; decide) trivial trivial
  | .str x, k, h, hs => by
    simp only [Ser.encode, Except.ok.injEq] at h; subst h
    exact node_ok (by intro j hj; cases hj; decide) trivial trivial
  | .bytes x, k, h, hs => by
    simp only [Ser.encode, Except.ok.injEq] at h; subst h
    exact node_ok (by intro j hj; cases hj; decide) trivial trivial
  | .none, k, h, hs => by
    simp only [Ser.encode, Except.ok.injEq] at h; subst h
    exact node_ok (by intro j hj; cases hj; decide) trivial trivial
  | .some v, k, h, hs => by
    simp only [Ser.encode] at h
    split at h
    · cases h
    · rename_i k' hk'
      cases h
      exact node_ok (by intro j hj; cases hj; decide) ⟨encode_node N v k' hk' hs.2, trivial⟩ trivial
  | .unit, k, h, hs => by
    simp only [Ser.encode, Except.ok.injEq] at h; subst h
    exact node_ok (by intro j hj; cases hj) trivial trivial
  | .unitStruct n, k, h, hs => by
    simp only [Ser.encode] at h
    obtain ⟨rfl, hn⟩ := withId_spec h
    exact node_ok (by intro j hj; cases hj; exact hn) trivial trivial
  | .unitVariant n, k, h, hs => by
    simp only [Ser.encode] at h
    obtain ⟨rfl, hn⟩ := withId_spec h
    exact node_ok (by intro j hj; cases hj; exact hn) trivial trivial
  | .newtypeStruct n v, k, h, hs => by
    simp only [Ser.encode] at h
    split at h
    · cases h
    · rename_i k' hk'
      obtain ⟨rfl, hn⟩ := withId_spec h
      exact node_ok (by intro j hj; cases hj; exact hn) ⟨encode_node N v k' hk' hs.2, trivial⟩ trivial
  | .newtypeVariant n v, k, h, hs => by
    simp only [Ser.encode] at h
    split at h
    · cases h
    · rename_i k' hk'
      obtain ⟨rfl, hn⟩ := withId_spec h
      exact node_ok (by intro j hj; cases hj; exact hn) ⟨encode_node N v k' hk' hs.2, trivial⟩ trivial
  | .seq l, k, h, hs => by
    simp only [Ser.encode] at h
    split at h
    · cases h
    · rename_i ks hk
      cases h
      exact node_ok (by intro j hj; cases hj) (encodeL_node N l ks hk hs.2) trivial
  | .tuple l, k, h, hs => by
    simp only [Ser.encode] at h
    split at h
    · cases h
    · rename_i ks hk
      cases h
      exact node_ok (by intro j hj; cases hj) (encodeL_node N l ks hk hs.2) trivial
  | .tupleStruct n l, k, h, hs => by
    simp only [Ser.encode] at h
    split at h
    · cases h
    · rename_i hn
      split at h
      · cases h
      · rename_i ks hk
        cases h
        exact node_ok (by intro j hj; cases hj; exact (withId_spec hn).2) (encodeL_node N l ks hk hs.2) trivial
  | .tupleVariant n l, k, h, hs => by
    simp only [Ser.encode] at h
    split at h
    · cases h
    · rename_i hn
      split at h
      · cases h
      · rename_i ks hk
        cases h
        exact node_ok (by intro j hj; cases hj; exact (withId_spec hn).2) (encodeL_node N l ks hk hs.2) trivial
  | .map ops, k, h, hs => by
    simp only [Ser.encode] at h
    split at h
    · cases h
    · rename_i m hm
      cases h
      have := encodeOps_node N ops Option.none [] m hm hs.2 (by simp) ⟨by simp, fun _ => List.Pairwise.nil⟩
      exact node_ok (by intro j hj; cases hj) ((PG.allM_iff _ _).mpr this.1) this.2
  | .struct n fs, k, h, hs => by
    simp only [Ser.encode] at h
    split at h
    · cases h
    · rename_i hn
      split at h
      · cases h
      · rename_i m hm
        cases h
        have := encodeF_node N fs [] m hm hs.2 (by simp) List.Pairwise.nil
        exact node_ok (by intro j hj; cases hj; exact (withId_spec hn).2) ((PG.allF_iff _ _).mpr this.1) this.2
  | .structVariant n fs, k, h, hs => by
    simp only [Ser.encode] at h
    split at h
    · cases h
    · rename_i hn
      split at h
      · cases h
      · rename_i m hm
        cases h
        have := encodeF_node N fs [] m hm hs.2 (by simp) List.Pairwise.nil
        exact node_ok (by intro j hj; cases hj; exact (withId_spec hn).2) ((PG.allF_iff _ _).mpr this.1) this.2
  | .fail m, k, h, hs => by simp [Ser.encode] at h
termination_by structural s => s
theorem encodeL_node (N : Number → Prop) : ∀ (l : List Ser) (ks : List Kserd), Ser.encodeL l = .ok ks → SerAllL (numHere N) l → AllL (node N) ks
  | [], ks, h, _ => by simp only [Ser.encodeL, Except.ok.injEq] at h; subst h; trivial
  | v :: r, ks, h, hs => by
    simp only [Ser.encodeL] at h
    split at h
    · cases h
    · rename_i k hk
      split at h
      · cases h
      · rename_i ks' hr
        cases h
        exact ⟨encode_node N v k hk hs.1, encodeL_node N r ks' hr hs.2⟩
termination_by structural l => l
theorem encodeF_node (N : Number → Prop) : ∀ (l : List (Str × Ser)) (m m' : Fields), Ser.encodeF l m = .ok m' → SerAllF (numHere N) l →
    (∀ p ∈ m, All (node N) p.2) → Ascending cmpStr m → (∀ p ∈ m', All (node N) p.2) ∧ Ascending cmpStr m'
  | [], m, m', h, _, hm, ha => by simp only [Ser.encodeF, Except.ok.injEq] at h; subst h; exact ⟨hm, ha⟩
  | (n, v) :: r, m, m', h, hs, hm, ha => by
    simp only [Ser.encodeF] at h
    split at h
    · cases h
    · rename_i k hk
      refine encodeF_node N r _ m' h hs.2 ?_ (BTree.insert_asc lawStr n k trivial m (fun _ _ => trivial) ha)
      intro p hp
      rcases BTree.insert_mem n k m p hp with ⟨h1, _⟩ | h1
      · rw [h1]; exact encode_node N v k hk hs.1
      · exact hm p h1
termination_by structural l => l
theorem encodeOps_node (N : Number → Prop) : ∀ (l : List MapOp) (key : Option Kserd) (m m' : KMap), Ser.encodeOps l key m = .ok m' →
    SerAllO (numHere N) l → (∀ k, key = some k → All (node N) k) → Inv N m → Inv N m'
  | [], key, m, m', h, _, _, hm => by simp only [Ser.encodeOps, Except.ok.injEq] at h; subst h; exact hm
  | o :: r, key, m, m', h, hs, hkey, hm => by
    simp only [Ser.encodeOps] at h
    split at h
    · cases h
    · rename_i km ho
      have := encodeOp_node N o key m km ho hs.1 hkey hm
      exact encodeOps_node N r km.1 km.2 m' h hs.2 this.1 this.2
termination_by structural l => l
theorem encodeOp_node (N : Number → Prop) : ∀ (o : MapOp) (key : Option Kserd) (m : KMap) (km : Option Kserd × KMap), Ser.encodeOp o key m = .ok km →
    SerAllOp (numHere N) o → (∀ k, key = some k → All (node N) k) → Inv N m → (∀ k, km.1 = some k → All (node N) k) ∧ Inv N km.2
  | .key k, key, m, km, h, hs, hkey, hm => by
    simp only [Ser.encodeOp] at h
    split at h
    · cases h
    · rename_i kk hk
      cases h
      exact ⟨fun x hx => (Option.some.inj hx) ▸ encode_node N k kk hk hs, hm⟩
  | .value v, key, m, km, h, hs, hkey, hm => by
    simp only [Ser.encodeOp] at h
    split at h
    · cases h
    · rename_i kk
      split at h
      · cases h
      · rename_i kv hv
        cases h
        exact ⟨fun x hx => (nomatch hx), inv_insert hm (hkey kk rfl) (encode_node N v kv hv hs)⟩
  | .entry k v, key, m, km, h, hs, hkey, hm => by
    simp only [Ser.encodeOp] at h
    split at h
    · cases h
    · rename_i kk hk
      split at h
      · cases h
      · rename_i kv hv
        cases h
        exact ⟨hkey, inv_insert hm (encode_node N k kk hk hs.1) (encode_node N v kv hv hs.2)⟩
termination_by structural o => o
end

mutual
theorem serAll_mono {P Q : Ser → Prop} (h : ∀ s, P s → Q s) : ∀ s : Ser, SerAll P s → SerAll Q s
  | .some v, hs => ⟨h _ hs.1, serAll_mono h v hs.2⟩
  | .newtypeStruct n v, hs => ⟨h _ hs.1, serAll_mono h v hs.2⟩
  | .newtypeVariant n v, hs => ⟨h _ hs.1, serAll_mono h v hs.2⟩
  | .seq l, hs => ⟨h _ hs.1, serAllL_mono h l hs.2⟩
  | .tuple l, hs => ⟨h _ hs.1, serAllL_mono h l hs.2⟩
  | .tupleStruct n l, hs => ⟨h _ hs.1, serAllL_mono h l hs.2⟩
  | .tupleVariant n l, hs => ⟨h _ hs.1, serAllL_mono h l hs.2⟩
  | .map l, hs => ⟨h _ hs.1, serAllO_mono h l hs.2⟩
  | .struct n l, hs => ⟨h _ hs.1, serAllF_mono h l hs.2⟩
  | .structVariant n l, hs => ⟨h _ hs.1, serAllF_mono h l hs.2⟩
  | .unitStruct _, hs => h _ hs
  | .unitVariant _, hs => h _ hs
  | .fail _, hs => h _ hs
  | .bool _, hs => h _ hs
  | .int _ _, hs => h _ hs
  | .f32 _, hs => h _ hs
  | .f64 _, hs => h _ hs
  | .char _, hs => h _ hs
  | .str _, hs => h _ hs
  | .bytes _, hs => h _ hs
  | .none, hs => h _ hs
  | .unit, hs => h _ hs
termination_by structural s => s
theorem serAllL_mono {P Q : Ser → Prop} (h : ∀ s, P s → Q s) : ∀ l : List Ser, SerAllL P l → SerAllL Q l
  | [], _ => trivial
  | v :: r, hs => ⟨serAll_mono h v hs.1, serAllL_mono h r hs.2⟩
termination_by structural l => l
theorem serAllF_mono {P Q : Ser → Prop} (h : ∀ s, P s → Q s) : ∀ l : List (Str × Ser), SerAllF P l → SerAllF Q l
  | [], _ => trivial
  | (_, v) :: r, hs => ⟨serAll_mono h v hs.1, serAllF_mono h r hs.2⟩
termination_by structural l => l
theorem serAllO_mono {P Q : Ser → Prop} (h : ∀ s, P s → Q s) : ∀ l : List MapOp, SerAllO P l → SerAllO Q l
  | [], _ => trivial
  | o :: r, hs => ⟨serAllOp_mono h o hs.1, serAllO_mono h r hs.2⟩
termination_by structural l => l
theorem serAllOp_mono {P Q : Ser → Prop} (h : ∀ s, P s → Q s) : ∀ o : MapOp, SerAllOp P o → SerAllOp Q o
  | .key k, hs => serAll_mono h k hs
  | .value v, hs => serAll_mono h v hs
  | .entry k v, hs => ⟨serAll_mono h k hs.1, serAll_mono h v hs.2⟩
termination_by structural o => o
end

mutual
theorem serAll_of {Q : Ser → Prop} (h : ∀ s, Q s) : ∀ s : Ser, SerAll Q s
  | .some v => ⟨h _, serAll_of h v⟩
  | .newtypeStruct n v => ⟨h _, serAll_of h v⟩
  | .newtypeVariant n v => ⟨h _, serAll_of h v⟩
  | .seq l => ⟨h _, serAllL_of h l⟩
  | .tuple l => ⟨h _, serAllL_of h l⟩
  | .tupleStruct n l => ⟨h _, serAllL_of h l⟩
  | .tupleVariant n l => ⟨h _, serAllL_of h l⟩
  | .map l => ⟨h _, serAllO_of h l⟩
  | .struct n l => ⟨h _, serAllF_of h l⟩
  | .structVariant n l => ⟨h _, serAllF_of h l⟩
  | .unitStruct _ => h _
  | .unitVariant _ => h _
  | .fail _ => h _
  | .bool _ => h _
  | .int _ _ => h _
  | .f32 _ => h _
  | .f64 _ => h _
  | .char _ => h _
  | .str _ => h _
  | .bytes _ => h _
  | .none => h _
  | .unit => h _
termination_by structural s => s
theorem serAllL_of {Q : Ser → Prop} (h : ∀ s, Q s) : ∀ l : List Ser, SerAllL Q l
  | [] => trivial
  | v :: r => ⟨serAll_of h v, serAllL_of h r⟩
termination_by structural l => l
theorem serAllF_of {Q : Ser → Prop} (h : ∀ s, Q s) : ∀ l : List (Str × Ser), SerAllF Q l
  | [] => trivial
  | (_, v) :: r => ⟨serAll_of h v, serAllF_of h r⟩
termination_by structural l => l
theorem serAllO_of {Q : Ser → Prop} (h : ∀ s, Q s) : ∀ l : List MapOp, SerAllO Q l
  | [] => trivial
  | o :: r => ⟨serAllOp_of h o, serAllO_of h r⟩
termination_by structural l => l
theorem serAllOp_of {Q : Ser → Prop} (h : ∀ s, Q s) : ∀ o : MapOp, SerAllOp Q o
  | .key k => serAll_of h k
  | .value v => serAll_of h v
  | .entry k v => ⟨serAll_of h k, serAll_of h v⟩
termination_by structural o => o
end

end KS.EN
