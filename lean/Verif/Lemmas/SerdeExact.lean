import Verif.Lemmas.Serde
import Verif.Lemmas.ParseTotal
import Verif.Spec.SerdeExact
import Verif.Lemmas.KserdOrd
/-! The converse of the serde round trip: what comes back the same was plain. Sizes decide about merged map keys: decoding an
encoded value never gives a larger value, and a smaller one when keys have been merged anywhere inside. -/

namespace KS.SX

open Spec

mutual
/-- Number of nodes. -/
def wt : Ser → Nat
  | .some v => wt v + 1
  | .newtypeStruct _ v => wt v + 1
  | .newtypeVariant _ v => wt v + 1
  | .seq l => wtL l + 1
  | .tuple l => wtL l + 1
  | .tupleStruct _ l => wtL l + 1
  | .tupleVariant _ l => wtL l + 1
  | .map ops => wtO ops + 1
  | .struct _ fs => wtF fs + 1
  | .structVariant _ fs => wtF fs + 1
  | .unitStruct _ => 1
  | .unitVariant _ => 1
  | .fail _ => 1
  | .bool _ => 1
  | .int _ _ => 1
  | .f32 _ => 1
  | .f64 _ => 1
  | .char _ => 1
  | .str _ => 1
  | .bytes _ => 1
  | .none => 1
  | .unit => 1
termination_by structural s => s
def wtL : List Ser → Nat
  | [] => 0
  | v :: r => wt v + wtL r
termination_by structural s => s
def wtF : List (Str × Ser) → Nat
  | [] => 0
  | (_, v) :: r => wt v + wtF r
termination_by structural s => s
def wtO : List MapOp → Nat
  | [] => 0
  | o :: r => wtOp o + wtO r
termination_by structural s => s
def wtOp : MapOp → Nat
  | .key k => wt k
  | .value v => wt v
  | .entry k v => wt k + wt v
termination_by structural s => s
end

theorem wt_pos (s : Ser) : 0 < wt s := by cases s <;> simp [wt]

/-- The conditions of `plainHere` that are not about maps. -/
def goodHere : Ser → Prop
  | .newtypeStruct n _ => n ≠ KS.str "Some"
  | .tupleStruct n l => ¬ (n = KS.str "None" ∧ l = [])
  | .f32 x => ∀ s, x ≠ .fin s (11420669 * 2 ^ 42)
  | _ => True

/-- The condition of `plainHere` about maps. -/
def mapsHere : Ser → Prop
  | .map ops => (opKeys ops).Pairwise (fun a b => ∀ ka kb, a.encode = .ok ka → b.encode = .ok kb →
      Kserd.cmp kb ka ≠ .eq)
  | _ => True

theorem plainHere_of (s : Ser) (h1 : goodHere s) (h2 : mapsHere s) : plainHere s := by
  cases s <;> first | exact h1 | exact h2 | trivial

mutual
theorem all_and {P Q R : Ser → Prop} (f : ∀ s, P s → Q s → R s) : ∀ s, SerAll P s → SerAll Q s → SerAll R s
  | .some v, h1, h2 => ⟨f _ h1.1 h2.1, all_and f v h1.2 h2.2⟩
  | .newtypeStruct _ v, h1, h2 => ⟨f _ h1.1 h2.1, all_and f v h1.2 h2.2⟩
  | .newtypeVariant _ v, h1, h2 => ⟨f _ h1.1 h2.1, all_and f v h1.2 h2.2⟩
  | .seq l, h1, h2 => ⟨f _ h1.1 h2.1, all_andL f l h1.2 h2.2⟩
  | .tuple l, h1, h2 => ⟨f _ h1.1 h2.1, all_andL f l h1.2 h2.2⟩
  | .tupleStruct _ l, h1, h2 => ⟨f _ h1.1 h2.1, all_andL f l h1.2 h2.2⟩
  | .tupleVariant _ l, h1, h2 => ⟨f _ h1.1 h2.1, all_andL f l h1.2 h2.2⟩
  | .map l, h1, h2 => ⟨f _ h1.1 h2.1, all_andO f l h1.2 h2.2⟩
  | .struct _ l, h1, h2 => ⟨f _ h1.1 h2.1, all_andF f l h1.2 h2.2⟩
  | .structVariant _ l, h1, h2 => ⟨f _ h1.1 h2.1, all_andF f l h1.2 h2.2⟩
  | .unitStruct _, h1, h2 => f _ h1 h2
  | .unitVariant _, h1, h2 => f _ h1 h2
  | .fail _, h1, h2 => f _ h1 h2
  | .bool _, h1, h2 => f _ h1 h2
  | .int _ _, h1, h2 => f _ h1 h2
  | .f32 _, h1, h2 => f _ h1 h2
  | .f64 _, h1, h2 => f _ h1 h2
  | .char _, h1, h2 => f _ h1 h2
  | .str _, h1, h2 => f _ h1 h2
  | .bytes _, h1, h2 => f _ h1 h2
  | .none, h1, h2 => f _ h1 h2
  | .unit, h1, h2 => f _ h1 h2
termination_by structural s => s
theorem all_andL {P Q R : Ser → Prop} (f : ∀ s, P s → Q s → R s) : ∀ s, SerAllL P s → SerAllL Q s → SerAllL R s
  | [], _, _ => trivial
  | v :: r, h1, h2 => ⟨all_and f v h1.1 h2.1, all_andL f r h1.2 h2.2⟩
termination_by structural s => s
theorem all_andF {P Q R : Ser → Prop} (f : ∀ s, P s → Q s → R s) : ∀ s, SerAllF P s → SerAllF Q s → SerAllF R s
  | [], _, _ => trivial
  | (_, v) :: r, h1, h2 => ⟨all_and f v h1.1 h2.1, all_andF f r h1.2 h2.2⟩
termination_by structural s => s
theorem all_andO {P Q R : Ser → Prop} (f : ∀ s, P s → Q s → R s) : ∀ s, SerAllO P s → SerAllO Q s → SerAllO R s
  | [], _, _ => trivial
  | v :: r, h1, h2 => ⟨all_andOp f v h1.1 h2.1, all_andO f r h1.2 h2.2⟩
termination_by structural s => s
theorem all_andOp {P Q R : Ser → Prop} (f : ∀ s, P s → Q s → R s) : ∀ s, SerAllOp P s → SerAllOp Q s → SerAllOp R s
  | .key k, h1, h2 => all_and f k h1 h2
  | .value v, h1, h2 => all_and f v h1 h2
  | .entry k v, h1, h2 => ⟨all_and f k h1.1 h2.1, all_and f v h1.2 h2.2⟩
termination_by structural s => s
end

theorem serAllO_iff (P : Ser → Prop) : ∀ l : List MapOp, SerAllO P l ↔ ∀ o ∈ l, SerAllOp P o
  | [] => by simp [SerAllO]
  | o :: r => by simp [SerAllO, serAllO_iff P r]

theorem wtO_perm {a b : List MapOp} (h : a.Perm b) : wtO a = wtO b := by
  induction h with
  | nil => rfl
  | cons x _ ih => simp only [wtO, ih]
  | swap x y l => simp only [wtO]; omega
  | trans _ _ ih1 ih2 => exact ih1.trans ih2

mutual
/-- Values that are the same have the same size, and one is good when the other is. -/
theorem same_both : ∀ s s' : Ser, Same s s' → wt s = wt s' ∧ (SerAll goodHere s' → SerAll goodHere s)
  | .bool _, s', h => by cases s' <;> simp only [Same] at h; exact ⟨rfl, fun h => h⟩
  | .int _ _, s', h => by cases s' <;> simp only [Same] at h; exact ⟨rfl, fun h => h⟩
  | .f32 x, s', h => by
    cases s' <;> simp only [Same] at h
    refine ⟨rfl, fun hg => ?_⟩
    rcases h with rfl | ⟨⟨s, p, rfl⟩, _⟩
    · exact hg
    · intro t; simp
  | .f64 _, s', h => by cases s' <;> simp only [Same] at h; exact ⟨rfl, fun h => h⟩
  | .char _, s', h => by cases s' <;> simp only [Same] at h; exact ⟨rfl, fun h => h⟩
  | .str _, s', h => by cases s' <;> simp only [Same] at h; exact ⟨rfl, fun h => h⟩
  | .bytes _, s', h => by cases s' <;> simp only [Same] at h; exact ⟨rfl, fun h => h⟩
  | .none, s', h => by cases s' <;> simp only [Same] at h; exact ⟨rfl, fun h => h⟩
  | .unit, s', h => by cases s' <;> simp only [Same] at h; exact ⟨rfl, fun h => h⟩
  | .fail _, s', h => by cases s' <;> simp only [Same] at h
  | .unitStruct _, s', h => by cases s' <;> simp only [Same] at h; exact ⟨rfl, fun h => h⟩
  | .unitVariant _, s', h => by cases s' <;> simp only [Same] at h; exact ⟨rfl, fun h => h⟩
  | .some a, s', h => by
    cases s' <;> simp only [Same] at h
    obtain ⟨h1, h2⟩ := same_both a _ h
    exact ⟨by simp only [wt, h1], fun hg => ⟨trivial, h2 hg.2⟩⟩
  | .newtypeStruct n a, s', h => by
    cases s' <;> simp only [Same] at h
    obtain ⟨rfl, h⟩ := h
    obtain ⟨h1, h2⟩ := same_both a _ h
    exact ⟨by simp only [wt, h1], fun hg => ⟨hg.1, h2 hg.2⟩⟩
  | .newtypeVariant n a, s', h => by
    cases s' <;> simp only [Same] at h
    obtain ⟨rfl, h⟩ := h
    obtain ⟨h1, h2⟩ := same_both a _ h
    exact ⟨by simp only [wt, h1], fun hg => ⟨hg.1, h2 hg.2⟩⟩
  | .seq a, s', h => by
    cases s' <;> simp only [Same] at h
    obtain ⟨h1, h2⟩ := same_bothL a _ h
    exact ⟨by simp only [wt, h1], fun hg => ⟨trivial, h2 hg.2⟩⟩
  | .tuple a, s', h => by
    cases s' <;> simp only [Same] at h
    obtain ⟨h1, h2⟩ := same_bothL a _ h
    exact ⟨by simp only [wt, h1], fun hg => ⟨trivial, h2 hg.2⟩⟩
  | .tupleStruct n a, s', h => by
    cases s' <;> simp only [Same] at h
    obtain ⟨rfl, h⟩ := h
    obtain ⟨h1, h2⟩ := same_bothL a _ h
    refine ⟨by simp only [wt, h1], fun hg => ⟨?_, h2 hg.2⟩⟩
    rintro ⟨h3, rfl⟩
    rename_i l
    cases l with
    | nil => exact hg.1 ⟨h3, rfl⟩
    | cons => simp only [SameL] at h
  | .tupleVariant n a, s', h => by
    cases s' <;> simp only [Same] at h
    obtain ⟨rfl, h⟩ := h
    obtain ⟨h1, h2⟩ := same_bothL a _ h
    exact ⟨by simp only [wt, h1], fun hg => ⟨trivial, h2 hg.2⟩⟩
  | .map a, s', h => by
    cases s' <;> simp only [Same] at h
    obtain ⟨b', hb, hp⟩ := h
    obtain ⟨h1, h2⟩ := same_bothO a _ hb
    refine ⟨by simp only [wt, h1, wtO_perm hp], fun hg => ⟨trivial, h2 ?_⟩⟩
    rw [serAllO_iff]
    intro o ho
    exact (serAllO_iff _ _).mp hg.2 o (hp.mem_iff.mp ho)
  | .struct n a, s', h => by
    cases s' <;> simp only [Same] at h
    obtain ⟨rfl, h⟩ := h
    obtain ⟨h1, h2⟩ := same_bothF a _ h
    exact ⟨by simp only [wt, h1], fun hg => ⟨trivial, h2 hg.2⟩⟩
  | .structVariant n a, s', h => by
    cases s' <;> simp only [Same] at h
    obtain ⟨rfl, h⟩ := h
    obtain ⟨h1, h2⟩ := same_bothF a _ h
    exact ⟨by simp only [wt, h1], fun hg => ⟨trivial, h2 hg.2⟩⟩
termination_by structural s => s
theorem same_bothL : ∀ s s' : List Ser, SameL s s' → wtL s = wtL s' ∧ (SerAllL goodHere s' → SerAllL goodHere s)
  | [], s', h => by cases s' <;> simp only [SameL] at h; exact ⟨rfl, id⟩
  | a :: r, s', h => by
    cases s' <;> simp only [SameL] at h
    obtain ⟨h1, h2⟩ := same_both a _ h.1
    obtain ⟨h3, h4⟩ := same_bothL r _ h.2
    exact ⟨by simp only [wtL, h1, h3], fun hg => ⟨h2 hg.1, h4 hg.2⟩⟩
termination_by structural s => s
theorem same_bothF : ∀ s s' : List (Str × Ser), SameF s s' → wtF s = wtF s' ∧ (SerAllF goodHere s' → SerAllF goodHere s)
  | [], s', h => by cases s' <;> simp only [SameF] at h; exact ⟨rfl, id⟩
  | (n, a) :: r, s', h => by
    cases s' <;> simp only [SameF] at h
    obtain ⟨h1, h2⟩ := same_both a _ h.2.1
    obtain ⟨h3, h4⟩ := same_bothF r _ h.2.2
    exact ⟨by simp only [wtF, h1, h3], fun hg => ⟨h2 hg.1, h4 hg.2⟩⟩
termination_by structural s => s
theorem same_bothO : ∀ s s' : List MapOp, SameO s s' → wtO s = wtO s' ∧ (SerAllO goodHere s' → SerAllO goodHere s)
  | [], s', h => by cases s' <;> simp only [SameO] at h; exact ⟨rfl, id⟩
  | a :: r, s', h => by
    cases s' <;> simp only [SameO] at h
    obtain ⟨h1, h2⟩ := same_bothOp a _ h.1
    obtain ⟨h3, h4⟩ := same_bothO r _ h.2
    exact ⟨by simp only [wtO, h1, h3], fun hg => ⟨h2 hg.1, h4 hg.2⟩⟩
termination_by structural s => s
theorem same_bothOp : ∀ s s' : MapOp, SameOp s s' → wtOp s = wtOp s' ∧ (SerAllOp goodHere s' → SerAllOp goodHere s)
  | .key _, s', h => by cases s' <;> simp only [SameOp] at h
  | .value _, s', h => by cases s' <;> simp only [SameOp] at h
  | .entry k v, s', h => by
    cases s' <;> simp only [SameOp] at h
    obtain ⟨h1, h2⟩ := same_both k _ h.1
    obtain ⟨h3, h4⟩ := same_both v _ h.2
    exact ⟨by simp only [wtOp, h1, h3], fun hg => ⟨h2 hg.1, h4 hg.2⟩⟩
termination_by structural s => s
end

/-! ## Insertion -/

/-- An order that is transitive on the keys is lawful there. -/
theorem lawful_of (P : Kserd → Prop) (h : ∀ a b c, P a → P b → P c → Kserd.cmp a b ≠ .gt → Kserd.cmp b c ≠ .gt →
    Kserd.cmp a c ≠ .gt) : BTree.Lawful P Kserd.cmp (fun a b => decide (Kserd.cmp a b = .eq)) where
  swap := KS.cmp_swap
  eq := fun a b _ _ => by simp
  tr := fun a b c ha hb hc => by
    have s1 := KS.cmp_swap a b
    have s2 := KS.cmp_swap b c
    have s3 := KS.cmp_swap a c
    have t1 := h a b c ha hb hc
    have t2 := h b a c hb ha hc
    have t3 := h a c b ha hc hb
    have t4 := h c b a hc hb ha
    have t5 := h b c a hb hc ha
    have t6 := h c a b hc ha hb
    rw [s1, s2, s3] at *
    cases h1 : Kserd.cmp a b <;> cases h2 : Kserd.cmp b c <;> cases h3 : Kserd.cmp a c <;>
      simp_all [Tr, Ordering.swap]

/-- Sum over the entries. -/
def sum (g h : Kserd → Nat) : KMap → Nat
  | [] => 0
  | e :: r => g e.1 + h e.2 + sum g h r

theorem sum_perm {g h : Kserd → Nat} {a b : KMap} (hp : a.Perm b) : sum g h a = sum g h b := by
  induction hp with
  | nil => rfl
  | cons x _ ih => simp only [sum, ih]
  | swap x y l => simp only [sum]; omega
  | trans _ _ ih1 ih2 => exact ih1.trans ih2

/-- When the key is there already, only the value can add to the sum. -/
theorem insert_merge {P : Kserd → Prop} {eq : Kserd → Kserd → Bool} (law : BTree.Lawful P Kserd.cmp eq) (g h : Kserd → Nat) (k v : Kserd) (hk : P k) :
    ∀ L : KMap, BTree.Keys P L → Ascending Kserd.cmp L → (∃ p ∈ L, Kserd.cmp k p.1 = .eq) →
      sum g h (BTree.insert Kserd.cmp k v L) ≤ sum g h L + h v
  | [], _, _, ⟨p, hp, _⟩ => by simp at hp
  | (k', v') :: r, hP, hs, ⟨p, hp, he⟩ => by
    have hk' : P k' := hP (k', v') (by simp)
    have hr : BTree.Keys P r := fun p hp => hP p (List.mem_cons_of_mem _ hp)
    obtain ⟨h1, h2⟩ := List.pairwise_cons.mp hs
    rw [BTree.insert]
    split
    · rename_i hc
      exfalso
      rcases List.mem_cons.mp hp with rfl | hp
      · rw [hc] at he; cases he
      · have := law.lt_le hk hk' (hr p hp) hc (by rw [h1 p hp]; decide)
        rw [this] at he; cases he
    · simp only [sum]; omega
    · rename_i hc
      rcases List.mem_cons.mp hp with rfl | hp
      · simp only at he; rw [hc] at he; cases he
      · have := insert_merge law g h k v hk r hr h2 ⟨p, hp, he⟩
        simp only [sum]; omega

/-! ## What decoding gives -/

/-- Size of what is decoded. -/
def size (env : TyEnv) (ty : Ty) (k : Kserd) : Nat :=
  match decode env ty k with
  | some s => wt s
  | none => 0

/-- What is decoded is good. -/
def GoodD (env : TyEnv) (ty : Ty) (k : Kserd) : Prop := ∀ s', decode env ty k = some s' → SerAll goodHere s'

/-- Decoding an encoded value gives a good value, not larger, and smaller if keys were merged. -/
def Res (env : TyEnv) (s : Ser) (ty : Ty) : Prop :=
  ∀ k s', s.encode = .ok k → decode env ty k = some s' →
    wt s' ≤ wt s ∧ (wt s' = wt s → SerAll mapsHere s) ∧ SerAll goodHere s'

theorem Res.size {env : TyEnv} {s : Ser} {ty : Ty} (h : Res env s ty) {k : Kserd} (hk : s.encode = .ok k) :
    size env ty k ≤ wt s ∧ (size env ty k = wt s → SerAll mapsHere s) ∧ GoodD env ty k := by
  have := wt_pos s
  unfold SX.size
  cases hd : decode env ty k with
  | none => exact ⟨by simp, by simp only; omega, fun s' hs => by rw [hd] at hs; cases hs⟩
  | some s' =>
    obtain ⟨h1, h2, h3⟩ := h k s' hk hd
    exact ⟨h1, h2, fun s'' hs => by rw [hd] at hs; cases hs; exact h3⟩

theorem entries_sum (env : TyEnv) (kt vt : Ty) : ∀ (m : KMap) (r : List MapOp),
    Dec.entriesOf (decode env kt) (decode env vt) m = some r → (∀ p ∈ m, GoodD env kt p.1 ∧ GoodD env vt p.2) →
    wtO r = sum (size env kt) (size env vt) m ∧ SerAllO goodHere r
  | [], r, h, _ => by
    simp only [Dec.entriesOf, Option.some.injEq] at h; subst h; exact ⟨rfl, trivial⟩
  | (k, v) :: m, r, h, hg => by
    simp only [Dec.entriesOf] at h
    split at h
    · cases h
    · rename_i k' hk
      split at h
      · cases h
      · rename_i v' hv
        split at h
        · cases h
        · rename_i r' hr
          simp only [Option.some.injEq] at h; subst h
          obtain ⟨h1, h2⟩ := entries_sum env kt vt m r' hr (fun p hp => hg p (by simp [hp]))
          obtain ⟨g1, g2⟩ := hg (k, v) (by simp)
          refine ⟨?_, ⟨g1 _ hk, g2 _ hv⟩, h2⟩
          simp only [wtO, wtOp, sum, size, hk, hv, h1]

theorem encId_inv {n : Str} {v : Value} {k : Kserd} (h : encId n v = .ok k) : k = .mk (some n) v := by
  unfold encId Kserd.withId at h
  split at h
  · rename_i h1
    split at h1
    · cases h1
    · simp only [Except.ok.injEq] at h h1; rw [← h, ← h1]
  · cases h

/-- A leaf that decodes to a good value. -/
theorem res_leaf {env : TyEnv} {s : Ser} {ty : Ty} {k : Kserd} {x : Ser} (hk : s.encode = .ok k)
    (hx : Dec.step env (decode env) ty k = some x) (hw : wt x = wt s) (hm : SerAll mapsHere s) (hg : SerAll goodHere x) :
    Res env s ty := by
  intro k' s' h1 h2
  rw [hk, Except.ok.injEq] at h1; subst h1
  rw [decode_step, hx, Option.some.injEq] at h2; subst h2
  exact ⟨le_of_eq hw, fun _ => hm, hg⟩

/-- The `f32` that does not survive does not come back either. -/
theorem good32 {x : F32} (hx : x.WF) (s : Bool) : F32.ofF64 (F32.toF64 x) ≠ .fin s (11420669 * 2 ^ 42) := by
  by_cases h : ∀ s, x ≠ .fin s (11420669 * 2 ^ 42)
  · rcases Props.plain32 hx h with ⟨t, p, rfl⟩ | h'
    · rw [(Props.C47_special t p).2]; simp
    · rw [h']; exact h s
  · push Not at h
    obtain ⟨t, rfl⟩ := h
    clear hx
    revert s t
    decide +kernel

/-- The state of a map under construction and what is still to come. -/
structure Build (env : TyEnv) (P : Kserd → Prop) (kt vt : Ty) (L : KMap) : Prop where
  keys : BTree.Keys P L
  asc : Ascending Kserd.cmp L
  good : ∀ p ∈ L, GoodD env kt p.1 ∧ GoodD env vt p.2

theorem Build.insert {env : TyEnv} {P : Kserd → Prop} {kt vt : Ty} {L : KMap} {eq : Kserd → Kserd → Bool}
    (law : BTree.Lawful P Kserd.cmp eq) (h : Build env P kt vt L) {k v : Kserd} (hk : P k) (gk : GoodD env kt k)
    (gv : GoodD env vt v) : Build env P kt vt (BTree.insert Kserd.cmp k v L) := by
  refine ⟨?_, BTree.insert_asc law k v hk L h.keys h.asc, ?_⟩
  · intro p hp
    rcases BTree.insert_mem k v L p hp with ⟨_, h2 | ⟨w, h2⟩⟩ | h1
    · rw [h2]; exact hk
    · exact h.keys (p.1, w) h2
    · exact h.keys _ h1
  · intro p hp
    rcases BTree.insert_mem k v L p hp with ⟨h1, h2 | ⟨w, h2⟩⟩ | h1
    · rw [h1, h2]; exact ⟨gk, gv⟩
    · exact ⟨(h.good _ h2).1, by rw [h1]; exact gv⟩
    · exact h.good _ h1

/-- A struct body. -/
theorem res_struct {env : TyEnv} {fs : List (Str × Ser)} {ds : List (Str × Ty)} {m : Fields} {l' : List (Str × Ser)}
    (hn : (ds.map Prod.fst).Nodup) (h1 : ∃ es : Fields, m = es.foldl (fun m e => BTree.insert cmpStr e.1 e.2 m) [] ∧
      es.map Prod.fst = ds.map Prod.fst ∧
      (∀ full : List (Str × Ty), (∀ p ∈ ds, Dec.fieldTy full p.1 = some p.2) → ∀ vs, Dec.collect (decode env) full es = some vs →
        vs.map Prod.fst = ds.map Prod.fst ∧ wtF vs ≤ wtF fs ∧ (wtF vs = wtF fs → SerAllF mapsHere fs) ∧ SerAllF goodHere vs))
    (h2 : Dec.structOf (decode env) ds m = some l') :
    wtF l' ≤ wtF fs ∧ (wtF l' = wtF fs → SerAllF mapsHere fs) ∧ SerAllF goodHere l' := by
  obtain ⟨es, rfl, h3, h4⟩ := h1
  have hperm := foldl_insert_perm cmpStr es [] (by
    have : (es.map Prod.fst).Nodup := by rw [h3]; exact hn
    rw [List.nodup_iff_pairwise_ne, List.pairwise_map] at this
    refine this.imp ?_
    intro a b hab hc
    exact hab ((cmpStr_eq _ _).mp hc).symm) (by simp)
  rw [List.append_nil] at hperm
  have hperm := hperm.trans (List.reverse_perm es)
  unfold Dec.structOf at h2
  split at h2
  · cases h2
  · rename_i vs hvs
    split at h2
    · rename_i hnd
      obtain ⟨r', hr, hp⟩ := collect_perm (decode env) ds hperm _ hvs
      obtain ⟨h5, h6, h7, h8⟩ := h4 ds (fun p hp => fieldTy_mem hn (by simpa using hp)) r' hr
      rw [assemble_all vs hnd ds r' h5 (fun p hp' => hp.mem_iff.mpr hp'), Option.some.injEq] at h2
      subst h2
      exact ⟨h6, h7, h8⟩
    · cases h2

theorem tuple_visit' {n : Str} {l : List Kserd} (h : l.length ≠ 1) (h2 : ¬ (n = str "None" ∧ l = [])) :
    deserializeAny (.mk (some n) (.tuple l)) = .seq l :=
  tuple_visit (Or.inr h) (fun ⟨a, b⟩ => h2 ⟨Option.some.inj a, b⟩)

theorem none_visit : deserializeAny (.mk (some (KS.str "None")) (.tuple [])) = .none := rfl

theorem encodeL_length : ∀ (l : List Ser) (ks : List Kserd), Ser.encodeL l = .ok ks → ks.length = l.length
  | [], ks, h => by simp only [Ser.encodeL, Except.ok.injEq] at h; subst h; rfl
  | v :: r, ks, h => by
    simp only [Ser.encodeL] at h
    split at h
    · cases h
    · split at h
      · cases h
      · rename_i hr
        simp only [Except.ok.injEq] at h; subst h
        simp [encodeL_length r _ hr]

theorem hasTys_length (env : TyEnv) : ∀ (l : List Ser) (ts : List Ty), HasTys env l ts → l.length = ts.length
  | [], [], _ => rfl
  | [], _ :: _, h => by simp only [HasTys] at h
  | _ :: _, [], h => by simp only [HasTys] at h
  | _ :: r, _ :: ts, h => by simp [hasTys_length env r ts h.2]

mutual
theorem res (env : TyEnv) : ∀ (s : Ser) (ty : Ty), HasTy env s ty → SerAll orderlyHere s → Res env s ty
  | .unit, ty, h, _ => by
    cases ty <;> simp only [HasTy] at h
    exact res_leaf (x := .unit) rfl rfl rfl trivial trivial
  | .bool b, ty, h, _ => by
    cases ty <;> simp only [HasTy] at h
    exact res_leaf (x := .bool b) rfl rfl rfl trivial trivial
  | .int t v, ty, h, _ => by
    cases ty <;> simp only [HasTy] at h
    obtain ⟨rfl, h1, h2⟩ := h
    refine res_leaf (x := .int t v) rfl ?_ rfl trivial trivial
    simp only [Dec.step, Kserd.withIdUnchk, Kserd.val_mk, decodeInt_enc t v h1 h2, Option.map_some]
  | .f32 x, ty, h, _ => by
    cases ty <;> simp only [HasTy] at h
    exact res_leaf (x := .f32 (F32.ofF64 (F32.toF64 x))) rfl rfl rfl trivial (good32 h)
  | .f64 x, ty, h, _ => by
    cases ty <;> simp only [HasTy] at h
    exact res_leaf (x := .f64 x) rfl rfl rfl trivial trivial
  | .char c, ty, h, _ => by
    cases ty <;> simp only [HasTy] at h
    exact res_leaf (x := .char c) rfl rfl rfl trivial trivial
  | .str c, ty, h, _ => by
    cases ty <;> simp only [HasTy] at h
    exact res_leaf (x := .str c) rfl rfl rfl trivial trivial
  | .bytes c, ty, h, _ => by
    cases ty <;> simp only [HasTy] at h
    exact res_leaf (x := .bytes c) rfl rfl rfl trivial trivial
  | .none, ty, h, _ => by
    cases ty <;> simp only [HasTy] at h
    exact res_leaf (x := .none) rfl rfl rfl trivial trivial
  | .some v, ty, h, ho => by
    cases ty <;> simp only [HasTy] at h
    rename_i t
    intro k s' hk hd
    simp only [Ser.encode] at hk
    split at hk
    · cases hk
    · rename_i kv hv
      simp only [Except.ok.injEq] at hk; subst hk
      rw [decode_step] at hd
      simp only [Dec.step, Kserd.withIdUnchk, some_visit, if_true, Option.map_eq_some_iff] at hd
      obtain ⟨x, hx, rfl⟩ := hd
      obtain ⟨h1, h2, h3⟩ := res env v t h ho.2 kv x hv hx
      exact ⟨by simp only [wt]; omega, fun he => ⟨trivial, h2 (by simp only [wt] at he; omega)⟩, trivial, h3⟩
  | .fail _, ty, h, _ => by cases ty <;> simp only [HasTy] at h
  | .seq l, ty, h, ho => by
    cases ty <;> simp only [HasTy] at h
    rename_i t
    intro k s' hk hd
    simp only [Ser.encode] at hk
    split at hk
    · cases hk
    · rename_i ks hv
      simp only [Except.ok.injEq] at hk; subst hk
      rw [decode_step] at hd
      simp only [Dec.step, Kserd.new, deserializeAny, Option.map_eq_some_iff] at hd
      obtain ⟨x, hx, rfl⟩ := hd
      obtain ⟨h1, h2, h3⟩ := res_list env l t h ho.2 ks x hv hx
      exact ⟨by simp only [wt]; omega, fun he => ⟨trivial, h2 (by simp only [wt] at he; omega)⟩, trivial, h3⟩
  | .tuple l, ty, h, ho => by
    cases ty <;> simp only [HasTy] at h
    rename_i ts
    intro k s' hk hd
    simp only [Ser.encode] at hk
    split at hk
    · cases hk
    · rename_i ks hv
      simp only [Except.ok.injEq] at hk; subst hk
      rw [decode_step] at hd
      simp only [Dec.step, Kserd.new, tuple_visit (id := none) (l := ks) (Or.inl rfl) (by simp), Option.map_eq_some_iff] at hd
      obtain ⟨x, hx, rfl⟩ := hd
      obtain ⟨h1, h2, h3⟩ := res_tuple env l ts h ho.2 ks x hv hx
      exact ⟨by simp only [wt]; omega, fun he => ⟨trivial, h2 (by simp only [wt] at he; omega)⟩, trivial, h3⟩
  | .map ops, ty, h, ho => by
    cases ty <;> simp only [HasTy] at h
    rename_i kt vt
    intro k s' hk hd
    simp only [Ser.encode] at hk
    split at hk
    · cases hk
    · rename_i m hm
      simp only [Except.ok.injEq] at hk; subst hk
      rw [decode_step] at hd
      simp only [Dec.step, Kserd.new, deserializeAny, Option.map_eq_some_iff] at hd
      obtain ⟨x, hx, rfl⟩ := hd
      have law := lawful_of (fun k => ∃ a ∈ opKeys ops, a.encode = .ok k) (by
        rintro a b c ⟨a', ha, ea⟩ ⟨b', hb, eb⟩ ⟨c', hc, ec⟩
        exact ho.1 a' ha b' hb c' hc a b c ea eb ec)
      obtain ⟨h1, h2, h3⟩ := res_ops env ops kt vt h ho.2 _ law (fun a ha k hk => ⟨a, ha, hk⟩) Option.none [] m
        ⟨fun p hp => by simp at hp, List.Pairwise.nil, fun p hp => by simp at hp⟩ hm
      obtain ⟨h4, h5⟩ := entries_sum env kt vt m x hx h1.good
      simp only [sum, Nat.zero_add] at h2 h3
      refine ⟨by simp only [wt]; omega, fun he => ?_, trivial, h5⟩
      obtain ⟨h6, h7, _⟩ := h3 (by simp only [wt] at he; omega)
      exact ⟨h7, h6⟩
  | .unitStruct n, ty, h, ho => by
    cases ty <;> simp only [HasTy] at h
    intro k s' hk hd
    have := encId_inv hk
    subst this
    rw [decode_step, step_named h] at hd
    simp only [Dec.defOf, Kserd.val_mk, Option.some.injEq] at hd
    subst hd
    exact ⟨le_rfl, fun _ => trivial, trivial⟩
  | .unitVariant n, ty, h, ho => by
    cases ty <;> simp only [HasTy] at h
    obtain ⟨vs, h, h1, h2⟩ := h
    intro k s' hk hd
    have := encId_inv hk
    subst this
    rw [decode_step, step_named h] at hd
    simp only [Dec.defOf, Kserd.id_mk, variant_mem h1 h2, Kserd.val_mk, Dec.variantOf, Option.some.injEq] at hd
    subst hd
    exact ⟨le_rfl, fun _ => trivial, trivial⟩
  | .newtypeStruct n v, ty, h, ho => by
    cases ty <;> simp only [HasTy] at h
    obtain ⟨t, h, ht⟩ := h
    intro k s' hk hd
    simp only [Ser.encode] at hk
    split at hk
    · cases hk
    · rename_i kv hv
      have := encId_inv hk
      subst this
      rw [decode_step, step_named h] at hd
      simp only [Dec.defOf, some_visit] at hd
      by_cases hn : n = KS.str "Some"
      · rw [if_pos hn] at hd; cases hd
      · rw [if_neg hn] at hd
        simp only [Option.map_eq_some_iff] at hd
        obtain ⟨x, hx, rfl⟩ := hd
        obtain ⟨h1, h2, h3⟩ := res env v t ht ho.2 kv x hv hx
        exact ⟨by simp only [wt]; omega, fun he => ⟨trivial, h2 (by simp only [wt] at he; omega)⟩, hn, h3⟩
  | .newtypeVariant n v, ty, h, ho => by
    cases ty <;> simp only [HasTy] at h
    obtain ⟨vs, t, h, h4, h5, ht⟩ := h
    intro k s' hk hd
    simp only [Ser.encode] at hk
    split at hk
    · cases hk
    · rename_i kv hv
      have := encId_inv hk
      subst this
      rw [decode_step, step_named h] at hd
      simp only [Dec.defOf, Kserd.id_mk, variant_mem h4 h5, Kserd.val_mk, Dec.variantOf, Option.map_eq_some_iff] at hd
      obtain ⟨x, hx, rfl⟩ := hd
      obtain ⟨h1, h2, h3⟩ := res env v t ht ho.2 kv x hv hx
      exact ⟨by simp only [wt]; omega, fun he => ⟨trivial, h2 (by simp only [wt] at he; omega)⟩, trivial, h3⟩
  | .tupleStruct n l, ty, h, ho => by
    cases ty <;> simp only [HasTy] at h
    obtain ⟨ts, h, hlen, ht⟩ := h
    intro k s' hk hd
    simp only [Ser.encode] at hk
    split at hk
    · cases hk
    · split at hk
      · cases hk
      · rename_i ks hv
        simp only [Except.ok.injEq] at hk; subst hk
        rw [decode_step, step_named h] at hd
        have hl := encodeL_length l ks hv
        have hl' := hasTys_length env l ts ht
        simp only [Dec.defOf, Kserd.withIdUnchk] at hd
        by_cases hn : n = KS.str "None" ∧ ks = []
        · obtain ⟨rfl, rfl⟩ := hn
          rw [none_visit] at hd; cases hd
        · rw [tuple_visit' (by omega) hn] at hd
          simp only [Option.map_eq_some_iff] at hd
          obtain ⟨x, hx, rfl⟩ := hd
          obtain ⟨h1, h2, h3⟩ := res_tuple env l ts ht ho.2 ks x hv hx
          refine ⟨by simp only [wt]; omega, fun he => ⟨trivial, h2 (by simp only [wt] at he; omega)⟩, ?_, h3⟩
          rintro ⟨h4, rfl⟩
          refine hn ⟨h4, ?_⟩
          have : ts = [] := by
            cases ts with
            | nil => rfl
            | cons t ts =>
              exfalso
              cases ks with
              | nil => simp at hl; rw [← hl] at hl'; simp at hl'
              | cons k ks =>
                simp only [Dec.tupleOf] at hx
                split at hx
                · cases hx
                · split at hx <;> simp at hx
          subst this
          rw [List.length_nil] at hl'
          exact List.length_eq_zero_iff.mp (hl.trans hl')
  | .tupleVariant n l, ty, h, ho => by
    cases ty <;> simp only [HasTy] at h
    obtain ⟨vs, ts, h, h4, h5, ht⟩ := h
    intro k s' hk hd
    simp only [Ser.encode] at hk
    split at hk
    · cases hk
    · split at hk
      · cases hk
      · rename_i ks hv
        simp only [Except.ok.injEq] at hk; subst hk
        rw [decode_step, step_named h] at hd
        simp only [Dec.defOf, Kserd.withIdUnchk, Kserd.id_mk, variant_mem h4 h5, Kserd.val_mk, Dec.variantOf] at hd
        split at hd
        · simp only [Option.map_eq_some_iff] at hd
          obtain ⟨x, hx, rfl⟩ := hd
          obtain ⟨h1, h2, h3⟩ := res_tuple env l ts ht ho.2 ks x hv hx
          exact ⟨by simp only [wt]; omega, fun he => ⟨trivial, h2 (by simp only [wt] at he; omega)⟩, trivial, h3⟩
        · cases hd
  | .struct n fs, ty, h, ho => by
    cases ty <;> simp only [HasTy] at h
    obtain ⟨ds, h, hnd, ht⟩ := h
    intro k s' hk hd
    simp only [Ser.encode] at hk
    split at hk
    · cases hk
    · split at hk
      · cases hk
      · rename_i m hm
        simp only [Except.ok.injEq] at hk; subst hk
        rw [decode_step, step_named h] at hd
        simp only [Dec.defOf, Kserd.withIdUnchk, deserializeAny, Option.map_eq_some_iff] at hd
        obtain ⟨x, hx, rfl⟩ := hd
        obtain ⟨h1, h2, h3⟩ := res_struct hnd (res_fields env fs ds ht ho.2 [] m hm) hx
        exact ⟨by simp only [wt]; omega, fun he => ⟨trivial, h2 (by simp only [wt] at he; omega)⟩, trivial, h3⟩
  | .structVariant n fs, ty, h, ho => by
    cases ty <;> simp only [HasTy] at h
    obtain ⟨vs, ds, h, h4, h5, hnd, ht⟩ := h
    intro k s' hk hd
    simp only [Ser.encode] at hk
    split at hk
    · cases hk
    · split at hk
      · cases hk
      · rename_i m hm
        simp only [Except.ok.injEq] at hk; subst hk
        rw [decode_step, step_named h] at hd
        simp only [Dec.defOf, Kserd.withIdUnchk, Kserd.id_mk, variant_mem h4 h5, Kserd.val_mk, Dec.variantOf, Option.map_eq_some_iff] at hd
        obtain ⟨x, hx, rfl⟩ := hd
        obtain ⟨h1, h2, h3⟩ := res_struct hnd (res_fields env fs ds ht ho.2 [] m hm) hx
        exact ⟨by simp only [wt]; omega, fun he => ⟨trivial, h2 (by simp only [wt] at he; omega)⟩, trivial, h3⟩
termination_by structural s => s
theorem res_list (env : TyEnv) : ∀ (l : List Ser) (t : Ty), HasTyAll env l t → SerAllL orderlyHere l → ∀ ks l',
    Ser.encodeL l = .ok ks → Dec.seqOf (decode env t) ks = some l' →
    wtL l' ≤ wtL l ∧ (wtL l' = wtL l → SerAllL mapsHere l) ∧ SerAllL goodHere l'
  | [], t, _, _, ks, l', h1, h2 => by
    simp only [Ser.encodeL, Except.ok.injEq] at h1; subst h1
    simp only [Dec.seqOf, Option.some.injEq] at h2; subst h2
    exact ⟨le_rfl, fun _ => trivial, trivial⟩
  | v :: r, t, h, ho, ks, l', h1, h2 => by
    simp only [Ser.encodeL] at h1
    split at h1
    · cases h1
    · rename_i k hk
      split at h1
      · cases h1
      · rename_i ks' hks
        simp only [Except.ok.injEq] at h1; subst h1
        simp only [Dec.seqOf] at h2
        split at h2
        · cases h2
        · rename_i x hx
          split at h2
          · cases h2
          · rename_i xs hxs
            simp only [Option.some.injEq] at h2; subst h2
            obtain ⟨a1, a2, a3⟩ := res env v t h.1 ho.1 k x hk hx
            obtain ⟨b1, b2, b3⟩ := res_list env r t h.2 ho.2 ks' xs hks hxs
            exact ⟨by simp only [wtL]; omega, fun he => by
              simp only [wtL] at he
              exact ⟨a2 (by omega), b2 (by omega)⟩, a3, b3⟩
termination_by structural s => s
theorem res_tuple (env : TyEnv) : ∀ (l : List Ser) (ts : List Ty), HasTys env l ts → SerAllL orderlyHere l → ∀ ks l',
    Ser.encodeL l = .ok ks → Dec.tupleOf (decode env) ts ks = some l' →
    wtL l' ≤ wtL l ∧ (wtL l' = wtL l → SerAllL mapsHere l) ∧ SerAllL goodHere l'
  | [], [], _, _, ks, l', h1, h2 => by
    simp only [Ser.encodeL, Except.ok.injEq] at h1; subst h1
    simp only [Dec.tupleOf, Option.some.injEq] at h2; subst h2
    exact ⟨le_rfl, fun _ => trivial, trivial⟩
  | [], _ :: _, h, _, _, _, _, _ => by simp only [HasTys] at h
  | _ :: _, [], h, _, _, _, _, _ => by simp only [HasTys] at h
  | v :: r, t :: ts, h, ho, ks, l', h1, h2 => by
    simp only [Ser.encodeL] at h1
    split at h1
    · cases h1
    · rename_i k hk
      split at h1
      · cases h1
      · rename_i ks' hks
        simp only [Except.ok.injEq] at h1; subst h1
        simp only [Dec.tupleOf] at h2
        split at h2
        · cases h2
        · rename_i x hx
          split at h2
          · cases h2
          · rename_i xs hxs
            simp only [Option.some.injEq] at h2; subst h2
            obtain ⟨a1, a2, a3⟩ := res env v t h.1 ho.1 k x hk hx
            obtain ⟨b1, b2, b3⟩ := res_tuple env r ts h.2 ho.2 ks' xs hks hxs
            exact ⟨by simp only [wtL]; omega, fun he => by
              simp only [wtL] at he
              exact ⟨a2 (by omega), b2 (by omega)⟩, a3, b3⟩
termination_by structural s => s
theorem res_fields (env : TyEnv) : ∀ (l : List (Str × Ser)) (ds : List (Str × Ty)), HasFields env l ds →
    SerAllF orderlyHere l → ∀ M m, Ser.encodeF l M = .ok m →
    ∃ es : Fields, m = es.foldl (fun m e => BTree.insert cmpStr e.1 e.2 m) M ∧ es.map Prod.fst = ds.map Prod.fst ∧
      (∀ full : List (Str × Ty), (∀ p ∈ ds, Dec.fieldTy full p.1 = some p.2) → ∀ vs, Dec.collect (decode env) full es = some vs →
        vs.map Prod.fst = ds.map Prod.fst ∧ wtF vs ≤ wtF l ∧ (wtF vs = wtF l → SerAllF mapsHere l) ∧ SerAllF goodHere vs)
  | [], [], _, _, M, m, h1 => by
    simp only [Ser.encodeF, Except.ok.injEq] at h1; subst h1
    refine ⟨[], rfl, rfl, ?_⟩
    intro full _ vs hv
    simp only [Dec.collect, Option.some.injEq] at hv; subst hv
    exact ⟨rfl, le_rfl, fun _ => trivial, trivial⟩
  | [], _ :: _, h, _, _, _, _ => by simp only [HasFields] at h
  | _ :: _, [], h, _, _, _, _ => by simp only [HasFields] at h
  | (n, v) :: r, (n', t) :: ts, h, ho, M, m, h1 => by
    obtain ⟨rfl, hv, hr⟩ := h
    simp only [Ser.encodeF] at h1
    split at h1
    · cases h1
    · rename_i k hk
      obtain ⟨es, e1, e2, e3⟩ := res_fields env r ts hr ho.2 _ m h1
      refine ⟨(n, k) :: es, by simpa using e1, by simp [e2], ?_⟩
      intro full hf vs hc
      have e4 := hf (n, t) (by simp)
      simp only at e4
      simp only [Dec.collect, e4] at hc
      split at hc
      · cases hc
      · rename_i x hx
        split at hc
        · cases hc
        · rename_i xs hxs
          simp only [Option.some.injEq] at hc; subst hc
          obtain ⟨a1, a2, a3⟩ := res env v t hv ho.1 k x hk hx
          obtain ⟨b0, b1, b2, b3⟩ := e3 full (fun p hp => hf p (by simp [hp])) xs hxs
          exact ⟨by simp [b0], by simp only [wtF]; omega, fun he => by
            simp only [wtF] at he
            exact ⟨a2 (by omega), b2 (by omega)⟩, a3, b3⟩
termination_by structural s => s
theorem res_ops (env : TyEnv) : ∀ (l : List MapOp) (kt vt : Ty), HasEntries env l kt vt → SerAllO orderlyHere l →
    ∀ P : Kserd → Prop, BTree.Lawful P Kserd.cmp (fun a b => decide (Kserd.cmp a b = .eq)) →
    (∀ a ∈ opKeys l, ∀ k, a.encode = .ok k → P k) →
    ∀ key L m, Build env P kt vt L → Ser.encodeOps l key L = .ok m →
    Build env P kt vt m ∧
    sum (size env kt) (size env vt) m ≤ sum (size env kt) (size env vt) L + wtO l ∧
    (sum (size env kt) (size env vt) m = sum (size env kt) (size env vt) L + wtO l →
      SerAllO mapsHere l ∧
      (opKeys l).Pairwise (fun a b => ∀ ka kb, a.encode = .ok ka → b.encode = .ok kb → Kserd.cmp kb ka ≠ .eq) ∧
      ∀ a ∈ opKeys l, ∀ k, a.encode = .ok k → ∀ p ∈ L, Kserd.cmp k p.1 ≠ .eq)
  | [], kt, vt, _, _, P, law, _, key, L, m, hb, h1 => by
    simp only [Ser.encodeOps, Except.ok.injEq] at h1; subst h1
    exact ⟨hb, by simp [wtO], fun _ => ⟨trivial, List.Pairwise.nil, by simp [opKeys]⟩⟩
  | o :: r, kt, vt, h, ho, P, law, hP, key, L, m, hb, h1 => by
    simp only [Ser.encodeOps] at h1
    split at h1
    · cases h1
    · rename_i km hkm
      obtain ⟨a, b, k, v, rfl, ea, rfl, sa, sb⟩ := res_op env o kt vt h.1 ho.1 key L km hkm
      have hk : P k := hP a (by simp [opKeys]) k ea
      obtain ⟨c1, c2, c3⟩ := res_ops env r kt vt h.2 ho.2 P law (fun a' ha' => hP a' (by simp [opKeys, ha'])) key
        (BTree.insert Kserd.cmp k v L) m (hb.insert law hk sa.2.2 sb.2.2) h1
      have wa := wt_pos a
      have wb := wt_pos b
      by_cases hmerge : ∃ p ∈ L, Kserd.cmp k p.1 = .eq
      · have hle := insert_merge law (size env kt) (size env vt) k v hk L hb.keys hb.asc hmerge
        have s2 := sb.1
        refine ⟨c1, by simp only [wtO, wtOp]; omega, fun he => ?_⟩
        simp only [wtO, wtOp] at he
        omega
      · push Not at hmerge
        have hperm := insert_perm Kserd.cmp k v L hmerge
        have hsum := sum_perm (g := size env kt) (h := size env vt) hperm
        simp only [sum] at hsum
        have s1 := sa.1
        have s2 := sb.1
        refine ⟨c1, by simp only [wtO, wtOp]; omega, fun he => ?_⟩
        simp only [wtO, wtOp] at he
        obtain ⟨d1, d2, d3⟩ := c3 (by omega)
        refine ⟨⟨⟨sa.2.1 (by omega), sb.2.1 (by omega)⟩, d1⟩, ?_, ?_⟩
        · simp only [opKeys]
          refine List.pairwise_cons.mpr ⟨?_, d2⟩
          intro b' hb' ka kb hka hkb
          rw [ea, Except.ok.injEq] at hka; subst hka
          exact d3 b' hb' kb hkb (k, v) (hperm.mem_iff.mpr (by simp))
        · intro a' ha' k' hk' p hp
          simp only [opKeys, List.mem_cons] at ha'
          rcases ha' with rfl | ha'
          · rw [ea, Except.ok.injEq] at hk'; subst hk'
            exact hmerge p hp
          · exact d3 a' ha' k' hk' p (hperm.mem_iff.mpr (by simp [hp]))
termination_by structural s => s
theorem res_op (env : TyEnv) : ∀ (o : MapOp) (kt vt : Ty), HasEntry env o kt vt → SerAllOp orderlyHere o →
    ∀ key L km, Ser.encodeOp o key L = .ok km →
    ∃ a b k v, o = .entry a b ∧ a.encode = .ok k ∧ km = (key, BTree.insert Kserd.cmp k v L) ∧
      (size env kt k ≤ wt a ∧ (size env kt k = wt a → SerAll mapsHere a) ∧ GoodD env kt k) ∧
      (size env vt v ≤ wt b ∧ (size env vt v = wt b → SerAll mapsHere b) ∧ GoodD env vt v)
  | .key _, _, _, h, _, _, _, _, _ => h.elim
  | .value _, _, _, h, _, _, _, _, _ => h.elim
  | .entry a b, kt, vt, h, ho, key, L, km, h1 => by
    simp only [Ser.encodeOp] at h1
    split at h1
    · cases h1
    · rename_i k hk
      split at h1
      · cases h1
      · rename_i v hv
        simp only [Except.ok.injEq] at h1; subst h1
        exact ⟨a, b, k, v, rfl, hk, rfl, (res env a kt h.1 ho.1).size hk, (res env b vt h.2 ho.2).size hv⟩
termination_by structural s => s
end

/-- What comes back the same was plain. -/
theorem plain_of_same {env : TyEnv} {s s' : Ser} {ty : Ty} {k : Kserd} (h : HasTy env s ty) (ho : Orderly s)
    (hk : s.encode = .ok k) (hd : decode env ty k = some s') (hs : Same s s') : Plain s := by
  obtain ⟨h1, h2⟩ := same_both s s' hs
  obtain ⟨_, h3, h4⟩ := res env s ty h ho k s' hk hd
  exact all_and plainHere_of s (h2 h4) (h3 h1.symm)

end KS.SX
