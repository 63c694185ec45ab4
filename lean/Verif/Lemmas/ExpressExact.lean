import Verif.Lemmas.ExpressRange
import Mathlib.Data.Finset.Card
/-!
# Values between delimiters: exactly which can be written
-/

namespace KS.EX
open KS.Spec KS.Spec.Ex KS.P
open KS.GR hiding Stop Stops

/-- The part of `Spellable` that other theorems about what is read do not tell. -/
def IdBool (k : Kserd) : Prop :=
  (∀ i, k.id = some i → ValidName i) ∧
  match k.val with
  | .tuple _ | .seq _ | .map _ => ∀ i, k.id = some i → NotBool i
  | .cntr f => (∀ i, k.id = some i → NotBool i) ∧ f ≠ [] ∧ (∀ p ∈ f, ∀ c ∈ p.1, NameChar c) ∧ Ascending cmpStr f
  | _ => True

theorem assigns_names (b : Assigns) {c : Bool} {rest : Str} {l : List (Str × Kserd)} (hr : b.Reads c rest) (h : b.Means l) :
    ∀ p ∈ l, ∀ c ∈ p.1, NameChar c := by
  cases b with
  | nil => subst h; simp
  | cons pre n mid gap t post r =>
    obtain ⟨k, l', h1, h2, rfl⟩ := h
    exact List.forall_mem_cons.mpr ⟨hr.2.1, assigns_names r hr.2.2.2.2.2.2.2 h2⟩
termination_by structural b

mutual
theorem tree_ids (T : Spec.Tree) {inl : Bool} {rest : Str} {k : Kserd} (hr : T.Reads inl rest) (h : T.Means k) : All IdBool k := by
  cases T with
  | prim id w l =>
    have h : k = .mk id l.value := h
    subst h
    exact ⟨⟨hr.1, by cases l <;> trivial⟩, by cases l <;> trivial⟩
  | tuple id w c lead b =>
    obtain ⟨l, h1, rfl⟩ := h
    exact ⟨⟨hr.1, hr.2.2.2.1⟩, (PG.allL_iff _ _).mpr (elems_ids b hr.2.2.2.2.2.2.2.2 h1)⟩
  | seq id w c lead b =>
    obtain ⟨l, h1, rfl⟩ := h
    exact ⟨⟨hr.1, hr.2.2.2.1⟩, (PG.allL_iff _ _).mpr (elems_ids b hr.2.2.2.2.2.2 h1)⟩
  | cntr id w c lead b =>
    have hf := tree_full _ hr h
    obtain ⟨l, f, h1, h2, rfl⟩ := h
    refine ⟨⟨hr.1, hr.2.2.2.1, hf.1, fun p hp => ?_, h2.1⟩, (PG.allF_iff _ _).mpr fun p hp => ?_⟩
    · obtain ⟨x, y, e, -⟩ := (h2.2 p).mp hp
      exact assigns_names b hr.2.2.2.2.2.2.2 h1 p (by rw [e]; simp)
    · obtain ⟨x, y, e, -⟩ := (h2.2 p).mp hp
      exact assigns_ids b hr.2.2.2.2.2.2.2 h1 p (by rw [e]; simp)
  | map id w c lead b =>
    obtain ⟨l, m, h1, h2, rfl⟩ := h
    have hb := hr.2.2.2.2.2.2
    exact ⟨⟨hr.1, hr.2.2.2.1⟩, (PG.allM_iff _ _).mpr fun p hp => pairs_ids b hb h1 p (h2.1 p hp)⟩
termination_by structural T
theorem elems_ids (b : Elems) {c : Bool} {rest : Str} {l : List Kserd} (hr : b.Reads c rest) (h : b.Means l) : ∀ k ∈ l, All IdBool k := by
  cases b with
  | nil => subst h; simp
  | cons pre t post r =>
    obtain ⟨k, l', h1, h2, rfl⟩ := h
    exact List.forall_mem_cons.mpr ⟨tree_ids t hr.2.1 h1, elems_ids r hr.2.2.2 h2⟩
termination_by structural b
theorem assigns_ids (b : Assigns) {c : Bool} {rest : Str} {l : List (Str × Kserd)} (hr : b.Reads c rest) (h : b.Means l) : ∀ p ∈ l, All IdBool p.2 := by
  cases b with
  | nil => subst h; simp
  | cons pre n mid gap t post r =>
    obtain ⟨k, l', h1, h2, rfl⟩ := h
    exact List.forall_mem_cons.mpr ⟨tree_ids t hr.2.2.2.2.2.1 h1, assigns_ids r hr.2.2.2.2.2.2.2 h2⟩
termination_by structural b
theorem pairs_ids (b : Pairs) {c : Bool} {rest : Str} {l : List (Kserd × Kserd)} (hr : b.Reads c rest) (h : b.Means l) :
    ∀ p ∈ l, All IdBool p.1 ∧ All IdBool p.2 := by
  cases b with
  | nil => subst h; simp
  | cons pre key mid gap v post r =>
    obtain ⟨k, x, l', h1, h2, h3, rfl⟩ := h
    exact List.forall_mem_cons.mpr ⟨⟨tree_ids key hr.2.1 h1, tree_ids v hr.2.2.2.2.1 h2⟩, pairs_ids r hr.2.2.2.2.2.2 h3⟩
termination_by structural b
end

mutual
theorem all_both {P Q R : Kserd → Prop} (h : ∀ k, P k → Q k → R k) : ∀ k, All P k → All Q k → All R k
  | .mk _ v, a, b => ⟨h _ a.1 b.1, all_bothV h v a.2 b.2⟩
termination_by structural k => k
theorem all_bothV {P Q R : Kserd → Prop} (h : ∀ k, P k → Q k → R k) : ∀ v, AllV P v → AllV Q v → AllV R v
  | .unit, _, _ => trivial
  | .bool _, _, _ => trivial
  | .num _, _, _ => trivial
  | .str _, _, _ => trivial
  | .barr _, _, _ => trivial
  | .tuple l, a, b => all_bothL h l a b
  | .seq l, a, b => all_bothL h l a b
  | .cntr f, a, b => all_bothF h f a b
  | .map m, a, b => all_bothM h m a b
termination_by structural v => v
theorem all_bothL {P Q R : Kserd → Prop} (h : ∀ k, P k → Q k → R k) : ∀ l, AllL P l → AllL Q l → AllL R l
  | [], _, _ => trivial
  | k :: r, a, b => ⟨all_both h k a.1 b.1, all_bothL h r a.2 b.2⟩
termination_by structural l => l
theorem all_bothF {P Q R : Kserd → Prop} (h : ∀ k, P k → Q k → R k) : ∀ l, AllF P l → AllF Q l → AllF R l
  | [], _, _ => trivial
  | (_, k) :: r, a, b => ⟨all_both h k a.1 b.1, all_bothF h r a.2 b.2⟩
termination_by structural l => l
theorem all_bothM {P Q R : Kserd → Prop} (h : ∀ k, P k → Q k → R k) : ∀ l, AllM P l → AllM Q l → AllM R l
  | [], _, _ => trivial
  | (k, v) :: r, a, b => ⟨all_both h k a.1 b.1, all_both h v a.2.1 b.2.1, all_bothM h r a.2.2 b.2.2⟩
termination_by structural l => l
end

/-- What a tree stands for is spellable. -/
theorem tree_spellable {T : Spec.Tree} {inl : Bool} {rest : Str} {k : Kserd} (hr : T.Reads inl rest) (h : T.Means k) : All Spellable k := by
  refine all_both (fun k a b => ?_) k (tree_ids T hr h) (tree_read T hr h)
  obtain ⟨id, v⟩ := k
  refine ⟨a.1, ?_⟩
  cases v with
  | num n => exact b
  | tuple l => exact ⟨a.2, b.1⟩
  | seq l => exact a.2
  | map m => exact a.2
  | cntr f => exact a.2
  | _ => trivial

/-- A root that is not a container is a tree. -/
theorem root_spellable {s : Str} {k : Kserd} (h : parse s = .ok k) (hk : ∀ f, k.val ≠ .cntr f) : All Spellable k := by
  obtain ⟨D, w, -, -, hr, hm⟩ := parse_sound h
  cases D with
  | value u t => exact tree_spellable hr.2.1 hm
  | lines l =>
    obtain ⟨its, -, f, rfl, -⟩ := hm
    exact absurd rfl (hk f)

/-- Among 2²⁰ characters, one does not occur in a shorter string. -/
theorem free {s : Str} (h : s.length < 2 ^ 20) : ∃ d, Delim d ∧ d ∉ s := by
  have valid : ∀ i, i < 2 ^ 20 → (0x10000 + i).isValidChar := fun i hi => .inr ⟨by omega, by omega⟩
  have val : ∀ i, i < 2 ^ 20 → (Char.ofNat (0x10000 + i)).toNat = 0x10000 + i := fun i hi => by
    rw [Char.ofNat, dif_pos (valid i hi)]
    rfl
  by_contra hc
  have hs : ∀ i, i < 2 ^ 20 → Char.ofNat (0x10000 + i) ∈ s := by
    intro i hi
    by_contra hn
    refine hc ⟨_, ⟨?_, ?_⟩, hn⟩
    · have lt : ∀ {a b : Char}, a ≤ b → a.toNat ≤ b.toNat := fun h => h
      rintro ((⟨-, h⟩ | ⟨-, h⟩) | ⟨-, h⟩ | h | h)
      · have := lt h; rw [val i hi] at this; exact absurd this (by simp only [show 'z'.toNat = 122 from rfl]; omega)
      · have := lt h; rw [val i hi] at this; exact absurd this (by simp only [show 'Z'.toNat = 90 from rfl]; omega)
      · have := lt h; rw [val i hi] at this; exact absurd this (by simp only [show '9'.toNat = 57 from rfl]; omega)
      · have := congrArg Char.toNat h; rw [val i hi] at this; exact absurd this (by simp only [show '-'.toNat = 45 from rfl]; omega)
      · have := congrArg Char.toNat h; rw [val i hi] at this; exact absurd this (by simp only [show '_'.toNat = 95 from rfl]; omega)
    · intro h
      have small : ∀ c ∈ str " \t\r\n([{=", c.toNat < 128 := by decide
      have := small _ h
      rw [val i hi] at this
      omega
  have : ((Finset.range (2 ^ 20)).image fun i => Char.ofNat (0x10000 + i)) ⊆ s.toFinset := by
    intro c hc
    obtain ⟨i, hi, rfl⟩ := Finset.mem_image.mp hc
    exact List.mem_toFinset.mpr (hs i (Finset.mem_range.mp hi))
  have := Finset.card_le_card this
  rw [Finset.card_image_of_injOn, Finset.card_range] at this
  · exact absurd (this.trans (List.toFinset_card_le s)) (by omega)
  · intro i hi j hj e
    have := congrArg Char.toNat e
    simp only at this
    rw [val i (Finset.mem_range.mp hi), val j (Finset.mem_range.mp hj)] at this
    omega

/-- What is granted and spellable can be written. -/
theorem node_of {k : Kserd} (hg : All Granted k) (h : All Spellable k) : All Node k :=
  all_both (fun k a b => by
    obtain ⟨id, v⟩ := k
    refine ⟨b.1, ?_⟩
    cases v with
    | num n => exact ⟨b.2, a⟩
    | str s => exact free a
    | tuple l => exact b.2
    | seq l => exact b.2
    | map m => exact ⟨b.2, a⟩
    | cntr f => exact b.2
    | _ => trivial) k hg h

end KS.EX
