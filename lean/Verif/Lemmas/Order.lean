import Verif.Spec.Kserd
import Verif.Lemmas.NumEq
import Verif.Props.Numbers
/-! Lawful comparisons. -/

namespace KS

open Spec

/-- Composition of two comparison results, `o3` comparing the outer pair. -/
def Tr (o1 o2 o3 : Ordering) : Prop :=
  match o1, o2 with
  | .lt, .gt => True
  | .gt, .lt => True
  | .eq, x => o3 = x
  | x, .eq => o3 = x
  | .lt, .lt => o3 = .lt
  | .gt, .gt => o3 = .gt

instance (a b c : Ordering) : Decidable (Tr a b c) := by
  cases a <;> cases b <;> simp only [Tr] <;> infer_instance

theorem Tr_then : ∀ {a b c a' b' c' : Ordering}, Tr a b c → Tr a' b' c' →
    Tr (a.then a') (b.then b') (c.then c') := by
  intro a b c a' b' c' h h'
  cases a <;> cases b <;> simp only [Tr] at h <;> (try subst h) <;>
    cases a' <;> cases b' <;> simp only [Tr] at h' <;> (try subst h') <;>
    (try cases c) <;> (try cases c') <;> simp [Tr, Ordering.then]

theorem swap_then (a b : Ordering) : (a.then b).swap = a.swap.then b.swap := by cases a <;> rfl

theorem Tr_nat (a b c : Nat) : Tr (compare a b) (compare b c) (compare a c) := by
  rcases Nat.lt_trichotomy a b with h | h | h
  · rcases Nat.lt_trichotomy b c with h' | h' | h'
    · rw [ncompare_lt h, ncompare_lt h', ncompare_lt (by omega)]; exact rfl
    · rw [ncompare_lt h, ncompare_self h', ncompare_lt (by omega)]; exact rfl
    · rw [ncompare_lt h, ncompare_gt h']; exact trivial
  · rw [ncompare_self h, h]; exact rfl
  · rcases Nat.lt_trichotomy b c with h' | h' | h'
    · rw [ncompare_gt h, ncompare_lt h']; exact trivial
    · rw [ncompare_gt h, ncompare_self h', ncompare_gt (by omega)]; exact rfl
    · rw [ncompare_gt h, ncompare_gt h', ncompare_gt (by omega)]; exact rfl

theorem swap_nat (a b : Nat) : compare b a = (compare a b).swap := by
  rcases Nat.lt_trichotomy a b with h | h | h
  · rw [ncompare_lt h, ncompare_gt h]; rfl
  · rw [ncompare_self h, ncompare_self h.symm]; rfl
  · rw [ncompare_lt h, ncompare_gt h]; rfl

theorem eq_nat (a b : Nat) : compare a b = .eq ↔ a = b := by
  rcases Nat.lt_trichotomy a b with h | h | h
  · rw [ncompare_lt h]; simp; omega
  · simp [h]
  · rw [ncompare_gt h]; simp; omega

theorem lexCmp_tr {α : Type} {f : α → α → Ordering} (hf : ∀ a b c, Tr (f a b) (f b c) (f a c)) :
    ∀ a b c : List α, Tr (lexCmp f a b) (lexCmp f b c) (lexCmp f a c)
  | [], [], [] => rfl
  | [], [], _ :: _ => rfl
  | [], _ :: _, [] => trivial
  | [], _ :: _, _ :: _ => by
    simp only [lexCmp]; cases (f _ _).then (lexCmp f _ _) <;> simp [Tr]
  | _ :: _, [], [] => rfl
  | _ :: _, [], _ :: _ => trivial
  | _ :: _, _ :: _, [] => by
    simp only [lexCmp]; cases (f _ _).then (lexCmp f _ _) <;> simp [Tr]
  | a :: as, b :: bs, c :: cs => Tr_then (hf a b c) (lexCmp_tr hf as bs cs)

theorem lexCmp_swap {α : Type} {f : α → α → Ordering} (hf : ∀ a b, f b a = (f a b).swap) :
    ∀ a b : List α, lexCmp f b a = (lexCmp f a b).swap
  | [], [] => rfl
  | [], _ :: _ => rfl
  | _ :: _, [] => rfl
  | a :: as, b :: bs => by simp only [lexCmp, swap_then, hf a b, lexCmp_swap hf as bs]

theorem then_eq_iff (a b : Ordering) : a.then b = .eq ↔ a = .eq ∧ b = .eq := by cases a <;> simp [Ordering.then]

theorem lexCmp_eq {α : Type} {f : α → α → Ordering} (hf : ∀ a b, f a b = .eq ↔ a = b) :
    ∀ a b : List α, lexCmp f a b = .eq ↔ a = b
  | [], [] => by simp [lexCmp]
  | [], _ :: _ => by simp [lexCmp]
  | _ :: _, [] => by simp [lexCmp]
  | a :: as, b :: bs => by simp only [lexCmp, then_eq_iff, hf, lexCmp_eq hf as bs, List.cons.injEq]

theorem cmpStr_tr (a b c : Str) : Tr (cmpStr a b) (cmpStr b c) (cmpStr a c) :=
  lexCmp_tr (fun a b c => Tr_nat a.toNat b.toNat c.toNat) a b c
theorem cmpStr_swap (a b : Str) : cmpStr b a = (cmpStr a b).swap := lexCmp_swap (fun _ _ => swap_nat _ _) a b
theorem cmpStr_eq (a b : Str) : cmpStr a b = .eq ↔ a = b :=
  lexCmp_eq (fun a b => by
    rw [eq_nat]; exact ⟨fun h => Char.ext (UInt32.toNat.inj h), fun h => by rw [h]⟩) a b
theorem cmpBytes_tr (a b c : Bytes) : Tr (cmpBytes a b) (cmpBytes b c) (cmpBytes a c) :=
  lexCmp_tr (fun a b c => Tr_nat a.toNat b.toNat c.toNat) a b c
theorem cmpBytes_swap (a b : Bytes) : cmpBytes b a = (cmpBytes a b).swap := lexCmp_swap (fun _ _ => swap_nat _ _) a b
theorem cmpBytes_eq (a b : Bytes) : cmpBytes a b = .eq ↔ a = b :=
  lexCmp_eq (fun a b => by
    rw [eq_nat]; exact ⟨fun h => UInt8.toNat.inj h, fun h => by rw [h]⟩) a b

theorem Place_tr (a b c : Place) : Tr (Place.cmp a b) (Place.cmp b c) (Place.cmp a c) := by
  rcases Place.lt_total a b with h | h | h
  · rcases Place.lt_total b c with h' | h' | h'
    · rw [(Place.cmp_lt_iff _ _).mpr h, (Place.cmp_lt_iff _ _).mpr h', (Place.cmp_lt_iff _ _).mpr (Place.lt_trans h h')]
      exact rfl
    · subst h'; rw [(Place.cmp_lt_iff _ _).mpr h, (Place.cmp_eq_iff b b).mpr rfl]; exact rfl
    · rw [(Place.cmp_lt_iff _ _).mpr h, Place.cmp_swap c b, (Place.cmp_lt_iff _ _).mpr h']; exact trivial
  · subst h; rw [(Place.cmp_eq_iff a a).mpr rfl]; exact rfl
  · rcases Place.lt_total b c with h' | h' | h'
    · rw [Place.cmp_swap b a, (Place.cmp_lt_iff _ _).mpr h, (Place.cmp_lt_iff _ _).mpr h']; exact trivial
    · subst h'; rw [Place.cmp_swap b a, (Place.cmp_lt_iff _ _).mpr h, (Place.cmp_eq_iff b b).mpr rfl]; exact rfl
    · rw [Place.cmp_swap b a, (Place.cmp_lt_iff _ _).mpr h, Place.cmp_swap c b, (Place.cmp_lt_iff _ _).mpr h',
        Place.cmp_swap c a, (Place.cmp_lt_iff _ _).mpr (Place.lt_trans h' h)]
      exact rfl

attribute [local irreducible] F64.scale Spec.one F64.magLimit F64.eps F64.roundTo

theorem quirkFU_tame {f : F64} {n : Nat} (ht : tameF f) (h0 : f ≠ .fin true 0) (hn : ∀ p, f ≠ .nan true p) :
    ¬ quirkFU f n := by
  cases f with
  | nan s p => cases s <;> simp_all [quirkFU]
  | inf s => simp [quirkFU]
  | fin s m =>
    cases s with
    | true =>
      rintro ⟨h1, -⟩; subst h1; exact h0 rfl
    | false =>
      rintro ⟨h1, h2⟩
      have h3 := ht.1
      have : (n : Int) < 2 ^ 53 := by
        by_contra hh
        have : (2 : Int) ^ 53 * one ≤ n * one := mul_le_mul_of_nonneg_right (by omega) (le_of_lt one_pos)
        omega
      omega

theorem quirkFI_tame {f : F64} {n : Int} (ht : tameF f) : ¬ quirkFI f n := by
  cases f with
  | nan s p => simp [quirkFI]
  | inf s => simp [quirkFI]
  | fin s m =>
    have h3 := ht.1
    cases s with
    | true =>
      rintro ⟨h1, h2⟩
      have : -(n : Int) < 2 ^ 53 := by
        by_contra hh
        have : (2 : Int) ^ 53 * one ≤ (-n) * one := mul_le_mul_of_nonneg_right (by omega) (le_of_lt one_pos)
        rw [neg_mul] at this
        omega
      omega
    | false =>
      rintro ⟨h1, h2⟩
      have : (n : Int) < 2 ^ 53 := by
        by_contra hh
        have : (2 : Int) ^ 53 * one ≤ n * one := mul_le_mul_of_nonneg_right (by omega) (le_of_lt one_pos)
        omega
      omega

theorem lawful_cmp {a b : Number} (ha : lawful a) (hb : lawful b) :
    Number.cmp a b = Place.cmp (place a) (place b) := by
  have : ¬ quirk a b := by
    cases a with
    | uint l => cases b with
      | float f => exact quirkFU_tame hb.2.1 (fun h => hb.2.2.1 (by rw [h])) (fun p h => hb.2.2.2 p (by rw [h]))
      | _ => exact fun h => h
    | int l => cases b with
      | float f => exact quirkFI_tame hb.2.1
      | _ => exact fun h => h
    | float f => cases b with
      | uint n => exact quirkFU_tame ha.2.1 (fun h => ha.2.2.1 (by rw [h])) (fun p h => ha.2.2.2 p (by rw [h]))
      | int n => exact quirkFI_tame ha.2.1
      | float g => exact fun h => h
  rw [Number.cmp, (Props.C04_line_iff a b ha.1 hb.1).mpr this]; rfl

theorem lawful_eq {a b : Number} (ha : lawful a) (hb : lawful b) :
    Number.eq a b = true ↔ place a = place b := eq_tame a b ha.1 hb.1 ha.2.1 hb.2.1

theorem Number.cmp_swap (a b : Number) : Number.cmp b a = (Number.cmp a b).swap := by
  have h := Props.C04_antisymm a b
  have h2 := Props.C04_never_panics a b
  obtain ⟨o, ho⟩ := Option.isSome_iff_exists.mp h2
  rw [Number.cmp, Number.cmp, h, ho]; rfl

/-- Injective code of a place. -/
def encPlace : Place → Nat
  | .negInf => 0
  | .posInf => 1
  | .nan => 2
  | .fin (.ofNat x) => 3 + 2 * x
  | .fin (.negSucc x) => 4 + 2 * x

theorem encPlace_inj {a b : Place} : encPlace a = encPlace b ↔ a = b := by
  refine ⟨fun h => ?_, fun h => by rw [h]⟩
  rcases a with _ | (x | x) | _ | _ <;> rcases b with _ | (y | y) | _ | _ <;> simp only [encPlace] at h <;>
    first
    | rfl
    | omega
    | (have : x = y := by omega
       rw [this])

end KS
