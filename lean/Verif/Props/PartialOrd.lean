import Verif.Model.PartialOrd
import Verif.Props.Order
import Verif.Props.EqExact
/-!
# The comparison operators

C79. What comes before what is `Before` of `Verif/Spec/Order.lean`.
-/

namespace KS.Props

open Spec

theorem partialThen_some (a b : Ordering) : partialThen (some a) (some b) = some (a.then b) := by cases a <;> rfl

theorem partialList_lex {α : Type} {f : α → α → Ordering} : ∀ a b : List α, partialList (fun x y => some (f x y)) a b = some (lexCmp f a b)
  | [], [] => rfl
  | [], _ :: _ => rfl
  | _ :: _, [] => rfl
  | a :: r, b :: s => by rw [partialList, partialList_lex r s, partialThen_some]; rfl

/-- **C79** (values): comparing two values of any kind, holding any numbers, always gives an answer and never panics, and the answer is that of `Ord`: the
derived `PartialOrd` of `Value` and the derived `Ord` do not differ, whatever identities the two are given. -/
theorem C79_answers (v w : Value) (i j : Option Str) : Value.partialCmp v w = some (Kserd.cmp (.mk i v) (.mk j w)) := by
  rw [Kserd.cmp]
  cases v <;> cases w <;> simp only [Value.partialCmp, Kserd.cmpV]
  · rename_i a b
    obtain ⟨o, ho⟩ := Option.isSome_iff_exists.mp (C04_never_panics a b)
    simp [Number.partialCmp, Number.cmp, ho]
  · rw [list_lex]; exact partialList_lex _ _
  · rw [fields_lex]
    simp only [Kserd.partialCmp, partialThen_some]
    exact partialList_lex _ _
  · rw [list_lex]; exact partialList_lex _ _
  · rw [map_lex]
    simp only [Kserd.partialCmp, partialThen_some]
    exact partialList_lex _ _

theorem ops_of {c : Option Ordering} {o : Ordering} (h : c = some o) :
    (opLt c = true ↔ o = .lt) ∧ (opGt c = true ↔ o.swap = .lt) ∧ (opLe c = true ↔ ¬ o.swap = .lt) ∧ (opGe c = true ↔ ¬ o = .lt) := by
  subst h; cases o <;> decide

/-- **C79** (operators on values): `<` holds exactly if the first value comes before the second, `>` exactly if the second comes before the first, and `<=`
and `>=` exactly if not the other way round. -/
theorem C79_values (v w : Value) :
    (opLt (Value.partialCmp v w) = true ↔ Before v w) ∧ (opGt (Value.partialCmp v w) = true ↔ Before w v) ∧
    (opLe (Value.partialCmp v w) = true ↔ ¬ Before w v) ∧ (opGe (Value.partialCmp v w) = true ↔ ¬ Before v w) := by
  have h := ops_of (C79_answers v w none none)
  rw [← cmp_swap, C56_order, C56_order] at h
  exact h

/-- **C79** (operators on Kserds): the same, for the values of the Kserds; identities do not count. -/
theorem C79_kserds (a b : Kserd) :
    (opLt (Kserd.partialCmp a b) = true ↔ Before a.val b.val) ∧ (opGt (Kserd.partialCmp a b) = true ↔ Before b.val a.val) ∧
    (opLe (Kserd.partialCmp a b) = true ↔ ¬ Before b.val a.val) ∧ (opGe (Kserd.partialCmp a b) = true ↔ ¬ Before a.val b.val) := by
  have h := ops_of (c := Kserd.partialCmp a b) rfl
  rw [← cmp_swap, C56_order, C56_order] at h
  exact h

/-- Applied to two containers, the first of which is a start of the second. -/
example : opLt (Value.partialCmp (.cntr [(str "a", .mk none .unit)]) (.cntr [(str "a", .mk (some (str "x")) .unit), (str "b", .mk none .unit)])) = true ∧
    Before (.cntr [(str "a", .mk none .unit)]) (.cntr [(str "a", .mk (some (str "x")) .unit), (str "b", .mk none .unit)]) := by
  have h : opLt (Value.partialCmp (.cntr [(str "a", .mk none .unit)]) (.cntr [(str "a", .mk (some (str "x")) .unit), (str "b", .mk none .unit)])) = true := by
    decide
  exact ⟨h, (C79_values _ _).1.mp h⟩

/-- **C79** (one of three): of `a < b`, `b < a` and "`a <= b` and `b <= a`" exactly one holds, for all Kserds. -/
theorem C79_trichotomy (a b : Kserd) :
    (opLt (Kserd.partialCmp a b) = true ∧ opLt (Kserd.partialCmp b a) = false ∧ opLe (Kserd.partialCmp b a) = false) ∨
    (opLt (Kserd.partialCmp b a) = true ∧ opLt (Kserd.partialCmp a b) = false ∧ opLe (Kserd.partialCmp a b) = false) ∨
    (opLe (Kserd.partialCmp a b) = true ∧ opLe (Kserd.partialCmp b a) = true ∧ opLt (Kserd.partialCmp a b) = false ∧ opLt (Kserd.partialCmp b a) = false) := by
  have h := cmp_swap a b
  simp only [Kserd.partialCmp]
  rw [h]
  generalize Kserd.cmp a b = o
  cases o <;> decide

/-- **C79** (equality): where the numbers are lawful and no container inside is empty, `==` holds exactly if both `<=` and `>=` hold, as it should. Missing
for the full claim: Kserds with other numbers or with empty containers, for which it is false (`C79_eq_disagree`). -/
theorem C79_eq_partial (a b : Kserd) (ha : AllNums lawful a) (hb : AllNums lawful b) (ea : NoEmptyCntr a) (eb : NoEmptyCntr b) :
    Kserd.eq a b = true ↔ opLe (Kserd.partialCmp a b) = true ∧ opGe (Kserd.partialCmp a b) = true := by
  rw [← C10_agree_partial a b ha hb ea eb]
  simp only [Kserd.partialCmp]
  generalize Kserd.cmp a b = o
  cases o <;> decide

/-- Applied to two sequences with numbers of different type. -/
example : opLe (Kserd.partialCmp (.mk none (.seq [.mk none (.num (.uint 3))])) (.mk none (.seq [.mk none (.num (.int 3))]))) = true :=
  ((C79_eq_partial _ _ (by simp [AllNums, All, AllV, AllL]; exact C10_integers_lawful _ (by decide) (by decide))
    (by simp [AllNums, All, AllV, AllL]; exact C10_integers_lawful _ (by decide) (by decide))
    (by simp [NoEmptyCntr, All, AllV, AllL]) (by simp [NoEmptyCntr, All, AllV, AllL])).mp (by decide)).1

/-- **C79** (equality, with empty containers): where the numbers are lawful, `==` holds exactly if both `<=` and `>=` hold once empty containers are counted
as empty tuples. Missing for the full claim: other numbers, and the empty containers as they are (`C79_eq_disagree`). -/
theorem C79_eq_emptied_partial (a b : Kserd) (ha : AllNums lawful a) (hb : AllNums lawful b) :
    Kserd.eq a b = true ↔ opLe (Kserd.partialCmp (emptied a) (emptied b)) = true ∧ opGe (Kserd.partialCmp (emptied a) (emptied b)) = true := by
  rw [C10_agree_exact a b ha hb]
  simp only [Kserd.partialCmp]
  generalize Kserd.cmp (emptied a) (emptied b) = o
  cases o <;> decide

/-- Applied to an empty tuple and an empty container. -/
example : opGe (Kserd.partialCmp (emptied (.mk none (.tuple []))) (emptied (.mk none (.cntr [])))) = true :=
  ((C79_eq_emptied_partial _ _ (by simp [AllNums, All, AllV, AllL]) (by simp [AllNums, All, AllV, AllF])).mp (by decide)).2

/-- **C79** (equality, counterexamples): an empty tuple `==` an empty container and is `<` it; `0` as an unsigned integer `==` `-0.0` and is `>` it. -/
theorem C79_eq_disagree :
    (Kserd.eq (.mk none (.tuple [])) (.mk none (.cntr [])) = true ∧
      opLt (Kserd.partialCmp (.mk none (.tuple [])) (.mk none (.cntr []))) = true) ∧
    (Kserd.eq (.mk none (.num (.uint 0))) (.mk none (.num (.float (.fin true 0)))) = true ∧
      opGt (Kserd.partialCmp (.mk none (.num (.uint 0))) (.mk none (.num (.float (.fin true 0))))) = true) := by
  decide +kernel

end KS.Props
