import Verif.Model.Num
/-!
# Specification of the number line

The documented order of numbers (`/repo/src/ds/num.rs` 90-96, 305-318 docs): `[-inf, .., 0, .., +inf, NaN]`.
A place is written without reference to the comparison code. Finite places are exact: the value
times `2^1074`, an integer for every integer and every `f64`.
-/

namespace KS.Spec

/-- A place on the documented number line. -/
inductive Place where
  | negInf
  | fin (x : Int)
  | posInf
  | nan
deriving DecidableEq, Repr

/-- Strictly to the left of. -/
def Place.lt : Place → Place → Prop
  | .negInf, .negInf => False
  | .negInf, _ => True
  | .fin _, .negInf => False
  | .fin x, .fin y => x < y
  | .fin _, _ => True
  | .posInf, .nan => True
  | .posInf, _ => False
  | .nan, _ => False

instance : (a b : Place) → Decidable (a.lt b)
  | .negInf, b => by cases b <;> simp only [Place.lt] <;> infer_instance
  | .fin _, b => by cases b <;> simp only [Place.lt] <;> infer_instance
  | .posInf, b => by cases b <;> simp only [Place.lt] <;> infer_instance
  | .nan, b => by cases b <;> simp only [Place.lt] <;> infer_instance

/-- Order of two places. -/
def Place.cmp (a b : Place) : Ordering := if a.lt b then .lt else if b.lt a then .gt else .eq

theorem Place.lt_irrefl (a : Place) : ¬ a.lt a := by cases a <;> simp [Place.lt]

theorem Place.lt_trans {a b c : Place} : a.lt b → b.lt c → a.lt c := by
  cases a <;> cases b <;> cases c <;> simp [Place.lt] <;> omega

theorem Place.lt_total (a b : Place) : a.lt b ∨ a = b ∨ b.lt a := by
  cases a <;> cases b <;> simp [Place.lt] <;> omega

/-- One unit in scaled values. -/
def one : Int := 2 ^ 1074

/-- Place of an `f64` (both zeros share a place, so do all NaNs). -/
def placeF : F64 → Place
  | .nan _ _ => .nan
  | .inf true => .negInf
  | .inf false => .posInf
  | .fin true m => .fin (- (m : Int))
  | .fin false m => .fin (m : Int)

/-- Place of a `Number`. -/
def place : Number → Place
  | .uint n => .fin ((n : Int) * one)
  | .int i => .fin (i * one)
  | .float f => placeF f

/-- The integer denoted by an integer `Number`. -/
def intVal : Number → Option Int
  | .uint n => some n
  | .int i => some i
  | .float _ => none

/-- The pairs (float, integer) whose comparison leaves the documented line: `-0.0` and a NaN with
its sign bit set against unsigned integers, and finite floats beyond the integer type's range
against that type's extreme value. -/
def quirkFU : F64 → Nat → Prop
  | .nan s _, _ => s = true
  | .inf _, _ => False
  | .fin true m, r => m = 0 ∧ r = 0
  | .fin false m, r => r = 2 ^ 128 - 1 ∧ (r : Int) * one < m

/-- As `quirkFU`, for signed integers. -/
def quirkFI : F64 → Int → Prop
  | .nan _ _, _ => False
  | .inf _, _ => False
  | .fin true m, r => r = - 2 ^ 127 ∧ - (m : Int) < r * one
  | .fin false m, r => r = 2 ^ 127 - 1 ∧ r * one < m

/-- All pairs whose comparison leaves the documented line. -/
def quirk : Number → Number → Prop
  | .float f, .uint n => quirkFU f n
  | .uint n, .float f => quirkFU f n
  | .float f, .int i => quirkFI f i
  | .int i, .float f => quirkFI f i
  | _, _ => False

/-- Floats on which equality with integers is exact: not finite, or of magnitude below `2^53` and
either integral or at least `1e-10` (the `f64`) away from every integer. -/
def tameF : F64 → Prop
  | .fin _ m => (m : Int) < 2 ^ 53 * one ∧
      ((∃ k : Nat, (m : Int) = k * one) ∨
        ∀ k : Nat, 7737125245533627 * 2 ^ 988 ≤ ((m : Int) - k * one).natAbs)
  | _ => True

def tame : Number → Prop
  | .float f => tameF f
  | _ => True

end KS.Spec
