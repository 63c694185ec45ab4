import Verif.Spec.NumPrim
import Verif.Props.Numbers
import Verif.Props.Float32Exact
/-!
# C78: comparing a number with a number of a Rust type
-/

namespace KS.Props
open KS.Spec KS.F32

/-- **C78.** `partial_cmp` always has an answer. -/
theorem C78_answers (a b : Number) (r : RNum) : (∃ o, a.partialCmp b = some (some o)) ∧ ∃ o, a.partialCmpR r = some (some o) := by
  obtain ⟨o, ho⟩ := Option.isSome_iff_exists.mp (C04_never_panics a b)
  obtain ⟨p, hp⟩ := Option.isSome_iff_exists.mp (C04_never_panics a r.number)
  exact ⟨⟨o, by rw [Number.partialCmp, ho]; rfl⟩, p, by rw [Number.partialCmpR, hp]; rfl⟩

/-- **C78.** An integer compares with an integer of a Rust type as integers do. -/
theorem C78_integers (a : Number) (ha : a.WF) (x y : Int) (hx : intVal a = some x) (r : RNum) (hr : RNumOk r) (hy : (∃ n : Nat, r = .unsigned n ∧ y = n) ∨ r = .signed y) :
    (a.eqR r = true ↔ x = y) ∧ a.partialCmpR r = some (some (if x < y then .lt else if y < x then .gt else .eq)) := by
  have h1 : intVal r.number = some y := by
    rcases hy with ⟨n, rfl, rfl⟩ | rfl <;> rfl
  have h2 : r.number.WF := by
    rcases hy with ⟨n, rfl, rfl⟩ | rfl
    · have : n < 2 ^ 128 := hr
      show n ≤ 2 ^ 128 - 1; omega
    · have : - 2 ^ 127 ≤ y ∧ y < 2 ^ 127 := hr
      exact ⟨this.1, by show y ≤ 2 ^ 127 - 1; omega⟩
  exact ⟨C01_int_eq a _ x y ha h2 hx h1, by rw [Number.partialCmpR, C01_int_cmp a _ x y hx h1]; rfl⟩

example : Number.WF (.int 7) ∧ RNumOk (.unsigned 7) ∧ intVal (.int 7) = some 7 ∧ Number.eqR (.int 7) (.unsigned 7) = true ∧
    Number.partialCmpR (.int (-1)) (.unsigned (2 ^ 128 - 1)) = some (some .lt) := by decide +kernel

/-- **C78.** Comparing with anything but an `f32` follows the number line, but for the pairs of C04. -/
theorem C78_line_iff (a : Number) (ha : a.WF) (r : RNum) (hr : RNumOk r) (hf : ∀ x, r ≠ .f32 x) :
    a.partialCmpR r = some (some (Place.cmp (place a) (placeR r))) ↔ ¬ quirk a r.number := by
  have h1 : placeR r = place r.number := by
    cases r with
    | f32 x => exact absurd rfl (hf x)
    | _ => rfl
  have h2 : r.number.WF := by
    cases r with
    | f32 x => exact absurd rfl (hf x)
    | f64 x => exact hr
    | unsigned n =>
      have : n < 2 ^ 128 := hr
      show n ≤ 2 ^ 128 - 1; omega
    | signed y =>
      have : - 2 ^ 127 ≤ y ∧ y < 2 ^ 127 := hr
      exact ⟨this.1, by show y ≤ 2 ^ 127 - 1; omega⟩
  rw [h1, ← C04_line_iff a _ ha h2, Number.partialCmpR]
  cases Number.cmp? a r.number with
  | none => simp
  | some o => simp

/-- **C78.** A float equals an integer of a Rust type of at most 53 bits if and only if the two are the same number. -/
theorem C78_float_integer (f : F64) (y : Int) (hy : y.natAbs ≤ 2 ^ 53) (r : RNum) (hr : (∃ n : Nat, r = .unsigned n ∧ y = n) ∨ r = .signed y) :
    Number.eqR (.float f) r = true ↔ placeF f = .fin (y * one) := by
  have key : ∀ (neg : Bool) (n : Nat), n ≤ 2 ^ 53 → (F64.ieeeEq f (F64.ofRat neg n 1) = true ↔ placeF f = .fin (F64.sval neg n * one)) := by
    intro neg n hn
    obtain ⟨m', h1, h2, _⟩ := ofRat_int neg n (Nat.le_trans hn (by decide))
    rw [ieeeEq_iff, h1, placeF_fin, h2 hn, sval_int]
    constructor
    · exact fun h => h.1
    · exact fun h => ⟨h, by rw [h]; simp⟩
  rcases hr with ⟨n, rfl, rfl⟩ | rfl
  · exact key false n (by simpa using hy)
  · have := key (decide (y < 0)) y.natAbs hy
    rw [sval_natAbs] at this
    exact this

example : (2 ^ 53 : Int).natAbs ≤ 2 ^ 53 ∧ Number.eqR (.float (.fin false (2 ^ 53 * 2 ^ 1074))) (.signed (2 ^ 53)) = true ∧
    Number.eqR (.float (.fin true (2 ^ 1073))) (.signed 0) = false := by decide +kernel

/-- **C78**, beyond 53 bits: `Number::from(2f64.powi(53)) == 2u64.pow(53) + 1` holds. -/
theorem C78_beyond : Number.eqR (.float (.fin false (2 ^ 53 * 2 ^ 1074))) (.unsigned (2 ^ 53 + 1)) = true := by decide +kernel

/-! ### `f32` -/

/-- The representable magnitudes are at least a unit apart. -/
theorem apart {m m' : Nat} (hm : F32.RepMag m) (hm' : F32.RepMag m') (h : m < m') : m + ulp (m' - 1) ≤ m' ∧ ulp m ≤ ulp (m' - 1) := by
  have hmono : m.log2 ≤ (m' - 1).log2 := by
    rcases Nat.eq_zero_or_pos m with rfl | h0
    · simp
    · exact (Nat.le_log2 (by omega)).mpr (by have := Nat.log2_self_le (n := m) (by omega); omega)
  have hmono' : (m' - 1).log2 ≤ m'.log2 := by
    rcases Nat.eq_zero_or_pos (m' - 1) with h0 | h0
    · rw [h0]; simp
    · exact (Nat.le_log2 (by omega)).mpr (by have := Nat.log2_self_le (n := m' - 1) (by omega); omega)
  have hu : ulp m ≤ ulp (m' - 1) := Nat.pow_le_pow_right (by decide) (by omega)
  refine ⟨?_, hu⟩
  have hd' : ulp (m' - 1) ∣ m' := dvd_trans (pow_dvd_pow 2 (by omega)) hm'.2
  have step : ∀ x, ulp (m' - 1) ∣ x → x < m' → x + ulp (m' - 1) ≤ m' := by
    intro x hx hlt
    have := Nat.le_of_dvd (by omega) (Nat.dvd_sub hd' hx)
    omega
  by_cases hlog : (m' - 1).log2 - 23 ≤ m.log2 - 23
  · exact step m (dvd_trans (pow_dvd_pow 2 hlog) hm.2) h
  · have h1 : (m' - 1) ≠ 0 := by
      intro e; rw [e] at hlog; simp at hlog
    have h2 := Nat.log2_self_le h1
    have h3 : m < 2 ^ (m' - 1).log2 := by
      have := Nat.lt_log2_self (n := m)
      have h4 : m.log2 + 1 ≤ (m' - 1).log2 := by omega
      have := Nat.pow_le_pow_right (n := 2) (by decide) h4
      omega
    have := step (2 ^ (m' - 1).log2) (pow_dvd_pow 2 (by omega)) (by omega)
    omega

set_option exponentiation.threshold 3000 in
theorem special_apart (s : Bool) : F32.toF64 (.fin s (11420669 * 2 ^ 42)) ≠ F32.toF64 (.fin s (11420670 * 2 ^ 42)) ∧
    F32.ofF64 (F32.toF64 (.fin s (11420669 * 2 ^ 42))) = .fin s (11420670 * 2 ^ 42) := by
  cases s <;> decide +kernel

set_option exponentiation.threshold 3000 in
/-- Different magnitudes of `f32` become different `f64`s. -/
theorem toF64_inj (s : Bool) {m m' : Nat} (hm : F32.RepMag m) (hm' : F32.RepMag m') (h : F32.toF64 (.fin s m) = F32.toF64 (.fin s m')) : m = m' := by
  obtain ⟨hs1, hs2⟩ := special_apart s
  by_cases h1 : m = 11420669 * 2 ^ 42
  · by_cases h2 : m' = 11420669 * 2 ^ 42
    · rw [h1, h2]
    · have h3 := C47_survives s m' hm' h2
      rw [← h, h1, hs2] at h3
      have h4 := (F32.fin.inj h3).2
      rw [h1, ← h4] at h
      exact absurd h hs1
  · have h3 := C47_survives s m hm h1
    by_cases h2 : m' = 11420669 * 2 ^ 42
    · rw [h, h2, hs2] at h3
      have h4 := (F32.fin.inj h3).2
      rw [h2, ← h4] at h
      exact absurd h.symm hs1
    · rw [h, C47_survives s m' hm' h2] at h3
      exact (F32.fin.inj h3).2.symm

theorem toF64_lt (s : Bool) {m m' : Nat} (hm : F32.RepMag m) (hm' : F32.RepMag m') (h : m < m') :
    ∃ M M', F32.toF64 (.fin s m) = .fin s M ∧ F32.toF64 (.fin s m') = .fin s M' ∧ M < M' := by
  obtain ⟨M, e1, h1, _⟩ := toF64_between s m hm
  obtain ⟨M', e2, _, h2⟩ := toF64_between s m' hm'
  refine ⟨M, M', e1, e2, ?_⟩
  have h2 := h2 (by omega)
  obtain ⟨a1, a2⟩ := apart hm hm' h
  have hne : M ≠ M' := by
    intro e
    have := toF64_inj s hm hm' (by rw [e1, e2, e])
    omega
  have h3 : (2 * m + ulp m) * 2 ^ 924 + ulp (m' - 1) * 2 ^ 924 ≤ 2 * m' * 2 ^ 924 := by
    rw [← Nat.add_mul]
    exact Nat.mul_le_mul_right _ (by omega)
  generalize ulp (m' - 1) * 2 ^ 924 = A at *
  generalize (2 * m + ulp m) * 2 ^ 924 = B at *
  generalize 2 * m' * 2 ^ 924 = C at *
  omega

/-- The magnitude of the `f64` that an `f32` of magnitude `m` becomes. -/
def wide (m : Nat) : Nat := F64.roundTo (F32.shortest m) F32.decScale

theorem wide_eq (s : Bool) {m : Nat} (hm : F32.RepMag m) : F32.toF64 (.fin s m) = .fin s (wide m) := by
  obtain ⟨M, e, _⟩ := toF64_between s m hm
  have e' := e
  unfold F32.toF64 at e
  rw [toF64?_fin, Option.getD_some, F64.ofRat_eq] at e
  split at e
  · cases e
  · rw [e', ← (F64.fin.inj e).2]; rfl

theorem wide_lt {m m' : Nat} (hm : F32.RepMag m) (hm' : F32.RepMag m') : wide m < wide m' ↔ m < m' := by
  have key : ∀ {a b : Nat}, F32.RepMag a → F32.RepMag b → a < b → wide a < wide b := by
    intro a b ha hb h
    obtain ⟨M, M', e1, e2, h3⟩ := toF64_lt false ha hb h
    rw [wide_eq false ha] at e1
    rw [wide_eq false hb] at e2
    rw [(F64.fin.inj e1).2, (F64.fin.inj e2).2]; exact h3
  constructor
  · intro h
    rcases Nat.lt_trichotomy m m' with h1 | h1 | h1
    · exact h1
    · rw [h1] at h; omega
    · have := key hm' hm h1; omega
  · exact key hm hm'

theorem wide_zero : wide 0 = 0 := by decide +kernel

theorem rep_zero : F32.RepMag 0 := by decide +kernel

theorem wide_pos {m : Nat} (hm : F32.RepMag m) : 0 < wide m ↔ 0 < m := by
  have := wide_lt rep_zero hm
  rwa [wide_zero] at this

theorem place_lt (x y : F32) (hx : x.WF) (hy : y.WF) : (placeF x.toF64).lt (placeF y.toF64) ↔ (placeF32 x).lt (placeF32 y) := by
  have hinf : ∀ s, F32.toF64 (.inf s) = .inf s := by intro s; cases s <;> decide
  have hnan : ∀ s p, placeF (F32.toF64 (.nan s p)) = .nan := by intro s p; rfl
  have hK : (0 : Int) < 2 ^ 925 := Int.pow_pos (by decide)
  cases x with
  | nan s p => rw [hnan]; simp [placeF32, Place.lt]
  | inf s =>
    rw [hinf]
    cases y with
    | nan s' p => rw [hnan]; cases s <;> simp [placeF32, placeF, Place.lt]
    | inf s' => rw [hinf]; cases s <;> cases s' <;> simp [placeF32, placeF, Place.lt]
    | fin s' m' => rw [wide_eq s' hy]; cases s <;> cases s' <;> simp [placeF32, placeF, Place.lt]
  | fin s m =>
    rw [wide_eq s hx]
    cases y with
    | nan s' p => rw [hnan]; cases s <;> simp [placeF32, placeF, Place.lt]
    | inf s' => rw [hinf]; cases s <;> cases s' <;> simp [placeF32, placeF, Place.lt]
    | fin s' m' =>
      rw [wide_eq s' hy]
      have h1 := wide_lt hx hy
      have h2 := wide_lt hy hx
      have h3 := wide_pos hx
      have h4 := wide_pos hy
      have hp : ∀ a b : Int, (a * 2 ^ 925 < b * 2 ^ 925 ↔ a < b) := fun a b => Int.mul_lt_mul_right hK
      have hn : ∀ a : Int, -(a * 2 ^ 925) = -a * 2 ^ 925 := fun a => (Int.neg_mul a _).symm
      cases s <;> cases s' <;> simp only [placeF32, placeF, Place.lt, hn, hp] <;> omega

/-- **C78.** An `f32` made into a number compares with another `f32` as the two `f32`s do, also the one that does not come back (C47). -/
theorem C78_f32_order (x y : F32) (hx : x.WF) (hy : y.WF) :
    (RNum.f32 x).number.partialCmpR (.f32 y) = some (some (Place.cmp (placeF32 x) (placeF32 y))) ∧
    ((RNum.f32 x).number.eqR (.f32 y) = true ↔ placeF32 x = placeF32 y) := by
  have h : Place.cmp (placeF x.toF64) (placeF y.toF64) = Place.cmp (placeF32 x) (placeF32 y) := by
    unfold Place.cmp
    by_cases h1 : (placeF32 x).lt (placeF32 y)
    · rw [if_pos h1, if_pos ((place_lt x y hx hy).mpr h1)]
    · rw [if_neg h1, if_neg (fun h => h1 ((place_lt x y hx hy).mp h))]
      by_cases h2 : (placeF32 y).lt (placeF32 x)
      · rw [if_pos h2, if_pos ((place_lt y x hy hx).mpr h2)]
      · rw [if_neg h2, if_neg (fun h => h2 ((place_lt y x hy hx).mp h))]
  obtain ⟨h1, h2⟩ := C02_float_line x.toF64 y.toF64
  refine ⟨?_, ?_⟩
  · show (Number.cmp? (.float x.toF64) (.float y.toF64)).map some = _
    rw [h1, h]; rfl
  · show Number.eq (.float x.toF64) (.float y.toF64) = true ↔ _
    rw [h2, ← Place.cmp_eq_iff, h, Place.cmp_eq_iff]

/-- The two `f32`s next to `7.038531e-26`. -/
example : F32.WF (.fin false (11420669 * 2 ^ 42)) ∧ F32.WF (.fin false (11420670 * 2 ^ 42)) ∧
    (RNum.f32 (.fin false (11420669 * 2 ^ 42))).number.partialCmpR (.f32 (.fin false (11420670 * 2 ^ 42))) = some (some .lt) := by
  decide +kernel

/-- **C78**, the surprise: a number equals `0.1f32` when it was made from `0.1f64`, and not when it was made from `0.1f32 as f64`, which is the same
real number as `0.1f32`. -/
theorem C78_f32_by_text : ∃ (x : F32) (a b : F64), x.WF ∧ a.WF ∧ b.WF ∧ x.disp = str "0.1" ∧ a.disp = str "0.1" ∧ placeF b = placeF32 x ∧
    Number.eqR (.float a) (.f32 x) = true ∧ Number.eqR (.float b) (.f32 x) = false := by
  refine ⟨.fin false (13421773 * 2 ^ 122), .fin false (7205759403792794 * 2 ^ 1018), .fin false (13421773 * 2 ^ 1047), ?_⟩
  decide +kernel

end KS.Props
