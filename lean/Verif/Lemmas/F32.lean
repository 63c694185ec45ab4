import Verif.Model.F32
import Verif.Lemmas.NumText
/-! Rounding to `f32`, and why a decimal that reads as an `f32` mostly survives a detour through `f64`. -/

namespace KS.F32

open F64 (rneDiv rneDiv_mul rneDiv_ge rneDiv_le log2_mono log2_lt_of_lt log2_two_pow)

theorem scale_pos : 0 < scale := by unfold scale; exact Nat.pow_pos (by decide)

/-- The scaled magnitude computed by `ofRat` before the overflow test. -/
def roundTo (n d : Nat) : Nat :=
  rneDiv (n * scale) (d * 2 ^ ((n * scale / d).log2 - 23)) * 2 ^ ((n * scale / d).log2 - 23)

theorem ofRat_eq (neg : Bool) (n d : Nat) :
    ofRat neg n d = if magLimit ≤ roundTo n d then .inf neg else .fin neg (roundTo n d) := rfl

theorem ofRat_neg {n d m : Nat} (neg : Bool) {s : Bool} (h : ofRat s n d = .fin s m) :
    ofRat neg n d = .fin neg m := by
  rw [ofRat_eq] at h ⊢
  split at h
  · cases h
  · rename_i hh
    rw [if_neg hh]
    simp only [fin.injEq, true_and] at h
    rw [h]

/-- Half-unit bounds of nearest rounding. -/
theorem rneDiv_near {a b : Nat} (hb : 0 < b) :
    2 * a ≤ (2 * rneDiv a b + 1) * b ∧ (2 * rneDiv a b) * b ≤ 2 * a + b := by
  have hd := Nat.div_add_mod a b
  have hm := Nat.mod_lt a hb
  have key : ∀ q r, b * q + r = a → r < b →
      (2 * a ≤ (2 * (if 2 * r < b then q else if b < 2 * r then q + 1 else if q % 2 = 0 then q else q + 1) + 1) * b
      ∧ (2 * (if 2 * r < b then q else if b < 2 * r then q + 1 else if q % 2 = 0 then q else q + 1)) * b ≤ 2 * a + b) := by
    intro q r h1 h2
    have e1 : (2 * q + 1) * b = 2 * (b * q) + b := by ring
    have e2 : (2 * (q + 1) + 1) * b = 2 * (b * q) + 3 * b := by ring
    have e3 : 2 * q * b = 2 * (b * q) := by ring
    have e4 : 2 * (q + 1) * b = 2 * (b * q) + 2 * b := by ring
    split
    · omega
    split
    · omega
    split <;> omega
  exact key _ _ hd hm

/-- A value at most half a unit above an even multiple, or less than half above any, rounds to it. -/
theorem rneDiv_above {a b k : Nat} (hb : 0 < b) (h1 : k * b ≤ a) (h2 : 2 * a ≤ (2 * k + 1) * b)
    (h3 : k % 2 = 0 ∨ 2 * a < (2 * k + 1) * b) : rneDiv a b = k := by
  have hq : a / b = k := by
    apply Nat.div_eq_of_lt_le h1
    have : (2 * k + 1) * b + b = 2 * ((k + 1) * b) := by ring
    omega
  have hd := Nat.div_add_mod a b
  rw [hq] at hd
  have e1 : (2 * k + 1) * b = 2 * (b * k) + b := by ring
  unfold rneDiv
  simp only [hq]
  split
  · rfl
  · rw [if_neg (by omega), if_pos (by omega)]

theorem rneDiv_below {a b k : Nat} (hb : 0 < b) (h1 : a < (k + 1) * b) (h2 : (2 * k + 1) * b ≤ 2 * a)
    (h3 : k % 2 = 1 ∨ (2 * k + 1) * b < 2 * a) : rneDiv a b = k + 1 := by
  have hq : a / b = k := by
    apply Nat.div_eq_of_lt_le _ h1
    have : (2 * k + 1) * b = 2 * (k * b) + b := by ring
    omega
  have hd := Nat.div_add_mod a b
  rw [hq] at hd
  have e1 : (2 * k + 1) * b = 2 * (b * k) + b := by ring
  unfold rneDiv
  simp only [hq]
  rw [if_neg (by omega)]
  split
  · rfl
  · rw [if_neg (by omega)]

/-- Unit in the last place of the `f32` with scaled magnitude `m`. -/
def ulp (m : Nat) : Nat := 2 ^ (m.log2 - 23)

theorem ulp_pos (m : Nat) : 0 < ulp m := Nat.pow_pos (by decide)

theorem log2_exp {q s : Nat} (h : q.log2 - 23 = s) (hs : 0 < s) : q.log2 = s + 23 ∧ 2 ^ (s + 23) ≤ q := by
  have hq0 : q ≠ 0 := by rintro rfl; simp at h; omega
  refine ⟨by omega, ?_⟩
  have := Nat.log2_self_le hq0
  rwa [show q.log2 = s + 23 by omega] at this

/-- The value lies at most half a unit above what it is rounded to. -/
theorem roundTo_upper {n d : Nat} (hd : 0 < d) :
    2 * (n * scale) ≤ (2 * roundTo n d + ulp (roundTo n d)) * d := by
  have hqd : n * scale / d * d ≤ n * scale := Nat.div_mul_le_self _ _
  unfold roundTo
  generalize hQ : n * scale / d = q at *
  generalize hS : q.log2 - 23 = s at *
  have hp : 0 < 2 ^ s := Nat.pow_pos (by decide)
  have hb : 0 < d * 2 ^ s := Nat.mul_pos hd hp
  have hn := (rneDiv_near (a := n * scale) hb).1
  have hge : 0 < s → 2 ^ 23 ≤ rneDiv (n * scale) (d * 2 ^ s) := by
    intro hs
    apply rneDiv_ge hb
    calc 2 ^ 23 * (d * 2 ^ s) = 2 ^ (s + 23) * d := by rw [pow_add]; ring
      _ ≤ q * d := Nat.mul_le_mul_right _ (log2_exp hS hs).2
      _ ≤ _ := hqd
  generalize rneDiv (n * scale) (d * 2 ^ s) = R at *
  have hu : 2 ^ s ≤ ulp (R * 2 ^ s) := by
    unfold ulp
    apply Nat.pow_le_pow_right (by decide)
    rcases Nat.eq_zero_or_pos s with rfl | hs
    · omega
    · have h23 := hge hs
      have : 2 ^ (23 + s) ≤ R * 2 ^ s := by rw [pow_add]; exact Nat.mul_le_mul_right _ h23
      have := log2_mono this
      rw [log2_two_pow] at this
      omega
  calc 2 * (n * scale) ≤ (2 * R + 1) * (d * 2 ^ s) := hn
    _ = (2 * (R * 2 ^ s) + 2 ^ s) * d := by ring
    _ ≤ _ := Nat.mul_le_mul_right _ (by omega)

/-- The value lies at most half a (lower) unit below what it is rounded to. -/
theorem roundTo_lower {n d : Nat} (hd : 0 < d) (hpos : 0 < roundTo n d) :
    2 * roundTo n d * d ≤ 2 * (n * scale) + ulp (roundTo n d - 1) * d := by
  have hqd : n * scale / d * d ≤ n * scale := Nat.div_mul_le_self _ _
  unfold roundTo at *
  generalize hQ : n * scale / d = q at *
  generalize hS : q.log2 - 23 = s at *
  have hp : 0 < 2 ^ s := Nat.pow_pos (by decide)
  have hb : 0 < d * 2 ^ s := Nat.mul_pos hd hp
  have hn := (rneDiv_near (a := n * scale) hb).2
  have hge : 0 < s → 2 ^ 23 ≤ rneDiv (n * scale) (d * 2 ^ s) := by
    intro hs
    apply rneDiv_ge hb
    calc 2 ^ 23 * (d * 2 ^ s) = 2 ^ (s + 23) * d := by rw [pow_add]; ring
      _ ≤ q * d := Nat.mul_le_mul_right _ (log2_exp hS hs).2
      _ ≤ _ := hqd
  generalize rneDiv (n * scale) (d * 2 ^ s) = R at *
  by_cases hR : 0 < s ∧ R = 2 ^ 23
  · have h1 : R * 2 ^ s * d ≤ n * scale := by
      rw [hR.2]
      calc 2 ^ 23 * 2 ^ s * d = 2 ^ (s + 23) * d := by rw [pow_add]; ring
        _ ≤ q * d := Nat.mul_le_mul_right _ (log2_exp hS hR.1).2
        _ ≤ _ := hqd
    have : 2 * (R * 2 ^ s) * d = 2 * (R * 2 ^ s * d) := by ring
    omega
  · have hu : 2 ^ s ≤ ulp (R * 2 ^ s - 1) := by
      unfold ulp
      apply Nat.pow_le_pow_right (by decide)
      rcases Nat.eq_zero_or_pos s with rfl | hs
      · omega
      · have h23 := hge hs
        have hlt : 2 ^ 23 + 1 ≤ R := by
          have : R ≠ 2 ^ 23 := fun h => hR ⟨hs, h⟩
          omega
        have : 2 ^ (23 + s) ≤ R * 2 ^ s - 1 := by
          have : (2 ^ 23 + 1) * 2 ^ s ≤ R * 2 ^ s := Nat.mul_le_mul_right _ hlt
          rw [pow_add]
          have e : (2 ^ 23 + 1) * 2 ^ s = 2 ^ 23 * 2 ^ s + 2 ^ s := by ring
          omega
        have := log2_mono this
        rw [log2_two_pow] at this
        omega
    calc 2 * (R * 2 ^ s) * d = 2 * R * (d * 2 ^ s) := by ring
      _ ≤ 2 * (n * scale) + d * 2 ^ s := hn
      _ = 2 * (n * scale) + 2 ^ s * d := by ring
      _ ≤ _ := Nat.add_le_add_left (Nat.mul_le_mul_right _ hu) _

theorem log2_eq {q L : Nat} (h1 : 2 ^ L ≤ q) (h2 : q < 2 ^ (L + 1)) : q.log2 = L := by
  have hq : q ≠ 0 := by have : 0 < 2 ^ L := Nat.pow_pos (by decide); omega
  have := (Nat.le_log2 hq).mpr h1
  have := (Nat.log2_lt hq).mpr h2
  omega

/-- Conversely every value that close to a representable `m` is rounded to it, provided it is not on the edge
of the interval or `m` has an even significand. -/
theorem roundTo_of_near {n d m : Nat} (hd : 0 < d) (hm : RepMag m)
    (h1 : 2 * (n * scale) ≤ (2 * m + ulp m) * d)
    (h2 : 0 < m → 2 * m * d ≤ 2 * (n * scale) + ulp (m - 1) * d)
    (h3 : m / ulp m % 2 = 0 ∨ (2 * (n * scale) < (2 * m + ulp m) * d ∧
      (0 < m → 2 * m * d < 2 * (n * scale) + ulp (m - 1) * d))) : roundTo n d = m := by
  have hu := ulp_pos m
  obtain ⟨k, hk⟩ := hm.2
  change m = ulp m * k at hk
  rcases Nat.lt_or_ge (n * scale) (m * d) with hlt | hge
  · -- below
    have hm0 : 0 < m := by
      rcases Nat.eq_zero_or_pos m with rfl | h
      · simp at hlt
      · exact h
    have h2 := h2 hm0
    -- unit below
    have hl : 0 < ulp (m - 1) := ulp_pos _
    obtain ⟨j, hj⟩ : ∃ j, m = ulp (m - 1) * j := by
      have : ulp (m - 1) ∣ ulp m := by
        apply pow_dvd_pow
        have := log2_mono (show m - 1 ≤ m by omega)
        omega
      exact dvd_trans this (Dvd.intro _ hk.symm)
    have heven : m / ulp m % 2 = 0 → j % 2 = 0 := by
      intro h
      have : ulp (m - 1) ∣ ulp m := by
        apply pow_dvd_pow
        have := log2_mono (show m - 1 ≤ m by omega)
        omega
      obtain ⟨c, hc⟩ := this
      have hkk : m / ulp m = k := Nat.div_eq_of_eq_mul_right hu hk
      rw [hkk] at h
      have : ulp (m - 1) * j = ulp (m - 1) * (c * k) := by rw [← hj, ← mul_assoc, ← hc]; exact hk
      have := Nat.eq_of_mul_eq_mul_left hl this
      rw [this, Nat.mul_mod, h]; simp
    have hlog : (n * scale / d).log2 - 23 = (m - 1).log2 - 23 := by
      have hqle : n * scale / d ≤ m - 1 := by
        have : n * scale / d < m := (Nat.div_lt_iff_lt_mul hd).mpr hlt
        omega
      have hup := log2_mono hqle
      rcases Nat.lt_or_ge (m - 1).log2 23 with h23 | h23
      · omega
      · have hm1 : m - 1 ≠ 0 := by
          intro h; rw [h] at h23; simp at h23
        have hbase := Nat.log2_self_le hm1
        generalize hL : (m - 1).log2 = L at *
        have hpow : 2 ^ L = ulp (m - 1) * 2 ^ 23 := by
          unfold ulp; rw [hL, ← pow_add]; congr 1; omega
        have hjlt : 2 ^ 23 < j := by
          by_contra hc
          have : ulp (m - 1) * j ≤ ulp (m - 1) * 2 ^ 23 := Nat.mul_le_mul_left _ (by omega)
          omega
        have : 2 ^ L ≤ n * scale / d := by
          rw [Nat.le_div_iff_mul_le hd]
          have : ulp (m - 1) * (2 ^ 23 + 1) ≤ m := by rw [hj]; apply Nat.mul_le_mul
                                                      · rw [← hj]
                                                      · exact hjlt
          have h5 : (2 ^ L + ulp (m - 1)) * d ≤ m * d := by
            apply Nat.mul_le_mul_right
            rw [hpow]; calc _ = ulp (m - 1) * (2 ^ 23 + 1) := by ring
              _ ≤ m := this
          have h6 : (2 ^ L + ulp (m - 1)) * d = 2 ^ L * d + ulp (m - 1) * d := by ring
          have h7 : 2 * m * d = 2 * (m * d) := by ring
          omega
        have hlow := log2_mono this
        rw [log2_two_pow] at hlow
        omega
    unfold roundTo
    rw [hlog]
    change rneDiv (n * scale) (d * ulp (m - 1)) * ulp (m - 1) = m
    generalize ulp (m - 1) = l at *
    have hj0 : 0 < j := by
      rcases Nat.eq_zero_or_pos j with rfl | h
      · simp at hj; omega
      · exact h
    obtain ⟨i, rfl⟩ : ∃ i, j = i + 1 := ⟨j - 1, by omega⟩
    have := rneDiv_below (a := n * scale) (b := d * l) (k := i) (Nat.mul_pos hd hl) (by
        calc n * scale < m * d := hlt
          _ = (i + 1) * (d * l) := by rw [hj]; ring) (by
        have e1 : 2 * m * d = (2 * i + 1) * (d * l) + l * d := by rw [hj]; ring
        omega) (by
        rcases h3 with h3 | h3
        · have := heven h3; left; omega
        · right
          have e1 : 2 * m * d = (2 * i + 1) * (d * l) + l * d := by rw [hj]; ring
          have := h3.2 hm0
          omega)
    rw [this, hj]; ring
  · -- at or above
    have hlog : (n * scale / d).log2 - 23 = m.log2 - 23 := by
      have hqge : m ≤ n * scale / d := (Nat.le_div_iff_mul_le hd).mpr hge
      have hlow := log2_mono hqge
      have hqlt : n * scale / d < m + ulp m := by
        rw [Nat.div_lt_iff_lt_mul hd]
        have : (2 * m + ulp m) * d + ulp m * d = 2 * ((m + ulp m) * d) := by ring
        have : 0 < ulp m * d := Nat.mul_pos hu hd
        omega
      rcases Nat.lt_or_ge m.log2 23 with h23 | h23
      · have : ulp m = 1 := by unfold ulp; rw [show m.log2 - 23 = 0 by omega]; rfl
        rw [this] at hqlt
        have : n * scale / d = m := by omega
        rw [this]
      · have hm0 : m ≠ 0 := by rintro rfl; simp at h23
        have hbase := Nat.lt_log2_self (n := m)
        have hbase' := Nat.log2_self_le hm0
        generalize hL : m.log2 = L at *
        have hpow : 2 ^ (L + 1) = ulp m * 2 ^ 24 := by
          unfold ulp; rw [hL, ← pow_add]; congr 1; omega
        have hklt : k < 2 ^ 24 := by
          by_contra hc
          have : ulp m * 2 ^ 24 ≤ ulp m * k := Nat.mul_le_mul_left _ (by omega)
          omega
        have hle : m + ulp m ≤ 2 ^ (L + 1) := by
          rw [hpow]
          calc m + ulp m = ulp m * k + ulp m := by omega
            _ = ulp m * (k + 1) := by ring
            _ ≤ _ := Nat.mul_le_mul_left _ hklt
        rw [log2_eq (L := L) (by omega) (by omega)]
    unfold roundTo
    rw [hlog]
    change rneDiv (n * scale) (d * ulp m) * ulp m = m
    have hkk : m / ulp m = k := Nat.div_eq_of_eq_mul_right hu hk
    rw [hkk] at h3
    generalize ulp m = u at *
    have e0 : m * d = k * (d * u) := by rw [hk]; ring
    have e1 : (2 * m + u) * d = (2 * k + 1) * (d * u) := by rw [hk]; ring
    have := rneDiv_above (a := n * scale) (b := d * u) (k := k) (Nat.mul_pos hd hu) (by omega) (by omega) (by
        rcases h3 with h3 | h3
        · exact Or.inl h3
        · right; omega)
    rw [this, hk]; ring

/-! ## Through text -/

theorem decScale_pos : 0 < decScale := by decide +kernel
theorem scale_dec : decExact * scale = decScale := by decide +kernel

theorem roundTo_exact {n d m : Nat} (hd : 0 < d) (h : n * scale = m * d) (hm : RepMag m) : roundTo n d = m := by
  apply roundTo_of_near hd hm
  · rw [h]; have : 2 * (m * d) = 2 * m * d := by ring
    rw [this]; exact Nat.mul_le_mul_right _ (by omega)
  · intro _; rw [h]; have : 2 * (m * d) = 2 * m * d := by ring
    omega
  · right
    have e : 2 * (m * d) = 2 * m * d := by ring
    rw [h, e]
    refine ⟨Nat.mul_lt_mul_of_pos_right (by have := ulp_pos m; omega) hd, fun _ => ?_⟩
    have := Nat.mul_pos (ulp_pos (m - 1)) hd
    omega

theorem ofRat_exact {n d m : Nat} (neg : Bool) (hd : 0 < d) (h : n * scale = m * d) (hm : RepMag m) :
    ofRat neg n d = .fin neg m := by
  rw [ofRat_eq, roundTo_exact hd h hm, if_neg (by have := hm.1; omega)]

attribute [local irreducible] F32.scale F32.magLimit F32.roundTo F32.ofRat F32.decScale F32.decExact

theorem shortestAt_reads (m N L p D : Nat) (h : shortestAt m N L p = some D) :
    ofRat false D decScale = .fin false m := by
  unfold shortestAt at h
  simp only at h
  generalize N / 10 ^ (L - p) * 10 ^ (L - p) = lo at h
  generalize lo + 10 ^ (L - p) = hi at h
  generalize hF : (F32.fin false m) = F at h ⊢
  clear hF
  by_cases h1 : ofRat false lo decScale = F <;>
    by_cases h2 : ofRat false hi decScale = F
  · simp only [h1, h2, decide_true, Bool.and_self, if_true] at h
    split at h <;> simp only [Option.some.injEq] at h <;> subst h <;> assumption
  · simp only [h1, h2, decide_true, decide_false, Bool.and_false, Bool.false_eq_true, if_false, if_true,
      Option.some.injEq] at h
    subst h; assumption
  · simp only [h1, h2, decide_true, decide_false, Bool.and_true, Bool.false_eq_true, if_false, if_true,
      Option.some.injEq] at h
    subst h; assumption
  · simp [h1, h2] at h

/-- The printed decimal always reads back. -/
theorem shortest_reads (m : Nat) (hm : RepMag m) : ofRat false (shortest m) decScale = .fin false m := by
  unfold shortest
  apply searchFrom_reads (fun D => ofRat false D decScale = .fin false m) _ _
    (fun p D h => shortestAt_reads _ _ _ _ _ h)
  apply ofRat_exact _ decScale_pos _ hm
  rw [mul_assoc, scale_dec]

attribute [local irreducible] F32.shortest F64.decText F64.decNorm F64.pow10 F64.ofRat

theorem disp_fin_eq (s : Bool) (m : Nat) :
    ∃ W, decScale = F64.pow10 W ∧ disp (.fin s m) = withSign s (F64.decText (shortest m) W) := by
  refine ⟨149, by unfold decScale; rfl, ?_⟩
  have : ∀ t : Str, (if s then ['-'] else []) ++ t = withSign s t := by
    intro t; cases s <;> simp [withSign]
  rw [← this, disp]

/-- What the decimal text is read as by `parse::<f64>`. -/
theorem toF64?_fin (s : Bool) (m : Nat) : toF64? (.fin s m) = some (F64.ofRat s (shortest m) decScale) := by
  obtain ⟨W, hW, hd⟩ := disp_fin_eq s m
  unfold toF64?
  rw [hd, hW, pow10_eq]
  rcases decText_spec s (shortest m) W with ⟨d, h1, h2⟩ | ⟨a, b, h1, h2, h3, h4, h5, h6⟩
  · rw [h1, h2, parse_withSign _ _ (digits_head (natDigits_all _))]
    unfold F64.parseUnsigned
    have hs := spanDigits_append (natDigits d) [] (natDigits_all _) (by simp)
    rw [List.append_nil] at hs
    rw [hs]
    simp only [natDigits_ne_nil, false_and, if_false, F64.parseExp, List.length_nil, List.append_nil,
      digitsVal_natDigits]
    simp
  · rw [h1, parse_withSign _ _ (by
      intro c r h
      cases a with
      | nil => exact absurd rfl h2
      | cons c' r' =>
        simp only [List.cons_append, List.cons.injEq] at h
        rw [← h.1]; exact digits_head h3 c' r' rfl),
      parseUnsigned_frac s a b h2 h3 h5 h4, h6]

end KS.F32
