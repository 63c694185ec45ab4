import Verif.Lemmas.F32Mid
import Verif.Props.Float32
/-!
# C47: exactly which `f32`s change
-/

namespace KS.F32S
open F32 F64

set_option exponentiation.threshold 3000

theorem digitVal_le (c : Char) (h : isDigit c = true) : digitVal c ≤ 9 := by
  unfold isDigit at h
  unfold digitVal
  simp only [decide_eq_true_eq] at h
  have h2 : c.toNat ≤ '9'.toNat := h.2
  have : '9'.toNat = 57 := rfl
  have : '0'.toNat = 48 := rfl
  omega

theorem digitsVal_lt : ∀ (s : Str), s.all isDigit = true → digitsVal s < 10 ^ s.length
  | [], _ => by decide
  | c :: r, h => by
    simp only [List.all_cons, Bool.and_eq_true] at h
    have h1 := digitVal_le c h.1
    have h2 := digitsVal_lt r h.2
    rw [digitsVal_cons, List.length_cons, pow_succ]
    have : digitVal c * 10 ^ r.length ≤ 9 * 10 ^ r.length := Nat.mul_le_mul_right _ h1
    omega

theorem lt_natDigits (n : Nat) : n < 10 ^ (natDigits n).length := by
  have := digitsVal_lt _ (natDigits_all n)
  rwa [digitsVal_natDigits] at this

theorem search_cases (P : Nat → Prop) (f : Nat → Option Nat) (N : Nat) (hf : ∀ p D, p ≤ 9 → f p = some D → P D) :
    ∀ k p, p + k ≤ 10 → searchFrom f N k p = N ∨ P (searchFrom f N k p)
  | 0, _, _ => .inl rfl
  | k + 1, p, hp => by
    unfold searchFrom
    split
    · rename_i D hD; exact .inr (hf p D (by omega) hD)
    · exact search_cases P f N hf k (p + 1) (by omega)

section
attribute [local irreducible] F32.scale F32.magLimit F32.roundTo F32.ofRat F32.decScale F32.decExact

theorem shortestAt_dvd (m N L p D : Nat) (hp : p ≤ 9) (h : F32.shortestAt m N L p = some D) : 10 ^ (L - 9) ∣ D := by
  have hdu : 10 ^ (L - 9) ∣ 10 ^ (L - p) := pow_dvd_pow 10 (by omega)
  unfold F32.shortestAt at h
  simp only at h
  have h1 : 10 ^ (L - 9) ∣ N / 10 ^ (L - p) * 10 ^ (L - p) := Dvd.dvd.mul_left hdu _
  have h2 : 10 ^ (L - 9) ∣ N / 10 ^ (L - p) * 10 ^ (L - p) + 10 ^ (L - p) := Nat.dvd_add h1 hdu
  generalize N / 10 ^ (L - p) * 10 ^ (L - p) = lo at *
  generalize lo + 10 ^ (L - p) = hi at *
  generalize decide (F32.ofRat false lo F32.decScale = F32.fin false m) = b1 at h
  generalize decide (F32.ofRat false hi F32.decScale = F32.fin false m) = b2 at h
  cases b1 <;> cases b2 <;> simp only [Bool.and_self, Bool.and_true, Bool.and_false, if_true, if_false, Bool.false_eq_true] at h
  · cases h
  · cases h; exact h2
  · cases h; exact h1
  · split at h <;> cases h <;> assumption

/-- The printed decimal has at most nine significant digits, or is exact. -/
theorem shortest_dvd (m : Nat) : F32.shortest m = m * F32.decExact ∨
    10 ^ ((natDigits (m * F32.decExact)).length - 9) ∣ F32.shortest m := by
  unfold F32.shortest
  exact search_cases (fun D => 10 ^ ((natDigits (m * F32.decExact)).length - 9) ∣ D) _ _ (fun p D hp h => shortestAt_dvd _ _ _ p D hp h) 9 1 (by omega)
end

theorem checkAll_at : ∀ (n l : Nat), checkAll l n = true → ∀ i, l ≤ i → i < l + n → checkAt i = true
  | 0, _, _, _, _, _ => by omega
  | n + 1, l, h, i, h1, h2 => by
    rw [checkAll, Bool.and_eq_true] at h
    rcases Nat.eq_or_lt_of_le h1 with rfl | hlt
    · exact h.1
    · exact checkAll_at n (l + 1) h.2 i hlt (by omega)

theorem checked0 : checkAll 0 100 = true := by decide +kernel
theorem checked1 : checkAll 100 100 = true := by decide +kernel
theorem checked2 : checkAll 200 77 = true := by decide +kernel

theorem checked (l : Nat) (h : l < 277) : checkAt l = true := by
  rcases Nat.lt_or_ge l 100 with h1 | h1
  · exact checkAll_at 100 0 checked0 l (by omega) (by omega)
  rcases Nat.lt_or_ge l 200 with h2 | h2
  · exact checkAll_at 100 100 checked1 l h1 (by omega)
  · exact checkAll_at 77 200 checked2 l h2 (by omega)

/-- The search, abstractly: a multiple of `A` within `W` of an odd multiple `t` of `B`. -/
theorem found {A B W t c lo C : Nat} {ok : Nat → Bool} {f : Nat} (hW : 2 * W < B) (hA : 0 < A)
    (hs : scan (A % (2 * B)) (2 * B) (2 * W) ((W + B) % (2 * B)) ((C * B + W) / A) ok f ((lo * B - W) / A) = true)
    (ht : t % 2 = 1) (h1 : c * A ≤ t * B + W) (h2 : t * B ≤ c * A + W) (hlo : lo ≤ t) (hhi : t ≤ C) : ok c = true := by
  have hB : 0 < 2 * B := by omega
  refine scan_sound (Nat.mod_lt _ hB).le hB f _ hs c ?_ ?_ ?_
  · apply Nat.div_le_of_le_mul
    have := Nat.mul_le_mul_right B hlo
    rw [Nat.mul_comm A c]; omega
  · rw [Nat.le_div_iff_mul_le hA]
    have := Nat.mul_le_mul_right B hhi
    omega
  · obtain ⟨j, hj⟩ : ∃ j, t = 2 * j + 1 := ⟨t / 2, by omega⟩
    have e : ((W + B) % (2 * B) + c * (A % (2 * B))) % (2 * B) = (c * A + W + B) % (2 * B) := by
      conv_rhs => rw [show c * A + W + B = (W + B) + c * A by ring, Nat.add_mod, Nat.mul_mod]
      rw [Nat.add_mod, Nat.mod_mod, Nat.mul_mod, Nat.mod_mod]
    rw [e]
    have e2 : c * A + W + B = (c * A + W - t * B) + (2 * B) * (j + 1) := by
      have : t * B + B = (2 * B) * (j + 1) := by rw [hj]; ring
      omega
    rw [e2, Nat.add_mul_mod_self_left, Nat.mod_eq_of_lt (by omega)]
    omega

theorem gcd_exact {A B W t c : Nat} (hg : W < Nat.gcd A B) (h1 : c * A ≤ t * B + W) (h2 : t * B ≤ c * A + W) : c * A = t * B := by
  have ga : Nat.gcd A B ∣ c * A := Dvd.dvd.mul_left (Nat.gcd_dvd_left A B) c
  have gb : Nat.gcd A B ∣ t * B := Dvd.dvd.mul_left (Nat.gcd_dvd_right A B) t
  rcases Nat.le_total (c * A) (t * B) with h | h
  · have := Nat.eq_zero_of_dvd_of_lt (Nat.dvd_sub gb ga) (by omega)
    omega
  · have := Nat.eq_zero_of_dvd_of_lt (Nat.dvd_sub ga gb) (by omega)
    omega

/-- How close `f64` rounding is. -/
theorem near64 {n d M T : Nat} (hd : 0 < d) (h : F64.roundTo n d = M) (hM : M < 2 ^ (T + 53)) :
    2 * (n * F64.scale) ≤ 2 * M * d + d * 2 ^ T ∧ 2 * M * d ≤ 2 * (n * F64.scale) + d * 2 ^ T := by
  have hqd : n * F64.scale / d * d ≤ n * F64.scale := Nat.div_mul_le_self _ _
  unfold F64.roundTo at h
  generalize hQ : n * F64.scale / d = q at *
  generalize n * F64.scale = a at *
  have hs : q.log2 - 52 ≤ T := by
    by_contra hc
    have hlog : T + 53 ≤ q.log2 := by omega
    have hq0 : q ≠ 0 := by rintro rfl; simp at hlog
    have h2 := Nat.log2_self_le hq0
    generalize hS : q.log2 - 52 = s at *
    have hge : 2 ^ 52 ≤ rneDiv a (d * 2 ^ s) := by
      apply rneDiv_ge (Nat.mul_pos hd (Nat.pow_pos (by decide)))
      calc 2 ^ 52 * (d * 2 ^ s) = 2 ^ (52 + s) * d := by rw [pow_add]; ring
        _ = 2 ^ q.log2 * d := by rw [show 52 + s = q.log2 by omega]
        _ ≤ q * d := Nat.mul_le_mul_right _ h2
        _ ≤ a := hqd
    have : 2 ^ 52 * 2 ^ s ≤ M := by rw [← h]; exact Nat.mul_le_mul_right _ hge
    rw [← pow_add] at this
    have h3 : 2 ^ (T + 53) ≤ 2 ^ (52 + s) := Nat.pow_le_pow_right (by decide) (by omega)
    omega
  generalize q.log2 - 52 = s at *
  have hb : 0 < d * 2 ^ s := Nat.mul_pos hd (Nat.pow_pos (by decide))
  obtain ⟨n1, n2⟩ := F32.rneDiv_near (a := a) hb
  generalize rneDiv a (d * 2 ^ s) = R at *
  have hp : d * 2 ^ s ≤ d * 2 ^ T := Nat.mul_le_mul_left _ (Nat.pow_le_pow_right (by decide) hs)
  have e1 : (2 * R + 1) * (d * 2 ^ s) = 2 * M * d + d * 2 ^ s := by rw [← h]; ring
  have e2 : 2 * R * (d * 2 ^ s) = 2 * M * d := by rw [← h]; ring
  omega

/-! ## From `f32`s to the search -/

theorem scale64 : F64.scale = 2 ^ 1074 := by decide +kernel
theorem decScale32 : F32.decScale = 10 ^ 149 := by decide +kernel
theorem decExact32 : F32.decExact = 5 ^ 149 := by decide +kernel
theorem limits : F32.magLimit * 2 ^ 926 ≤ F64.magLimit := by decide +kernel

theorem roundTo32_scale {n d c : Nat} (hc : 0 < c) : F32.roundTo (n * c) (d * c) = F32.roundTo n d := by
  unfold F32.roundTo
  have h1 : n * c * F32.scale / (d * c) = n * F32.scale / d := by
    rw [show n * c * F32.scale = n * F32.scale * c by ring, Nat.mul_div_mul_right _ _ hc]
  rw [h1]
  generalize (n * F32.scale / d).log2 - 23 = s
  rw [show n * c * F32.scale = n * F32.scale * c by ring, show d * c * 2 ^ s = d * 2 ^ s * c by ring, rneDiv_mul hc]

/-- Equal rationals round equally. -/
theorem roundTo32_congr {n d n' d' : Nat} (hd : 0 < d) (hd' : 0 < d') (h : n * d' = n' * d) : F32.roundTo n d = F32.roundTo n' d' := by
  rw [← roundTo32_scale hd', h, ← roundTo32_scale (n := n') (d := d') hd, Nat.mul_comm d d']

/-- Unit and significand of a magnitude. -/
theorem split_mag {m : Nat} (hm : F32.RepMag m) (hodd : m / 2 ^ (m.log2 - 23) % 2 = 1) :
    ∃ k, m = k * 2 ^ (m.log2 - 23) ∧ k % 2 = 1 ∧ 2 ^ min m.log2 23 ≤ k ∧ k < 2 ^ (min m.log2 23 + 1) ∧ (m - 1).log2 - 23 = m.log2 - 23 ∧
      m.log2 < 277 := by
  obtain ⟨k, hk⟩ := hm.2
  have hp : 0 < 2 ^ (m.log2 - 23) := Nat.pow_pos (by decide)
  have hm0 : m ≠ 0 := by rintro rfl; simp at hodd
  have hkd : m / 2 ^ (m.log2 - 23) = k := Nat.div_eq_of_eq_mul_right hp hk
  rw [hkd] at hodd
  have h1 := Nat.log2_self_le hm0
  have h2 := Nat.lt_log2_self (n := m)
  have h277 : m.log2 < 277 := F64.log2_lt_of_lt (by have := hm.1; rwa [Props.magLimit_def] at this) (by decide)
  have hmono := F64.log2_mono (show m - 1 ≤ m by omega)
  refine ⟨k, by rw [Nat.mul_comm]; exact hk, hodd, ?_⟩
  generalize m.log2 = l at *
  rcases Nat.lt_or_ge 23 l with hl | hl
  · have hmin : min l 23 = 23 := by omega
    rw [hmin]
    have e1 : 2 ^ l = 2 ^ (l - 23) * 2 ^ 23 := by rw [← pow_add, Nat.sub_add_cancel hl.le]
    have e2 : 2 ^ (l + 1) = 2 ^ (l - 23) * 2 ^ (23 + 1) := by rw [← pow_add]; congr 1; omega
    have g1 : 2 ^ 23 ≤ k := Nat.le_of_mul_le_mul_left (by rw [← e1, ← hk]; exact h1) hp
    have g2 : k < 2 ^ (23 + 1) := Nat.lt_of_mul_lt_mul_left (a := 2 ^ (l - 23)) (by rw [← e2, ← hk]; exact h2)
    have g3 : 2 ^ 23 + 1 ≤ k := by
      rcases Nat.eq_or_lt_of_le g1 with h | h
      · rw [← h] at hodd; simp at hodd
      · exact h
    have g4 : 2 ^ l + 1 ≤ m := by
      calc 2 ^ l + 1 ≤ 2 ^ (l - 23) * 2 ^ 23 + 2 ^ (l - 23) := by rw [← e1]; exact Nat.add_le_add_left hp _
        _ = 2 ^ (l - 23) * (2 ^ 23 + 1) := by ring
        _ ≤ 2 ^ (l - 23) * k := Nat.mul_le_mul_left _ g3
        _ = m := hk.symm
    refine ⟨g1, g2, ?_, h277⟩
    rw [F32.log2_eq (L := l) (by omega) (by omega)]
  · have hmin : min l 23 = l := by omega
    have hz : l - 23 = 0 := by omega
    rw [hmin]
    rw [hz, pow_zero, one_mul] at hk
    subst hk
    exact ⟨h1, h2, by omega, h277⟩

section
attribute [local irreducible] F32.scale F32.magLimit F32.roundTo F32.ofRat F32.decScale F32.decExact F32.shortest F64.magLimit F64.roundTo F64.scale

/-- An `f32` whose text is read as a midpoint by `f64` keeps its value on the way back, except one. -/
theorem mid_kept (m k t : Nat) (hm : F32.RepMag m) (hk : m = k * 2 ^ (m.log2 - 23)) (hodd : k % 2 = 1) (h1 : 2 ^ min m.log2 23 ≤ k)
    (h2 : k < 2 ^ (min m.log2 23 + 1)) (hl : m.log2 < 277) (ht : t = 2 * k + 1 ∨ t + 1 = 2 * k)
    (h : F64.roundTo (F32.shortest m) F32.decScale = t * 2 ^ (m.log2 - 23 + 924)) (hne : m ≠ 11420669 * 2 ^ 42) :
    F32.roundTo (t * 2 ^ (m.log2 - 23 + 924)) F64.scale = m := by
  have hD : F32.roundTo (F32.shortest m) F32.decScale = m := by
    have hread := F32.shortest_reads m hm
    rw [F32.ofRat_eq] at hread
    split at hread
    · cases hread
    · simpa using hread
  have hdv := shortest_dvd m
  have hchk := checked m.log2 hl
  have hlow : 2 ^ m.log2 ≤ m := Nat.log2_self_le (by rintro rfl; simp at hk; subst hk; omega)
  have hmlim : m * 2 ^ 925 < F64.magLimit := by
    refine lt_of_lt_of_le ?_ limits
    calc m * 2 ^ 925 < F32.magLimit * 2 ^ 925 := Nat.mul_lt_mul_of_pos_right hm.1 (Nat.pow_pos (by decide))
      _ ≤ F32.magLimit * 2 ^ 926 := Nat.mul_le_mul_left _ (Nat.pow_le_pow_right (by decide) (by decide))
  generalize hDD : F32.shortest m = D at *
  generalize hll : m.log2 = l at *
  generalize hs : l - 23 = s at *
  rcases hdv with hex | hdv
  · -- exact text
    exfalso
    have e : F64.roundTo D F32.decScale = m * 2 ^ 925 := by
      apply F64.roundTo_exact F32.decScale_pos
      · rw [hex, Props.scale_rel, ← F32.scale_dec]; ring
      · rw [hk, Nat.mul_assoc, ← pow_add] at hmlim ⊢
        refine Props.rep64_of ?_ hmlim
        refine lt_of_lt_of_le h2 (Nat.pow_le_pow_right (by decide) (by omega))
    rw [e, hk, Nat.mul_assoc, ← pow_add, show s + 925 = (s + 924) + 1 by omega, pow_succ] at h
    have hp : 0 < 2 ^ (s + 924) := Nat.pow_pos (by decide)
    have : k * 2 = t := by
      apply Nat.eq_of_mul_eq_mul_right hp
      rw [← h]; ring
    omega
  · rw [checkAt, Bool.and_eq_true, decide_eq_true_eq, Bool.or_eq_true, decide_eq_true_eq] at hchk
    obtain ⟨hJ, hchk⟩ := hchk
    -- the text as a multiple of the power of ten
    have hJL : (30103 * l + 10414670) / 100000 - 8 + 8 < (natDigits (m * F32.decExact)).length := by
      rw [← Nat.pow_lt_pow_iff_right (a := 10) (by decide)]
      refine lt_of_le_of_lt hJ (lt_of_le_of_lt ?_ (lt_natDigits _))
      rw [decExact32]
      exact Nat.mul_le_mul_right _ hlow
    obtain ⟨c, hc⟩ : 10 ^ ((30103 * l + 10414670) / 100000 - 8) ∣ D := dvd_trans (pow_dvd_pow 10 (by omega)) hdv
    have hcA : c * A l = D * 2 ^ 202 := by rw [A, hc]; ring
    have htu : t < 2 ^ (min l 23 + 2) := by
      have : 2 ^ (min l 23 + 2) = 2 * 2 ^ (min l 23 + 1) := by rw [pow_succ 2 (min l 23 + 1)]; ring
      omega
    have hM : t * 2 ^ (s + 924) < 2 ^ (s + min l 23 + 873 + 53) := by
      calc t * 2 ^ (s + 924) < 2 ^ (min l 23 + 2) * 2 ^ (s + 924) := Nat.mul_lt_mul_of_pos_right htu (Nat.pow_pos (by decide))
        _ = _ := by rw [← pow_add, show min l 23 + 2 + (s + 924) = s + min l 23 + 873 + 53 by omega]
    obtain ⟨n1, n2⟩ := near64 F32.decScale_pos h hM
    have hp : 0 < (2 : Nat) ^ 873 := Nat.pow_pos (by decide)
    have e1 : 2 * (D * F64.scale) = c * A l * 2 ^ 873 := by
      rw [hcA, scale64, Nat.mul_assoc D, ← pow_add, show 1074 = 1073 + 1 from rfl, pow_succ]; ring
    have e2 : 2 * (t * 2 ^ (s + 924)) * F32.decScale = t * B l * 2 ^ 873 := by
      rw [B, hs, decScale32, show s + 924 = (s + 52) + 872 by omega, pow_add 2 (s + 52), show 873 = 872 + 1 from rfl, pow_succ 2 872]; ring
    have e3 : F32.decScale * 2 ^ (s + min l 23 + 873) = W l * 2 ^ 873 := by
      rw [W, hs, decScale32, pow_add 2 (s + min l 23)]; ring
    rw [e1, e2, e3, ← Nat.add_mul] at n1 n2
    have n1 := Nat.le_of_mul_le_mul_right n1 hp
    have n2 := Nat.le_of_mul_le_mul_right n2 hp
    have hBW : 2 * W l < B l := by
      rw [W, B, hs, show s + 52 = (s + min l 23) + (52 - min l 23) by omega, pow_add 2 (s + min l 23)]
      have h3 : 2 ^ 2 ≤ 2 ^ (52 - min l 23) := Nat.pow_le_pow_right (by decide) (by omega)
      have h4 : 0 < 2 ^ (s + min l 23) * 10 ^ 149 := Nat.mul_pos (Nat.pow_pos (by decide)) (Nat.pow_pos (by decide))
      calc 2 * (2 ^ (s + min l 23) * 10 ^ 149) < 2 ^ (s + min l 23) * 10 ^ 149 * 2 ^ 2 := by omega
        _ ≤ 2 ^ (s + min l 23) * 10 ^ 149 * 2 ^ (52 - min l 23) := Nat.mul_le_mul_left _ h3
        _ = _ := by ring
    have hA : 0 < A l := Nat.mul_pos (Nat.pow_pos (by decide)) (Nat.pow_pos (by decide))
    rcases hchk with hg | hsc
    · -- the text is the midpoint exactly
      have heq := gcd_exact hg n1 n2
      rw [← hD]
      apply roundTo32_congr F64.scale_pos F32.decScale_pos
      have hp2 : 0 < 2 := by decide
      apply Nat.eq_of_mul_eq_mul_left hp2
      rw [← Nat.mul_assoc 2 _ F32.decScale, e2, e1, heq]
    · exfalso
      have hok := found hBW hA hsc (by omega) n1 n2 (by
        have : 2 ^ (min l 23 + 1) = 2 * 2 ^ min l 23 := by rw [pow_succ]; ring
        omega) htu.le
      have ht' : (c * A l + W l) / B l = t := by
        apply Nat.div_eq_of_lt_le
        · exact n2
        · rw [Nat.succ_mul]; omega
      have hk' : (if t % 4 = 3 then (t - 1) / 2 else (t + 1) / 2) = k := by
        split <;> omega
      rw [okAt] at hok
      simp only [ht', hk', hs, ← hk, hDD] at hok
      rw [Bool.or_eq_true, decide_eq_true_eq, decide_eq_true_eq] at hok
      rcases hok with hok | hok
      · exact hne hok
      · apply hok; rw [hc]; ring
end

end KS.F32S

namespace KS.Props
open F32

set_option exponentiation.threshold 3000

section
attribute [local irreducible] F32.scale F32.magLimit F32.roundTo F32.ofRat F32.decScale F32.decExact F32.shortest F64.magLimit F64.roundTo F64.scale F64.ofRat

/-- C47. A finite `f32` stored in a Kserd and decoded again is unchanged, except `7.038531e-26` and its negative. -/
theorem C47_survives (s : Bool) (m : Nat) (hm : F32.WF (.fin s m)) (hne : m ≠ 11420669 * 2 ^ 42) :
    F32.ofF64 (F32.toF64 (.fin s m)) = .fin s m := by
  by_cases hev : evenSignificand m
  · exact C47_survives_partial s m hm (.inl hev)
  have hodd : m / 2 ^ (m.log2 - 23) % 2 = 1 := by
    unfold evenSignificand at hev; omega
  obtain ⟨k, hk, hko, h1, h2, hm1, hl⟩ := F32S.split_mag hm hodd
  have key : ∀ t, (t = 2 * k + 1 ∨ t + 1 = 2 * k) → F32.toF64 (.fin s m) = .fin s (t * 2 ^ (m.log2 - 23 + 924)) →
      F32.ofF64 (F32.toF64 (.fin s m)) = .fin s m := by
    intro t ht hx
    have hr : F64.roundTo (F32.shortest m) F32.decScale = t * 2 ^ (m.log2 - 23 + 924) := by
      unfold F32.toF64 at hx
      rw [toF64?_fin, Option.getD_some, F64.ofRat_eq] at hx
      split at hx
      · cases hx
      · exact (F64.fin.inj hx).2
    have := F32S.mid_kept m k t hm hk hko h1 h2 hl ht hr hne
    rw [hx]
    unfold F32.ofF64
    simp only
    rw [F32.ofRat_eq, this, if_neg (by have := hm.1; omega)]
  have p1 : 2 ^ (m.log2 - 23 + 924) = 2 ^ (m.log2 - 23) * 2 ^ 924 := pow_add _ _ _
  have e1 : (2 * m + 2 ^ (m.log2 - 23)) * 2 ^ 924 = (2 * k + 1) * 2 ^ (m.log2 - 23 + 924) := by
    rw [p1]
    generalize (2 : Nat) ^ 924 = g
    generalize 2 ^ (m.log2 - 23) = u at *
    rw [hk]; ring
  have e2 : (2 * m - 2 ^ ((m - 1).log2 - 23)) * 2 ^ 924 = (2 * k - 1) * 2 ^ (m.log2 - 23 + 924) := by
    rw [p1, hm1]
    generalize (2 : Nat) ^ 924 = g
    generalize 2 ^ (m.log2 - 23) = u at *
    obtain ⟨j, rfl⟩ : ∃ j, k = j + 1 := ⟨k - 1, by omega⟩
    have : 2 * m - u = (2 * j + 1) * u := by
      have : 2 * m = (2 * j + 1) * u + u := by rw [hk]; ring
      omega
    rw [this, show 2 * (j + 1) - 1 = 2 * j + 1 by omega]; ring
  by_cases c1 : F32.toF64 (.fin s m) = .fin s ((2 * m + 2 ^ (m.log2 - 23)) * 2 ^ 924)
  · exact key (2 * k + 1) (.inl rfl) (by rw [c1, e1])
  by_cases c2 : F32.toF64 (.fin s m) = .fin s ((2 * m - 2 ^ ((m - 1).log2 - 23)) * 2 ^ 924)
  · exact key (2 * k - 1) (.inr (by omega)) (by rw [c2, e2])
  · exact C47_survives_partial s m hm (.inr ⟨c1, c2⟩)

end

/-- C47, the whole truth: an `f32` comes back unchanged if and only if it is not `7.038531e-26` or its negative, and not a NaN other than
the standard one. -/
theorem C47_exact (f : F32) (hf : f.WF) : F32.ofF64 (F32.toF64 f) = f ↔
    f ≠ .fin false (11420669 * 2 ^ 42) ∧ f ≠ .fin true (11420669 * 2 ^ 42) ∧ ∀ s p, f = .nan s p → s = false ∧ p = 2 ^ 22 := by
  cases f with
  | inf s => simp [(C47_special s 0).1]
  | nan s p =>
    rw [(C47_special s p).2]
    simp only [F32.nan.injEq, ne_eq, reduceCtorEq, not_false_eq_true, true_and]
    constructor
    · rintro ⟨rfl, rfl⟩ s p ⟨rfl, rfl⟩; exact ⟨rfl, rfl⟩
    · intro h
      obtain ⟨rfl, rfl⟩ := h s p ⟨rfl, rfl⟩
      exact ⟨rfl, rfl⟩
  | fin s m =>
    have hrec : (∀ s' p, F32.fin s m = .nan s' p → s' = false ∧ p = 2 ^ 22) ↔ True := by
      simp
    rw [hrec, and_true]
    constructor
    · intro h
      have lost : ∀ s, F32.ofF64 (F32.toF64 (.fin s (11420669 * 2 ^ 42))) = .fin s (11420670 * 2 ^ 42) := by decide +kernel
      constructor <;> intro e <;> rw [e, lost] at h <;> exact absurd (F32.fin.inj h).2 (by decide)
    · rintro ⟨h1, h2⟩
      refine C47_survives s m hf ?_
      rintro rfl
      cases s
      · exact h1 rfl
      · exact h2 rfl

/-- As needed for decoding. -/
theorem plain32 {x : F32} (hx : x.WF) (h : ∀ s, x ≠ .fin s (11420669 * 2 ^ 42)) : (∃ s p, x = .nan s p) ∨ F32.ofF64 (F32.toF64 x) = x := by
  cases x with
  | nan s p => exact .inl ⟨s, p, rfl⟩
  | inf s => exact .inr (C47_special s 0).1
  | fin s m => exact .inr (C47_survives s m hx fun e => h s (by rw [e]))

example : F32.WF (.fin true (13421774 * 2 ^ 122)) ∧ (13421774 * 2 ^ 122 ≠ 11420669 * 2 ^ 42) := by decide +kernel

end KS.Props
