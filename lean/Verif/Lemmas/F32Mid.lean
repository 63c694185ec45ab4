import Verif.Lemmas.F32
import Mathlib.Data.Nat.ModEq
/-!
# Which shortest decimals of an `f32` are read as a midpoint by `f64`

The decimals in question are multiples `c * A` of a power of ten that come within `W` of an odd multiple of `B`. The search over all `c`
jumps from one solution to the next; `lb` computes how far it may jump.
-/

namespace KS.F32S

set_option exponentiation.threshold 3000

/-- A lower bound of all `x` for which `a * x` modulo `n` is between `l` and `r`. -/
def lb : Nat → Nat → Nat → Nat → Nat → Nat
  | 0, _, _, _, _ => 0
  | f + 1, a, n, l, r =>
    if l = 0 then 0
    else if a = 0 then 10 ^ 12
    else if n < 2 * a then lb f (n - a) n (n - r) (n - l)
    else
      if a * ((l + a - 1) / a) ≤ r then (l + a - 1) / a
      else (l + n * lb f (a - n % a) a (l % a) (r % a) + a - 1) / a

theorem ceil_le {a l x : Nat} (ha : 0 < a) (h : l ≤ a * x) : (l + a - 1) / a ≤ x := by
  apply Nat.lt_succ_iff.mp
  rw [Nat.div_lt_iff_lt_mul ha, Nat.succ_mul, Nat.mul_comm x a]
  omega

theorem lb_sound : ∀ (f a n l r : Nat), a ≤ n → l ≤ r → r < n → ∀ x, l ≤ a * x % n → a * x % n ≤ r → lb f a n l r ≤ x
  | 0, _, _, _, _, _, _, _, _, _, _ => Nat.zero_le _
  | f + 1, a, n, l, r, ha, hl, hr, x, h1, h2 => by
    rw [lb]
    by_cases hl0 : l = 0
    · rw [if_pos hl0]; exact Nat.zero_le _
    rw [if_neg hl0]
    by_cases ha0 : a = 0
    · subst ha0; simp at h1; omega
    rw [if_neg ha0]
    by_cases hn : n < 2 * a
    · rw [if_pos hn]
      have hv : (n - a) * x % n = n - a * x % n := by
        have e1 : ((n - a) * x + a * x % n) % n = 0 := by
          rw [Nat.add_mod_mod, ← Nat.add_mul, Nat.sub_add_cancel ha, Nat.mul_mod_right]
        have hlt := Nat.mod_lt ((n - a) * x) (show 0 < n by omega)
        rw [Nat.add_mod, Nat.mod_mod] at e1
        have := Nat.mod_lt (a * x) (show 0 < n by omega)
        obtain ⟨q, hq⟩ := Nat.dvd_of_mod_eq_zero e1
        have : q = 1 := by
          rcases Nat.lt_or_ge q 1 with h | h
          · have : q = 0 := by omega
            subst this; omega
          · rcases Nat.lt_or_ge 1 q with h' | h'
            · have : n * 2 ≤ n * q := Nat.mul_le_mul_left n h'
              omega
            · omega
        subst this
        omega
      apply lb_sound f (n - a) n (n - r) (n - l) (by omega) (by omega) (by omega) x <;> rw [hv] <;> omega
    rw [if_neg hn]
    have hapos : 0 < a := by omega
    have hax : a * x = n * (a * x / n) + a * x % n := (Nat.div_add_mod _ _).symm
    generalize a * x / n = y at hax
    generalize a * x % n = v at hax h1 h2
    by_cases hc : a * ((l + a - 1) / a) ≤ r
    · rw [if_pos hc]
      exact ceil_le hapos (by omega)
    rw [if_neg hc]
    have hq : r / a = l / a := by
      apply le_antisymm _ (Nat.div_le_div_right hl)
      have hlt : r < a * ((l + a - 1) / a) := by omega
      by_cases hm : l % a = 0
      · exfalso
        apply hc
        refine le_trans ?_ hl
        obtain ⟨q, rfl⟩ := Nat.dvd_of_mod_eq_zero hm
        exact Nat.mul_le_mul_left a (ceil_le hapos le_rfl)
      · have : (l + a - 1) / a ≤ l / a + 1 := by
          apply ceil_le hapos
          have := Nat.div_add_mod l a
          have := Nat.mod_lt l hapos
          rw [Nat.mul_add]; omega
        have h3 : r < a * (l / a + 1) := lt_of_lt_of_le hlt (Nat.mul_le_mul_left a this)
        have := Nat.div_lt_of_lt_mul h3
        omega
    have hqv : v / a = l / a := le_antisymm (hq ▸ Nat.div_le_div_right h2) (Nat.div_le_div_right h1)
    have el := Nat.div_add_mod l a
    have er := Nat.div_add_mod r a
    have ev := Nat.div_add_mod v a
    rw [hq] at er
    rw [hqv] at ev
    have hmod : (a - n % a) * y % a = v % a := by
      have hna := Nat.mod_lt n hapos
      have e1 : (a - n % a) * y + n % a * y = a * y := by rw [← Nat.add_mul, Nat.sub_add_cancel hna.le]
      have e2 : (a - n % a) * y + n % a * y ≡ v + n % a * y [MOD a] := by
        have e3 : v + n % a * y ≡ v + n * y [MOD a] :=
          Nat.ModEq.add_left _ (Nat.ModEq.mul_right _ (Nat.mod_modEq n a))
        have e4 : v + n * y = a * x := by omega
        rw [e1]
        refine Nat.ModEq.trans ?_ e3.symm
        rw [e4]
        show a * y % a = a * x % a
        rw [Nat.mul_mod_right, Nat.mul_mod_right]
      exact Nat.ModEq.add_right_cancel' _ e2
    have ih := lb_sound f (a - n % a) a (l % a) (r % a) (by omega) (by omega) (Nat.mod_lt _ hapos) y (by rw [hmod]; omega) (by rw [hmod]; omega)
    apply ceil_le hapos
    have := Nat.mul_le_mul_left n ih
    omega

/-- All `x` from the given one up to `C` with `(o + x * a) % n ≤ w` meet `ok`. -/
def scan (a n w o C : Nat) (ok : Nat → Bool) : Nat → Nat → Bool
  | 0, _ => false
  | f + 1, x =>
    if C < x then true
    else
      let v := (o + x * a) % n
      if v ≤ w then (if ok x then scan a n w o C ok f (x + 1) else false)
      else
        let y := lb 100 a n (n - v) (n - v + w)
        if y = 0 then false else scan a n w o C ok f (x + y)

theorem scan_sound {a n w o C : Nat} {ok : Nat → Bool} (ha : a ≤ n) (hn : 0 < n) : ∀ (f x : Nat), scan a n w o C ok f x = true →
    ∀ c, x ≤ c → c ≤ C → (o + c * a) % n ≤ w → ok c = true
  | 0, _, h, _, _, _, _ => by cases h
  | f + 1, x, h, c, hx, hC, hc => by
    rw [scan] at h
    rw [if_neg (by omega)] at h
    simp only at h
    by_cases hv : (o + x * a) % n ≤ w
    · rw [if_pos hv] at h
      split at h
      · rename_i hok
        rcases Nat.lt_or_ge x c with hlt | hge
        · exact scan_sound ha hn f (x + 1) h c hlt hC hc
        · have : c = x := by omega
          rw [this]; exact hok
      · cases h
    · rw [if_neg hv] at h
      split at h
      · cases h
      · have hvn := Nat.mod_lt (o + x * a) hn
        have e : o + c * a = (o + x * a) + a * (c - x) := by
          obtain ⟨d, rfl⟩ := Nat.exists_eq_add_of_le hx
          rw [Nat.add_sub_cancel_left]; ring
        have hyc : lb 100 a n (n - (o + x * a) % n) (n - (o + x * a) % n + w) ≤ c - x := by
          rw [e] at hc
          generalize hV : (o + x * a) % n = V at *
          have hu := Nat.mod_lt (a * (c - x)) hn
          rw [Nat.add_mod, hV] at hc
          generalize hU : a * (c - x) % n = u at *
          have hge : n ≤ V + u := by
            by_contra hlt
            rw [Nat.mod_eq_of_lt (by omega)] at hc
            omega
          have hm : (V + u) % n = V + u - n := by
            rw [Nat.mod_eq_sub_mod hge, Nat.mod_eq_of_lt (by omega)]
          rw [hm] at hc
          apply lb_sound 100 a n _ _ ha (by omega) (by omega) _ <;> rw [hU] <;> omega
        exact scan_sound ha hn f _ h c (by omega) hC hc

/-- `f32`s with leading bit `2^l`: unit `2^s`, significands from `2^b`. -/
def A (l : Nat) : Nat := 10 ^ ((30103 * l + 10414670) / 100000 - 8) * 2 ^ 202
def B (l : Nat) : Nat := 2 ^ (l - 23 + 52) * 10 ^ 149
def W (l : Nat) : Nat := 2 ^ (l - 23 + min l 23) * 10 ^ 149

def okAt (l c : Nat) : Bool :=
  let t := (c * A l + W l) / B l
  let k := if t % 4 = 3 then (t - 1) / 2 else (t + 1) / 2
  k * 2 ^ (l - 23) = 11420669 * 2 ^ 42 || F32.shortest (k * 2 ^ (l - 23)) ≠ c * 10 ^ ((30103 * l + 10414670) / 100000 - 8)

def checkAt (l : Nat) : Bool :=
  decide (10 ^ ((30103 * l + 10414670) / 100000 - 8 + 8) ≤ 2 ^ l * 5 ^ 149) &&
  (decide (W l < Nat.gcd (A l) (B l)) ||
    scan (A l % (2 * B l)) (2 * B l) (2 * W l) ((W l + B l) % (2 * B l)) ((2 ^ (min l 23 + 2) * B l + W l) / A l) (okAt l) 300
      (((2 ^ (min l 23 + 1) - 1) * B l - W l) / A l))

def checkAll : Nat → Nat → Bool
  | _, 0 => true
  | l, n + 1 => checkAt l && checkAll (l + 1) n

end KS.F32S
