import Verif.Lemmas.NumChars
import Mathlib.Tactic.Ring
/-!
# Base 91 decoding inverts encoding
-/

namespace KS.Base91

theorem table_spec : ∀ d : Fin 91, deChar (enChar d) = some d.val := by decide +kernel

theorem de_en {d : Nat} (h : d < 91) : deChar (enChar d) = some d := table_spec ⟨d, h⟩

/-- The first `k` bytes of a number, least significant first. -/
def bytesOf (N : Nat) : Nat → List Nat
  | 0 => []
  | k + 1 => N % 256 :: bytesOf (N / 256) k

/-- The number of a byte sequence. -/
def val : List Nat → Nat
  | [] => 0
  | x :: xs => x + 256 * val xs

theorem bytesOf_val : ∀ xs : List Nat, (∀ x ∈ xs, x < 256) → bytesOf (val xs) xs.length = xs
  | [], _ => rfl
  | x :: xs, h => by
    have hx : x < 256 := h x (by simp)
    rw [List.length_cons, bytesOf, val]
    rw [show (x + 256 * val xs) % 256 = x by omega, show (x + 256 * val xs) / 256 = val xs by omega,
      bytesOf_val xs (fun y hy => h y (by simp [hy]))]

theorem step1 (q m R : Nat) (hm : 8 ≤ m) :
    (q + 2 ^ m * R) % 256 = q % 256 ∧ (q + 2 ^ m * R) / 256 = q / 256 + 2 ^ (m - 8) * R := by
  have : 2 ^ m * R = 256 * (2 ^ (m - 8) * R) := by
    rw [← Nat.mul_assoc, show (256 : Nat) = 2 ^ 8 by rfl, ← Nat.pow_add, show 8 + (m - 8) = m by omega]
  rw [this]
  omega

theorem div_lt_pow {q m : Nat} (h : q < 2 ^ m) (hm : 8 ≤ m) : q / 256 < 2 ^ (m - 8) := by
  rw [Nat.div_lt_iff_lt_mul (by decide), show (256 : Nat) = 2 ^ 8 by rfl, ← Nat.pow_add, show m - 8 + 8 = m by omega]
  exact h

/-- Draining the queue outputs the first bytes of the whole number. -/
theorem drain_spec (q m R : Nat) (hq : q < 2 ^ m) (h1 : 8 ≤ m) (h2 : m ≤ 21) :
    ∃ j, (m / 8 = j) ∧ (drain q m).2.2 = bytesOf (q + 2 ^ m * R) j ∧ (drain q m).2.1 = m - 8 * j ∧ (drain q m).1 < 2 ^ (m - 8 * j) ∧
      ∀ k, bytesOf (q + 2 ^ m * R) (j + k) = (drain q m).2.2 ++ bytesOf ((drain q m).1 + 2 ^ (m - 8 * j) * R) k := by
  obtain ⟨a1, a2⟩ := step1 q m R h1
  have hlt := div_lt_pow hq h1
  unfold drain
  by_cases h : m - 8 > 7
  · rw [if_pos h]
    obtain ⟨b1, b2⟩ := step1 (q / 256) (m - 8) R (by omega)
    have hlt2 := div_lt_pow hlt (by omega)
    have e : q / 2 ^ 16 = q / 256 / 256 := by omega
    refine ⟨2, by omega, ?_, rfl, ?_, ?_⟩
    · simp only [bytesOf, a1, a2, b1]
    · show q / 2 ^ 16 < _
      rw [e]; rw [show m - 8 - 8 = m - 8 * 2 by omega] at hlt2; exact hlt2
    · intro k
      rw [show 2 + k = k + 1 + 1 by omega]
      simp only [bytesOf, a1, a2, b1, b2, List.cons_append, List.nil_append]
      rw [e, show m - 8 - 8 = m - 8 * 2 by omega]
  · rw [if_neg h]
    refine ⟨1, by omega, ?_, rfl, ?_, ?_⟩
    · simp only [bytesOf, a1]
    · simpa using hlt
    · intro k
      rw [show 1 + k = k + 1 by omega]
      simp only [bytesOf, a1, a2, List.cons_append, List.nil_append, Nat.mul_one]

/-- Decoding a pair of characters. -/
theorem dec_pair (b n w : Nat) (cs : List Char) (hw : w < 8281) :
    decLoop b n none (enChar (w % 91) :: enChar (w / 91) :: cs) =
      (drain (b + w * 2 ^ n) (n + if w % 2 ^ 13 > 88 then 13 else 14)).2.2 ++
      decLoop (drain (b + w * 2 ^ n) (n + if w % 2 ^ 13 > 88 then 13 else 14)).1
        (drain (b + w * 2 ^ n) (n + if w % 2 ^ 13 > 88 then 13 else 14)).2.1 none cs := by
  have e : w % 91 + w / 91 * 91 = w := by omega
  rw [decLoop, de_en (Nat.mod_lt _ (by decide))]
  dsimp only
  rw [decLoop, de_en (by omega)]
  dsimp only
  rw [e]

theorem queue_lt {db dn w t : Nat} (h1 : db < 2 ^ dn) (h2 : w < 2 ^ t) : db + w * 2 ^ dn < 2 ^ (dn + t) := by
  have : (w + 1) * 2 ^ dn ≤ 2 ^ t * 2 ^ dn := Nat.mul_le_mul_right _ h2
  rw [Nat.pow_add, Nat.mul_comm (2 ^ dn)]
  rw [Nat.add_mul] at this
  omega

theorem decLoop_enc : ∀ (xs : List Nat) (b n db dn : Nat), (∀ x ∈ xs, x < 256) → b < 2 ^ n → n ≤ 13 → db < 2 ^ dn → dn ≤ 7 →
    (dn + n) % 8 = 0 →
    decLoop db dn none (encLoop b n xs) = bytesOf (db + 2 ^ dn * (b + 2 ^ n * val xs)) ((dn + n) / 8 + xs.length)
  | [], b, n, db, dn, _, hb, hn, hdb, hdn, hm => by
    have hpow : b < 8192 := Nat.lt_of_lt_of_le hb (Nat.pow_le_pow_right (by decide) hn)
    rw [encLoop, val, Nat.mul_zero, Nat.add_zero, List.length_nil, Nat.add_zero]
    split
    · rename_i h0
      subst h0
      have : dn = 0 := by omega
      subst this
      simp [decLoop, bytesOf]
    · rename_i h0
      split
      · rename_i h1
        rw [dec_pair _ _ _ _ (by omega)]
        generalize ht : (if b % 2 ^ 13 > 88 then 13 else 14) = t
        have hb' : b % 2 ^ 13 = b := Nat.mod_eq_of_lt hpow
        rw [hb'] at ht
        have ht' : t = 13 ∧ 88 < b ∨ t = 14 ∧ b ≤ 88 := by
          split at ht
          · left; omega
          · right; omega
        have hbt : b < 2 ^ t := by
          rcases ht' with ⟨rfl, _⟩ | ⟨rfl, _⟩
          · exact hpow
          · omega
        have hn7 : b > 90 → 7 ≤ n := by
          intro hh
          by_contra hc
          have : b < 2 ^ 6 := Nat.lt_of_lt_of_le hb (Nat.pow_le_pow_right (by decide) (by omega))
          omega
        obtain ⟨j, hj, hout, _, _, _⟩ := drain_spec (db + b * 2 ^ dn) (dn + t) 0 (queue_lt hdb hbt) (by omega) (by omega)
        rw [hout, Nat.mul_zero, Nat.add_zero]
        have : decLoop (drain (db + b * 2 ^ dn) (dn + t)).1 (drain (db + b * 2 ^ dn) (dn + t)).2.1 none [] = [] := rfl
        rw [this, List.append_nil, Nat.mul_comm b]
        congr 1
        omega
      · rename_i h1
        have : (dn + n) / 8 = 1 := by omega
        rw [this, decLoop, de_en (Nat.mod_lt _ (by decide))]
        dsimp only
        rw [decLoop]
        have : b % 91 = b := by omega
        simp only [this, bytesOf, Nat.mul_comm b]
  | x :: xs, b, n, db, dn, hx, hb, hn, hdb, hdn, hm => by
    have hx0 : x < 256 := hx x (by simp)
    have hxs : ∀ y ∈ xs, y < 256 := fun y hy => hx y (by simp [hy])
    have hb1 : b + x * 2 ^ n < 2 ^ (n + 8) := queue_lt hb (by omega)
    have hnum : b + 2 ^ n * val (x :: xs) = (b + x * 2 ^ n) + 2 ^ (n + 8) * val xs := by
      rw [val, Nat.pow_add, Nat.mul_add, Nat.mul_comm x, Nat.mul_assoc, Nat.add_assoc]
    rw [encLoop_cons, hnum, List.length_cons]
    unfold encStep
    dsimp only
    generalize hb1e : b + x * 2 ^ n = b1 at *
    by_cases h13 : n + 8 > 13
    · rw [if_pos h13]
      -- emitting `t` bits `w`
      have emit : ∀ (w t : Nat), w = b1 % 2 ^ t → t ≤ n + 8 → (t = 13 ∨ t = 14) → w < 8281 → (if w % 2 ^ 13 > 88 then 13 else 14) = t →
          decLoop db dn none ([enChar (w % 91), enChar (w / 91)] ++ encLoop (b1 / 2 ^ t) (n + 8 - t) xs) =
            bytesOf (db + 2 ^ dn * (b1 + 2 ^ (n + 8) * val xs)) ((dn + n) / 8 + (xs.length + 1)) := by
        intro w t hw htn ht hw2 hif
        rw [List.cons_append, List.cons_append, List.nil_append, dec_pair _ _ _ _ hw2, hif]
        have hwt : w < 2 ^ t := by rw [hw]; exact Nat.mod_lt _ (Nat.pow_pos (by decide))
        obtain ⟨j, hj, _, hn', hlt, hsplit⟩ := drain_spec (db + w * 2 ^ dn) (dn + t) (b1 / 2 ^ t + 2 ^ (n + 8 - t) * val xs)
          (queue_lt hdb hwt) (by omega) (by omega)
        have hb2 : b1 / 2 ^ t < 2 ^ (n + 8 - t) := by
          rw [Nat.div_lt_iff_lt_mul (Nat.pow_pos (by decide)), ← Nat.pow_add, show n + 8 - t + t = n + 8 by omega]; exact hb1
        rw [hn']
        rw [decLoop_enc xs _ _ _ _ hxs hb2 (by omega) hlt (by omega) (by omega)]
        rw [← hsplit]
        have e1 : db + w * 2 ^ dn + 2 ^ (dn + t) * (b1 / 2 ^ t + 2 ^ (n + 8 - t) * val xs) =
            db + 2 ^ dn * (b1 + 2 ^ (n + 8) * val xs) := by
          have hsum : b1 = w + 2 ^ t * (b1 / 2 ^ t) := by rw [hw]; exact (Nat.mod_add_div b1 (2 ^ t)).symm
          have hp : 2 ^ (n + 8) = 2 ^ t * 2 ^ (n + 8 - t) := by rw [← Nat.pow_add, show t + (n + 8 - t) = n + 8 by omega]
          rw [Nat.pow_add 2 dn t, hp]
          generalize b1 / 2 ^ t = c at *
          rw [hsum]
          ring
        rw [e1]
        congr 1
        omega
      have hmm : b1 % 2 ^ 14 % 2 ^ 13 = b1 % 2 ^ 13 := Nat.mod_mod_of_dvd _ (by decide)
      by_cases h88 : b1 % 2 ^ 13 > 88
      · rw [if_pos h88]
        apply emit _ 13 rfl (by omega) (.inl rfl)
        · have := Nat.mod_lt b1 (show 0 < 2 ^ 13 by decide); omega
        · rw [Nat.mod_mod, if_pos h88]
      · rw [if_neg h88]
        apply emit _ 14 rfl (by omega) (.inr rfl)
        · have h1 := Nat.mod_lt b1 (show 0 < 2 ^ 14 by decide)
          rw [← hmm] at h88
          generalize b1 % 2 ^ 14 = v at *
          omega
        · rw [hmm, if_neg h88]
    · rw [if_neg h13, List.nil_append]
      rw [decLoop_enc xs b1 (n + 8) db dn hxs hb1 (by omega) hdb hdn (by omega)]
      congr 1
      omega

/-- Decoding inverts encoding. -/
theorem decode_encode (b : Bytes) : decode (encode b) = b := by
  rw [decode, encode]
  have hlt : ∀ x ∈ b.map (·.toNat), x < 256 := by
    intro x hx
    obtain ⟨y, _, rfl⟩ := List.mem_map.mp hx
    exact y.toNat_lt
  rw [decLoop_enc _ 0 0 0 0 hlt (by decide) (by decide) (by decide) (by decide) (by decide)]
  simp only [Nat.pow_zero, Nat.one_mul, Nat.zero_add, Nat.zero_div]
  rw [bytesOf_val _ hlt, List.map_map]
  have : ((fun n => UInt8.ofNat n) ∘ fun x : UInt8 => x.toNat) = id := by
    funext x; simp
  rw [this, List.map_id]

theorem encode_no_quote (b : Bytes) : '\'' ∉ encode b := by
  intro h
  exact (by decide : '\'' ∉ table) (encode_mem b _ h)

end KS.Base91
