import Verif.Model.Utf8
import Verif.Model.Basic
/-! Reading UTF-8. -/

namespace KS

theorem enc_ne_nil (c : Char) : String.utf8EncodeChar c ≠ [] := by
  unfold String.utf8EncodeChar; simp only; (repeat' split) <;> simp only [ne_eq, reduceCtorEq, not_false_eq_true]

theorem char_lt (c : Char) : c.toNat < 1114112 := by
  have := c.valid
  rcases this with h | ⟨_, h⟩
  · have : c.toNat < 0xd800 := h
    omega
  · exact h

theorem utf8Char_sound {b : Bytes} {c : Char} {r : Bytes} (h : utf8Char b = some (c, r)) : b = String.utf8EncodeChar c ++ r := by
  unfold utf8Char at h
  split at h
  · cases h
  · simp only [Option.ite_none_right_eq_some, Option.some.injEq, Prod.mk.injEq] at h
    obtain ⟨he, rfl, rfl⟩ := h
    rw [← he, List.take_append_drop]

theorem utf8Char_enc (c : Char) (r : Bytes) : utf8Char (String.utf8EncodeChar c ++ r) = some (c, r) := by
  have hc := char_lt c
  have key : ∀ (n h : Nat) (a : UInt8) (t : Bytes), String.utf8EncodeChar c = a :: t → t.length + 1 = n →
      (if a.toNat < 0x80 then 1 else if a.toNat < 0xe0 then 2 else if a.toNat < 0xf0 then 3 else 4) = n →
      (if n = 1 then a.toNat else if n = 2 then a.toNat % 32 else if n = 3 then a.toNat % 16 else a.toNat % 8) = h →
      t.foldl (fun v x => v * 64 + x.toNat % 64) h = c.toNat → utf8Char (String.utf8EncodeChar c ++ r) = some (c, r) := by
    intro n h a t he hl hn hh hf
    have ht : ((a :: t) ++ r).take n = a :: t := by
      rw [← hl, show t.length + 1 = (a :: t).length from rfl, List.take_left]
    have hd : ((a :: t) ++ r).drop n = r := by
      rw [← hl, show t.length + 1 = (a :: t).length from rfl, List.drop_left]
    rw [he]
    unfold utf8Char
    simp only [List.cons_append] at ht hd ⊢
    rw [hn, hh, ht, hd, List.tail_cons, hf, Char.ofNat_toNat, if_pos he.symm]
  have e1 : ∀ k : Nat, (k % 0x40 + 0x80) % 2 ^ 8 = k % 64 + 128 := fun k => by omega
  have e2 : ∀ k : Nat, (k % 0x20 + 0xc0) % 2 ^ 8 = k % 32 + 192 := fun k => by omega
  have e3 : ∀ k : Nat, (k % 0x10 + 0xe0) % 2 ^ 8 = k % 16 + 224 := fun k => by omega
  have e4 : ∀ k : Nat, (k % 0x08 + 0xf0) % 2 ^ 8 = k % 8 + 240 := fun k => by omega
  have hdef := String.utf8EncodeChar.eq_def c
  rw [show c.val.toNat = c.toNat from rfl] at hdef
  generalize c.toNat = m at *
  simp only at hdef
  split at hdef
  · exact key 1 m _ _ hdef rfl (by rw [UInt8.toNat_ofNat']; split <;> omega) (by simp [UInt8.toNat_ofNat']; omega) rfl
  split at hdef
  · refine key 2 (m / 64) _ _ hdef rfl ?_ ?_ ?_
    · rw [UInt8.toNat_ofNat', e2]; (repeat' split) <;> omega
    · rw [UInt8.toNat_ofNat', e2]; simp; omega
    · simp only [List.foldl_cons, List.foldl_nil, UInt8.toNat_ofNat', e1]; omega
  split at hdef
  · refine key 3 (m / 4096) _ _ hdef rfl ?_ ?_ ?_
    · rw [UInt8.toNat_ofNat', e3]; (repeat' split) <;> omega
    · rw [UInt8.toNat_ofNat', e3]; simp; omega
    · simp only [List.foldl_cons, List.foldl_nil, UInt8.toNat_ofNat', e1]; omega
  · refine key 4 (m / 262144) _ _ hdef rfl ?_ ?_ ?_
    · rw [UInt8.toNat_ofNat', e4]; (repeat' split) <;> omega
    · rw [UInt8.toNat_ofNat', e4]; simp; omega
    · simp only [List.foldl_cons, List.foldl_nil, UInt8.toNat_ofNat', e1]; omega

theorem utf8Chars_sound : ∀ (f : Nat) (b : Bytes) (s : Str), utf8Chars f b = some s → strBytes s = b
  | f, [], s, h => by rw [utf8Chars] at h; cases h; rfl
  | 0, _ :: _, s, h => by rw [utf8Chars] at h; cases h
  | f + 1, x :: b, s, h => by
    rw [utf8Chars] at h
    cases hc : utf8Char (x :: b) with
    | none => rw [hc] at h; cases h
    | some p =>
      obtain ⟨c, r⟩ := p
      rw [hc] at h
      simp only at h
      cases hr : utf8Chars f r with
      | none => rw [hr] at h; cases h
      | some s' =>
        rw [hr] at h
        cases h
        rw [utf8Char_sound hc, ← utf8Chars_sound f r s' hr]; rfl

theorem utf8Chars_complete : ∀ (f : Nat) (s : Str), (strBytes s).length ≤ f → utf8Chars f (strBytes s) = some s
  | f, [], _ => by simp [strBytes, utf8Chars]
  | f, c :: s, h => by
    have he : strBytes (c :: s) = String.utf8EncodeChar c ++ strBytes s := rfl
    rw [he] at h ⊢
    have hp : 0 < (String.utf8EncodeChar c).length := List.length_pos_iff.mpr (enc_ne_nil c)
    rw [List.length_append] at h
    cases f with
    | zero => omega
    | succ f =>
      have ih := utf8Chars_complete f s (by omega)
      have hc := utf8Char_enc c (strBytes s)
      obtain ⟨x, b, hb⟩ := List.exists_cons_of_ne_nil (enc_ne_nil c)
      rw [hb, List.cons_append] at hc ⊢
      rw [utf8Chars, hc]
      simp only [ih]

/-- `str::from_utf8` is the inverse of `str::as_bytes`. -/
theorem bytesStr_iff (b : Bytes) (s : Str) : bytesStr b = some s ↔ strBytes s = b := by
  constructor
  · exact utf8Chars_sound _ b s
  · rintro rfl; exact utf8Chars_complete _ s (Nat.le_refl _)

theorem bytesStr_none (b : Bytes) : bytesStr b = none ↔ ∀ s, strBytes s ≠ b := by
  rw [Option.eq_none_iff_forall_ne_some]
  exact forall_congr' fun s => not_congr (bytesStr_iff b s)

theorem strBytes_inj {a b : Str} (h : strBytes a = strBytes b) : a = b := by
  have ha := (bytesStr_iff _ a).mpr rfl
  rw [h, (bytesStr_iff _ b).mpr rfl] at ha
  exact (Option.some.inj ha).symm

end KS
