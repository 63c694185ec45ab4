import Verif.Lemmas.GrammarDocComplete
/-!
# What the parser does at the root
-/

namespace KS.GR
open KS.Spec KS.P KS.Nom KS.RT KS.AS KS.Ext

theorem root_ok {i : Str} {k : Kserd} (h : parse i = .ok k) : ∃ r, N 0 i = .ok r k ∧ Ws r := by
  unfold parse kserdRoot at h
  cases he : i.isEmpty with
  | true => rw [he, if_pos rfl] at h; cases h
  | false =>
    rw [he, if_neg (by simp)] at h
    unfold Nom.allConsuming Nom.terminated at h
    have hf : kserdNested (i.length + 1) 0 i = N 0 i := rfl
    rw [hf] at h
    cases hN : N 0 i with
    | ok r a =>
      rw [hN, bind_ok, multiWs_eq, bind_ok, bind_ok] at h
      cases hd : (r.dropWhile isMultiWs).isEmpty with
      | true =>
        rw [hd, if_pos rfl] at h
        cases h
        exact ⟨r, rfl, List.dropWhile_eq_nil_iff.mp (List.isEmpty_iff.mp hd)⟩
      | false => rw [hd, if_neg (by simp)] at h; cases h
    | err e => rw [hN] at h; cases h
    | fail e => rw [hN] at h; cases h
    | panic => rw [hN] at h; cases h
    | oof => rw [hN] at h; cases h

theorem root_of {i r : Str} {k : Kserd} (hne : i ≠ []) (h : N 0 i = .ok r k) (hr : Ws r) : parse i = .ok k := by
  unfold parse kserdRoot
  have he : i.isEmpty = false := by cases i with | nil => exact (hne rfl).elim | cons => rfl
  rw [he, if_neg (by simp)]
  unfold Nom.allConsuming Nom.terminated
  have h' : kserdNested (i.length + 1) 0 i = .ok r k := h
  rw [h', bind_ok, multiWs_eq, bind_ok, ws_drop hr]
  rfl

end KS.GR
