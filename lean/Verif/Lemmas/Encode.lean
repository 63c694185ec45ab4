import Verif.Spec.Serde
/-! Encoding: when it fails. -/

namespace KS

open Spec

/-- Failure exactly on the first problem. -/
def Reports {α : Type} (r : Except EncErr α) (l : List EncErr) : Prop :=
  match r with
  | .error e => l.head? = some e
  | .ok _ => l = []

theorem Reports.append_err {α β : Type} {r : Except EncErr α} {l l' : List EncErr} (h : Reports r l) {e : EncErr}
    (he : r = .error e) : Reports (.error e : Except EncErr β) (l ++ l') := by
  subst he
  simp only [Reports] at h ⊢
  cases l with
  | nil => simp at h
  | cons a t => simpa using h

theorem badName_iff (n : Str) : n.any (fun c => Kserd.invalidIdChars.contains c) = true ↔ badName n := by
  simp only [List.any_eq_true, List.contains_iff_mem, badName]
  rfl

theorem encId_reports (n : Str) (v : Value) : Reports (encId n v) (nameProblem n) := by
  unfold encId Kserd.withId nameProblem
  by_cases h : badName n
  · rw [if_pos ((badName_iff n).mpr h), if_pos h]; rfl
  · rw [if_neg (fun hc => h ((badName_iff n).mp hc)), if_neg h]; rfl

theorem encId_ok {n : Str} (v : Value) (h : ¬ badName n) : encId n v = .ok (.mk (some n) v) := by
  unfold encId Kserd.withId
  rw [if_neg (fun hc => h ((badName_iff n).mp hc))]

mutual
theorem encode_reports : ∀ s : Ser, Reports s.encode (problems s)
  | .bool _ => rfl
  | .int _ _ => rfl
  | .f32 _ => rfl
  | .f64 _ => rfl
  | .char _ => rfl
  | .str _ => rfl
  | .bytes _ => rfl
  | .none => rfl
  | .unit => rfl
  | .fail _ => rfl
  | .some v => by
    have := encode_reports v
    simp only [Ser.encode, problems]
    cases h : v.encode with
    | error e => rw [h] at this; exact this
    | ok k => rw [h] at this; exact this
  | .unitStruct n => encId_reports n _
  | .unitVariant n => encId_reports n _
  | .newtypeStruct n v => by
    have := encode_reports v
    simp only [Ser.encode, problems]
    cases h : v.encode with
    | error e => exact this.append_err h
    | ok k =>
      rw [h] at this
      simp only [Reports] at this
      rw [this]; exact encId_reports n _
  | .newtypeVariant n v => by
    have := encode_reports v
    simp only [Ser.encode, problems]
    cases h : v.encode with
    | error e => exact this.append_err h
    | ok k =>
      rw [h] at this
      simp only [Reports] at this
      rw [this]; exact encId_reports n _
  | .seq l => by
    have := encodeL_reports l
    simp only [Ser.encode, problems]
    cases h : Ser.encodeL l with
    | error e => rw [h] at this; exact this
    | ok k => rw [h] at this; exact this
  | .tuple l => by
    have := encodeL_reports l
    simp only [Ser.encode, problems]
    cases h : Ser.encodeL l with
    | error e => rw [h] at this; exact this
    | ok k => rw [h] at this; exact this
  | .tupleStruct n l => by
    have h0 := encId_reports n .unit
    have := encodeL_reports l
    simp only [Ser.encode, problems]
    cases h1 : encId n .unit with
    | error e => exact h0.append_err h1
    | ok k =>
      rw [h1] at h0; simp only [Reports] at h0; rw [h0]
      cases h : Ser.encodeL l with
      | error e => rw [h] at this; exact this
      | ok k => rw [h] at this; exact this
  | .tupleVariant n l => by
    have h0 := encId_reports n .unit
    have := encodeL_reports l
    simp only [Ser.encode, problems]
    cases h1 : encId n .unit with
    | error e => exact h0.append_err h1
    | ok k =>
      rw [h1] at h0; simp only [Reports] at h0; rw [h0]
      cases h : Ser.encodeL l with
      | error e => rw [h] at this; exact this
      | ok k => rw [h] at this; exact this
  | .map ops => by
    have := encodeOps_reports ops Option.none []
    simp only [Ser.encode, problems]
    cases h : Ser.encodeOps ops Option.none [] with
    | error e => rw [h] at this; exact this
    | ok k => rw [h] at this; exact this
  | .struct n fs => by
    have h0 := encId_reports n .unit
    have := encodeF_reports fs []
    simp only [Ser.encode, problems]
    cases h1 : encId n .unit with
    | error e => exact h0.append_err h1
    | ok k =>
      rw [h1] at h0; simp only [Reports] at h0; rw [h0]
      cases h : Ser.encodeF fs [] with
      | error e => rw [h] at this; exact this
      | ok k => rw [h] at this; exact this
  | .structVariant n fs => by
    have h0 := encId_reports n .unit
    have := encodeF_reports fs []
    simp only [Ser.encode, problems]
    cases h1 : encId n .unit with
    | error e => exact h0.append_err h1
    | ok k =>
      rw [h1] at h0; simp only [Reports] at h0; rw [h0]
      cases h : Ser.encodeF fs [] with
      | error e => rw [h] at this; exact this
      | ok k => rw [h] at this; exact this
theorem encodeL_reports : ∀ l : List Ser, Reports (Ser.encodeL l) (problemsL l)
  | [] => rfl
  | v :: r => by
    have h1 := encode_reports v
    have h2 := encodeL_reports r
    simp only [Ser.encodeL, problemsL]
    cases h : v.encode with
    | error e => exact h1.append_err h
    | ok k =>
      rw [h] at h1; simp only [Reports] at h1; rw [h1]
      cases h' : Ser.encodeL r with
      | error e => rw [h'] at h2; exact h2
      | ok ks => rw [h'] at h2; exact h2
theorem encodeF_reports : ∀ (l : List (Str × Ser)) (m : Fields), Reports (Ser.encodeF l m) (problemsF l)
  | [], _ => rfl
  | (n, v) :: r, m => by
    have h1 := encode_reports v
    simp only [Ser.encodeF, problemsF]
    cases h : v.encode with
    | error e => exact h1.append_err h
    | ok k =>
      rw [h] at h1; simp only [Reports] at h1; rw [h1]
      exact encodeF_reports r _
theorem encodeOps_reports : ∀ (l : List MapOp) (key : Option Kserd) (m : KMap),
    Reports (Ser.encodeOps l key m) (problemsO l key.isSome)
  | [], _, _ => rfl
  | o :: r, key, m => by
    have h1 := encodeOp_reports o key m
    simp only [Ser.encodeOps, problemsO]
    cases h : Ser.encodeOp o key m with
    | error e => exact h1.1.append_err h
    | ok km =>
      rw [h] at h1; simp only [Reports] at h1; rw [h1.1, ← h1.2 km rfl]
      exact encodeOps_reports r _ _
theorem encodeOp_reports : ∀ (o : MapOp) (key : Option Kserd) (m : KMap),
    Reports (Ser.encodeOp o key m) (problemsOp o key.isSome) ∧
    ∀ km, Ser.encodeOp o key m = .ok km → km.1.isSome = waitingAfter o key.isSome
  | .key k, key, m => by
    have h1 := encode_reports k
    simp only [Ser.encodeOp, problemsOp]
    cases h : k.encode with
    | error e => rw [h] at h1; exact ⟨h1, by simp [waitingAfter]⟩
    | ok kk => rw [h] at h1; exact ⟨h1, by simp [waitingAfter]⟩
  | .value v, key, m => by
    have h1 := encode_reports v
    simp only [Ser.encodeOp, problemsOp]
    cases key with
    | none => exact ⟨rfl, by simp [waitingAfter]⟩
    | some kk =>
      cases h : v.encode with
      | error e => rw [h] at h1; exact ⟨h1, by simp [waitingAfter]⟩
      | ok kv => rw [h] at h1; exact ⟨h1, by simp [waitingAfter]⟩
  | .entry k v, key, m => by
    have h1 := encode_reports k
    have h2 := encode_reports v
    simp only [Ser.encodeOp, problemsOp]
    cases h : k.encode with
    | error e => exact ⟨h1.append_err h, by simp [waitingAfter]⟩
    | ok kk =>
      rw [h] at h1; simp only [Reports] at h1; rw [h1]
      cases h' : v.encode with
      | error e => rw [h'] at h2; exact ⟨h2, by simp [waitingAfter]⟩
      | ok kv => rw [h'] at h2; exact ⟨h2, by simp [waitingAfter]⟩
end

end KS
