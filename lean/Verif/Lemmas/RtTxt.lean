import Verif.Lemmas.RtPrim
/-!
# The shape of written text without verbose parts, and reading it back
-/

namespace KS.RT
open KS.Spec KS.P KS.Nom

/-- Line break and indentation. -/
def IsNl (w : Str) : Prop := ∃ n, w = '\n' :: List.replicate n ' '

/-- Identity in front of a composite. -/
def nid (sp : Str) : Option Str → Str
  | none => []
  | some i => i ++ sp

/-- Nothing or one blank. -/
def Blank (sp : Str) : Prop := sp = [] ∨ sp = [' ']

/-! `Txt inl k t`: `t` is a text of `k`; with `inl = true` a single-line one. Lists are inline (`TxtI`, separated by
commas; the first argument is what stands before the first element) or concise (`TxtC`, one line each). -/
mutual
def Txt (inl : Bool) : Kserd → Str → Prop
  | .mk id v, t => TxtV inl id v t
termination_by structural a => a
def TxtV (inl : Bool) (id : Option Str) : Value → Str → Prop
  | .unit, t => t = str "()"
  | .bool b, t => t = pid id ++ W.boolLit b
  | .num n, t => t = pid id ++ n.disp
  | .str s, t => ∃ l, W.strLit s = some l ∧ t = pid id ++ l
  | .barr b, t => t = pid id ++ W.barrLit b
  | .tuple l, t => ∃ sp b, Blank sp ∧ t = nid sp id ++ '(' :: (b ++ [')']) ∧ (TxtI l [] b ∨ (inl = false ∧ TxtC l b))
  | .seq l, t => ∃ sp b, Blank sp ∧ t = nid sp id ++ '[' :: (b ++ [']']) ∧ (TxtI l [] b ∨ (inl = false ∧ TxtC l b))
  | .cntr f, t => ∃ sp b, Blank sp ∧ t = nid sp id ++ '(' :: (b ++ [')']) ∧ (TxtFI f [] b ∨ (inl = false ∧ f ≠ [] ∧ TxtFC f b))
  | .map m, t => ∃ sp b, Blank sp ∧ t = nid sp id ++ '{' :: (b ++ ['}']) ∧ (TxtMI m [' '] [] b ∨ (inl = false ∧ TxtMC m b))
termination_by structural a => a
def TxtI : List Kserd → Str → Str → Prop
  | [], _, b => b = []
  | k :: r, pre, b => ∃ t b', b = pre ++ (t ++ b') ∧ Txt true k t ∧ TxtI r (str ", ") b'
termination_by structural a => a
def TxtC : List Kserd → Str → Prop
  | [], b => IsNl b
  | k :: r, b => ∃ w t b', b = w ++ (t ++ b') ∧ IsNl w ∧ Txt false k t ∧ TxtC r b' ∧ (Bare k → ∀ y r', r = y :: r' → ¬ Opens y)
termination_by structural a => a
def TxtFI : List (Str × Kserd) → Str → Str → Prop
  | [], _, b => b = []
  | (n, k) :: r, pre, b => ∃ t b', b = pre ++ (n ++ (str " = " ++ (t ++ b'))) ∧ Txt true k t ∧ TxtFI r (str ", ") b'
termination_by structural a => a
def TxtFC : List (Str × Kserd) → Str → Prop
  | [], b => IsNl b
  | (n, k) :: r, b => ∃ w t b', b = w ++ (n ++ (str " = " ++ (t ++ b'))) ∧ IsNl w ∧ Txt false k t ∧ TxtFC r b'
termination_by structural a => a
def TxtMI : List (Kserd × Kserd) → Str → Str → Str → Prop
  | [], _, fin, b => b = fin
  | (k, v) :: r, pre, _, b => ∃ t u b', b = pre ++ (t ++ (str ": " ++ (u ++ b'))) ∧ Txt true k t ∧ Txt true v u ∧
      TxtMI r (str ", ") [' '] b'
termination_by structural a => a
def TxtMC : List (Kserd × Kserd) → Str → Prop
  | [], b => IsNl b
  | (k, v) :: r, b => ∃ w t u b', b = w ++ (t ++ (str ": " ++ (u ++ b'))) ∧ IsNl w ∧ Txt false k t ∧ Txt false v u ∧
      TxtMC r b' ∧ (Bare v → ∀ y z r', r = (y, z) :: r' → ¬ Opens y)
termination_by structural a => a
end

/-! ## Shapes -/

/-- Identities of composites that can be read. -/
def CId (id : Option Str) : Prop := ∀ i, id = some i → ValidName i ∧ NotBool i

theorem name_head_ws {i : Str} (h : ValidName i) : ∃ c r, i = c :: r ∧ isMultiWs c = false ∧ c ≠ '(' ∧ c ≠ '[' ∧ c ≠ '{' ∧ c ≠ ')' ∧ c ≠ ']' ∧ c ≠ '}' := by
  obtain ⟨c, r, rfl, -⟩ := name_head h
  have hc := name_chars h c (by simp)
  have ne : ∀ d : Char, isNameChar d = false → c ≠ d := by
    rintro d hd rfl; rw [hc] at hd; cases hd
  refine ⟨c, r, rfl, ?_, ne _ (by decide), ne _ (by decide), ne _ (by decide), ne _ (by decide), ne _ (by decide), ne _ (by decide)⟩
  rw [isMultiWs, ← Bool.not_eq_true, List.contains_iff_mem]
  intro hm
  have : ∀ x ∈ str " \t\r\n", isNameChar x = false := by decide
  exact ne c (this c hm) rfl

theorem nid_head {sp : Str} {id : Option Str} (hid : CId id) {o : Char} (ho : isMultiWs o = false) (x : Str) :
    ∃ c r, nid sp id ++ o :: x = c :: r ∧ isMultiWs c = false ∧ ((id = none ∧ c = o) ∨ (c ≠ '(' ∧ c ≠ '[' ∧ c ≠ '{')) := by
  cases id with
  | none => exact ⟨o, x, rfl, ho, .inl ⟨rfl, rfl⟩⟩
  | some i =>
    obtain ⟨c, r, rfl, h1, h2⟩ := name_head_ws (hid i rfl).1
    exact ⟨c, r ++ sp ++ o :: x, by simp [nid], h1, .inr ⟨h2.1, h2.2.1, h2.2.2.1⟩⟩

theorem pid_head {id : Option Str} {l : Str} (hl : ∃ c r, l = c :: r ∧ isMultiWs c = false ∧ c ≠ '(' ∧ c ≠ '[' ∧ c ≠ '{') :
    ∃ c r, pid id ++ l = c :: r ∧ isMultiWs c = false ∧ c ≠ '(' ∧ c ≠ '[' ∧ c ≠ '{' := by
  cases id with
  | none => exact hl
  | some i => exact ⟨'<', _, pid_eq i l, by decide⟩

theorem strLit_head' {s l : Str} (h : W.strLit s = some l) : ∃ c r, l = c :: r ∧ isMultiWs c = false ∧ c ≠ '(' ∧ c ≠ '[' ∧ c ≠ '{' := by
  obtain ⟨c, r, h1, h2⟩ := strLit_head h
  refine ⟨c, r, h1, ?_⟩
  rcases h2 with rfl | rfl <;> decide

/-- A text begins with a visible character, an opening delimiter only if the Kserd `Opens`. -/
theorem txt_head {k : Kserd} {inl : Bool} {t : Str} (hk : TextOk k) (h : Txt inl k t) :
    ∃ c r, t = c :: r ∧ isMultiWs c = false ∧ (¬ Opens k → c ≠ '(' ∧ c ≠ '[' ∧ c ≠ '{') := by
  obtain ⟨id, v⟩ := k
  rw [Txt] at h
  have comp : ∀ {sp : Str} {o : Char} {x : Str}, (∀ i, id = some i → NotBool i) → isMultiWs o = false → t = nid sp id ++ o :: x →
      (id = none → Opens (.mk id v)) → ∃ c r, t = c :: r ∧ isMultiWs c = false ∧ (¬ Opens (.mk id v) → c ≠ '(' ∧ c ≠ '[' ∧ c ≠ '{') := by
    intro sp o x hnb ho e hop
    obtain ⟨c, r, h1, h2, h3⟩ := nid_head (sp := sp) (id := id) (fun i hi => ⟨hk.1 i hi, hnb i hi⟩) ho x
    refine ⟨c, r, by rw [e, h1], h2, fun hno => ?_⟩
    rcases h3 with ⟨h3, -⟩ | h3
    · exact absurd (hop h3) hno
    · exact h3
  have prm : ∀ {l : Str}, t = pid id ++ l → (∃ c r, l = c :: r ∧ isMultiWs c = false ∧ c ≠ '(' ∧ c ≠ '[' ∧ c ≠ '{') →
      ∃ c r, t = c :: r ∧ isMultiWs c = false ∧ (¬ Opens (.mk id v) → c ≠ '(' ∧ c ≠ '[' ∧ c ≠ '{') := by
    intro l e hl
    obtain ⟨c, r, h1, h2, h3⟩ := pid_head (id := id) hl
    exact ⟨c, r, by rw [e, h1], h2, fun _ => h3⟩
  cases v with
  | unit =>
    rw [TxtV] at h
    have hid : id = none := hk.2
    exact ⟨'(', [')'], h, by decide, fun hno => absurd ⟨hid, trivial⟩ hno⟩
  | bool b => rw [TxtV] at h; exact prm h (by cases b <;> exact ⟨_, _, rfl, by decide⟩)
  | num n =>
    rw [TxtV] at h
    obtain ⟨c, r, hd, hc⟩ := disp_facts n
    exact prm h ⟨c, r, hd, hc.1, hc.2.2.1, hc.2.2.2.1, hc.2.2.2.2.1⟩
  | str s => rw [TxtV] at h; obtain ⟨l, hl, e⟩ := h; exact prm e (strLit_head' hl)
  | barr b => rw [TxtV] at h; exact prm h ⟨'b', '9' :: '1' :: '\'' :: (Base91.encode b ++ ['\'']), by simp [W.barrLit]; rfl, by decide⟩
  | tuple l => rw [TxtV] at h; obtain ⟨sp, b, -, e, -⟩ := h; exact comp hk.2.1 (by decide) e fun hi => ⟨hi, trivial⟩
  | seq l => rw [TxtV] at h; obtain ⟨sp, b, -, e, -⟩ := h; exact comp hk.2 (by decide) e fun hi => ⟨hi, trivial⟩
  | cntr l => rw [TxtV] at h; obtain ⟨sp, b, -, e, -⟩ := h; exact comp hk.2.1 (by decide) e fun hi => ⟨hi, trivial⟩
  | map l => rw [TxtV] at h; obtain ⟨sp, b, -, e, -⟩ := h; exact comp hk.2.1 (by decide) e fun hi => ⟨hi, trivial⟩

/-! ## Whitespace between elements -/

theorem nl_ws {w : Str} (h : IsNl w) : ∀ c ∈ w, isMultiWs c = true := by
  obtain ⟨n, rfl⟩ := h
  intro c hc
  rcases List.mem_cons.mp hc with rfl | hc
  · decide
  · rw [(List.mem_replicate.mp hc).2]; decide

theorem nl_pos {w : Str} (h : IsNl w) : 0 < w.length := by obtain ⟨n, rfl⟩ := h; simp

theorem nl_cons {w : Str} (h : IsNl w) : ∃ r, w = '\n' :: r := by obtain ⟨n, rfl⟩ := h; exact ⟨_, rfl⟩

theorem drop_nl {w : Str} (h : IsNl w) {c : Char} (hc : isMultiWs c = false) (x : Str) :
    (w ++ c :: x).dropWhile isMultiWs = c :: x := by
  rw [List.dropWhile_append_of_pos (nl_ws h), dropWs x hc]

theorem multiWs_nl {w : Str} (h : IsNl w) {c : Char} (hc : isMultiWs c = false) (x : Str) :
    multiWs (w ++ c :: x) = .ok (c :: x) w := by
  rw [multiWs, takeWhile, drop_nl h hc, List.takeWhile_append_of_pos (nl_ws h)]
  simp [hc]

theorem multiWs_none {c : Char} (hc : isMultiWs c = false) (x : Str) : multiWs (c :: x) = .ok (c :: x) [] := by
  simp [multiWs, takeWhile, hc]

theorem txtC_cons {l : List Kserd} {b : Str} (h : TxtC l b) : ∃ r, b = '\n' :: r := by
  cases l with
  | nil => exact nl_cons h
  | cons k r =>
    rw [TxtC] at h
    obtain ⟨w, t, b', rfl, hw, -⟩ := h
    obtain ⟨r, rfl⟩ := nl_cons hw
    exact ⟨_, rfl⟩

theorem txtFC_cons {l : List (Str × Kserd)} {b : Str} (h : TxtFC l b) : ∃ r, b = '\n' :: r := by
  cases l with
  | nil => exact nl_cons h
  | cons p r =>
    obtain ⟨n, k⟩ := p
    rw [TxtFC] at h
    obtain ⟨w, t, b', rfl, hw, -⟩ := h
    obtain ⟨r, rfl⟩ := nl_cons hw
    exact ⟨_, rfl⟩

theorem txtMC_cons {l : List (Kserd × Kserd)} {b : Str} (h : TxtMC l b) : ∃ r, b = '\n' :: r := by
  cases l with
  | nil => exact nl_cons h
  | cons p r =>
    obtain ⟨k, v⟩ := p
    rw [TxtMC] at h
    obtain ⟨w, t, u, b', rfl, hw, -⟩ := h
    obtain ⟨r, rfl⟩ := nl_cons hw
    exact ⟨_, rfl⟩

/-- Closing delimiters. -/
def closers : List Char := [')', ']', '}']

theorem closer_facts {c : Char} (h : c ∈ closers) : isMultiWs c = false ∧ c ≠ '(' ∧ c ≠ '[' ∧ c ≠ '{' ∧ c ∈ seps := by
  revert c; decide

theorem allL_cons {P : Kserd → Prop} {k : Kserd} {r : List Kserd} (h : AllL P (k :: r)) : All P k ∧ AllL P r := by rwa [AllL] at h
theorem allF_cons {P : Kserd → Prop} {n : Str} {k : Kserd} {r : List (Str × Kserd)} (h : AllF P ((n, k) :: r)) : All P k ∧ AllF P r := by rwa [AllF] at h
theorem allM_cons {P : Kserd → Prop} {k v : Kserd} {r : List (Kserd × Kserd)} (h : AllM P ((k, v) :: r)) : All P k ∧ All P v ∧ AllM P r := by rwa [AllM] at h
theorem all_self {P : Kserd → Prop} {k : Kserd} (h : All P k) : P k := by obtain ⟨i, v⟩ := k; rw [All] at h; exact h.1

theorem txtC_noOpen {l : List Kserd} {b : Str} (hl : AllL TextOk l) (h : TxtC l b) (hn : ∀ y r', l = y :: r' → ¬ Opens y)
    {c : Char} (hc : c ∈ closers) (rest : Str) : NoOpen (b ++ c :: rest) := by
  have hf := closer_facts hc
  cases l with
  | nil =>
    intro x r e
    rw [drop_nl h hf.1] at e
    cases e
    exact ⟨hf.2.1, hf.2.2.1, hf.2.2.2.1⟩
  | cons k r =>
    rw [TxtC] at h
    obtain ⟨w, t, b', rfl, hw, ht, -⟩ := h
    obtain ⟨c', r', rfl, h1, h2⟩ := txt_head (all_self (allL_cons hl).1) ht
    intro x y e
    simp only [List.append_assoc, List.cons_append] at e
    rw [drop_nl hw h1] at e
    cases e
    exact h2 (hn _ _ rfl)

theorem txtMC_noOpen {l : List (Kserd × Kserd)} {b : Str} (hl : AllM TextOk l) (h : TxtMC l b)
    (hn : ∀ y z r', l = (y, z) :: r' → ¬ Opens y) (rest : Str) : NoOpen (b ++ '}' :: rest) := by
  cases l with
  | nil =>
    intro x r e
    rw [drop_nl h (by decide)] at e
    cases e
    decide
  | cons p r =>
    obtain ⟨k, v⟩ := p
    rw [TxtMC] at h
    obtain ⟨w, t, u, b', rfl, hw, ht, -⟩ := h
    obtain ⟨c', r', rfl, h1, h2⟩ := txt_head (all_self (allM_cons hl).1) ht
    intro x y e
    simp only [List.append_assoc, List.cons_append] at e
    rw [drop_nl hw h1] at e
    cases e
    exact h2 (hn _ _ _ rfl)

/-- A field name followed by ` = ` and anything. -/
theorem field_drop {n : Str} (hn : ∀ c ∈ n, NameChar c) (x : Str) : ∃ s, Blank s ∧ (n ++ (str " = " ++ x)).dropWhile isMultiWs = n ++ (s ++ (str "= " ++ x)) := by
  cases n with
  | nil => exact ⟨[], .inl rfl, rfl⟩
  | cons c n =>
    refine ⟨[' '], .inr rfl, ?_⟩
    have : isMultiWs c = false := by
      have hc := (PG.isNameChar_iff c).mpr (hn c (by simp))
      rw [isMultiWs, ← Bool.not_eq_true, List.contains_iff_mem]
      intro hm
      have : ∀ x ∈ str " \t\r\n", isNameChar x = false := by decide
      rw [this c hm] at hc; cases hc
    simp [this]; rfl

theorem field_drop_inline {n : Str} (hn : ∀ c ∈ n, NameChar c) (x : Str) : ∃ s, Blank s ∧ (n ++ (str " = " ++ x)).dropWhile isInlineWs = n ++ (s ++ (str "= " ++ x)) := by
  cases n with
  | nil => exact ⟨[], .inl rfl, rfl⟩
  | cons c n =>
    refine ⟨[' '], .inr rfl, ?_⟩
    have : isMultiWs c = false := by
      have hc := (PG.isNameChar_iff c).mpr (hn c (by simp))
      rw [isMultiWs, ← Bool.not_eq_true, List.contains_iff_mem]
      intro hm
      have : ∀ x ∈ str " \t\r\n", isNameChar x = false := by decide
      rw [this c hm] at hc; cases hc
    simp [inline_multi this]; rfl

/-! ## Assignments inside -/

theorem rfa_iff (i : Str) : recogniseFieldAssign i = true ↔ ∃ r, i.dropWhile isMaybeName = '=' :: r := by
  rw [recogniseFieldAssign, terminated, Nom.takeWhile]
  simp only [PRes.bind]
  cases h : i.dropWhile isMaybeName with
  | nil => simp [Nom.char, PRes.isOk]
  | cons c r =>
    by_cases hc : c = '='
    · subst hc; simp [Nom.char, PRes.isOk]
    · simp [Nom.char, hc, PRes.isOk]

theorem rfa_stop {a : Str} {c : Char} (r : Str) (ha : ∀ x ∈ a, isMaybeName x = true) (hc : isMaybeName c = false) (hne : c ≠ '=') :
    recogniseFieldAssign (a ++ c :: r) = false := by
  rw [← Bool.not_eq_true, rfa_iff, (takeWhile_all ha hc r).2]
  rintro ⟨x, h⟩; cases h; exact hne rfl

theorem rfa_append {a b : Str} (ha : recogniseFieldAssign a = false) (hb : recogniseFieldAssign b = false) :
    recogniseFieldAssign (a ++ b) = false := by
  rw [← Bool.not_eq_true, rfa_iff] at *
  rintro ⟨r, h⟩
  rw [List.dropWhile_append] at h
  split at h
  · exact hb ⟨r, h⟩
  · cases hd : a.dropWhile isMaybeName with
    | nil => rename_i hh; rw [hd] at hh; exact hh rfl
    | cons c x => rw [hd] at h; cases h; exact ha ⟨x, hd⟩

theorem rfa_all {a : Str} (h : ∀ c ∈ a, c ≠ '=') : recogniseFieldAssign a = false := by
  rw [← Bool.not_eq_true, rfa_iff]
  rintro ⟨r, hr⟩
  have : '=' ∈ a.dropWhile isMaybeName := by rw [hr]; simp
  exact h '=' ((List.dropWhile_suffix _).subset this) rfl

theorem unassigned_rfa {s : Str} (h : Unassigned s) : recogniseFieldAssign s = false := by
  rw [← Bool.not_eq_true, rfa_iff]
  rintro ⟨r, hr⟩
  have hs := List.takeWhile_append_dropWhile (p := isMaybeName) (l := s)
  rw [hr] at hs
  obtain ⟨c, hc, hm⟩ := h (by rw [← hs]; simp)
  have hall : ∀ x ∈ s.takeWhile isMaybeName, isMaybeName x = true := fun x hx => List.mem_takeWhile_imp hx
  have : c ∈ s.takeWhile isMaybeName := by
    rw [← hs, List.takeWhile_append_of_pos (by
      intro x hx
      have := hall x hx
      by_contra he
      simp only [ne_eq, decide_not, Bool.not_eq_true', decide_eq_false_iff_not, not_not] at he
      subst he
      revert this; decide)] at hc
    simpa using hc
  have all : ∀ x ∈ str "<>(){}'\"\r\n", isMaybeName x = false := by decide
  exact absurd (hall c this) (by rw [all c hm]; decide)

theorem maybe_of_name {c : Char} (h : isNameChar c = true) : isMaybeName c = true := by
  rw [isMaybeName]
  by_cases ha : isAlnum c = true
  · simp [ha]
  · have : c = '-' ∨ c = '_' := by simpa [isNameChar, ha] using h
    rcases this with rfl | rfl <;> decide

theorem nid_maybe {sp : Str} (hs : Blank sp) {id : Option Str} (hid : ∀ i, id = some i → ValidName i) : ∀ c ∈ nid sp id, isMaybeName c = true := by
  cases id with
  | none => simp [nid]
  | some i =>
    intro c hc
    rcases List.mem_append.mp hc with hc | hc
    · exact maybe_of_name (name_chars (hid i rfl) c hc)
    · rcases hs with rfl | rfl
      · cases hc
      · simp at hc; subst hc; decide

theorem pid_rfa {id : Option Str} {l : Str} (h : id = none → recogniseFieldAssign l = false) : recogniseFieldAssign (pid id ++ l) = false := by
  cases id with
  | none => exact h rfl
  | some i => exact rfa_stop (a := []) _ (by simp) (by decide) (by decide)

mutual
/-- No text of a Kserd looks like an assignment. -/
theorem txt_rfa : ∀ (k : Kserd) (inl : Bool) (t : Str), All TextOk k → Txt inl k t → recogniseFieldAssign t = false
  | .mk id v, inl, t, hk, h => by
    have hs := all_self hk
    rw [All] at hk
    rw [Txt] at h
    cases v with
    | unit => rw [TxtV] at h; rw [h]; decide
    | bool b => rw [TxtV] at h; rw [h]; exact pid_rfa fun _ => by cases b <;> decide
    | num n =>
      rw [TxtV] at h; rw [h]
      refine pid_rfa fun _ => rfa_all ?_
      rintro c hc rfl
      exact absurd (disp_chars n _ hc) (by decide)
    | str s =>
      rw [TxtV] at h; obtain ⟨l, hl, rfl⟩ := h
      refine pid_rfa fun hid => ?_
      rcases strLit_quoted hl (hs.2.2 hid) with rfl | ⟨d, hd, rfl, rfl | hu⟩
      · exact rfa_stop (a := []) _ (by simp) (by decide) (by decide)
      · exact rfa_stop _ (by decide) (by decide) (by decide)
      · have e : str "str" ++ d :: (s ++ [d]) = (str "str" ++ [d]) ++ (s ++ [d]) := by simp
        have hn := (plain_facts hd).2.2.2.2.1
        rw [e]
        exact rfa_append (rfa_all (by
          intro c hc
          rcases List.mem_append.mp hc with hc | hc
          · rintro rfl; exact absurd hc (by decide)
          · rw [List.mem_singleton.mp hc]; exact hn)) (rfa_append (unassigned_rfa hu) (rfa_all (by simpa using hn)))
    | barr b =>
      rw [TxtV] at h; rw [h]
      refine pid_rfa fun _ => ?_
      have e : W.barrLit b = str "b91" ++ '\'' :: (Base91.encode b ++ ['\'']) := by simp [W.barrLit]; rfl
      rw [e]
      exact rfa_stop _ (by decide) (by decide) (by decide)
    | tuple l => rw [TxtV] at h; obtain ⟨sp, b, hb, rfl, -⟩ := h; exact rfa_stop _ (nid_maybe hb hs.1) (by decide) (by decide)
    | cntr l => rw [TxtV] at h; obtain ⟨sp, b, hb, rfl, -⟩ := h; exact rfa_stop _ (nid_maybe hb hs.1) (by decide) (by decide)
    | map l => rw [TxtV] at h; obtain ⟨sp, b, hb, rfl, -⟩ := h; exact rfa_stop _ (nid_maybe hb hs.1) (by decide) (by decide)
    | seq l =>
      rw [TxtV] at h; obtain ⟨sp, b, hb, rfl, hd⟩ := h
      have hpre : recogniseFieldAssign (nid sp id ++ ['[']) = false := by
        rw [← Bool.not_eq_true, rfa_iff, (takeWhile_all_nil _).2]
        · simp
        · intro c hc
          rcases List.mem_append.mp hc with hc | hc
          · exact nid_maybe hb hs.1 c hc
          · simp at hc; subst hc; decide
      have e : nid sp id ++ '[' :: (b ++ [']']) = (nid sp id ++ ['[']) ++ (b ++ [']']) := by simp
      rw [e]
      refine rfa_append hpre (rfa_append ?_ (by decide))
      rw [AllV] at hk
      rcases hd with hd | ⟨-, hd⟩
      · exact txtI_rfa l [] b hk.2 rfl hd
      · obtain ⟨r, rfl⟩ := txtC_cons hd
        exact rfa_stop (a := []) _ (by simp) (by decide) (by decide)
theorem txtI_rfa : ∀ (l : List Kserd) (pre b : Str), AllL TextOk l → recogniseFieldAssign pre = false → TxtI l pre b → recogniseFieldAssign b = false
  | [], pre, b, _, _, h => by rw [TxtI] at h; rw [h]; rfl
  | k :: r, pre, b, hl, hp, h => by
    rw [TxtI] at h
    obtain ⟨t, b', rfl, ht, hb⟩ := h
    have := allL_cons hl
    exact rfa_append hp (rfa_append (txt_rfa k true t this.1 ht) (txtI_rfa r _ b' this.2 (by decide) hb))
end


/-- A text does not begin with a closing delimiter. -/
theorem txt_notclose {k : Kserd} {inl : Bool} {t : Str} (hk : TextOk k) (h : Txt inl k t) : ∀ c r, t = c :: r → c ∉ closers := by
  obtain ⟨id, v⟩ := k
  rw [Txt] at h
  have comp : ∀ {sp : Str} {o : Char} {x : Str}, o ∉ closers → t = nid sp id ++ o :: x → ∀ c r, t = c :: r → c ∉ closers := by
    intro sp o x ho e c r e'
    rw [e] at e'
    cases id with
    | none => cases e'; exact ho
    | some i =>
      obtain ⟨c', r', rfl, h1, h2⟩ := name_head_ws (hk.1 i rfl)
      cases e'
      simp [closers, h2.2.2.2]
  have prm : ∀ {l : Str}, t = pid id ++ l → (∀ c r, l = c :: r → c ∉ closers) → l ≠ [] → ∀ c r, t = c :: r → c ∉ closers := by
    intro l e hl hne c r e'
    rw [e] at e'
    cases id with
    | none => exact hl c r e'
    | some i => rw [pid_eq] at e'; cases e'; decide
  cases v with
  | unit => rw [TxtV] at h; intro c r e; rw [h] at e; cases e; decide
  | bool b => rw [TxtV] at h; exact prm h (by intro c r e; cases b <;> (cases e; decide)) (by cases b <;> decide)
  | num n =>
    rw [TxtV] at h
    refine prm h ?_ (disp_ne_nil n)
    intro c r e hc
    have h1 := disp_chars n c (by rw [e]; simp)
    have h2 : ∀ x ∈ closers, isNumChar x = false := by decide
    rw [h2 c hc] at h1; cases h1
  | str s =>
    rw [TxtV] at h; obtain ⟨l, hl, e⟩ := h
    obtain ⟨c, r, h1, h2⟩ := strLit_head hl
    refine prm e ?_ (by rw [h1]; simp)
    intro c' r' e'
    rw [h1] at e'; cases e'
    rcases h2 with rfl | rfl <;> decide
  | barr b =>
    rw [TxtV] at h
    have e1 : W.barrLit b = 'b' :: '9' :: '1' :: '\'' :: (Base91.encode b ++ ['\'']) := by simp [W.barrLit]; rfl
    refine prm h ?_ (by rw [e1]; simp)
    intro c' r' e'
    rw [e1] at e'; cases e'; decide
  | tuple l => rw [TxtV] at h; obtain ⟨sp, b, -, e, -⟩ := h; exact comp (by decide) e
  | seq l => rw [TxtV] at h; obtain ⟨sp, b, -, e, -⟩ := h; exact comp (by decide) e
  | cntr l => rw [TxtV] at h; obtain ⟨sp, b, -, e, -⟩ := h; exact comp (by decide) e
  | map l => rw [TxtV] at h; obtain ⟨sp, b, -, e, -⟩ := h; exact comp (by decide) e

end KS.RT
