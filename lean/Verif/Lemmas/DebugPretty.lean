import Verif.Model.DebugPretty
import Verif.Lemmas.Debug
import Verif.Props.NavIter
/-!
# `Debug` text in the pretty form determines the Kserd
-/

namespace KS.Dbg.Pretty
open KS.Spec

/-! ## Indentation -/

/-- The text ends with a line break; nothing has been written since a line break if `b`. -/
def Full : Bool → Str → Prop
  | b, [] => b = true
  | _, c :: r => Full (c == '\n') r

theorem full_line : ∀ (b : Bool) (t : Str), Full b (t ++ str ",\n")
  | _, [] => rfl
  | _, c :: t => full_line (c == '\n') t

theorem Full.append : ∀ {b : Bool} {s t : Str}, Full b s → Full true t → Full b (s ++ t)
  | b, [], t, h, h2 => by cases h; exact h2
  | b, c :: s, t, h, h2 => Full.append (s := s) h h2

theorem padFrom_append : ∀ {b : Bool} {s : Str} (t : Str), Full b s → padFrom b (s ++ t) = padFrom b s ++ padFrom true t
  | b, [], t, h => by cases h; rfl
  | b, c :: s, t, h => by
    rw [List.cons_append, padFrom, padFrom, padFrom_append (s := s) t h, List.append_assoc, List.cons_append]

/-- Indented lines end where a line is not indented. -/
theorem padFrom_inj : ∀ {b : Bool} {s t x y : Str}, Full b s → Full b t → x.head? ≠ some ' ' → y.head? ≠ some ' ' →
    padFrom b s ++ x = padFrom b t ++ y → s = t ∧ x = y
  | b, [], [], x, y, _, _, _, _, h => ⟨rfl, h⟩
  | b, [], d :: t, x, y, hs, _, hx, _, h => by
    cases hs
    exact absurd (show x.head? = some ' ' from congrArg List.head? h) hx
  | b, c :: s, [], x, y, _, ht, _, hy, h => by
    cases ht
    exact absurd (show y.head? = some ' ' from congrArg List.head? h.symm) hy
  | b, c :: s, d :: t, x, y, hs, ht, hx, hy, h => by
    rw [padFrom, padFrom, List.append_assoc, List.append_assoc] at h
    have h := List.append_cancel_left h
    rw [List.cons_append, List.cons_append] at h
    injection h with h1 h2
    subst h1
    obtain ⟨rfl, h3⟩ := padFrom_inj (s := s) (t := t) hs ht hx hy h2
    exact ⟨rfl, h3⟩

/-! ## Parts without indentation -/

variable {plain : Char → Bool}

def rawL (plain : Char → Bool) : List Kserd → Str
  | [] => []
  | k :: l => kserd plain k ++ (str ",\n" ++ rawL plain l)
def rawF (plain : Char → Bool) : List (Str × Kserd) → Str
  | [] => []
  | (n, k) :: l => n ++ (str ": " ++ (kserd plain k ++ (str ",\n" ++ rawF plain l)))
def rawM (plain : Char → Bool) : List (Kserd × Kserd) → Str
  | [] => []
  | (k, v) :: l => kserd plain k ++ (str ": " ++ (kserd plain v ++ (str ",\n" ++ rawM plain l)))

theorem part_append (t : Str) {r : Str} : part t ++ padFrom true r = padFrom true (t ++ (str ",\n" ++ r)) := by
  rw [part, ← padFrom_append r (full_line true t), List.append_assoc]

theorem full_cons (t : Str) {r : Str} (h : Full true r) : Full true (t ++ (str ",\n" ++ r)) := by
  rw [← List.append_assoc]; exact (full_line true t).append h

theorem kserds_raw : ∀ l : List Kserd, kserds plain l = padFrom true (rawL plain l)
  | [] => rfl
  | k :: l => by
    have : kserds plain (k :: l) = part (kserd plain k) ++ kserds plain l := rfl
    rw [this, kserds_raw l, part_append]; rfl
theorem rawL_full : ∀ l : List Kserd, Full true (rawL plain l)
  | [] => rfl
  | k :: l => full_cons _ (rawL_full l)

theorem fields_raw : ∀ l : List (Str × Kserd), fields plain l = padFrom true (rawF plain l)
  | [] => rfl
  | (n, k) :: l => by
    have : fields plain ((n, k) :: l) = part (n ++ str ": " ++ kserd plain k) ++ fields plain l := rfl
    rw [this, fields_raw l, part_append, rawF, List.append_assoc, List.append_assoc]
theorem rawF_full : ∀ l : List (Str × Kserd), Full true (rawF plain l)
  | [] => rfl
  | (n, k) :: l => by
    have := full_cons (n ++ str ": " ++ kserd plain k) (rawF_full l)
    rwa [List.append_assoc, List.append_assoc] at this

theorem entries_raw : ∀ l : List (Kserd × Kserd), entries plain l = padFrom true (rawM plain l)
  | [] => rfl
  | (n, k) :: l => by
    have : entries plain ((n, k) :: l) = part (kserd plain n ++ str ": " ++ kserd plain k) ++ entries plain l := rfl
    rw [this, entries_raw l, part_append, rawM, List.append_assoc, List.append_assoc]
theorem rawM_full : ∀ l : List (Kserd × Kserd), Full true (rawM plain l)
  | [] => rfl
  | (n, k) :: l => by
    have := full_cons (kserd plain n ++ str ": " ++ kserd plain k) (rawM_full l)
    rwa [List.append_assoc, List.append_assoc] at this

/-- The parts of a Kserd. -/
def rawK (plain : Char → Bool) (i : Option Str) (v : Value) : Str :=
  str "id: " ++ (ident plain i ++ (str ",\n" ++ (str "val: " ++ (value plain v ++ str ",\n"))))

theorem kserd_raw (i : Option Str) (v : Value) : kserd plain (.mk i v) = str "Kserd {\n" ++ (padFrom true (rawK plain i v) ++ str "}") := by
  have e : kserd plain (.mk i v) = str "Kserd {\n" ++ part (str "id" ++ str ": " ++ ident plain i) ++ part (str "val" ++ str ": " ++ value plain v) ++ str "}" := rfl
  have e2 : part (str "val" ++ str ": " ++ value plain v) = padFrom true (str "val: " ++ (value plain v ++ str ",\n")) := by
    rw [part, List.append_assoc, List.append_assoc]; rfl
  rw [e, List.append_assoc, List.append_assoc, ← List.append_assoc (part _), e2, part_append]
  rw [List.append_assoc, List.append_assoc]; rfl

theorem rawK_full (i : Option Str) (v : Value) : Full true (rawK plain i v) := by
  have := full_cons (str "id: " ++ ident plain i) (full_line true (str "val: " ++ value plain v))
  rwa [List.append_assoc, List.append_assoc] at this

theorem value_tuple (k : Kserd) (l : List Kserd) : value plain (.tuple (k :: l)) = str "Tuple(\n" ++ (padFrom true (rawL plain (k :: l)) ++ str ")") := by
  have : value plain (.tuple (k :: l)) = str "Tuple(\n" ++ kserds plain (k :: l) ++ str ")" := rfl
  rw [this, kserds_raw, List.append_assoc]
theorem value_seq (k : Kserd) (l : List Kserd) : value plain (.seq (k :: l)) = str "[\n" ++ (padFrom true (rawL plain (k :: l)) ++ str "]") := by
  have : value plain (.seq (k :: l)) = str "[\n" ++ kserds plain (k :: l) ++ str "]" := rfl
  rw [this, kserds_raw, List.append_assoc]
theorem value_cntr (n : Str) (k : Kserd) (l : List (Str × Kserd)) :
    value plain (.cntr ((n, k) :: l)) = str "Cntr {\n" ++ (padFrom true (rawF plain ((n, k) :: l)) ++ str "}") := by
  have : value plain (.cntr ((n, k) :: l)) = str "Cntr {\n" ++ fields plain ((n, k) :: l) ++ str "}" := rfl
  rw [this, fields_raw, List.append_assoc]
theorem value_map (k v : Kserd) (l : List (Kserd × Kserd)) :
    value plain (.map ((k, v) :: l)) = str "{\n" ++ (padFrom true (rawM plain ((k, v) :: l)) ++ str "}") := by
  have : value plain (.map ((k, v) :: l)) = str "{\n" ++ entries plain ((k, v) :: l) ++ str "}" := rfl
  rw [this, entries_raw, List.append_assoc]

theorem value_lead (v : Value) (x : Str) : lead (value plain v ++ x) = tag v := by
  cases v with
  | tuple l => cases l <;> rfl
  | cntr l => cases l <;> rfl
  | seq l => cases l <;> rfl
  | map l => cases l <;> rfl
  | _ => rfl

theorem value_tag {v w : Value} {x y : Str} (h : value plain v ++ x = value plain w ++ y) : tag v = tag w := by
  rw [← value_lead (plain := plain) v x, ← value_lead (plain := plain) w y, h]

theorem close {s t x y : Str} {c : Char} (hs : Full true s) (ht : Full true t) (hc : c ≠ ' ') (h : padFrom true s ++ c :: x = padFrom true t ++ c :: y) :
    s = t ∧ x = y := by
  obtain ⟨h1, h2⟩ := padFrom_inj hs ht (by simpa using hc) (by simpa using hc) h
  injection h2 with _ h2
  exact ⟨h1, h2⟩

/-! ## Injectivity -/

theorem prim_inj {v w : Value} {x y : Str} (hv : v.kind = .prim) {i j : Option Str} (pv : Plainly (.mk i v)) (pw : Plainly (.mk j w))
    (h : value plain v ++ x = value plain w ++ y) : mapNumV oneNan v = mapNumV oneNan w ∧ x = y := by
  have ht := value_tag h
  have e : ∀ u : Value, u.kind = .prim → value plain u = Dbg.value plain u := by
    intro u hu; cases u <;> first | rfl | cases hu
  have hw : w.kind = .prim := by
    cases v <;> first | (cases hv; done) | (cases w <;> first | rfl | (simp [tag] at ht; done))
  rw [e v hv, e w hw] at h
  refine KS.Props.prim_inj hv hw ?_ ?_ h
  · rintro n rfl; exact pv
  · rintro n rfl; exact pw

mutual
theorem kserd_inj (k : Kserd) : ∀ {k' : Kserd} {x y : Str}, All Plainly k → All Plainly k' → kserd plain k ++ x = kserd plain k' ++ y →
    mapNum oneNan k = mapNum oneNan k' ∧ x = y := by
  match k with
  | .mk i v =>
    intro k' x y hk hk' h
    obtain ⟨j, w⟩ := k'
    simp only [kserd_raw, List.append_assoc] at h
    obtain ⟨h1, h2⟩ := close (c := '}') (rawK_full i v) (rawK_full j w) (by decide) (List.append_cancel_left h)
    rw [rawK, rawK] at h1
    obtain ⟨h3, h4⟩ := ident_inj (List.append_cancel_left h1)
    obtain ⟨h5, -⟩ := value_inj v (x := []) (y := []) hk.1 hk'.1 hk.2 hk'.2 (List.append_cancel_left (List.append_cancel_left h4))
    exact ⟨by simp only [mapNum, h3, h5], h2⟩
termination_by structural k
theorem value_inj (v : Value) : ∀ {i j : Option Str} {w : Value} {x y : Str}, Plainly (.mk i v) → Plainly (.mk j w) → AllV Plainly v → AllV Plainly w →
    value plain v ++ (str ",\n" ++ x) = value plain w ++ (str ",\n" ++ y) → mapNumV oneNan v = mapNumV oneNan w ∧ x = y := by
  intro i j w x y pv pw av aw h
  have ht := value_tag h
  match v with
  | .unit => obtain ⟨h1, h2⟩ := prim_inj rfl pv pw h; exact ⟨h1, List.append_cancel_left h2⟩
  | .bool a => obtain ⟨h1, h2⟩ := prim_inj rfl pv pw h; exact ⟨h1, List.append_cancel_left h2⟩
  | .num a => obtain ⟨h1, h2⟩ := prim_inj rfl pv pw h; exact ⟨h1, List.append_cancel_left h2⟩
  | .str a => obtain ⟨h1, h2⟩ := prim_inj rfl pv pw h; exact ⟨h1, List.append_cancel_left h2⟩
  | .barr a => obtain ⟨h1, h2⟩ := prim_inj rfl pv pw h; exact ⟨h1, List.append_cancel_left h2⟩
  | .tuple [] =>
    cases w with
    | tuple w =>
      match w with
      | [] =>
        exact ⟨rfl, List.append_cancel_left (List.append_cancel_left h)⟩
      | (a :: l) =>
        exact absurd (show some ',' = some '(' from congrArg (fun t => (t.drop 5).head?) h) (by decide)
    | _ => simp [tag] at ht
  | .tuple (a :: l) =>
    cases w with
    | tuple w =>
      match w with
      | [] =>
        exact absurd (show some '(' = some ',' from congrArg (fun t => (t.drop 5).head?) h) (by decide)
      | (b :: m) =>
        simp only [value_tuple, List.append_assoc] at h
        obtain ⟨h1, h2⟩ := close (c := ')') (rawL_full (a :: l)) (rawL_full (b :: m)) (by decide) (List.append_cancel_left h)
        rw [rawL, rawL] at h1
        obtain ⟨h3, h4⟩ := kserd_inj a av.1 aw.1 h1
        have h5 := rawL_inj l av.2 aw.2 (List.append_cancel_left h4)
        exact ⟨by simp only [mapNumV, mapNumL, h3, h5], List.append_cancel_left h2⟩
    | _ => simp [tag] at ht
  | .cntr [] =>
    cases w with
    | cntr w =>
      match w with
      | [] =>
        exact ⟨rfl, List.append_cancel_left (List.append_cancel_left h)⟩
      | ((n, a) :: l) =>
        exact absurd (show some ',' = some ' ' from congrArg (fun t => (t.drop 4).head?) h) (by decide)
    | _ => simp [tag] at ht
  | .cntr ((n, a) :: l) =>
    cases w with
    | cntr w =>
      match w with
      | [] =>
        exact absurd (show some ' ' = some ',' from congrArg (fun t => (t.drop 4).head?) h) (by decide)
      | ((m, b) :: r) =>
        simp only [value_cntr, List.append_assoc] at h
        obtain ⟨h1, h2⟩ := close (c := '}') (rawF_full ((n, a) :: l)) (rawF_full ((m, b) :: r)) (by decide) (List.append_cancel_left h)
        rw [rawF, rawF] at h1
        obtain ⟨h0, h1⟩ := name_inj (n := n) (pv _ List.mem_cons_self) (pw _ List.mem_cons_self) h1
        obtain ⟨h3, h4⟩ := kserd_inj a av.1 aw.1 h1
        have h5 := rawF_inj l (fun p hp => pv p (List.mem_cons_of_mem _ hp)) (fun p hp => pw p (List.mem_cons_of_mem _ hp)) av.2 aw.2 (List.append_cancel_left h4)
        exact ⟨by simp only [mapNumV, mapNumF, h0, h3, h5], List.append_cancel_left h2⟩
    | _ => simp [tag] at ht
  | .seq [] =>
    cases w with
    | seq w =>
      match w with
      | [] =>
        exact ⟨rfl, List.append_cancel_left (List.append_cancel_left h)⟩
      | (b :: l) =>
        exact absurd (show some ']' = some '\n' from congrArg (fun t => (t.drop 1).head?) h) (by decide)
    | _ => simp [tag] at ht
  | .seq (a :: l) =>
    cases w with
    | seq w =>
      match w with
      | [] =>
        exact absurd (show some '\n' = some ']' from congrArg (fun t => (t.drop 1).head?) h) (by decide)
      | (b :: m) =>
        simp only [value_seq, List.append_assoc] at h
        obtain ⟨h1, h2⟩ := close (c := ']') (rawL_full (a :: l)) (rawL_full (b :: m)) (by decide) (List.append_cancel_left h)
        rw [rawL, rawL] at h1
        obtain ⟨h3, h4⟩ := kserd_inj a av.1 aw.1 h1
        have h5 := rawL_inj l av.2 aw.2 (List.append_cancel_left h4)
        exact ⟨by simp only [mapNumV, mapNumL, h3, h5], List.append_cancel_left h2⟩
    | _ => simp [tag] at ht
  | .map [] =>
    cases w with
    | map w =>
      match w with
      | [] =>
        exact ⟨rfl, List.append_cancel_left (List.append_cancel_left h)⟩
      | ((b, c) :: l) =>
        exact absurd (show some '}' = some '\n' from congrArg (fun t => (t.drop 1).head?) h) (by decide)
    | _ => simp [tag] at ht
  | .map ((a, b) :: l) =>
    cases w with
    | map w =>
      match w with
      | [] =>
        exact absurd (show some '\n' = some '}' from congrArg (fun t => (t.drop 1).head?) h) (by decide)
      | ((c, d) :: m) =>
        simp only [value_map, List.append_assoc] at h
        obtain ⟨h1, h2⟩ := close (c := '}') (rawM_full ((a, b) :: l)) (rawM_full ((c, d) :: m)) (by decide) (List.append_cancel_left h)
        rw [rawM, rawM] at h1
        obtain ⟨h3, h4⟩ := kserd_inj a av.1 aw.1 h1
        obtain ⟨h5, h6⟩ := kserd_inj b av.2.1 aw.2.1 (List.append_cancel_left h4)
        have h7 := rawM_inj l av.2.2 aw.2.2 (List.append_cancel_left h6)
        exact ⟨by simp only [mapNumV, mapNumM, h3, h5, h7], List.append_cancel_left h2⟩
    | _ => simp [tag] at ht
termination_by structural v
theorem rawL_inj (l : List Kserd) : ∀ {m : List Kserd}, AllL Plainly l → AllL Plainly m → rawL plain l = rawL plain m → mapNumL oneNan l = mapNumL oneNan m := by
  intro m hl hm h
  match l, m with
  | [], [] => rfl
  | [], .mk i v :: m => rw [rawL, rawL, kserd_raw] at h; cases h
  | .mk i v :: l, [] => rw [rawL, rawL, kserd_raw] at h; cases h
  | a :: l, b :: m =>
    rw [rawL, rawL] at h
    obtain ⟨h1, h2⟩ := kserd_inj a hl.1 hm.1 h
    simp only [mapNumL, h1, rawL_inj l hl.2 hm.2 (List.append_cancel_left h2)]
termination_by structural l
theorem rawF_inj (l : List (Str × Kserd)) : ∀ {m : List (Str × Kserd)}, (∀ p ∈ l, ' ' ∉ p.1) → (∀ p ∈ m, ' ' ∉ p.1) →
    AllF Plainly l → AllF Plainly m → rawF plain l = rawF plain m → mapNumF oneNan l = mapNumF oneNan m := by
  intro m pl pm hl hm h
  match l, m with
  | [], [] => rfl
  | [], (n, b) :: m => rw [rawF, rawF] at h; exact absurd (congrArg List.length h) (by simp [str])
  | (n, b) :: l, [] => rw [rawF, rawF] at h; exact absurd (congrArg List.length h) (by simp [str])
  | (n, a) :: l, (n', b) :: m =>
    rw [rawF, rawF] at h
    obtain ⟨h0, h1⟩ := name_inj (n := n) (pl _ List.mem_cons_self) (pm _ List.mem_cons_self) h
    obtain ⟨h1, h2⟩ := kserd_inj a hl.1 hm.1 h1
    simp only [mapNumF, h0, h1, rawF_inj l (fun p hp => pl p (List.mem_cons_of_mem _ hp)) (fun p hp => pm p (List.mem_cons_of_mem _ hp)) hl.2 hm.2
      (List.append_cancel_left h2)]
termination_by structural l
theorem rawM_inj (l : List (Kserd × Kserd)) : ∀ {m : List (Kserd × Kserd)}, AllM Plainly l → AllM Plainly m → rawM plain l = rawM plain m →
    mapNumM oneNan l = mapNumM oneNan m := by
  intro m hl hm h
  match l, m with
  | [], [] => rfl
  | [], (.mk i v, b) :: m => rw [rawM, rawM, kserd_raw] at h; cases h
  | (.mk i v, b) :: l, [] => rw [rawM, rawM, kserd_raw] at h; cases h
  | (a, b) :: l, (c, d) :: m =>
    rw [rawM, rawM] at h
    obtain ⟨h1, h2⟩ := kserd_inj a hl.1 hm.1 h
    obtain ⟨h3, h4⟩ := kserd_inj b hl.2.1 hm.2.1 (List.append_cancel_left h2)
    simp only [mapNumM, h1, h3, rawM_inj l hl.2.2 hm.2.2 (List.append_cancel_left h4)]
termination_by structural l
end

/-! ## NaNs -/

mutual
theorem kserd_oneNan (k : Kserd) : kserd plain (mapNum oneNan k) = kserd plain k := by
  match k with
  | .mk i v => rw [mapNum, kserd_raw, kserd_raw, rawK, rawK, value_oneNan v]
termination_by structural k
theorem value_oneNan (v : Value) : value plain (mapNumV oneNan v) = value plain v := by
  match v with
  | .unit | .bool _ | .str _ | .barr _ | .tuple [] | .cntr [] | .seq [] | .map [] => rfl
  | .num n => exact Dbg.value_oneNan (plain := plain) (.num n)
  | .tuple (a :: l) => simp only [mapNumV, mapNumL, value_tuple, rawL, kserd_oneNan a, rawL_oneNan l]
  | .seq (a :: l) => simp only [mapNumV, mapNumL, value_seq, rawL, kserd_oneNan a, rawL_oneNan l]
  | .cntr ((n, a) :: l) => simp only [mapNumV, mapNumF, value_cntr, rawF, kserd_oneNan a, rawF_oneNan l]
  | .map ((a, b) :: l) => simp only [mapNumV, mapNumM, value_map, rawM, kserd_oneNan a, kserd_oneNan b, rawM_oneNan l]
termination_by structural v
theorem rawL_oneNan (l : List Kserd) : rawL plain (mapNumL oneNan l) = rawL plain l := by
  match l with
  | [] => rfl
  | a :: l => simp only [mapNumL, rawL, kserd_oneNan a, rawL_oneNan l]
termination_by structural l
theorem rawF_oneNan (l : List (Str × Kserd)) : rawF plain (mapNumF oneNan l) = rawF plain l := by
  match l with
  | [] => rfl
  | (n, a) :: l => simp only [mapNumF, rawF, kserd_oneNan a, rawF_oneNan l]
termination_by structural l
theorem rawM_oneNan (l : List (Kserd × Kserd)) : rawM plain (mapNumM oneNan l) = rawM plain l := by
  match l with
  | [] => rfl
  | (a, b) :: l => simp only [mapNumM, rawM, kserd_oneNan a, kserd_oneNan b, rawM_oneNan l]
termination_by structural l
end

/-! ## Nodes -/

/-- The value of a node. -/
def rawV (plain : Char → Bool) (v : Value) : Str :=
  match v.kind with
  | .prim => KS.str "value: " ++ (Dbg.value plain v ++ KS.str ",\n")
  | _ => []

theorem rawV_prim {v : Value} (h : v.kind = .prim) : rawV plain v = str "value: " ++ (Dbg.value plain v ++ str ",\n") := by
  unfold rawV; rw [h]
theorem rawV_other {v : Value} (h : v.kind ≠ .prim) : rawV plain v = [] := by
  unfold rawV; split <;> first | rfl | contradiction

/-- The parts of a node. -/
def rawN (plain : Char → Bool) (nav : Navigator) (n : NavNode) : Str :=
  str "id: " ++ (opt (n.kserd.id.map (quote plain)) ++ (str ",\n" ++ (str "value-type: " ++ (quote plain (Nav.kindName n.kserd.val.kind) ++ (str ",\n" ++
    (rawV plain n.kserd.val ++
    (str "index: " ++ (natDigits n.idx ++ (str ",\n" ++ (str "parent: " ++ (opt ((Nav.parent nav n).map fun p => natDigits p.idx) ++ (str ",\n" ++
    (str "is_key: " ++ ((if Nav.isKey n then str "true" else str "false") ++ (str ",\n" ++ (str "idx_in_parent: " ++ (natDigits (Nav.idxInParent n) ++
    str ",\n")))))))))))))))))

theorem named_append (n t : Str) {r : Str} : named n t ++ padFrom true r = padFrom true ((n ++ str ": ") ++ (t ++ (str ",\n" ++ r))) := by
  rw [named, part_append, List.append_assoc (n ++ str ": ")]

theorem named_last (n t : Str) : named n t = padFrom true ((n ++ str ": ") ++ (t ++ str ",\n")) := by
  rw [named, part, List.append_assoc (n ++ str ": ")]

theorem nodeValue_append (v : Value) {r : Str} : nodeValue plain v ++ padFrom true r =
    padFrom true (rawV plain v ++ r) := by
  have pv : ∀ w : Value, named (KS.str "value") (Dbg.value plain w) ++ padFrom true r =
      padFrom true (KS.str "value: " ++ (Dbg.value plain w ++ KS.str ",\n") ++ r) := fun w => by
    rw [named_append]; simp only [List.append_assoc]; rfl
  cases v with
  | tuple l => rfl
  | cntr l => rfl
  | seq l => rfl
  | map l => rfl
  | unit => exact pv .unit
  | bool b => exact pv (.bool b)
  | num n => exact pv (.num n)
  | str s => exact pv (.str s)
  | barr b => exact pv (.barr b)

theorem node_raw (nav : Navigator) (n : NavNode) : node plain nav n = str "Node {\n" ++ (padFrom true (rawN plain nav n) ++ str "}") := by
  unfold node
  simp only [List.append_assoc]
  rw [← List.append_assoc (named (str "is_key") _), named_last (str "idx_in_parent"), named_append (str "is_key"),
    ← List.append_assoc (named (str "parent") _), named_append (str "parent"), ← List.append_assoc (named (str "index") _), named_append (str "index"),
    ← List.append_assoc (nodeValue plain _), nodeValue_append, ← List.append_assoc (named (str "value-type") _), named_append (str "value-type"),
    ← List.append_assoc (named (str "id") _), named_append (str "id")]
  rfl

theorem rawN_full (nav : Navigator) (n : NavNode) : Full true (rawN plain nav n) := by
  have : ∃ t, rawN plain nav n = t ++ str ",\n" := by
    unfold rawN
    simp only [← List.append_assoc]
    exact ⟨_, rfl⟩
  obtain ⟨t, ht⟩ := this
  rw [ht]; exact full_line true t

theorem opt_inj {α : Type} {f : α → Str} (hf : ∀ {a b : α} {x y : Str}, f a ++ (str ",\n" ++ x) = f b ++ (str ",\n" ++ y) → a = b ∧ x = y)
    {a b : Option α} {x y : Str} (h : opt (a.map f) ++ x = opt (b.map f) ++ y) : a = b ∧ x = y := by
  cases a with
  | none =>
    cases b with
    | none => exact ⟨rfl, List.append_cancel_left h⟩
    | some b => exact absurd (show some 'N' = some 'S' from congrArg List.head? h) (by decide)
  | some a =>
    cases b with
    | none => exact absurd (show some 'S' = some 'N' from congrArg List.head? h) (by decide)
    | some b =>
      have e : ∀ n : α, opt ((some n).map f) = str "Some(\n" ++ (padFrom true (f n ++ str ",\n") ++ str ")") := fun n => by
        rw [← List.append_assoc]; rfl
      rw [e, e, List.append_assoc, List.append_assoc, List.append_assoc, List.append_assoc] at h
      obtain ⟨h1, h2⟩ := close (c := ')') (full_line true (f a)) (full_line true (f b)) (by decide) (List.append_cancel_left h)
      exact ⟨by rw [(hf (x := []) (y := []) h1).1], h2⟩

theorem digits_inj {a b : Nat} {x y : Str} (h : natDigits a ++ (str ",\n" ++ x) = natDigits b ++ (str ",\n" ++ y)) : a = b ∧ x = y := by
  obtain ⟨h1, h2⟩ := digits_end (by intro c r e; cases e; decide) (by intro c r e; cases e; decide) h
  exact ⟨h1, List.append_cancel_left h2⟩

end KS.Dbg.Pretty
