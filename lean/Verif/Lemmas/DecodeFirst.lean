import Verif.Lemmas.DecodeSays
/-! Errors of the decoder belong to the first thing that goes wrong. -/

namespace KS.DE

open Spec Spec.De Props

variable {env : TyEnv} {dec : Ty → Kserd → Except DErr Ser} {e : DErr} {t : Ty} {k : Kserd}

theorem errOf_map {α β : Type} (f : α → β) (x : Except DErr α) : errOf (x.map f) = errOf x := by cases x <;> rfl

/-! ## Lists -/

theorem seqOf_first (t : Ty) : ∀ l : List Kserd,
    errOf (DecE.seqOf (dec t) l) = (l.map fun x => Step.look (.value t x)).findSome? (stepErr env dec)
  | [] => rfl
  | k :: ks => by
    have ih := seqOf_first t ks
    simp only [DecE.seqOf, List.map_cons, List.findSome?_cons, stepErr]
    cases hk : dec t k with
    | error e' => rfl
    | ok v =>
      simp only [errOf, ← ih]
      cases DecE.seqOf (dec t) ks <;> rfl

theorem tupleOf_first (w : Str) : ∀ (i : Nat) (ts : List Ty) (l : List Kserd),
    errOf (DecE.tupleOf dec w i ts l) =
      ((List.zipWith (fun t x => Step.look (.value t x)) ts l).findSome? (stepErr env dec)).or
        (if l.length < ts.length then some (.length (i + l.length) w) else none)
  | _, [], _ => by simp [DecE.tupleOf, errOf]
  | i, t :: ts, [] => by simp [DecE.tupleOf, errOf]
  | i, t :: ts, k :: ks => by
    have ih := tupleOf_first w (i + 1) ts ks
    simp only [DecE.tupleOf, List.zipWith_cons_cons, List.findSome?_cons, stepErr]
    cases hk : dec t k with
    | error e' => rfl
    | ok v =>
      have h1 : i + (k :: ks).length = i + 1 + ks.length := by simp; omega
      have h2 : ((k :: ks).length < (t :: ts).length) = (ks.length < ts.length) := by simp
      simp only [errOf, h1, h2, ← ih]
      cases DecE.tupleOf dec w (i + 1) ts ks <;> rfl

theorem entriesOf_first {κ : Type} {deck : κ → Except DErr Ser} {decv : Kserd → Except DErr Ser} {f : κ → Step} {g : Kserd → Step}
    (hf : ∀ x, stepErr env dec (f x) = errOf (deck x)) (hg : ∀ x, stepErr env dec (g x) = errOf (decv x)) : ∀ l : List (κ × Kserd),
      errOf (DecE.entriesOf deck decv l) = (l.flatMap fun p => [f p.1, g p.2]).findSome? (stepErr env dec)
  | [] => rfl
  | (k, v) :: r => by
    have ih := entriesOf_first hf hg r
    simp only [DecE.entriesOf, List.flatMap_cons, List.cons_append, List.nil_append, List.findSome?_cons, hf, hg]
    cases deck k with
    | error e' => rfl
    | ok k' =>
      cases decv v with
      | error e' => rfl
      | ok v' =>
        simp only [errOf, ← ih]
        cases DecE.entriesOf deck decv r <;> rfl

theorem collect_first_cntr (fs : List (Str × Ty)) : ∀ (seen before : List Str) (l : Fields),
    (∀ n, Dec.fieldTy fs n ≠ none → (n ∈ seen ↔ n ∈ before)) →
    errOf (DecE.collect DecE.nameKey dec fs seen l) = (cntrSteps fs before l).findSome? (stepErr env dec)
  | _, _, [], _ => rfl
  | seen, before, (n, v) :: r, h => by
    simp only [DecE.collect, DecE.nameKey, cntrSteps, fieldStep, List.findSome?_append, ← fieldTy_lookup]
    cases hf : Dec.fieldTy fs n with
    | none =>
      simp only [List.findSome?_nil, Option.none_or]
      refine collect_first_cntr fs seen (n :: before) r fun m hm => ?_
      have : m ≠ n := by rintro rfl; exact hm hf
      simp [h m hm, this]
    | some t =>
      have hn := h n (by rw [hf]; simp)
      by_cases hs : n ∈ seen
      · simp only [if_pos hs, if_pos (hn.mp hs)]; rfl
      · simp only [if_neg hs, if_neg (fun hb => hs (hn.mpr hb))]
        simp only [List.findSome?_cons, List.findSome?_nil, stepErr]
        cases dec t v with
        | error e' => rfl
        | ok v' =>
          have ih := collect_first_cntr fs (n :: seen) (n :: before) r fun m hm => by simp [h m hm]
          simp only [errOf, Option.none_or, ← ih]
          cases DecE.collect DecE.nameKey dec fs (n :: seen) r <;> rfl

theorem collect_first_map (fs : List (Str × Ty)) : ∀ (seen before : List Str) (l : KMap),
    (∀ n, Dec.fieldTy fs n ≠ none → (n ∈ seen ↔ n ∈ before)) →
    errOf (DecE.collect (DecE.fieldKey (fs.map Prod.fst)) dec fs seen l) = (mapSteps fs before l).findSome? (stepErr env dec)
  | _, _, [], _ => rfl
  | seen, before, (key, v) :: r, h => by
    simp only [DecE.collect, mapSteps, List.findSome?_cons, stepErr, ← fieldKey_errOf (fs.map Prod.fst) key]
    rcases fieldKey_cases (fs.map Prod.fst) key with hk | ⟨_, hk, _⟩
    · rw [hk]
      cases nameOf (fs.map Prod.fst) key with
      | none => exact collect_first_map fs seen before r h
      | some n =>
        simp only [errOf]
        simp only [fieldStep, List.findSome?_append, ← fieldTy_lookup]
        cases hf : Dec.fieldTy fs n with
        | none =>
          simp only [List.findSome?_nil, Option.none_or]
          refine collect_first_map fs seen (n :: before) r fun m hm => ?_
          have : m ≠ n := by rintro rfl; exact hm hf
          simp [h m hm, this]
        | some t =>
          have hn := h n (by rw [hf]; simp)
          by_cases hs : n ∈ seen
          · simp only [if_pos hs, if_pos (hn.mp hs)]; rfl
          · simp only [if_neg hs, if_neg (fun hb => hs (hn.mpr hb))]
            simp only [List.findSome?_cons, List.findSome?_nil, stepErr]
            cases dec t v with
            | error e' => rfl
            | ok v' =>
              have ih := collect_first_map fs (n :: seen) (n :: before) r fun m hm => by simp [h m hm]
              simp only [errOf, Option.none_or, ← ih]
              cases DecE.collect (DecE.fieldKey (fs.map Prod.fst)) dec fs (n :: seen) r <;> rfl
    · rw [hk]; rfl

/-! ## One level -/

theorem structOf_first {κ : Type} {name : κ → Except DErr (Option Str)} {fs : List (Str × Ty)} {l : List (κ × Kserd)}
    (h : errOf (DecE.collect name dec fs [] l) = some e) : errOf (DecE.structOf name dec fs l) = some e := by
  rw [DecE.structOf, errOf_some h]; rfl

theorem var_first {i : Str} {v : VarDef} {x : Value} {l : List Step} (hp : PlanVar v x l)
    (h : l.findSome? (stepErr env dec) = some e) : errOf (DecE.variantOf dec i v x) = some e := by
  cases hp with
  | newtype =>
    rw [DecE.variantOf, errOf_map]
    simpa [stepErr] using h
  | tuple hl =>
    simp only [DecE.variantOf]
    rw [if_pos hl, errOf_map, tupleOf_first (env := env), h]; rfl
  | struct =>
    simp only [DecE.variantOf]
    rw [errOf_map]
    exact structOf_first ((collect_first_cntr (env := env) _ [] [] _ (by simp)).trans h)

theorem def_first {d : TyDef} {l : List Step} (hp : PlanDef d k l)
    (h : l.findSome? (stepErr env dec) = some e) : errOf (DecE.defOf dec d k) = some e := by
  cases hp with
  | newtype hx =>
    rcases hx with hx | ⟨r, hx⟩
    · simp only [DecE.defOf, any_isNew hx]; rw [errOf_map]; simpa [stepErr] using h
    · simp only [DecE.defOf, any_elems hx]; rw [errOf_map]; simpa [stepErr] using h
  | tupleStruct hx =>
    simp only [DecE.defOf, any_elems hx]
    rw [errOf_map, tupleOf_first (env := env), h]; rfl
  | structSeq hx =>
    simp only [DecE.defOf, any_elems hx]
    rw [errOf_map, tupleOf_first (env := env), List.zipWith_map_left, h]; rfl
  | structCntr hx =>
    simp only [DecE.defOf, any_cntr hx]
    rw [errOf_map]
    exact structOf_first ((collect_first_cntr (env := env) _ [] [] _ (by simp)).trans h)
  | structMap hx =>
    simp only [DecE.defOf, any_map hx]
    rw [errOf_map]
    exact structOf_first ((collect_first_map (env := env) _ [] [] _ (by simp)).trans h)
  | enum hi hv hx =>
    simp only [DecE.defOf, hi, variant_lookup, hv]
    exact var_first hx h

/-- The first error inside is the error. -/
theorem step_first {l : List Step} (hp : Plan env t k l) (h : l.findSome? (stepErr env dec) = some e) :
    DecE.step env dec t k = .error e := by
  apply errOf_some
  cases hp with
  | some hx =>
    simp only [DecE.step, any_isSome hx]
    rw [errOf_map]
    simpa [stepErr] using h
  | seq hx =>
    simp only [DecE.step, any_elems hx]
    rw [errOf_map, seqOf_first (env := env), h]
  | tuple hx =>
    simp only [DecE.step, any_elems hx]
    rw [errOf_map, tupleOf_first (env := env), h]; rfl
  | map hx =>
    simp only [DecE.step, any_map hx]
    rw [errOf_map, ← h]
    exact entriesOf_first (f := fun x => .look (.value _ x)) (g := fun x => .look (.value _ x)) (fun _ => rfl) (fun _ => rfl) _
  | cntr hx =>
    simp only [DecE.step, any_cntr hx]
    rw [errOf_map, ← h]
    exact entriesOf_first (f := fun x => .look (.key _ x)) (g := fun x => .look (.value _ x)) (fun _ => rfl) (fun _ => rfl) _
  | named hn hx =>
    simp only [DecE.step, hn]
    exact def_first hx h

/-! ## What is looked at is planned -/

theorem mem_zipWith_of {α β γ : Type} (f : α → β → γ) : ∀ {l : List α} {m : List β} {i : Nat} {a : α} {b : β},
    l[i]? = some a → m[i]? = some b → f a b ∈ List.zipWith f l m
  | x :: l, y :: m, 0, a, b, h1, h2 => by simp at h1 h2; subst h1; subst h2; simp
  | x :: l, y :: m, i + 1, a, b, h1, h2 => by
    simp only [List.getElem?_cons_succ] at h1 h2
    simp [mem_zipWith_of f h1 h2]
  | [], _, _, _, _, h, _ => by simp at h
  | _ :: _, [], _, _, _, _, h => by simp at h

theorem cntr_planned {fs : List (Str × Ty)} {f : Str} {t : Ty} {x : Kserd} (hf : fs.lookup f = some t) :
    ∀ {before : List Str} {l : Fields}, (f, x) ∈ l →
      .look (.value t x) ∈ cntrSteps fs before l ∨ .again f ∈ cntrSteps fs before l
  | before, (n, v) :: r, h => by
    rw [cntrSteps]
    rcases List.mem_cons.mp h with h | h
    · cases h
      rw [fieldStep, hf]
      simp only
      split
      · exact .inr (by simp)
      · exact .inl (by simp)
    · rcases cntr_planned hf (before := n :: before) h with h | h
      · exact .inl (List.mem_append_right _ h)
      · exact .inr (List.mem_append_right _ h)

theorem map_planned {fs : List (Str × Ty)} {f : Str} {t : Ty} {key x : Kserd} (hf : fs.lookup f = some t)
    (hk : nameOf (fs.map Prod.fst) key = some f) : ∀ {before : List Str} {l : KMap}, (key, x) ∈ l →
      .look (.value t x) ∈ mapSteps fs before l ∨ .again f ∈ mapSteps fs before l
  | before, (n, v) :: r, h => by
    rw [mapSteps]
    rcases List.mem_cons.mp h with h | h
    · cases h
      rw [hk]
      simp only
      rw [fieldStep, hf]
      simp only
      split
      · exact .inr (by simp)
      · exact .inl (by simp)
    · cases hn : nameOf (fs.map Prod.fst) n with
      | none =>
        rcases map_planned hf hk (before := before) h with h | h
        · exact .inl (List.mem_cons_of_mem _ h)
        · exact .inr (List.mem_cons_of_mem _ h)
      | some m =>
        rcases map_planned hf hk (before := m :: before) h with h | h
        · exact .inl (List.mem_cons_of_mem _ (List.mem_append_right _ h))
        · exact .inr (List.mem_cons_of_mem _ (List.mem_append_right _ h))

theorem key_planned {fs : List (Str × Ty)} {key x : Kserd} : ∀ {before : List Str} {l : KMap}, (key, x) ∈ l →
    .look (.field key) ∈ mapSteps fs before l
  | before, (n, v) :: r, h => by
    rw [mapSteps]
    rcases List.mem_cons.mp h with h | h
    · cases h; simp
    · cases hn : nameOf (fs.map Prod.fst) n with
      | none => exact List.mem_cons_of_mem _ (key_planned h)
      | some m => exact List.mem_cons_of_mem _ (List.mem_append_right _ (key_planned h))

theorem var_val {v : VarDef} {x : Value} {l : List Step} (h : k.val = x) (hp : PlanVar v x l) : PlanVar v k.val l := h ▸ hp

theorem child_planned {u : Ty} {x : Kserd} (h : Child env t k u x) :
    ∃ l, Plan env t k l ∧ (.look (.value u x) ∈ l ∨ ∃ f, .again f ∈ l) := by
  cases h with
  | some h => exact ⟨_, .some h, .inl (by simp)⟩
  | elem h1 h2 => exact ⟨_, .seq h1, .inl (List.mem_map.mpr ⟨_, h2, rfl⟩)⟩
  | tuple h1 h2 h3 => exact ⟨_, .tuple h1, .inl (mem_zipWith_of (fun t x => Step.look (.value t x)) h2 h3)⟩
  | mapKey h1 h2 => exact ⟨_, .map h1, .inl (List.mem_flatMap.mpr ⟨_, h2, by simp⟩)⟩
  | mapValue h1 h2 => exact ⟨_, .map h1, .inl (List.mem_flatMap.mpr ⟨_, h2, by simp⟩)⟩
  | cntrValue h1 h2 => exact ⟨_, .cntr h1, .inl (List.mem_flatMap.mpr ⟨_, h2, by simp⟩)⟩
  | newtype hn h => exact ⟨_, .named hn (.newtype h), .inl (by simp)⟩
  | tupleStruct hn h1 h2 h3 =>
    exact ⟨_, .named hn (.tupleStruct h1), .inl (mem_zipWith_of (fun t x => Step.look (.value t x)) h2 h3)⟩
  | structSeq hn h1 h2 h3 =>
    exact ⟨_, .named hn (.structSeq h1), .inl (mem_zipWith_of (fun (f : Str × Ty) x => Step.look (.value f.2 x)) h2 h3)⟩
  | field hf hl h =>
    rcases hf with ⟨m, hn⟩ | ⟨vs, i, l, hn, hi, hv, hk⟩
    · rcases h with ⟨l, h1, h2⟩ | ⟨l, key, h1, h2, h3⟩
      · exact ⟨_, .named hn (.structCntr h1), (cntr_planned hl h2).imp_right fun h => ⟨_, h⟩⟩
      · exact ⟨_, .named hn (.structMap h1), (map_planned hl h3 h2).imp_right fun h => ⟨_, h⟩⟩
    · rcases h with ⟨l', h1, h2⟩ | ⟨l', key, h1, h2, h3⟩
      · exact ⟨_, .named hn (.enum hi hv (var_val h1 .struct)), (cntr_planned hl h2).imp_right fun h => ⟨_, h⟩⟩
      · rw [hk] at h1; cases h1
  | newtypeVariant hn hi hv h => exact ⟨_, .named hn (.enum hi hv (var_val h .newtype)), .inl (by simp)⟩
  | tupleVariant hn hi hv h hl h2 h3 =>
    exact ⟨_, .named hn (.enum hi hv (var_val h (.tuple hl))), .inl (mem_zipWith_of (fun t x => Step.look (.value t x)) h2 h3)⟩

theorem direct_planned {s : Subject} (h : Direct env t k s) : ∃ l, Plan env t k l ∧ .look s ∈ l := by
  cases h with
  | key h1 h2 => exact ⟨_, .cntr h1, List.mem_flatMap.mpr ⟨_, h2, by simp⟩⟩
  | field hn h1 h2 => exact ⟨_, .named hn (.structMap h1), key_planned h2⟩

/-! ## What is planned is looked at -/

theorem zipWith_mem {α β γ : Type} (f : α → β → γ) {c : γ} : ∀ {l : List α} {m : List β}, c ∈ List.zipWith f l m →
    ∃ (i : Nat) (a : α) (b : β), l[i]? = some a ∧ m[i]? = some b ∧ c = f a b
  | x :: l, y :: m, h => by
    rw [List.zipWith_cons_cons] at h
    rcases List.mem_cons.mp h with h | h
    · exact ⟨0, x, y, rfl, rfl, h⟩
    · obtain ⟨i, a, b, h1, h2, h3⟩ := zipWith_mem f h
      exact ⟨i + 1, a, b, by simpa using h1, by simpa using h2, h3⟩
  | [], _, h => by simp at h
  | _ :: _, [], h => by simp at h

theorem fieldStep_mem {fs : List (Str × Ty)} {before : List Str} {n : Str} {v x : Kserd} {u : Ty}
    (h : .look (.value u x) ∈ fieldStep fs before n v) : fs.lookup n = some u ∧ x = v := by
  unfold fieldStep at h
  split at h
  · simp at h
  · rename_i t ht
    split at h
    · simp at h
    · simp only [List.mem_singleton, Step.look.injEq, Subject.value.injEq] at h
      exact ⟨h.1 ▸ ht, h.2⟩

theorem cntr_mem {fs : List (Str × Ty)} {u : Ty} {x : Kserd} : ∀ {before : List Str} {l : Fields},
    .look (.value u x) ∈ cntrSteps fs before l → ∃ f, fs.lookup f = some u ∧ (f, x) ∈ l
  | _, [], h => by simp [cntrSteps] at h
  | before, (n, v) :: r, h => by
    rw [cntrSteps] at h
    rcases List.mem_append.mp h with h | h
    · obtain ⟨h1, rfl⟩ := fieldStep_mem h
      exact ⟨n, h1, by simp⟩
    · obtain ⟨f, h1, h2⟩ := cntr_mem h
      exact ⟨f, h1, by simp [h2]⟩

theorem map_mem {fs : List (Str × Ty)} {u : Ty} {x : Kserd} : ∀ {before : List Str} {l : KMap},
    .look (.value u x) ∈ mapSteps fs before l → ∃ f key, fs.lookup f = some u ∧ (key, x) ∈ l ∧ nameOf (fs.map Prod.fst) key = some f
  | _, [], h => by simp [mapSteps] at h
  | before, (n, v) :: r, h => by
    rw [mapSteps] at h
    rcases List.mem_cons.mp h with h | h
    · simp at h
    · cases hn : nameOf (fs.map Prod.fst) n with
      | none =>
        rw [hn] at h
        obtain ⟨f, key, h1, h2, h3⟩ := map_mem h
        exact ⟨f, key, h1, by simp [h2], h3⟩
      | some m =>
        rw [hn] at h
        rcases List.mem_append.mp h with h | h
        · obtain ⟨h1, rfl⟩ := fieldStep_mem h
          exact ⟨m, n, h1, by simp, hn⟩
        · obtain ⟨f, key, h1, h2, h3⟩ := map_mem h
          exact ⟨f, key, h1, by simp [h2], h3⟩

theorem planned_child {l : List Step} {u : Ty} {x : Kserd} (hp : Plan env t k l) (hx : .look (.value u x) ∈ l) : Child env t k u x := by
  cases hp with
  | some h =>
    simp only [List.mem_singleton, Step.look.injEq, Subject.value.injEq] at hx
    obtain ⟨rfl, rfl⟩ := hx
    exact .some h
  | seq h =>
    obtain ⟨y, h1, h2⟩ := List.mem_map.mp hx
    cases h2
    exact .elem h h1
  | tuple h =>
    obtain ⟨i, a, b, h1, h2, h3⟩ := zipWith_mem _ hx
    cases h3
    exact .tuple h h1 h2
  | map h =>
    obtain ⟨⟨a, b⟩, h1, h2⟩ := List.mem_flatMap.mp hx
    simp only [List.mem_cons, List.not_mem_nil, Step.look.injEq, Subject.value.injEq, or_false] at h2
    rcases h2 with ⟨rfl, rfl⟩ | ⟨rfl, rfl⟩
    · exact .mapKey h h1
    · exact .mapValue h h1
  | cntr h =>
    obtain ⟨⟨a, b⟩, h1, h2⟩ := List.mem_flatMap.mp hx
    simp only [List.mem_cons, List.not_mem_nil, Step.look.injEq, Subject.value.injEq, or_false, reduceCtorEq, false_or] at h2
    obtain ⟨rfl, rfl⟩ := h2
    exact .cntrValue h h1
  | named hn hd =>
    cases hd with
    | newtype h =>
      simp only [List.mem_singleton, Step.look.injEq, Subject.value.injEq] at hx
      obtain ⟨rfl, rfl⟩ := hx
      exact .newtype hn h
    | tupleStruct h =>
      obtain ⟨i, a, b, h1, h2, h3⟩ := zipWith_mem _ hx
      cases h3
      exact .tupleStruct hn h h1 h2
    | structSeq h =>
      obtain ⟨i, ⟨f, a⟩, b, h1, h2, h3⟩ := zipWith_mem _ hx
      cases h3
      exact .structSeq hn h h1 h2
    | structCntr h =>
      obtain ⟨f, h1, h2⟩ := cntr_mem hx
      exact .field (.inl ⟨_, hn⟩) h1 (.inl ⟨_, h, h2⟩)
    | structMap h =>
      obtain ⟨f, key, h1, h2, h3⟩ := map_mem hx
      exact .field (.inl ⟨_, hn⟩) h1 (.inr ⟨_, _, h, h2, h3⟩)
    | enum hi hv hp =>
      generalize hk : k.val = y at hp
      cases hp with
      | newtype =>
        simp only [List.mem_singleton, Step.look.injEq, Subject.value.injEq] at hx
        obtain ⟨rfl, rfl⟩ := hx
        exact .newtypeVariant hn hi hv hk
      | tuple hl =>
        obtain ⟨i, a, b, h1, h2, h3⟩ := zipWith_mem _ hx
        cases h3
        exact .tupleVariant hn hi hv hk hl h1 h2
      | struct =>
        obtain ⟨f, h1, h2⟩ := cntr_mem hx
        exact .field (.inr ⟨_, _, _, hn, hi, hv, hk⟩) h1 (.inl ⟨_, hk, h2⟩)

/-! ## All levels -/

theorem keyed_iff (t : Ty) (s : Str) : Keyed env t s ↔ errOf (DecE.strKey env t s) = none := by
  unfold Keyed
  cases t with
  | string => simp [DecE.strKey, errOf]
  | bytes => simp [DecE.strKey, errOf]
  | char => rcases s with _ | ⟨c, _ | ⟨d, s⟩⟩ <;> simp [DecE.strKey, errOf]
  | named n =>
    simp only [DecE.strKey]
    cases hn : env n with
    | none => simp [errOf, hn]
    | some d =>
      cases d with
      | enum vs =>
        simp only [variant_lookup]
        cases hv : vs.lookup s with
        | none => simp [errOf, hn, hv]
        | some v => cases v <;> simp [errOf, hn, hv]
      | _ => simp [errOf, hn]
  | _ => simp [DecE.strKey, errOf]

theorem u64_lt {n : Nat} (h : deserializeAny k = .u64 n) : n < 2 ^ 64 := by
  obtain ⟨i, v⟩ := k
  cases v with
  | num a =>
    cases a with
    | uint m =>
      simp only [deserializeAny] at h
      split at h
      · cases h; assumption
      · cases h
    | int m => simp only [deserializeAny] at h; split at h <;> cases h
    | float x => cases h
  | tuple l =>
    simp only [deserializeAny] at h
    repeat' split at h
    all_goals cases h
  | _ => cases h

theorem mayName_iff (k : Kserd) : MayName k ↔ errOf (DecE.fieldKey [] k) = none := by
  unfold MayName
  rcases fieldKey_cases [] k with h | ⟨_, h, h1, h2, h3⟩
  · refine iff_of_true ?_ (by rw [h]; rfl)
    unfold DecE.fieldKey at h
    have hs := any_shape k
    generalize hv : deserializeAny k = v at h hs
    cases v with
    | str s => exact .inl ⟨s, hs⟩
    | bytes b => exact .inr (.inl ⟨b, hs⟩)
    | u64 n => exact .inr (.inr ⟨n, (u64_lt hv), hs⟩)
    | _ => cases h
  · refine iff_of_false ?_ (by rw [h]; simp [errOf])
    rintro (⟨s, hs⟩ | ⟨b, hb⟩ | ⟨n, hn, hk⟩)
    · exact h1 s hs
    · exact h2 b hb
    · exact h3 n hn hk

theorem fine_iff {f : Nat} {s : Step} (hd : ∀ u x, s = .look (.value u x) → x.depth ≤ f) :
    Fine env s ↔ stepErr env (DecE.decode env f) s = none := by
  match s with
  | .look (.value u x) =>
    have := decode_opt env f u x
    rw [decode_fuel env u x f (hd u x rfl)] at this
    simp only [Fine, stepErr, ← this]
    cases DecE.decode env f u x <;> simp [errOf]
  | .look (.key u x) => exact keyed_iff u x
  | .look (.field x) => exact mayName_iff x
  | .again g => simp [Fine, stepErr]

theorem decode_fault : ∀ {f : Nat} {t : Ty} {k : Kserd}, k.depth ≤ f → DecE.decode env f t k = .error e → Fault env t k e
  | 0, _, k, hk, _ => by rw [depth_val] at hk; omega
  | f + 1, t, k, hk, h => by
    have hd : ∀ {l}, Plan env t k l → ∀ s ∈ l, ∀ u x, s = .look (.value u x) → x.depth ≤ f := by
      rintro l hp s hs u x rfl
      have := child_depth (planned_child hp hs)
      omega
    by_cases hex : ∃ l e', Plan env t k l ∧ l.findSome? (stepErr env (DecE.decode env f)) = some e'
    · obtain ⟨l, e', hp, hl⟩ := hex
      have he : e = e' := by
        have := (step_first hp hl).symm.trans h
        cases this; rfl
      subst he
      obtain ⟨a, s, b, rfl, h1, h2⟩ := List.findSome?_eq_some_iff.mp hl
      have hst : Stops env (a ++ s :: b) s := by
        refine ⟨a, b, rfl, fun x hx => ?_, fun hf => ?_⟩
        · exact (fine_iff (hd hp x (by simp [hx]))).mpr (h2 x hx)
        · rw [(fine_iff (hd hp s (by simp))).mp hf] at h1; cases h1
      match s, h1 with
      | .look (.value u x), h1 => exact .inside hp hst (decode_fault (hd hp _ (by simp) u x rfl) (errOf_some h1))
      | .look (.key u x), h1 => exact .name hp hst (by simp) (strKey_err (errOf_some h1))
      | .look (.field x), h1 =>
        refine .name hp hst (by simp) ?_
        rcases fieldKey_cases [] x with hk | ⟨_, hk, h2, h3, h4⟩
        · rw [stepErr, hk] at h1; cases h1
        · rw [stepErr, hk] at h1; cases h1
          exact .field (refused_describes _) h2 h3 h4
      | .again g, h1 => cases h1; exact .again hp hst
    · have hall : ∀ l, Plan env t k l → ∀ s ∈ l, stepErr env (DecE.decode env f) s = none := by
        intro l hp
        by_contra hc
        refine hex ⟨l, ?_⟩
        cases hl : l.findSome? (stepErr env (DecE.decode env f)) with
        | some e' => exact ⟨e', hp, rfl⟩
        | none => exact absurd (List.findSome?_eq_none_iff.mp hl) hc
      have hfine : ∀ l, Plan env t k l → ∀ s ∈ l, Fine env s :=
        fun l hp s hs => (fine_iff (hd hp s hs)).mpr (hall l hp s hs)
      rcases step_err h with ⟨u, x, hc, hx⟩ | ⟨s, hr, hs, h1⟩ | h1 | ⟨u, w, rfl, h1, h2⟩
      · obtain ⟨l, hp, hm | ⟨g, hm⟩⟩ := child_planned hc
        · have := hall l hp _ hm
          rw [stepErr, hx] at this; cases this
        · have := hall l hp _ hm
          cases this
      · obtain ⟨l, hp, hm⟩ := direct_planned hr
        rw [hall l hp _ hm] at hs; cases hs
      · exact .here hfine h1
      · exact .mistaken hfine h1 h2

end KS.DE
