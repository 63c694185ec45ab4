import Verif.Lemmas.RtMain
import Verif.Lemmas.WriteIds
/-!
# What the writers write without verbose containers
-/

namespace KS.RT
open KS.Spec KS.Nav KS.Wr KS.Props

/-- `P` holds at node `idx + j` for the `j`-th of the Kserds. -/
def AtN (P : Nat → Kserd → Prop) (idx : Nat) (ks : List Kserd) : Prop := ∀ j x, ks[j]? = some x → P (idx + j) x

variable {P : Nat → Kserd → Prop} {fmts : List Fmt}

theorem atN_append {idx : Nat} {a b : List Kserd} : AtN P idx (a ++ b) ↔ AtN P idx a ∧ AtN P (idx + a.length) b := by
  constructor
  · intro h
    constructor
    · intro j x hx
      exact h j x (by rw [List.getElem?_append_left (List.getElem?_eq_some_iff.mp hx).1]; exact hx)
    · intro j x hx
      have := h (a.length + j) x (by rw [List.getElem?_append_right (by omega)]; simpa using hx)
      rwa [← Nat.add_assoc] at this
  · rintro ⟨h1, h2⟩ j x hx
    by_cases hj : j < a.length
    · rw [List.getElem?_append_left hj] at hx; exact h1 j x hx
    · rw [List.getElem?_append_right (by omega)] at hx
      have := h2 _ x hx
      rwa [show idx + a.length + (j - a.length) = idx + j by omega] at this

theorem atN_cons {idx : Nat} {k : Kserd} {b : List Kserd} : AtN P idx (k :: b) ↔ P idx k ∧ AtN P (idx + 1) b := by
  rw [show k :: b = [k] ++ b from rfl, atN_append]
  constructor
  · rintro ⟨h1, h2⟩; exact ⟨h1 0 k rfl, h2⟩
  · rintro ⟨h1, h2⟩
    refine ⟨?_, h2⟩
    intro j x hx
    match j with
    | 0 => simp at hx; subst hx; exact h1
    | j + 1 => simp at hx

theorem AtN.mono {Q : Nat → Kserd → Prop} (h : ∀ i x, P i x → Q i x) {idx : Nat} {ks : List Kserd} (ha : AtN P idx ks) : AtN Q idx ks :=
  fun j x hx => h _ x (ha j x hx)

/-- What is needed of a node and its format. -/
structure Plain (fmts : List Fmt) (i : Nat) (x : Kserd) : Prop where
  fm : ∃ fm, fmts[i]? = some fm
  max : ∀ fm, fmts[i]? = some fm → fm.line ≤ maxRepr x.val
  noV : ∀ fm, fmts[i]? = some fm → ∀ f, x.val = .cntr f → fm.line ≠ .verbose
  ids : ∀ fm, fmts[i]? = some fm → IdsOk x fm
  down : ∀ fm, fmts[i]? = some fm → fm.line = .inline → ∀ m < x.size, ∀ fm', fmts[i + m]? = some fm' → fm'.line = .inline
  sep : ∀ fm, fmts[i]? = some fm → fm.line ≠ .inline → Separable (shownV (flag fmts) (i + 1) x.val)
  unit : x.val = .unit → x.id = none

/-- All of `n` nodes from `i` on are inline. -/
def Inl (fmts : List Fmt) (i n : Nat) : Prop := ∀ m < n, ∀ fm, fmts[i + m]? = some fm → fm.line = .inline

theorem Inl.left {i a b : Nat} (h : Inl fmts i (a + b)) : Inl fmts i a := fun m hm => h m (by omega)
theorem Inl.right {i a b : Nat} (h : Inl fmts i (a + b)) : Inl fmts (i + a) b := fun m hm fm hfm => h (a + m) (by omega) fm (by rwa [← Nat.add_assoc])

theorem shownV_kind {on : Nat → Bool} {i : Nat} {v : Value} : maxRepr (shownV on i v) = maxRepr v := by
  cases v with
  | tuple l => cases l <;> rfl
  | seq l => cases l <;> rfl
  | cntr l => cases l <;> rfl
  | map l => cases l <;> rfl
  | _ => rfl

theorem nonprim_txt (buf : Str) (on : Bool) (id : Option Str) : W.nonprimIdent buf on id = buf ++ nid [' '] (if on = true then id else none) := by
  cases on <;> cases id <;> simp [W.nonprimIdent, nid]

theorem tuplePrefix_txt {buf : Str} {on : Bool} {id : Option Str} (h : on = false → id = none) :
    W.tuplePrefix buf on id = buf ++ nid [] (if on = true then id else none) ++ ['('] := by
  cases on
  · rw [h rfl]; simp [W.tuplePrefix, W.nonprimIdent, nid]
  · cases id with
    | none => simp [W.tuplePrefix, W.nonprimIdent, nid]
    | some i =>
      have : (buf ++ (i ++ [' '])).dropLast = buf ++ i := by rw [← List.append_assoc, List.dropLast_concat]
      simp [W.tuplePrefix, W.nonprimIdent, nid, W.pop, this]

theorem primIdent_txt (buf : Str) (on : Bool) (id : Option Str) : W.primIdent buf on id = buf ++ pid (if on = true then id else none) := by
  cases on <;> cases id <;> simp [W.primIdent, pid]

theorem popSep_sep (b : Str) : W.popSep (b ++ str ", ") = b := by
  have e : b ++ str ", " = (b ++ [',']) ++ [' '] := by simp; rfl
  rw [W.popSep, W.pop, W.pop, e, List.dropLast_concat, List.dropLast_concat]

theorem indent_nl (buf : Str) (n : Nat) : W.indent (buf ++ ['\n']) n = buf ++ '\n' :: List.replicate n ' ' := by
  simp [W.indent]

theorem isNl (n : Nat) : IsNl ('\n' :: List.replicate n ' ') := ⟨n, rfl⟩

theorem flag_of {i : Nat} {fm : Fmt} (h : fmts[i]? = some fm) : flag fmts i = fm.id := by
  obtain ⟨on, ln⟩ := fm
  rw [flag, h]; cases on <;> rfl

/-- Layouts: a list of elements is written inline or, if the node is not inline, one per line. -/
theorem not_inline_of {r : Repr'} (h : r ≠ .inline) {v : Value} (hm : r ≤ maxRepr v) : maxRepr v ≠ .inline := by
  intro e; rw [e] at hm
  exact h (Fm.rle_inline hm)

mutual
theorem node_txt (k : Kserd) (idx col : Nat) (buf out : Str) (h : AtN (Plain fmts) idx (preorder k)) (inl : Bool)
    (hin : inl = true → Inl fmts idx k.size) (ho : W.node fmts k idx col buf = some out) :
    ∃ t, out = buf ++ t ∧ Txt inl (shown (flag fmts) idx k) t := by
  obtain ⟨id, v⟩ := k
  rw [preorder, atN_cons] at h
  obtain ⟨hp, h⟩ := h
  obtain ⟨fm, hfm⟩ := hp.fm
  have hmax := hp.max fm hfm
  have hnv := hp.noV fm hfm
  have hids := hp.ids fm hfm
  have hdown : fm.line = .inline → Inl fmts (idx + 1) (Kserd.sizeV v) := by
    intro hl m hm fm' hfm'
    refine hp.down fm hfm hl (m + 1) ?_ fm' (by rwa [show idx + (m + 1) = idx + 1 + m by omega])
    rw [Kserd.size]; omega
  have hsep := hp.sep fm hfm
  have hself : inl = true → fm.line = .inline := fun hi => hin hi 0 (by rw [Kserd.size]; omega) fm hfm
  obtain ⟨on, ln⟩ := fm
  have hf : flag fmts idx = on := flag_of hfm
  rw [shown, hf]
  simp only [Txt]
  cases v with
  | tuple l =>
    have hid : on = false → id = none := fun e => hids e ⟨l, rfl⟩
    simp only [preorderV] at h
    simp only [Kserd.sizeV] at hdown
    cases ln with
    | inline =>
      simp only [W.node, hfm, Option.map_eq_some_iff, tuplePrefix_txt hid] at ho
      obtain ⟨b, hb, rfl⟩ := ho
      obtain ⟨b', hb', ht⟩ := listHead_txt l _ _ _ _ h (hdown rfl) hb
      simp only [shownV, shownId, TxtV]
      exact ⟨_, by rw [hb']; simp, [], b', .inl rfl, rfl, .inl ht⟩
    | concise =>
      simp only [W.node, hfm, Option.map_eq_some_iff, tuplePrefix_txt hid] at ho
      obtain ⟨b, hb, rfl⟩ := ho
      have hne := hsep (by intro e; cases e)
      obtain ⟨b', hb', ht⟩ := listConcise_txt l _ _ _ _ h hne hb
      simp only [shownV, shownId, TxtV]
      refine ⟨_, ?_, [], b' ++ '\n' :: List.replicate col ' ', .inl rfl, rfl, .inr ⟨?_, ht col⟩⟩
      · rw [hb', indent_nl]; simp
      · cases inl with
        | false => rfl
        | true => cases hself rfl
    | verbose => simp only [W.node, hfm] at ho; cases ho
  | seq l =>
    simp only [preorderV] at h
    simp only [Kserd.sizeV] at hdown
    have conc : ln ≠ .inline → (W.listConcise fmts l (idx + 1) (col + W.indentW) (W.nonprimIdent buf on id ++ ['[', '\n'])).map (fun b =>
            W.indent b col ++ [']']) = some out → ∃ t, out = buf ++ t ∧ TxtV inl (shownId on (.seq l) id) (shownV (flag fmts) (idx + 1) (.seq l)) t := by
      intro hl ho
      simp only [Option.map_eq_some_iff] at ho
      obtain ⟨b, hb, rfl⟩ := ho
      have hne := hsep hl
      rw [nonprim_txt, show ∀ x : Str, x ++ ['[', '\n'] = (x ++ ['[']) ++ ['\n'] by simp] at hb
      obtain ⟨b', hb', ht⟩ := listConcise_txt l _ _ _ _ h hne hb
      simp only [shownV, shownId, TxtV]
      refine ⟨_, ?_, [' '], b' ++ '\n' :: List.replicate col ' ', .inr rfl, rfl, .inr ⟨?_, ht col⟩⟩
      · rw [hb', indent_nl]; simp
      · cases inl with
        | false => rfl
        | true => exact absurd (hself rfl) hl
    cases ln with
    | inline =>
      simp only [W.node, hfm, Option.map_eq_some_iff, nonprim_txt] at ho
      obtain ⟨b, hb, rfl⟩ := ho
      obtain ⟨b', hb', ht⟩ := listHead_txt l _ _ _ _ h (hdown rfl) hb
      simp only [shownV, shownId, TxtV]
      exact ⟨_, by rw [hb']; simp, [' '], b', .inr rfl, rfl, .inl ht⟩
    | concise => exact conc (by decide) (by simpa only [W.node, hfm] using ho)
    | verbose => exact conc (by decide) (by simpa only [W.node, hfm] using ho)
  | cntr l =>
    simp only [preorderV] at h
    simp only [Kserd.sizeV] at hdown
    cases ln with
    | inline =>
      simp only [W.node, hfm, Option.map_eq_some_iff, nonprim_txt] at ho
      obtain ⟨b, hb, rfl⟩ := ho
      obtain ⟨b', hb', ht⟩ := cntrHead_txt l _ _ _ _ h (hdown rfl) hb
      simp only [shownV, shownId, TxtV]
      exact ⟨_, by rw [hb']; simp, [' '], b', .inr rfl, rfl, .inl ht⟩
    | concise =>
      simp only [W.node, hfm, Option.map_eq_some_iff] at ho
      obtain ⟨b, hb, rfl⟩ := ho
      rw [nonprim_txt, show ∀ x : Str, x ++ ['(', '\n'] = (x ++ ['(']) ++ ['\n'] by simp] at hb
      obtain ⟨b', hb', ht⟩ := cntrConcise_txt l _ _ _ _ h hb
      simp only [shownV, shownId, TxtV]
      refine ⟨_, ?_, [' '], b' ++ '\n' :: List.replicate col ' ', .inr rfl, rfl, .inr ⟨?_, ?_, ht col⟩⟩
      · rw [hb', indent_nl]; simp
      · cases inl with
        | false => rfl
        | true => cases hself rfl
      · have := not_inline_of (by intro e; cases e) hmax
        cases l with
        | nil => exact absurd rfl this
        | cons p r => obtain ⟨n, k⟩ := p; simp [shownF]
    | verbose => exact absurd rfl (hnv l rfl)
  | map l =>
    simp only [preorderV] at h
    simp only [Kserd.sizeV] at hdown
    have conc : ln ≠ .inline → (W.mapConcise fmts l (idx + 1) (col + W.indentW) (W.nonprimIdent buf on id ++ ['{', '\n'])).map (fun b =>
            W.indent b col ++ ['}']) = some out → ∃ t, out = buf ++ t ∧ TxtV inl (shownId on (.map l) id) (shownV (flag fmts) (idx + 1) (.map l)) t := by
      intro hl ho
      simp only [Option.map_eq_some_iff] at ho
      obtain ⟨b, hb, rfl⟩ := ho
      have hne := hsep hl
      rw [nonprim_txt, show ∀ x : Str, x ++ ['{', '\n'] = (x ++ ['{']) ++ ['\n'] by simp] at hb
      obtain ⟨b', hb', ht⟩ := mapConcise_txt l _ _ _ _ h hne hb
      simp only [shownV, shownId, TxtV]
      refine ⟨_, ?_, [' '], b' ++ '\n' :: List.replicate col ' ', .inr rfl, rfl, .inr ⟨?_, ht col⟩⟩
      · rw [hb', indent_nl]; simp
      · cases inl with
        | false => rfl
        | true => exact absurd (hself rfl) hl
    cases ln with
    | inline =>
      simp only [W.node, hfm, Option.map_eq_some_iff, nonprim_txt] at ho
      obtain ⟨b, hb, rfl⟩ := ho
      obtain ⟨b', hb', ht⟩ := mapHead_txt l _ _ _ _ h (hdown rfl) hb
      simp only [shownV, shownId, TxtV]
      exact ⟨_, by rw [hb']; simp, [' '], b', .inr rfl, rfl, .inl ht⟩
    | concise => exact conc (by decide) (by simpa only [W.node, hfm] using ho)
    | verbose => exact conc (by decide) (by simpa only [W.node, hfm] using ho)
  | unit =>
    have hid : id = none := hp.unit rfl
    subst hid
    simp only [W.node, hfm, W.prim, W.unit, Option.some.injEq] at ho
    exact ⟨str "()", ho.symm, by rw [shownV, TxtV]⟩
  | bool b =>
    simp only [W.node, hfm, W.prim, Option.some.injEq, primIdent_txt] at ho
    subst ho
    exact ⟨_, List.append_assoc .., by simp only [shownV, TxtV, shownId]⟩
  | num b =>
    simp only [W.node, hfm, W.prim, Option.some.injEq, primIdent_txt] at ho
    subst ho
    exact ⟨_, List.append_assoc .., by simp only [shownV, TxtV, shownId]⟩
  | barr b =>
    simp only [W.node, hfm, W.prim, Option.some.injEq, primIdent_txt] at ho
    subst ho
    exact ⟨_, List.append_assoc .., by simp only [shownV, TxtV, shownId]⟩
  | str s =>
    simp only [W.node, hfm, W.prim, Option.map_eq_some_iff, primIdent_txt] at ho
    obtain ⟨l, hl, rfl⟩ := ho
    exact ⟨_, List.append_assoc .., by simp only [shownV, TxtV, shownId]; exact ⟨l, hl, rfl⟩⟩
theorem listInline_txt (l : List Kserd) (idx col : Nat) (buf out : Str) (h : AtN (Plain fmts) idx (preorderL l)) (hin : Inl fmts idx (Kserd.sizeL l))
    (ho : W.listInline fmts l idx col (buf ++ str ", ") = some out) :
    ∃ b, out = buf ++ b ++ str ", " ∧ TxtI (shownL (flag fmts) idx l) (str ", ") b := by
  match l with
  | [] => simp only [W.listInline, Option.some.injEq] at ho; exact ⟨[], by simp [← ho], by rw [shownL, TxtI]⟩
  | k :: r =>
    rw [preorderL, atN_append, size_preorder] at h
    rw [Kserd.sizeL] at hin
    rw [W.listInline] at ho
    split at ho
    · cases ho
    · rename_i b hb
      obtain ⟨t, rfl, ht⟩ := node_txt k _ _ _ _ h.1 true (fun _ => hin.left) hb
      obtain ⟨b', rfl, hb'⟩ := listInline_txt r _ _ _ _ h.2 hin.right ho
      exact ⟨str ", " ++ (t ++ b'), by simp, by rw [shownL, TxtI]; exact ⟨t, b', rfl, ht, hb'⟩⟩
theorem listHead_txt (l : List Kserd) (idx col : Nat) (buf out : Str) (h : AtN (Plain fmts) idx (preorderL l)) (hin : Inl fmts idx (Kserd.sizeL l))
    (ho : W.listInline fmts l idx col buf = some out) :
    ∃ b, (if l.isEmpty = true then out else W.popSep out) = buf ++ b ∧ TxtI (shownL (flag fmts) idx l) [] b := by
  match l with
  | [] => simp only [W.listInline, Option.some.injEq] at ho; exact ⟨[], by simp [← ho], by rw [shownL, TxtI]⟩
  | k :: r =>
    rw [preorderL, atN_append, size_preorder] at h
    rw [Kserd.sizeL] at hin
    rw [W.listInline] at ho
    split at ho
    · cases ho
    · rename_i b hb
      obtain ⟨t, rfl, ht⟩ := node_txt k _ _ _ _ h.1 true (fun _ => hin.left) hb
      obtain ⟨b', rfl, hb'⟩ := listInline_txt r _ _ _ _ h.2 hin.right ho
      refine ⟨t ++ b', ?_, by rw [shownL, TxtI]; exact ⟨t, b', rfl, ht, hb'⟩⟩
      simp only [List.isEmpty_cons, Bool.false_eq_true, if_false, popSep_sep]
      simp
theorem listConcise_txt (l : List Kserd) (idx c : Nat) (buf out : Str) (h : AtN (Plain fmts) idx (preorderL l))
    (hs : ∀ p a b q, shownL (flag fmts) idx l = p ++ a :: b :: q → Bare a → ¬ Opens b)
    (ho : W.listConcise fmts l idx c (buf ++ ['\n']) = some out) :
    ∃ b, out = buf ++ b ++ ['\n'] ∧ ∀ n, TxtC (shownL (flag fmts) idx l) (b ++ '\n' :: List.replicate n ' ') := by
  match l with
  | [] => simp only [W.listConcise, Option.some.injEq] at ho; exact ⟨[], by simp [← ho], fun n => by rw [shownL, TxtC]; exact isNl n⟩
  | k :: r =>
    rw [preorderL, atN_append, size_preorder] at h
    rw [W.listConcise, indent_nl] at ho
    split at ho
    · cases ho
    · rename_i b hb
      rw [shownL] at hs
      obtain ⟨t, rfl, ht⟩ := node_txt k _ _ _ _ h.1 false (by simp) hb
      obtain ⟨b', rfl, hb'⟩ := listConcise_txt r _ _ _ _ h.2 (fun p a b q e => hs (_ :: p) a b q (by rw [e]; rfl)) ho
      refine ⟨('\n' :: List.replicate c ' ') ++ (t ++ b'), by simp, fun n => ?_⟩
      rw [shownL, TxtC]
      exact ⟨_, t, _, by simp, isNl c, ht, hb' n, fun hB y r' e => hs [] _ y r' (by rw [e]; rfl) hB⟩
theorem cntrInline_txt (l : List (Str × Kserd)) (idx col : Nat) (buf out : Str) (h : AtN (Plain fmts) idx (preorderF l)) (hin : Inl fmts idx (Kserd.sizeF l))
    (ho : W.cntrInline fmts l idx col (buf ++ str ", ") = some out) :
    ∃ b, out = buf ++ b ++ str ", " ∧ TxtFI (shownF (flag fmts) idx l) (str ", ") b := by
  match l with
  | [] => simp only [W.cntrInline, Option.some.injEq] at ho; exact ⟨[], by simp [← ho], by rw [shownF, TxtFI]⟩
  | (n, k) :: r =>
    rw [preorderF, atN_append, size_preorder] at h
    rw [Kserd.sizeF] at hin
    rw [W.cntrInline] at ho
    split at ho
    · cases ho
    · rename_i b hb
      obtain ⟨t, rfl, ht⟩ := node_txt k _ _ _ _ h.1 true (fun _ => hin.left) hb
      obtain ⟨b', rfl, hb'⟩ := cntrInline_txt r _ _ _ _ h.2 hin.right ho
      exact ⟨str ", " ++ (n ++ (str " = " ++ (t ++ b'))), by simp [W.assigner]; rfl, by rw [shownF, TxtFI]; exact ⟨t, b', rfl, ht, hb'⟩⟩
theorem cntrHead_txt (l : List (Str × Kserd)) (idx col : Nat) (buf out : Str) (h : AtN (Plain fmts) idx (preorderF l)) (hin : Inl fmts idx (Kserd.sizeF l))
    (ho : W.cntrInline fmts l idx col buf = some out) :
    ∃ b, (if l.isEmpty = true then out else W.popSep out) = buf ++ b ∧ TxtFI (shownF (flag fmts) idx l) [] b := by
  match l with
  | [] => simp only [W.cntrInline, Option.some.injEq] at ho; exact ⟨[], by simp [← ho], by rw [shownF, TxtFI]⟩
  | (n, k) :: r =>
    rw [preorderF, atN_append, size_preorder] at h
    rw [Kserd.sizeF] at hin
    rw [W.cntrInline] at ho
    split at ho
    · cases ho
    · rename_i b hb
      obtain ⟨t, rfl, ht⟩ := node_txt k _ _ _ _ h.1 true (fun _ => hin.left) hb
      obtain ⟨b', rfl, hb'⟩ := cntrInline_txt r _ _ _ _ h.2 hin.right ho
      refine ⟨[] ++ (n ++ (str " = " ++ (t ++ b'))), ?_, by rw [shownF, TxtFI]; exact ⟨t, b', rfl, ht, hb'⟩⟩
      simp only [List.isEmpty_cons, Bool.false_eq_true, if_false, popSep_sep]
      simp [W.assigner]; rfl
theorem cntrConcise_txt (l : List (Str × Kserd)) (idx c : Nat) (buf out : Str) (h : AtN (Plain fmts) idx (preorderF l))
    (ho : W.cntrConcise fmts l idx c (buf ++ ['\n']) = some out) :
    ∃ b, out = buf ++ b ++ ['\n'] ∧ ∀ n, TxtFC (shownF (flag fmts) idx l) (b ++ '\n' :: List.replicate n ' ') := by
  match l with
  | [] => simp only [W.cntrConcise, Option.some.injEq] at ho; exact ⟨[], by simp [← ho], fun n => by rw [shownF, TxtFC]; exact isNl n⟩
  | (n, k) :: r =>
    rw [preorderF, atN_append, size_preorder] at h
    simp only [W.cntrConcise, indent_nl] at ho
    split at ho
    · cases ho
    · rename_i b hb
      obtain ⟨t, rfl, ht⟩ := node_txt k _ _ _ _ h.1 false (by simp) hb
      obtain ⟨b', rfl, hb'⟩ := cntrConcise_txt r _ _ _ _ h.2 ho
      refine ⟨('\n' :: List.replicate c ' ') ++ (n ++ (str " = " ++ (t ++ b'))), by simp [W.assigner]; rfl, fun m => ?_⟩
      rw [shownF, TxtFC]
      exact ⟨_, t, _, by simp, isNl c, ht, hb' m⟩
theorem mapInline_txt (l : List (Kserd × Kserd)) (idx col : Nat) (buf out : Str) (h : AtN (Plain fmts) idx (preorderM l)) (hin : Inl fmts idx (Kserd.sizeM l))
    (ho : W.mapInline fmts l idx col (buf ++ str ", ") = some out) :
    ∃ b, out = buf ++ b ++ str ", " ∧ TxtMI (shownM (flag fmts) idx l) (str ", ") [' '] (b ++ [' ']) := by
  match l with
  | [] => simp only [W.mapInline, Option.some.injEq] at ho; exact ⟨[], by simp [← ho], by rw [shownM, TxtMI]; rfl⟩
  | (k, v) :: r =>
    rw [preorderM, atN_append, atN_append, size_preorder, size_preorder] at h
    rw [Kserd.sizeM] at hin
    rw [W.mapInline] at ho
    split at ho
    · cases ho
    · rename_i b hb
      split at ho
      · cases ho
      · rename_i b2 hb2
        obtain ⟨t, rfl, ht⟩ := node_txt k _ _ _ _ h.1 true (fun _ => hin.left.left) hb
        obtain ⟨u, rfl, hu⟩ := node_txt v _ _ _ _ h.2.1 true (fun _ => hin.left.right) hb2
        obtain ⟨b', rfl, hb'⟩ := mapInline_txt r _ _ _ _ h.2.2 (by rw [Nat.add_assoc]; exact hin.right) ho
        exact ⟨str ", " ++ (t ++ (str ": " ++ (u ++ b'))), by simp [W.keysAssigner]; rfl, by
          rw [shownM, TxtMI]; exact ⟨t, u, b' ++ [' '], by simp, ht, hu, hb'⟩⟩
theorem mapHead_txt (l : List (Kserd × Kserd)) (idx col : Nat) (buf out : Str) (h : AtN (Plain fmts) idx (preorderM l)) (hin : Inl fmts idx (Kserd.sizeM l))
    (ho : W.mapInline fmts l idx col (buf ++ '{' :: (if l.isEmpty = true then [] else [' '])) = some out) :
    ∃ b, (if l.isEmpty = true then out else W.popSep out ++ [' ']) = buf ++ '{' :: b ∧ TxtMI (shownM (flag fmts) idx l) [' '] [] b := by
  match l with
  | [] => simp only [W.mapInline, Option.some.injEq] at ho; exact ⟨[], by simp [← ho], by rw [shownM, TxtMI]⟩
  | (k, v) :: r =>
    rw [preorderM, atN_append, atN_append, size_preorder, size_preorder] at h
    rw [Kserd.sizeM] at hin
    rw [W.mapInline] at ho
    split at ho
    · cases ho
    · rename_i b hb
      split at ho
      · cases ho
      · rename_i b2 hb2
        obtain ⟨t, rfl, ht⟩ := node_txt k _ _ _ _ h.1 true (fun _ => hin.left.left) hb
        obtain ⟨u, rfl, hu⟩ := node_txt v _ _ _ _ h.2.1 true (fun _ => hin.left.right) hb2
        obtain ⟨b', rfl, hb'⟩ := mapInline_txt r _ _ _ _ h.2.2 (by rw [Nat.add_assoc]; exact hin.right) ho
        refine ⟨[' '] ++ (t ++ (str ": " ++ (u ++ (b' ++ [' '])))), ?_, by
          rw [shownM, TxtMI]; exact ⟨t, u, b' ++ [' '], rfl, ht, hu, hb'⟩⟩
        simp only [List.isEmpty_cons, Bool.false_eq_true, if_false, popSep_sep]
        simp [W.keysAssigner]; rfl
theorem mapConcise_txt (l : List (Kserd × Kserd)) (idx c : Nat) (buf out : Str) (h : AtN (Plain fmts) idx (preorderM l))
    (hs : ∀ p a b q, shownM (flag fmts) idx l = p ++ a :: b :: q → Bare a.2 → ¬ Opens b.1)
    (ho : W.mapConcise fmts l idx c (buf ++ ['\n']) = some out) :
    ∃ b, out = buf ++ b ++ ['\n'] ∧ ∀ n, TxtMC (shownM (flag fmts) idx l) (b ++ '\n' :: List.replicate n ' ') := by
  match l with
  | [] => simp only [W.mapConcise, Option.some.injEq] at ho; exact ⟨[], by simp [← ho], fun n => by rw [shownM, TxtMC]; exact isNl n⟩
  | (k, v) :: r =>
    rw [preorderM, atN_append, atN_append, size_preorder, size_preorder] at h
    simp only [W.mapConcise, indent_nl] at ho
    split at ho
    · cases ho
    · split at ho
      · cases ho
      · rename_i b hb
        split at ho
        · cases ho
        · rename_i b2 hb2
          rw [shownM] at hs
          obtain ⟨t, rfl, ht⟩ := node_txt k _ _ _ _ h.1 false (by simp) hb
          obtain ⟨u, rfl, hu⟩ := node_txt v _ _ _ _ h.2.1 false (by simp) hb2
          obtain ⟨b', rfl, hb'⟩ := mapConcise_txt r _ _ _ _ h.2.2 (fun p a b q e => hs (_ :: p) a b q (by rw [e]; rfl)) ho
          refine ⟨('\n' :: List.replicate c ' ') ++ (t ++ (str ": " ++ (u ++ b'))), by simp [W.keysAssigner]; rfl, fun m => ?_⟩
          rw [shownM, TxtMC]
          exact ⟨_, t, u, _, by simp, isNl c, ht, hu, hb' m, fun hB y z r' e => hs [] (_, _) (y, z) r' (by rw [e]; rfl) hB⟩
end
end KS.RT
