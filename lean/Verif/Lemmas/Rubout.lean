import Verif.Lemmas.WriteIds
import Verif.Lemmas.WriteInline
import Verif.Spec.Rubout
/-!
# Writing after changes to the text before
-/

namespace KS.Rub
open KS.Spec KS.Nav KS.Props KS.Wr

variable {fmts : List Fmt} {φ : Str → Str} {m : Char} {Q : Char → Prop}

mutual
theorem marked_size (on : Nat → Bool) : ∀ (i : Nat) (k : Kserd), (marked m on i k).size = k.size
  | i, .mk id v => by rw [marked, Kserd.size, Kserd.size, markedV_size]
theorem markedV_size (on : Nat → Bool) : ∀ (i : Nat) (v : Value), Kserd.sizeV (markedV m on i v) = Kserd.sizeV v
  | i, .tuple l => by rw [markedV, Kserd.sizeV, Kserd.sizeV, markedL_size]
  | i, .seq l => by rw [markedV, Kserd.sizeV, Kserd.sizeV, markedL_size]
  | i, .cntr l => by rw [markedV, Kserd.sizeV, Kserd.sizeV, markedF_size]
  | i, .map l => by rw [markedV, Kserd.sizeV, Kserd.sizeV, markedM_size]
  | _, .unit => rfl
  | _, .bool _ => rfl
  | _, .num _ => rfl
  | _, .str _ => rfl
  | _, .barr _ => rfl
theorem markedL_size (on : Nat → Bool) : ∀ (i : Nat) (l : List Kserd), Kserd.sizeL (markedL m on i l) = Kserd.sizeL l
  | i, [] => rfl
  | i, k :: r => by rw [markedL, Kserd.sizeL, Kserd.sizeL, marked_size, markedL_size]
theorem markedF_size (on : Nat → Bool) : ∀ (i : Nat) (l : List (Str × Kserd)), Kserd.sizeF (markedF m on i l) = Kserd.sizeF l
  | i, [] => rfl
  | i, (n, k) :: r => by rw [markedF, Kserd.sizeF, Kserd.sizeF, marked_size, markedF_size]
theorem markedM_size (on : Nat → Bool) : ∀ (i : Nat) (l : List (Kserd × Kserd)), Kserd.sizeM (markedM m on i l) = Kserd.sizeM l
  | i, [] => rfl
  | i, (k, v) :: r => by rw [markedM, Kserd.sizeM, Kserd.sizeM, marked_size, marked_size, markedM_size]
end

theorem markedL_isEmpty (on : Nat → Bool) (i : Nat) (l : List Kserd) : (markedL m on i l).isEmpty = l.isEmpty := by
  cases l <;> rfl
theorem markedF_isEmpty (on : Nat → Bool) (i : Nat) (l : List (Str × Kserd)) : (markedF m on i l).isEmpty = l.isEmpty := by
  cases l <;> rfl
theorem markedM_isEmpty (on : Nat → Bool) (i : Nat) (l : List (Kserd × Kserd)) : (markedM m on i l).isEmpty = l.isEmpty := by
  cases l <;> rfl
theorem nests_marked (on : Nat → Bool) (i : Nat) (k : Kserd) : W.nests (marked m on i k).val = W.nests k.val := by
  obtain ⟨id, v⟩ := k
  cases v <;> rfl

/-! ## How lists of elements end -/

theorem listInline_end : ∀ (l : List Kserd) (idx col : Nat) (buf out : Str), l.isEmpty = false →
    W.listInline fmts l idx col buf = some out → ∃ x, out = x ++ W.separator
  | [], _, _, _, _, h, _ => by cases h
  | k :: r, idx, col, buf, out, _, h => by
    rw [W.listInline] at h
    split at h
    · cases h
    · rename_i b _
      cases hr : r.isEmpty with
      | true =>
        obtain rfl := List.isEmpty_iff.mp hr
        rw [W.listInline] at h
        exact ⟨b, (Option.some.inj h).symm⟩
      | false => exact listInline_end r _ _ _ _ hr h

theorem cntrInline_end : ∀ (l : List (Str × Kserd)) (idx col : Nat) (buf out : Str), l.isEmpty = false →
    W.cntrInline fmts l idx col buf = some out → ∃ x, out = x ++ W.separator
  | [], _, _, _, _, h, _ => by cases h
  | (n, k) :: r, idx, col, buf, out, _, h => by
    rw [W.cntrInline] at h
    split at h
    · cases h
    · rename_i b _
      cases hr : r.isEmpty with
      | true =>
        obtain rfl := List.isEmpty_iff.mp hr
        rw [W.cntrInline] at h
        exact ⟨b, (Option.some.inj h).symm⟩
      | false => exact cntrInline_end r _ _ _ _ hr h

theorem mapInline_end : ∀ (l : List (Kserd × Kserd)) (idx col : Nat) (buf out : Str), l.isEmpty = false →
    W.mapInline fmts l idx col buf = some out → ∃ x, out = x ++ W.separator
  | [], _, _, _, _, h, _ => by cases h
  | (k, v) :: r, idx, col, buf, out, _, h => by
    rw [W.mapInline] at h
    split at h
    · cases h
    · split at h
      · cases h
      · rename_i b _
        cases hr : r.isEmpty with
        | true =>
          obtain rfl := List.isEmpty_iff.mp hr
          rw [W.mapInline] at h
          exact ⟨b, (Option.some.inj h).symm⟩
        | false => exact mapInline_end r _ _ _ _ hr h

theorem seqVerbose_end (n : Str) : ∀ (l : List Kserd) (idx col : Nat) (buf out : Str), W.seqVerbose fmts n l idx col (buf ++ ['\n']) = some out →
    ∃ x, out = x ++ ['\n']
  | [], _, _, buf, _, h => by
    rw [W.seqVerbose] at h
    exact ⟨buf, (Option.some.inj h).symm⟩
  | k :: r, idx, col, buf, out, h => by
    rw [W.seqVerbose] at h
    split at h
    · cases h
    · dsimp only at h
      split at h
      · cases h
      · exact seqVerbose_end n r _ _ _ _ h

theorem popSep_sep (x : Str) : W.popSep (x ++ W.separator) = x := by
  rw [W.popSep, W.pop, W.pop, show W.separator = [','] ++ [' '] from rfl, ← List.append_assoc, List.dropLast_concat, List.dropLast_concat]

theorem pop_nl (x : Str) (c : Char) : W.pop (x ++ [c]) = x := List.dropLast_concat ..

/-! ## What is written after the text before has been changed -/

/-- What is needed of the change: it leaves text put behind alone. -/
structure Keeps (φ : Str → Str) (Q : Char → Prop) : Prop where
  print : ∀ c, Printable c → Q c
  nl : Q '\n'
  app : ∀ b t, CS Q t → φ (b ++ t) = φ b ++ t

/-- Node `idx + j` is formatted and `P` relates it to its number and the `j`-th of the Kserds. -/
def AtF (P : Nat → Kserd → Fmt → Prop) (fmts : List Fmt) (idx : Nat) (ks : List Kserd) : Prop :=
  ∀ j x, ks[j]? = some x → ∃ fm, fmts[idx + j]? = some fm ∧ P (idx + j) x fm

theorem atF_append {P : Nat → Kserd → Fmt → Prop} {idx : Nat} {a b : List Kserd} :
    AtF P fmts idx (a ++ b) ↔ AtF P fmts idx a ∧ AtF P fmts (idx + a.length) b := by
  constructor
  · intro h
    constructor
    · intro j x hx
      exact h j x (by rw [List.getElem?_append_left (List.getElem?_eq_some_iff.mp hx).1]; exact hx)
    · intro j x hx
      have := h (a.length + j) x (by rw [List.getElem?_append_right (by omega)]; simpa using hx)
      rwa [← Nat.add_assoc] at this
  · rintro ⟨h1, h2⟩ j x hx
    by_cases hj : j < a.length
    · rw [List.getElem?_append_left hj] at hx; exact h1 j x hx
    · rw [List.getElem?_append_right (by omega)] at hx
      have := h2 _ x hx
      rwa [show idx + a.length + (j - a.length) = idx + j by omega] at this

theorem atF_cons {P : Nat → Kserd → Fmt → Prop} {idx : Nat} {k : Kserd} {b : List Kserd} :
    AtF P fmts idx (k :: b) ↔ (∃ fm, fmts[idx]? = some fm ∧ P idx k fm) ∧ AtF P fmts (idx + 1) b := by
  rw [show k :: b = [k] ++ b from rfl, atF_append]
  constructor
  · rintro ⟨h1, h2⟩; exact ⟨h1 0 k rfl, h2⟩
  · rintro ⟨h1, h2⟩
    refine ⟨?_, h2⟩
    intro j x hx
    match j with
    | 0 => simp at hx; subst hx; exact h1
    | j + 1 => simp at hx

theorem at_F {P : Kserd → Fmt → Prop} {R : Nat → Kserd → Fmt → Prop} (h : ∀ i x fm, P x fm → R i x fm) {idx : Nat} {ks : List Kserd}
    (ha : At P fmts idx ks) : AtF R fmts idx ks := fun j x hx => by
  obtain ⟨fm, h1, h2⟩ := ha j x hx; exact ⟨fm, h1, h _ x fm h2⟩

theorem AtF.mono {P R : Nat → Kserd → Fmt → Prop} (h : ∀ i x fm, P i x fm → R i x fm) {idx : Nat} {ks : List Kserd}
    (ha : AtF P fmts idx ks) : AtF R fmts idx ks := fun j x hx => by
  obtain ⟨fm, h1, h2⟩ := ha j x hx; exact ⟨fm, h1, h _ x fm h2⟩

/-- The change keeps the length of this key. -/
def KeepsLen (φ : Str → Str) (m : Char) (fmts : List Fmt) (i : Nat) (k : Kserd) : Prop :=
  ∀ c lo out, At (fun _ _ => True) fmts i (preorder k) →
    W.node (showAll fmts) (marked m (flag fmts) i k) i c lo = some out → W.node fmts k i c (φ lo) = some (φ out) →
      (φ out).length + lo.length = out.length + (φ lo).length

/-- The column does not matter to this node. -/
def AnyCol (fmts : List Fmt) (i : Nat) (k : Kserd) : Prop := ∀ c c' b, W.node fmts k i c b = W.node fmts k i c' b

/-- The condition on a list of entries: the change keeps the length of the key, or the value does not depend on it. -/
def KeysOk (φ : Str → Str) (m : Char) (fmts : List Fmt) : Nat → List (Kserd × Kserd) → Prop
  | _, [] => True
  | i, (k, v) :: r => (KeepsLen φ m fmts i k ∨ (∀ fm, fmts[i]? = some fm → fm.line ≠ .inline) ∨ AnyCol fmts (i + k.size) v) ∧
      KeysOk φ m fmts (i + k.size + v.size) r

theorem keysOk_all (h : ∀ i k, KeepsLen φ m fmts i k) : ∀ (l : List (Kserd × Kserd)) (i : Nat), KeysOk φ m fmts i l
  | [], _ => trivial
  | (k, _) :: r, i => ⟨.inl (h i k), keysOk_all h r _⟩

/-- What is needed of a node: its texts are left alone, a hidden tuple identity is a mark, and the condition on its keys. -/
structure NodeOk (φ : Str → Str) (Q : Char → Prop) (m : Char) (fmts : List Fmt) (i : Nat) (x : Kserd) (fm : Fmt) : Prop where
  text : TextAll Q x
  hid : fm.id = false → (∃ l, x.val = .tuple l) → x.id ≠ none → ∀ b, φ (b ++ [m]) = (φ b).dropLast
  keys : ∀ l, x.val = .map l → KeysOk φ m fmts (i + 1) l

theorem cs_replicate (hk : Keeps φ Q) (n : Nat) : CS Q (List.replicate n ' ') := fun c hc => by
  rw [List.eq_of_mem_replicate hc]; exact hk.print _ ⟨by decide, by decide⟩

theorem indent_φ (hk : Keeps φ Q) (b : Str) (n : Nat) : φ (W.indent b n) = W.indent (φ b) n := hk.app b _ (cs_replicate hk n)

theorem lit_φ (hk : Keeps φ Q) (b t : Str) (h : ∀ c ∈ t, 32 ≤ c.toNat ∧ c.toNat ≤ 126 ∨ c = '\n') : φ (b ++ t) = φ b ++ t :=
  hk.app b t fun c hc => by
    rcases h c hc with h | rfl
    · exact hk.print c h
    · exact hk.nl

theorem nonprim_φ (hk : Keeps φ Q) (b : Str) (on : Bool) (id : Option Str) (hi : ∀ i, id = some i → CS Q i) :
    φ (W.nonprimIdent b true (if on = true then id else none)) = W.nonprimIdent (φ b) on id := by
  cases on <;> cases id with
  | none => rfl
  | some i =>
    first
    | rfl
    | (simp only [W.nonprimIdent, if_true]
       rw [lit_φ hk _ [' '] (by decide), hk.app _ _ (hi i rfl)])

theorem prim_φ (hk : Keeps φ Q) (b : Str) (on : Bool) (id : Option Str) (hi : ∀ i, id = some i → CS Q i) :
    φ (W.primIdent b true (if on = true then id else none)) = W.primIdent (φ b) on id := by
  cases on <;> cases id with
  | none => rfl
  | some i =>
    first
    | rfl
    | (simp only [W.primIdent, if_true]
       rw [lit_φ hk _ (str "> ") (by decide), hk.app _ _ (cs_cons (hk.print _ ⟨by decide, by decide⟩) (hi i rfl))])

theorem tuple_φ (hk : Keeps φ Q) (b : Str) (on : Bool) (id : Option Str) (hi : ∀ i, id = some i → CS Q i)
    (hm : on = false → id ≠ none → ∀ b, φ (b ++ [m]) = (φ b).dropLast) :
    φ (W.tuplePrefix b true (if on = true then id else id.map fun _ => [m])) = W.tuplePrefix (φ b) on id := by
  unfold W.tuplePrefix
  dsimp only
  rw [lit_φ hk _ ['('] (by decide)]
  congr 1
  cases id with
  | none => cases on <;> rfl
  | some i =>
    cases on with
    | true =>
      simp only [W.nonprimIdent, if_true, Option.isSome_some, pop_nl]
      exact hk.app _ _ (hi i rfl)
    | false =>
      simp only [W.nonprimIdent, if_true, Option.isSome_some, pop_nl, Option.map_some, Bool.false_eq_true, if_false]
      exact hm rfl (by simp) b

theorem cs_strLit' (hk : Keeps φ Q) {s l : Str} (hs : CS Q s) (h : W.strLit s = some l) : CS Q l := cs_strLit hk.print hs h

/-- `At` for keys. -/
theorem at_true {P : Nat → Kserd → Fmt → Prop} {idx : Nat} {ks : List Kserd} (h : AtF P fmts idx ks) : At (fun _ _ => True) fmts idx ks := fun j x hx => by
  obtain ⟨fm, h1, _⟩ := h j x hx; exact ⟨fm, h1, trivial⟩

theorem text_id {x : Kserd} (h : TextAll Q x) {id : Option Str} (e : x.id = id) : ∀ i, id = some i → CS Q i := by
  subst e; exact h.1

theorem text_names {id : Option Str} {f : List (Str × Kserd)} (h : TextAll Q (.mk id (.cntr f))) : ∀ p ∈ f, CS Q p.1 := fun p hp => h.2.2 f rfl p hp

/-- The value of an entry, at the column that comes from the key. -/
theorem val_φ {v : Kserd} {i j c : Nat} {k : Kserd} {fm : Fmt} {lo hi : Str}
    (hn : ∀ c b, W.node fmts v j c (φ b) = (W.node (showAll fmts) (marked m (flag fmts) j v) j c b).map φ)
    (hkey : KeepsLen φ m fmts i k ∨ (∀ fm, fmts[i]? = some fm → fm.line ≠ .inline) ∨ AnyCol fmts j v) (hfm : fmts[i]? = some fm)
    (hl : KeepsLen φ m fmts i k → W.written (φ lo) (φ hi) = W.written lo hi) :
    W.node fmts v j (c + if fm.line = .inline then W.written (φ lo) (φ hi) else 2 + W.keysAssigner.length) (φ hi) =
      (W.node (showAll fmts) (marked m (flag fmts) j v) j (c + if fm.line = .inline then W.written lo hi else 2 + W.keysAssigner.length) hi).map φ := by
  rcases hkey with h | h | h
  · rw [hl h, hn]
  · rw [if_neg (h fm hfm), if_neg (h fm hfm), hn]
  · rw [h _ (c + if fm.line = .inline then W.written lo hi else 2 + W.keysAssigner.length), hn]

mutual
theorem node_φ (hk : Keeps φ Q) (k : Kserd) (idx col : Nat) (b : Str) (h : AtF (NodeOk φ Q m fmts) fmts idx (preorder k)) :
    W.node fmts k idx col (φ b) = (W.node (showAll fmts) (marked m (flag fmts) idx k) idx col b).map φ := by
  obtain ⟨id, v⟩ := k
  rw [preorder, atF_cons] at h
  obtain ⟨⟨fm, hfm, hok⟩, h⟩ := h
  obtain ⟨pid, ln⟩ := fm
  have hf : flag fmts idx = pid := by rw [flag, hfm]; cases pid <;> rfl
  have hi : ∀ i, id = some i → CS Q i := text_id hok.text rfl
  rw [marked, hf]
  cases v with
  | tuple l =>
    simp only [preorderV] at h
    have hp := tuple_φ (m := m) hk b pid id hi (fun e => hok.hid e ⟨l, rfl⟩)
    cases ln with
    | inline =>
      simp only [W.node, hfm, showAll_get, Option.map_some, markedV, markedId, markedL_isEmpty]
      rw [← hp, listInline_φ hk l (idx + 1) col _ h]
      cases ho : W.listInline (showAll fmts) (markedL m (flag fmts) (idx + 1) l) (idx + 1) col
          (W.tuplePrefix b true (if pid = true then id else id.map fun _ => [m])) with
      | none => rfl
      | some out =>
        simp only [Option.map_some]
        rw [lit_φ hk _ [')'] (by decide)]
        cases hl : l.isEmpty with
        | true => rfl
        | false =>
          obtain ⟨x, rfl⟩ := listInline_end _ _ _ _ _ (by rw [markedL_isEmpty]; exact hl) ho
          simp only [Bool.false_eq_true, if_false]
          rw [lit_φ hk _ W.separator (by decide), popSep_sep, popSep_sep]
    | concise =>
      simp only [W.node, hfm, showAll_get, Option.map_some, markedV, markedId]
      rw [← hp, ← lit_φ hk _ ['\n'] (by decide), listConcise_φ hk l (idx + 1) _ _ h]
      cases ho : W.listConcise (showAll fmts) (markedL m (flag fmts) (idx + 1) l) (idx + 1) (col + W.indentW)
          (W.tuplePrefix b true (if pid = true then id else id.map fun _ => [m]) ++ ['\n']) with
      | none => rfl
      | some out =>
        simp only [Option.map_some]
        rw [lit_φ hk _ [')'] (by decide), indent_φ hk]
    | verbose => simp only [W.node, hfm, showAll_get, Option.map_some, markedV, Option.map_none]
  | seq l =>
    simp only [preorderV] at h
    have hp := nonprim_φ hk b pid id hi
    have hc : ∀ ln', (ln' = Repr'.concise ∨ ln' = .verbose) → ln = ln' →
        W.node fmts (.mk id (.seq l)) idx col (φ b) = (W.node (showAll fmts) (.mk (markedId m pid (.seq l) id) (markedV m (flag fmts) (idx + 1) (.seq l))) idx col b).map φ := by
      rintro ln' (rfl | rfl) rfl <;>
      · simp only [W.node, hfm, showAll_get, Option.map_some, markedV, markedId]
        rw [← hp, ← lit_φ hk _ ['[', '\n'] (by decide), listConcise_φ hk l (idx + 1) _ _ h]
        generalize W.listConcise (showAll fmts) (markedL m (flag fmts) (idx + 1) l) (idx + 1) (col + W.indentW) _ = o
        cases o with
        | none => rfl
        | some out =>
          simp only [Option.map_some]
          rw [lit_φ hk _ [']'] (by decide), indent_φ hk]
    cases ln with
    | inline =>
      simp only [W.node, hfm, showAll_get, Option.map_some, markedV, markedId, markedL_isEmpty]
      rw [← hp, ← lit_φ hk _ ['['] (by decide), listInline_φ hk l (idx + 1) col _ h]
      cases ho : W.listInline (showAll fmts) (markedL m (flag fmts) (idx + 1) l) (idx + 1) col
          (W.nonprimIdent b true (if pid = true then id else none) ++ ['[']) with
      | none => rfl
      | some out =>
        simp only [Option.map_some]
        rw [lit_φ hk _ [']'] (by decide)]
        cases hl : l.isEmpty with
        | true => rfl
        | false =>
          obtain ⟨x, rfl⟩ := listInline_end _ _ _ _ _ (by rw [markedL_isEmpty]; exact hl) ho
          simp only [Bool.false_eq_true, if_false]
          rw [lit_φ hk _ W.separator (by decide), popSep_sep, popSep_sep]
    | concise => exact hc _ (.inl rfl) rfl
    | verbose => exact hc _ (.inr rfl) rfl
  | cntr f =>
    simp only [preorderV] at h
    have hn := text_names hok.text
    have hp := nonprim_φ hk b pid id hi
    cases ln with
    | inline =>
      simp only [W.node, hfm, showAll_get, Option.map_some, markedV, markedId, markedF_isEmpty]
      rw [← hp, ← lit_φ hk _ ['('] (by decide), cntrInline_φ hk f (idx + 1) col _ hn h]
      cases ho : W.cntrInline (showAll fmts) (markedF m (flag fmts) (idx + 1) f) (idx + 1) col
          (W.nonprimIdent b true (if pid = true then id else none) ++ ['(']) with
      | none => rfl
      | some out =>
        simp only [Option.map_some]
        rw [lit_φ hk _ [')'] (by decide)]
        cases hl : f.isEmpty with
        | true => rfl
        | false =>
          obtain ⟨x, rfl⟩ := cntrInline_end _ _ _ _ _ (by rw [markedF_isEmpty]; exact hl) ho
          simp only [Bool.false_eq_true, if_false]
          rw [lit_φ hk _ W.separator (by decide), popSep_sep, popSep_sep]
    | concise =>
      simp only [W.node, hfm, showAll_get, Option.map_some, markedV, markedId]
      rw [← hp, ← lit_φ hk _ ['(', '\n'] (by decide), cntrConcise_φ hk f (idx + 1) _ _ hn h]
      generalize W.cntrConcise (showAll fmts) (markedF m (flag fmts) (idx + 1) f) (idx + 1) (col + W.indentW) _ = o
      cases o with
      | none => rfl
      | some out =>
        simp only [Option.map_some]
        rw [lit_φ hk _ [')'] (by decide), indent_φ hk]
    | verbose =>
      simp only [W.node, hfm, showAll_get, Option.map_some, markedV, markedId]
      rw [← cntrVerbose_φ hk f (idx + 1) col _ hn h]
      congr 1
      cases pid <;> cases id with
      | none => rfl
      | some i =>
        first
        | rfl
        | (simp only [if_true]
           rw [lit_φ hk _ ['\n'] (by decide), hk.app _ _ (cs_cons (hk.print _ ⟨by decide, by decide⟩) (hi i rfl)), indent_φ hk])
  | map l =>
    simp only [preorderV] at h
    have hkeys : KeysOk φ m fmts (idx + 1) l := hok.keys l rfl
    have hp := nonprim_φ hk b pid id hi
    have hc : ∀ ln', (ln' = Repr'.concise ∨ ln' = .verbose) → ln = ln' →
        W.node fmts (.mk id (.map l)) idx col (φ b) = (W.node (showAll fmts) (.mk (markedId m pid (.map l) id) (markedV m (flag fmts) (idx + 1) (.map l))) idx col b).map φ := by
      rintro ln' (rfl | rfl) rfl <;>
      · simp only [W.node, hfm, showAll_get, Option.map_some, markedV, markedId]
        rw [← hp, ← lit_φ hk _ ['{', '\n'] (by decide), mapConcise_φ hk l (idx + 1) _ _ hkeys h]
        generalize W.mapConcise (showAll fmts) (markedM m (flag fmts) (idx + 1) l) (idx + 1) (col + W.indentW) _ = o
        cases o with
        | none => rfl
        | some out =>
          simp only [Option.map_some]
          rw [lit_φ hk _ ['}'] (by decide), indent_φ hk]
    cases ln with
    | inline =>
      have hb : CS Q ('{' :: (if l.isEmpty = true then [] else [' '])) := by
        apply cs_cons (hk.print _ ⟨by decide, by decide⟩)
        split
        · exact cs_nil
        · exact cs_lit hk.print (by decide)
      simp only [W.node, hfm, showAll_get, Option.map_some, markedV, markedId, markedM_isEmpty]
      rw [← hp, ← hk.app _ _ hb, mapInline_φ hk l (idx + 1) col _ h]
      cases ho : W.mapInline (showAll fmts) (markedM m (flag fmts) (idx + 1) l) (idx + 1) col
          (W.nonprimIdent b true (if pid = true then id else none) ++ '{' :: (if l.isEmpty = true then [] else [' '])) with
      | none => rfl
      | some out =>
        simp only [Option.map_some]
        rw [lit_φ hk _ ['}'] (by decide)]
        cases hl : l.isEmpty with
        | true => rfl
        | false =>
          obtain ⟨x, rfl⟩ := mapInline_end _ _ _ _ _ (by rw [markedM_isEmpty]; exact hl) ho
          simp only [Bool.false_eq_true, if_false]
          rw [lit_φ hk _ W.separator (by decide), popSep_sep, popSep_sep, lit_φ hk _ [' '] (by decide)]
    | concise => exact hc _ (.inl rfl) rfl
    | verbose => exact hc _ (.inr rfl) rfl
  | unit =>
    simp only [W.node, hfm, showAll_get, Option.map_some, markedV, markedId, W.prim]
    congr 1
    cases id with
    | none => exact (lit_φ hk _ (str "()") (by decide)).symm
    | some i =>
      simp only [W.unit]
      split
      · exact (lit_φ hk _ (str "()") (by decide)).symm
      · rw [lit_φ hk _ (str "()") (by decide), hk.app _ _ (hi i rfl)]
  | bool x =>
    simp only [W.node, hfm, showAll_get, Option.map_some, markedV, markedId, W.prim]
    rw [hk.app _ _ (cs_lit hk.print (by cases x <;> decide)), prim_φ hk b pid id hi]
  | num x =>
    simp only [W.node, hfm, showAll_get, Option.map_some, markedV, markedId, W.prim]
    rw [hk.app _ _ (fun c hc => hk.print c (printable_of_isNumChar (disp_chars x c hc))), prim_φ hk b pid id hi]
  | barr x =>
    simp only [W.node, hfm, showAll_get, Option.map_some, markedV, markedId, W.prim]
    have hb : CS Q (W.barrLit x) := by
      unfold W.barrLit
      refine cs_append (cs_append (cs_lit hk.print (by decide)) ?_) (cs_lit hk.print (by decide))
      exact fun c hc => hk.print c (Base91.table_printable c (Base91.encode_mem x c hc))
    rw [hk.app _ _ hb, prim_φ hk b pid id hi]
  | str s =>
    simp only [W.node, hfm, showAll_get, Option.map_some, markedV, markedId, W.prim]
    have hs : CS Q s := fun c hc => hok.text.2.1 s rfl c hc
    cases hl : W.strLit s with
    | none => rfl
    | some l =>
      simp only [Option.map_some]
      rw [hk.app _ _ (cs_strLit hk.print hs hl), prim_φ hk b pid id hi]
theorem listInline_φ (hk : Keeps φ Q) (l : List Kserd) (idx col : Nat) (b : Str) (h : AtF (NodeOk φ Q m fmts) fmts idx (preorderL l)) :
    W.listInline fmts l idx col (φ b) = (W.listInline (showAll fmts) (markedL m (flag fmts) idx l) idx col b).map φ := by
  match l with
  | [] => simp only [markedL, W.listInline, Option.map_some]
  | k :: r =>
    rw [preorderL, atF_append, size_preorder] at h
    simp only [W.listInline, markedL, marked_size]
    rw [node_φ hk k idx col b h.1]
    cases W.node (showAll fmts) (marked m (flag fmts) idx k) idx col b with
    | none => rfl
    | some o =>
      simp only [Option.map_some]
      rw [← lit_φ hk _ W.separator (by decide), listInline_φ hk r _ _ _ h.2]
theorem listConcise_φ (hk : Keeps φ Q) (l : List Kserd) (idx col : Nat) (b : Str) (h : AtF (NodeOk φ Q m fmts) fmts idx (preorderL l)) :
    W.listConcise fmts l idx col (φ b) = (W.listConcise (showAll fmts) (markedL m (flag fmts) idx l) idx col b).map φ := by
  match l with
  | [] => simp only [markedL, W.listConcise, Option.map_some]
  | k :: r =>
    rw [preorderL, atF_append, size_preorder] at h
    simp only [W.listConcise, markedL, marked_size]
    rw [← indent_φ hk, node_φ hk k idx col _ h.1]
    cases W.node (showAll fmts) (marked m (flag fmts) idx k) idx col (W.indent b col) with
    | none => rfl
    | some o =>
      simp only [Option.map_some]
      rw [← lit_φ hk _ ['\n'] (by decide), listConcise_φ hk r _ _ _ h.2]
theorem seqVerbose_φ (hk : Keeps φ Q) (n : Str) (hn : CS Q n) (l : List Kserd) (idx col : Nat) (b : Str)
    (h : AtF (NodeOk φ Q m fmts) fmts idx (preorderL l)) :
    W.seqVerbose fmts n l idx col (φ b) = (W.seqVerbose (showAll fmts) n (markedL m (flag fmts) idx l) idx col b).map φ := by
  match l with
  | [] => simp only [markedL, W.seqVerbose, Option.map_some]
  | k :: r =>
    rw [preorderL, atF_append, size_preorder] at h
    obtain ⟨fm, hfm, _⟩ := h.1 0 k (by obtain ⟨id, v⟩ := k; rw [preorder]; rfl)
    rw [Nat.add_zero] at hfm
    have hb : W.indent (φ b) col ++ str "[[" ++ n ++ str "]]\n" = φ (W.indent b col ++ str "[[" ++ n ++ str "]]\n") := by
      rw [lit_φ hk _ (str "]]\n") (by decide), hk.app _ _ hn, lit_φ hk _ (str "[[") (by decide), indent_φ hk]
    have hs : ∀ o, (φ o ++ ['\n']) = φ (o ++ ['\n']) := fun o => (lit_φ hk o ['\n'] (by decide)).symm
    have h1 := fun c b => node_φ hk k idx c b h.1
    have h2 := fun c b => seqVerbose_φ hk n hn r (idx + k.size) c b h.2
    simp only [W.seqVerbose, markedL, marked_size, hfm, showAll_get, Option.map_some, hb]
    simp only [← indent_φ hk, h1]
    by_cases hv : fm.line = .verbose
    · simp only [hv, if_true]
      cases W.node (showAll fmts) (marked m (flag fmts) idx k) idx (col + W.indentW) (W.indent b col ++ str "[[" ++ n ++ str "]]\n") with
      | none => rfl
      | some o => simp only [Option.map_some, hs, h2]
    · simp only [hv, if_false]
      cases W.node (showAll fmts) (marked m (flag fmts) idx k) idx col (W.indent (W.indent b col ++ str "[[" ++ n ++ str "]]\n") col) with
      | none => rfl
      | some o => simp only [Option.map_some, hs, h2]
theorem cntrInline_φ (hk : Keeps φ Q) (l : List (Str × Kserd)) (idx col : Nat) (b : Str) (hn : ∀ p ∈ l, CS Q p.1)
    (h : AtF (NodeOk φ Q m fmts) fmts idx (preorderF l)) :
    W.cntrInline fmts l idx col (φ b) = (W.cntrInline (showAll fmts) (markedF m (flag fmts) idx l) idx col b).map φ := by
  match l with
  | [] => simp only [markedF, W.cntrInline, Option.map_some]
  | (n, k) :: r =>
    rw [preorderF, atF_append, size_preorder] at h
    have hn1 : CS Q n := hn (n, k) (by simp)
    have hb : φ b ++ n ++ W.assigner ++ [' '] = φ (b ++ n ++ W.assigner ++ [' ']) := by
      rw [lit_φ hk _ [' '] (by decide), lit_φ hk _ W.assigner (by decide), hk.app _ _ hn1]
    simp only [W.cntrInline, markedF, marked_size]
    rw [hb, node_φ hk k idx col _ h.1]
    cases W.node (showAll fmts) (marked m (flag fmts) idx k) idx col (b ++ n ++ W.assigner ++ [' ']) with
    | none => rfl
    | some o =>
      simp only [Option.map_some]
      rw [← lit_φ hk _ W.separator (by decide), cntrInline_φ hk r _ _ _ (fun p hp => hn p (by simp [hp])) h.2]
theorem cntrConcise_φ (hk : Keeps φ Q) (l : List (Str × Kserd)) (idx col : Nat) (b : Str) (hn : ∀ p ∈ l, CS Q p.1)
    (h : AtF (NodeOk φ Q m fmts) fmts idx (preorderF l)) :
    W.cntrConcise fmts l idx col (φ b) = (W.cntrConcise (showAll fmts) (markedF m (flag fmts) idx l) idx col b).map φ := by
  match l with
  | [] => simp only [markedF, W.cntrConcise, Option.map_some]
  | (n, k) :: r =>
    rw [preorderF, atF_append, size_preorder] at h
    have hn1 : CS Q n := hn (n, k) (by simp)
    have hh : CS Q (n ++ W.assigner ++ [' ']) := cs_append (cs_append hn1 (cs_lit hk.print (by decide))) (cs_lit hk.print (by decide))
    simp only [W.cntrConcise, markedF, marked_size]
    rw [← indent_φ hk, ← hk.app _ _ hh, node_φ hk k idx _ _ h.1]
    cases W.node (showAll fmts) (marked m (flag fmts) idx k) idx (col + (n ++ W.assigner ++ [' ']).length) (W.indent b col ++ (n ++ W.assigner ++ [' '])) with
    | none => rfl
    | some o =>
      simp only [Option.map_some]
      rw [← lit_φ hk _ ['\n'] (by decide), cntrConcise_φ hk r _ _ _ (fun p hp => hn p (by simp [hp])) h.2]
theorem cntrVerbose_φ (hk : Keeps φ Q) (l : List (Str × Kserd)) (idx col : Nat) (b : Str) (hn : ∀ p ∈ l, CS Q p.1)
    (h : AtF (NodeOk φ Q m fmts) fmts idx (preorderF l)) :
    W.cntrVerbose fmts l idx col (φ b) = (W.cntrVerbose (showAll fmts) (markedF m (flag fmts) idx l) idx col b).map φ := by
  match l with
  | [] => simp only [markedF, W.cntrVerbose, Option.map_some]
  | (n, k) :: r =>
    rw [preorderF, atF_append, size_preorder] at h
    have hn1 : CS Q n := hn (n, k) (by simp)
    have hh : CS Q (n ++ W.assigner ++ [' ']) := cs_append (cs_append hn1 (cs_lit hk.print (by decide))) (cs_lit hk.print (by decide))
    obtain ⟨fm, hfm, _⟩ := h.1 0 k (by obtain ⟨id, v⟩ := k; rw [preorder]; rfl)
    rw [Nat.add_zero] at hfm
    have h1 := fun c b => node_φ hk k idx c b h.1
    have h2 := fun c b => cntrVerbose_φ hk r (idx + k.size) c b (fun p hp => hn p (by simp [hp])) h.2
    have h3 := fun c b => nested_φ hk n hn1 k idx c b h.1 hfm
    have hs : ∀ o, (φ o ++ ['\n']) = φ (o ++ ['\n']) := fun o => (lit_φ hk o ['\n'] (by decide)).symm
    simp only [W.cntrVerbose, markedF, marked_size, hfm, showAll_get, Option.map_some, nests_marked, ← indent_φ hk, ← hk.app _ _ hh, h1, h3]
    by_cases hv : fm.line = .verbose ∧ W.nests k.val = true
    · simp only [if_pos hv]
      cases W.nested (showAll fmts) true n (marked m (flag fmts) idx k) idx col b with
      | none => rfl
      | some o => simp only [Option.map_some, h2]
    · simp only [if_neg hv]
      cases W.node (showAll fmts) (marked m (flag fmts) idx k) idx (col + (n ++ W.assigner ++ [' ']).length) (W.indent b col ++ (n ++ W.assigner ++ [' '])) with
      | none => rfl
      | some o => simp only [Option.map_some, hs, h2]
theorem nested_φ (hk : Keeps φ Q) (n : Str) (hn : CS Q n) (k : Kserd) (idx col : Nat) (b : Str) (h : AtF (NodeOk φ Q m fmts) fmts idx (preorder k)) {fm : Fmt}
    (hfm : fmts[idx]? = some fm) :
    W.nested fmts fm.id n k idx col (φ b) = (W.nested (showAll fmts) true n (marked m (flag fmts) idx k) idx col b).map φ := by
  obtain ⟨id, v⟩ := k
  rw [preorder, atF_cons] at h
  obtain ⟨⟨fm', hfm', hok⟩, h⟩ := h
  obtain ⟨pid, ln⟩ := fm
  have hf : flag fmts idx = pid := by rw [flag, hfm]; cases pid <;> rfl
  have hi : ∀ i, id = some i → CS Q i := text_id hok.text rfl
  have hs : ∀ o, (φ o ++ ['\n']) = φ (o ++ ['\n']) := fun o => (lit_φ hk o ['\n'] (by decide)).symm
  rw [marked, hf]
  cases v with
  | cntr f =>
    simp only [preorderV] at h
    simp only [W.nested, markedV, markedId]
    rw [← cntrVerbose_φ hk f (idx + 1) _ _ (text_names hok.text) h]
    congr 1
    have hb : W.indent (φ b ++ ['\n']) col ++ '[' :: n = φ (W.indent (b ++ ['\n']) col ++ '[' :: n) := by
      rw [hk.app _ _ (cs_cons (hk.print _ ⟨by decide, by decide⟩) hn), indent_φ hk, hs]
    rw [lit_φ hk _ (str "]\n") (by decide), hb]
    congr 1
    cases pid <;> cases id with
    | none => rfl
    | some i =>
      first
      | rfl
      | (simp only [if_true]
         rw [hk.app _ (':' :: i) (cs_cons (hk.print _ ⟨by decide, by decide⟩) (hi i rfl))])
  | seq l =>
    simp only [preorderV] at h
    simp only [W.nested, markedV, markedId, hs]
    rw [seqVerbose_φ hk n hn l (idx + 1) col _ h]
    cases ho : W.seqVerbose (showAll fmts) n (markedL m (flag fmts) (idx + 1) l) (idx + 1) col (b ++ ['\n']) with
    | none => rfl
    | some o =>
      obtain ⟨x, rfl⟩ := seqVerbose_end _ _ _ _ _ _ ho
      simp only [Option.map_some, pop_nl, ← hs]
  | map l =>
    simp only [preorderV] at h
    simp only [W.nested, markedV, markedId, hs]
    exact mapVerbose_φ hk n hn l (idx + 1) col _ (hok.keys l rfl) h
  | tuple l => simp only [W.nested, markedV, Option.map_none]
  | unit => simp only [W.nested, markedV, Option.map_none]
  | bool b => simp only [W.nested, markedV, Option.map_none]
  | num b => simp only [W.nested, markedV, Option.map_none]
  | str b => simp only [W.nested, markedV, Option.map_none]
  | barr b => simp only [W.nested, markedV, Option.map_none]
theorem mapInline_φ (hk : Keeps φ Q) (l : List (Kserd × Kserd)) (idx col : Nat) (b : Str) (h : AtF (NodeOk φ Q m fmts) fmts idx (preorderM l)) :
    W.mapInline fmts l idx col (φ b) = (W.mapInline (showAll fmts) (markedM m (flag fmts) idx l) idx col b).map φ := by
  match l with
  | [] => simp only [markedM, W.mapInline, Option.map_some]
  | (k, v) :: r =>
    rw [preorderM, atF_append, atF_append, size_preorder, size_preorder] at h
    simp only [W.mapInline, markedM, marked_size]
    rw [node_φ hk k idx col b h.1]
    cases W.node (showAll fmts) (marked m (flag fmts) idx k) idx col b with
    | none => rfl
    | some o =>
      have hb : φ o ++ W.keysAssigner ++ [' '] = φ (o ++ W.keysAssigner ++ [' ']) := by
        rw [lit_φ hk _ [' '] (by decide), lit_φ hk _ W.keysAssigner (by decide)]
      simp only [Option.map_some]
      rw [hb, node_φ hk v (idx + k.size) col _ h.2.1]
      cases W.node (showAll fmts) (marked m (flag fmts) (idx + k.size) v) (idx + k.size) col (o ++ W.keysAssigner ++ [' ']) with
      | none => rfl
      | some o =>
        simp only [Option.map_some]
        rw [← lit_φ hk _ W.separator (by decide), mapInline_φ hk r _ _ _ h.2.2]
theorem mapConcise_φ (hk : Keeps φ Q) (l : List (Kserd × Kserd)) (idx col : Nat) (b : Str) (hkeys : KeysOk φ m fmts idx l)
    (h : AtF (NodeOk φ Q m fmts) fmts idx (preorderM l)) :
    W.mapConcise fmts l idx col (φ b) = (W.mapConcise (showAll fmts) (markedM m (flag fmts) idx l) idx col b).map φ := by
  match l with
  | [] => simp only [markedM, W.mapConcise, Option.map_some]
  | (k, v) :: r =>
    rw [preorderM, atF_append, atF_append, size_preorder, size_preorder] at h
    obtain ⟨fm, hfm, _⟩ := h.1 0 k (by obtain ⟨id, v⟩ := k; rw [preorder]; rfl)
    rw [Nat.add_zero] at hfm
    simp only [W.mapConcise, markedM, marked_size, hfm, showAll_get, Option.map_some]
    rw [← indent_φ hk, node_φ hk k idx col _ h.1]
    cases ho : W.node (showAll fmts) (marked m (flag fmts) idx k) idx col (W.indent b col) with
    | none => rfl
    | some o =>
      have hb : φ o ++ W.keysAssigner ++ [' '] = φ (o ++ W.keysAssigner ++ [' ']) := by
        rw [lit_φ hk _ [' '] (by decide), lit_φ hk _ W.keysAssigner (by decide)]
      have hv := val_φ (fm := fm) (fun c b => node_φ hk v (idx + k.size) c b h.2.1) (c := col) hkeys.1 hfm (fun hw => by
        have hw := hw col _ _ (at_true h.1) ho (by rw [node_φ hk k idx col _ h.1, ho]; rfl)
        rw [← hb]
        simp only [W.written, List.length_append]
        omega : KeepsLen φ m fmts idx k → W.written (φ (W.indent b col)) (φ (o ++ W.keysAssigner ++ [' '])) = W.written (W.indent b col) (o ++ W.keysAssigner ++ [' ']))
      simp only [Option.map_some]
      rw [hb, hv]
      generalize W.node (showAll fmts) (marked m (flag fmts) (idx + k.size) v) (idx + k.size) _ (o ++ W.keysAssigner ++ [' ']) = o2
      cases o2 with
      | none => rfl
      | some o =>
        simp only [Option.map_some]
        rw [← lit_φ hk _ ['\n'] (by decide), mapConcise_φ hk r _ _ _ hkeys.2 h.2.2]
theorem mapVerbose_φ (hk : Keeps φ Q) (n : Str) (hn : CS Q n) (l : List (Kserd × Kserd)) (idx col : Nat) (b : Str) (hkeys : KeysOk φ m fmts idx l)
    (h : AtF (NodeOk φ Q m fmts) fmts idx (preorderM l)) :
    W.mapVerbose fmts n l idx col (φ b) = (W.mapVerbose (showAll fmts) n (markedM m (flag fmts) idx l) idx col b).map φ := by
  match l with
  | [] => simp only [markedM, W.mapVerbose, Option.map_some]
  | (k, v) :: r =>
    rw [preorderM, atF_append, atF_append, size_preorder, size_preorder] at h
    obtain ⟨fm, hfm, _⟩ := h.1 0 k (by obtain ⟨id, v⟩ := k; rw [preorder]; rfl)
    rw [Nat.add_zero] at hfm
    obtain ⟨fm', hfm', _⟩ := h.2.1 0 v (by obtain ⟨id, v⟩ := v; rw [preorder]; rfl)
    rw [Nat.add_zero] at hfm'
    have hb : φ b ++ str "[[" ++ n ++ str "]]\n" = φ (b ++ str "[[" ++ n ++ str "]]\n") := by
      rw [lit_φ hk _ (str "]]\n") (by decide), hk.app _ _ hn, lit_φ hk _ (str "[[") (by decide)]
    have hs : ∀ o, (φ o ++ ['\n']) = φ (o ++ ['\n']) := fun o => (lit_φ hk o ['\n'] (by decide)).symm
    have h3 := fun c b => mapVerbose_φ hk n hn r (idx + k.size + v.size) c b hkeys.2 h.2.2
    simp only [W.mapVerbose, markedM, marked_size, hfm, hfm', showAll_get, Option.map_some, hb]
    generalize b ++ str "[[" ++ n ++ str "]]\n" = b'
    rw [node_φ hk k idx col _ h.1]
    cases ho : W.node (showAll fmts) (marked m (flag fmts) idx k) idx col b' with
    | none => rfl
    | some o =>
      have hb : φ o ++ W.keysAssigner ++ [' '] = φ (o ++ W.keysAssigner ++ [' ']) := by
        rw [lit_φ hk _ [' '] (by decide), lit_φ hk _ W.keysAssigner (by decide)]
      have hb' : φ o ++ W.keysAssigner ++ ['\n'] = φ (o ++ W.keysAssigner ++ ['\n']) := by
        rw [lit_φ hk _ ['\n'] (by decide), lit_φ hk _ W.keysAssigner (by decide)]
      have hv' := val_φ (fm := fm) (fun c b => node_φ hk v (idx + k.size) c b h.2.1) (c := col) hkeys.1 hfm (fun hw => by
        have hw := hw col _ _ (at_true h.1) ho (by rw [node_φ hk k idx col _ h.1, ho]; rfl)
        rw [← hb]
        simp only [W.written, List.length_append]
        omega : KeepsLen φ m fmts idx k → W.written (φ b') (φ (o ++ W.keysAssigner ++ [' '])) = W.written b' (o ++ W.keysAssigner ++ [' ']))
      simp only [Option.map_some]
      rw [hb, hb', hv', node_φ hk v (idx + k.size) _ _ h.2.1]
      by_cases hv : fm'.line = .verbose
      · simp only [hv, if_true]
        generalize W.node (showAll fmts) (marked m (flag fmts) (idx + k.size) v) (idx + k.size) _ (o ++ W.keysAssigner ++ ['\n']) = o2
        cases o2 with
        | none => rfl
        | some o => simp only [Option.map_some, hs, h3]
      · simp only [hv, if_false]
        generalize W.node (showAll fmts) (marked m (flag fmts) (idx + k.size) v) (idx + k.size) _ (o ++ W.keysAssigner ++ [' ']) = o2
        cases o2 with
        | none => rfl
        | some o => simp only [Option.map_some, hs, h3]
end

/-- Where no identity of a tuple is hidden, whatever stands before is kept and has no influence. -/
theorem node_pre (k : Kserd) (idx col : Nat) (a b : Str) (h : At IdsOk fmts idx (preorder k)) :
    W.node fmts k idx col (a ++ b) = (W.node fmts k idx col b).map (a ++ ·) := by
  have key : ∀ a : Str, W.node fmts k idx col (a ++ b) = (W.node (showAll fmts) (marked '.' (flag fmts) idx k) idx col b).map (a ++ ·) := by
    intro a
    refine node_φ (φ := (a ++ ·)) (Q := fun _ => True) ⟨fun _ _ => trivial, trivial, fun b t _ => (List.append_assoc ..).symm⟩ k idx col b ?_
    refine at_F (fun i x fm hx => ⟨⟨fun _ _ _ _ => trivial, fun _ _ _ _ => trivial, fun _ _ _ _ _ _ => trivial⟩,
      fun e1 e2 e3 => absurd (hx e1 e2) e3, fun l _ => keysOk_all (fun i k c lo out _ _ _ => ?_) l _⟩) h
    simp only [List.length_append]
    omega
  have h0 := key []
  simp only [List.nil_append, Option.map_id'] at h0
  rw [key a, h0]

/-- A key without tuple identities is written alike with and without marks. -/
theorem key_same {k : Kserd} {idx col : Nat} {b : Str} (h : At IdsOk fmts idx (preorder k)) :
    W.node (showAll fmts) (marked m (flag fmts) idx k) idx col b = W.node fmts k idx col b := by
  have h0 := node_φ (φ := id) (m := m) (Q := fun _ => True) ⟨fun _ _ => trivial, trivial, fun b t _ => rfl⟩ k idx col b
    (at_F (fun i x fm hx => ⟨⟨fun _ _ _ _ => trivial, fun _ _ _ _ => trivial, fun _ _ _ _ _ _ => trivial⟩,
      fun e1 e2 e3 => absurd (hx e1 e2) e3, fun l _ => keysOk_all (fun i k c lo out _ _ _ => rfl) l _⟩) h)
  rw [Option.map_id] at h0
  exact h0.symm

/-! ## Rubbing out -/

theorem rub_app {m : Char} (b t : Str) (h : CS (· ≠ m) t) : rubOut m (b ++ t) = rubOut m b ++ t := by
  induction t generalizing b with
  | nil => simp
  | cons c r ih =>
    have hc : c ≠ m := h c (by simp)
    rw [show b ++ c :: r = (b ++ [c]) ++ r by simp, ih _ (fun x hx => h x (by simp [hx]))]
    have : rubOut m (b ++ [c]) = rubOut m b ++ [c] := by
      simp only [rubOut, List.foldl_append, List.foldl_cons, List.foldl_nil, if_neg hc]
    rw [this]; simp

theorem rub_mark (m : Char) (b : Str) : rubOut m (b ++ [m]) = (rubOut m b).dropLast := by
  simp only [rubOut, List.foldl_append, List.foldl_cons, List.foldl_nil, if_true]

/-- A key in which no tuple hides an identity keeps its length. -/
theorem keepsLen_rub {m : Char} {i : Nat} {k : Kserd} (h : At (fun _ _ => True) fmts i (preorder k) → At IdsOk fmts i (preorder k)) :
    KeepsLen (rubOut m) m fmts i k := by
  intro c lo out hat ho ho'
  have hids := h hat
  rw [key_same hids] at ho
  have e1 := node_pre k i c lo [] hids
  have e2 := node_pre k i c (rubOut m lo) [] hids
  rw [List.append_nil, ho] at e1
  rw [List.append_nil, ho'] at e2
  cases ht : W.node fmts k i c [] with
  | none => rw [ht] at e1; cases e1
  | some t =>
    rw [ht, Option.map_some] at e1 e2
    have l1 := congrArg List.length (Option.some.inj e1)
    have l2 := congrArg List.length (Option.some.inj e2)
    rw [List.length_append] at l1 l2
    omega

/-- Rubbing out after writing with marks is writing after rubbing out. -/
theorem node_rub {m : Char} (hm : m.toNat < 32 ∧ m ≠ '\n') (k : Kserd) (idx col : Nat) (b : Str)
    (h : AtF (fun i x _ => TextAll (· ≠ m) x ∧ ∀ l, x.val = .map l → KeysOk (rubOut m) m fmts (i + 1) l) fmts idx (preorder k)) :
    W.node fmts k idx col (rubOut m b) = (W.node (showAll fmts) (marked m (flag fmts) idx k) idx col b).map (rubOut m) := by
  refine node_φ (Q := (· ≠ m)) ⟨fun c hc e => ?_, fun e => hm.2 e.symm, rub_app⟩ k idx col b (h.mono fun i x fm hx => ⟨hx.1, fun _ _ _ => rub_mark m, hx.2⟩)
  have := hc.1
  subst e
  omega

end KS.Rub
