import Verif.Model.ErrText
import Verif.Props.Formatter
import Verif.Props.Kserds
import Verif.Props.Serde
import Verif.Props.Own
/-!
# C68: what errors of the constructors, of the encoder, of `ToKserd` and of the formatter say is so
-/

namespace KS.Props
open KS.Spec

/-- **C68.** The error for an identity shows the identity that was given and lists exactly the characters which are not allowed; one of
them is in the identity. -/
theorem C68_identity (i : Str) (v : Value) (j : Str) (h : Kserd.withId i v = .error j) :
    ∃ bad : Str, invalidIdText j = str "identity '" ++ i ++ str "' contains invalid characters. Invalid characters: '" ++ bad ++ str "'" ∧
      (∃ c ∈ i, c ∈ bad) ∧ ∀ i' v', (∃ j', Kserd.withId i' v' = .error j') ↔ ∃ c ∈ i', c ∈ bad := by
  have hiff : ∀ i' v', (∃ j', Kserd.withId i' v' = .error j') ↔ ∃ c ∈ i', c ∈ Kserd.invalidIdChars := by
    intro i' v'
    rw [Kserd.withId]
    split
    · rename_i hc
      simp only [List.any_eq_true, List.contains_iff_mem] at hc
      exact ⟨fun _ => hc, fun _ => ⟨_, rfl⟩⟩
    · rename_i hc
      simp only [List.any_eq_true, List.contains_iff_mem] at hc
      exact ⟨fun ⟨_, h⟩ => (by cases h), fun h => absurd h hc⟩
  refine ⟨Kserd.invalidIdChars, ?_, (hiff i v).mp ⟨j, h⟩, hiff⟩
  rw [Kserd.withId] at h
  split at h
  · cases h; rfl
  · cases h

/-- What the error for a name says, and that it is so. -/
inductive NameSays : Str → Str → Prop
  | empty : NameSays [] (str "invalid field name: name is empty")
  | digit {c : Char} {r : Str} : ('0'.toNat ≤ c.toNat ∧ c.toNat ≤ '9'.toNat) →
      NameSays (c :: r) (str "invalid field name: name can not begin with digit")
  | char {a b : Str} {c : Char} : (∀ d y, a ++ c :: b = d :: y → ¬ ('0'.toNat ≤ d.toNat ∧ d.toNat ≤ '9'.toNat)) →
      (∀ d ∈ a, d ∉ [' ', '/', '\\', '"', '\t', '\'']) → c ∈ [' ', '/', '\\', '"', '\t', '\''] →
      NameSays (a ++ c :: b) (str "invalid field name: invalid character '" ++ [c] ++ str "' exists in name '" ++ (a ++ c :: b) ++ str "'")

theorem name_says {s : Str} {e : FieldNameErr} (h : validateField s = some e) : NameSays s e.text := by
  have ei : invalidFieldChars = [' ', '/', '\\', '"', '\t', '\''] := by decide
  cases s with
  | nil => cases h; exact .empty
  | cons c r =>
    rw [validateField.eq_def] at h
    simp only at h
    split at h
    · rename_i hd
      cases h
      exact .digit (of_decide_eq_true hd)
    · rename_i hd
      split at h
      · rename_i c' hf
        cases h
        obtain ⟨hc, a, b, e, ha⟩ := List.find?_eq_some_iff_append.mp hf
        rw [e]
        refine .char ?_ ?_ ?_
        · intro d y hy
          rw [← e] at hy
          cases hy
          exact fun h => hd (decide_eq_true h)
        · intro d hd
          have := ha d hd
          rw [ei] at this
          simpa using this
        · rw [ei] at hc
          simpa using hc
      · cases h

theorem lastFor_name (l : List (Str × Kserd)) (n : Str) (h : ∃ p ∈ l, p.1 = n) : ∃ q, LastFor (fun a b => cmpStr a b = .eq) l q ∧ q.1 = n := by
  induction l with
  | nil => simp at h
  | cons x r ih =>
    by_cases hr : ∃ p ∈ r, p.1 = n
    · obtain ⟨q, ⟨b, a, rfl, hq⟩, hn⟩ := ih hr
      exact ⟨q, ⟨x :: b, a, by simp, hq⟩, hn⟩
    · obtain ⟨p, hp, rfl⟩ := h
      rcases List.mem_cons.mp hp with rfl | hp
      · refine ⟨p, ⟨[], r, rfl, ?_⟩, rfl⟩
        intro w hw h
        exact hr ⟨w, hw, ((cmpStr_eq _ _).mp h).symm⟩
      · exact absurd ⟨p, hp, rfl⟩ hr

/-- **C68.** The error of `new_cntr` says what is wrong with one of the given names, the first in byte order of those which are wrong. -/
theorem C68_field_name (l : List (Str × Kserd)) (e : FieldNameErr) (h : Value.newCntr l = .error e) :
    ∃ p ∈ l, NameSays p.1 e.text ∧ ∀ q ∈ l, ¬ validFieldName q.1 → q.1 = p.1 ∨ cmpStr p.1 q.1 = .lt := by
  obtain ⟨-, -, -, h4, h5⟩ := BTree.fromIter_spec lawStr l (fun _ _ => trivial)
  unfold Value.newCntr at h
  dsimp only at h
  generalize BTree.fromIter cmpStr (fun a b => a == b) l = m at *
  cases hf : m.findSome? (fun kv => validateField kv.1) with
  | none => rw [hf] at h; cases h
  | some e' =>
    rw [hf] at h
    cases h
    obtain ⟨l1, p, l2, rfl, hp, hl1⟩ := List.findSome?_eq_some_iff.mp hf
    have hm := (h5 p).mp (by simp)
    refine ⟨p, ?_, name_says hp, ?_⟩
    · obtain ⟨b, a, rfl, -⟩ := hm; simp
    · intro q hq hbad
      obtain ⟨q', hq', e1⟩ := lastFor_name l q.1 ⟨q, hq, rfl⟩
      rw [← h5] at hq'
      rcases List.mem_append.mp hq' with h1 | h1
      · have := hl1 q' h1
        rw [validateField_none, e1] at this
        exact absurd this hbad
      · rcases List.mem_cons.mp h1 with rfl | h1
        · exact .inl e1.symm
        · right
          rw [← e1]
          have := List.pairwise_append.mp h4
          exact (List.pairwise_cons.mp this.2.1).1 q' h1

/-- The layouts and their names, in ascending order. -/
def layoutNames : List (Repr' × Str) := [(.inline, str "inline"), (.concise, str "concise"), (.verbose, str "verbose")]

/-- **C68.** The error of a request to the formatter says why it is refused. -/
theorem C68_formatter (root : Kserd) (f : Formatter) (h : Reachable root f) (i : Nat) (r : Repr') (e : FmtError) (he : f.request i r = .error e) :
    (e.text = some (str "the requested item index is outside the range of the formatter") ∧ f.nav.length ≤ i) ∨
    ∃ n, f.nav[i]? = some n ∧
      ((e.text = some (str "requested to format root as verbose but the root is a sequence or a map") ∧ i = 0 ∧ r = .verbose ∧
          isSeqMap f.root.val = true) ∨
       (∃ a b : Nat, ∃ s t, e.text = some (str "requested format '" ++ s ++ str "' is higher than the value maximally allows '" ++ t ++ str "'") ∧
          layoutNames[a]? = some (r, s) ∧ layoutNames[b]? = some (maxRepr n.kserd.val, t) ∧ b < a) ∨
       (∃ p, n.parent = some p ∧ r ≤ maxRepr n.kserd.val ∧
        ((e.text = some (str "parent is 'inline', child must be formatted as 'inline'") ∧ line f p = some .inline ∧ r ≠ .inline) ∨
         (e.text = some (str "parent is 'concise', child must be formatted as 'inline' or 'concise'") ∧ line f p = some .concise ∧ r = .verbose)))) := by
  obtain ⟨rfl, hr⟩ := C22_rules root f h
  rcases C23_refused f hr i r e he with ⟨rfl, h1⟩ | ⟨n, hn, h1⟩
  · exact .inl ⟨rfl, h1⟩
  · refine .inr ⟨n, hn, ?_⟩
    rcases h1 with ⟨rfl, h2⟩ | ⟨rfl, h2⟩ | ⟨p, hp, h2, h3⟩
    · exact .inl ⟨rfl, h2⟩
    · right; left
      generalize maxRepr n.kserd.val = m at *
      cases m <;> cases r <;> first
        | exact ⟨1, 0, _, _, rfl, rfl, rfl, by decide⟩
        | exact ⟨2, 0, _, _, rfl, rfl, rfl, by decide⟩
        | exact ⟨2, 1, _, _, rfl, rfl, rfl, by decide⟩
        | exact absurd h2 (by decide)
    · refine .inr (.inr ⟨p, hp, h2, ?_⟩)
      rcases h3 with ⟨rfl, h4, h5⟩ | ⟨rfl, h4, h5⟩
      · refine .inl ⟨rfl, h4, ?_⟩
        rintro rfl; exact absurd h5 (by decide)
      · refine .inr ⟨rfl, h4, ?_⟩
        cases r
        · exact absurd h5 (by decide)
        · exact absurd h5 (by decide)
        · rfl

/-- **C68.** The error of the encoder says what the first problem of the serialized value is. -/
theorem C68_encoder (s : Ser) (e : EncErr) (h : s.encode = .error e) :
    ((problems s).head? = some .noKeyAvailable ∧ e.text = str "no key was available when trying to serialize map value") ∨
    (∃ i, (problems s).head? = some (.invalidId i) ∧ ∀ v j, Kserd.withId i v = .error j → e.text = invalidIdText j) ∨
    ∃ m, (problems s).head? = some (.message m) ∧ e.text = str "custom error: " ++ m := by
  rw [C42_error] at h
  cases e with
  | noKeyAvailable => exact .inl ⟨h, rfl⟩
  | invalidId i =>
    refine .inr (.inl ⟨i, h, fun v j hj => ?_⟩)
    rw [Kserd.withId] at hj
    split at hj
    · cases hj; rfl
    · cases hj
  | message m => exact .inr (.inr ⟨m, h, rfl⟩)

theorem cancel4 (a b c d : Str) {x y : Str} (h : a ++ x ++ b ++ c ++ d = a ++ y ++ b ++ c ++ d) : x = y := by
  simpa using h

theorem idText_inj {i j : Str} (h : invalidIdText i = invalidIdText j) : i = j := by
  unfold invalidIdText at h
  exact cancel4 _ _ _ _ h

theorem cancel_char (a b d : Str) {c c' : Char} {x y : Str} (h : a ++ [c] ++ b ++ x ++ d = a ++ [c'] ++ b ++ y ++ d) : c = c' ∧ x = y := by
  simpa using h

theorem fieldMsg_inj {a b : FieldNameErr} (h : a.msg = b.msg) : a = b := by
  cases a <;> cases b
  case empty.empty => rfl
  case digit.digit => rfl
  case badChar.badChar c s d t =>
    unfold FieldNameErr.msg at h
    generalize str "invalid character '" = x1, str "' exists in name '" = x2, str "'" = x3 at h
    obtain ⟨rfl, rfl⟩ := cancel_char x1 x2 x3 h
    rfl
  case empty.digit => exact absurd h (by decide)
  case digit.empty => exact absurd h (by decide)
  case empty.badChar => exact absurd (show some 'n' = some 'i' from congrArg List.head? h) (by decide)
  case digit.badChar => exact absurd (show some 'n' = some 'i' from congrArg List.head? h) (by decide)
  case badChar.empty => exact absurd (show some 'i' = some 'n' from congrArg List.head? h) (by decide)
  case badChar.digit => exact absurd (show some 'i' = some 'n' from congrArg List.head? h) (by decide)

theorem fieldText_inj {a b : FieldNameErr} (h : a.text = b.text) : a = b := by
  unfold FieldNameErr.text at h
  exact fieldMsg_inj (List.append_cancel_left h)

/-- **C68.** The texts tell the errors of one kind apart, with everything they carry. -/
theorem C68_told_apart :
    (∀ a b : FieldNameErr, a.text = b.text → a = b) ∧ (∀ a b : EncErr, a.text = b.text → a = b) ∧
    (∀ a b : ToKserdErr, a.text = b.text → a = b) ∧ (∀ a b : FmtError, a.text = b.text → a = b) := by
  refine ⟨fun a b => fieldText_inj, fun a b h => ?_, fun a b h => ?_, fun a b h => ?_⟩
  · cases a <;> cases b
    case noKeyAvailable.noKeyAvailable => rfl
    case invalidId.invalidId i j => rw [idText_inj h]
    case message.message m n => rw [List.append_cancel_left (show str "custom error: " ++ m = str "custom error: " ++ n from h)]
    case noKeyAvailable.invalidId => exact absurd (show some 'n' = some 'i' from congrArg List.head? h) (by decide)
    case noKeyAvailable.message => exact absurd (show some 'n' = some 'c' from congrArg List.head? h) (by decide)
    case invalidId.noKeyAvailable => exact absurd (show some 'i' = some 'n' from congrArg List.head? h) (by decide)
    case invalidId.message => exact absurd (show some 'i' = some 'c' from congrArg List.head? h) (by decide)
    case message.noKeyAvailable => exact absurd (show some 'c' = some 'n' from congrArg List.head? h) (by decide)
    case message.invalidId => exact absurd (show some 'c' = some 'i' from congrArg List.head? h) (by decide)
  · cases a <;> cases b
    case invalidId.invalidId i j => rw [idText_inj h]
    case invalidFieldName.invalidFieldName x y => rw [fieldText_inj h]
    case invalidId.invalidFieldName => exact absurd (show some 'd' = some 'n' from congrArg (fun s => s[1]?) h) (by decide)
    case invalidFieldName.invalidId => exact absurd (show some 'n' = some 'd' from congrArg (fun s => s[1]?) h) (by decide)
  · cases a <;> cases b <;> first
      | rfl
      | exact absurd h (by decide)
      | skip
    all_goals try (rename_i x y; cases x <;> cases y <;> exact absurd h (by decide))
    rename_i x y x' y'
    revert h
    cases x <;> cases y <;> cases x' <;> cases y' <;> decide

/-! ## Cases -/

/-- The texts of the crate's own tests and documentation. -/
example : (∃ j, Kserd.withId (str "\\Test") .unit = .error j ∧
      invalidIdText j = str "identity '\\Test' contains invalid characters. Invalid characters: '(){}[]<> ,./\\='") ∧
    (∃ e, Value.newCntr [(str "b c", .mk none .unit), (str "a/", .mk none .unit), (str "A", .mk none .unit)] = .error e ∧
      e.text = str "invalid field name: invalid character '/' exists in name 'a/'") ∧
    (∃ e, (Ser.map [.value .unit]).encode = .error e ∧ e.text = str "no key was available when trying to serialize map value") ∧
    (∃ e, (Ser.seq [.fail (str "Hello")]).encode = .error e ∧ e.text = str "custom error: Hello") :=
  ⟨⟨_, rfl, rfl⟩, ⟨_, rfl, rfl⟩, ⟨_, rfl, rfl⟩, ⟨_, rfl, rfl⟩⟩

example : ∃ f e, Formatter.new (.mk none (.seq [.mk none (.num (.uint 1))])) = some f ∧ f.request 1 .verbose = .error e ∧
    e.text = some (str "requested format 'verbose' is higher than the value maximally allows 'inline'") := ⟨_, _, by rfl, by rfl, by rfl⟩

end KS.Props
