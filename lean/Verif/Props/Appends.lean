import Verif.Lemmas.RuboutCols
import Verif.Props.Format
/-!
# C77: writing appends to the buffer; C28: what a hidden tuple identity does
-/

namespace KS.Props
open KS.Spec KS.Nav KS.Fm KS.Wr KS.Rub

/-- **C77 (partial).** If no tuple with an identity has it hidden, `write_string` keeps whatever is in the buffer and puts behind it a text
that does not depend on it. The full claim is false: a hidden tuple identity takes a character from the buffer (`C77_eats`). -/
theorem C77_appends_partial (root : Kserd) (f : Formatter) (h : Reachable root f)
    (ht : ∀ (i : Nat) (n : NavNode) (l : List Kserd), f.nav[i]? = some n → idOn f i = some false → n.kserd.val = .tuple l → n.kserd.id = none)
    (a b : Str) : f.writeString (a ++ b) = (f.writeString b).map (a ++ ·) := by
  obtain ⟨rfl, hr⟩ := C22_rules root f h
  refine node_pre f.root 0 0 a b (at_of_nav hr.nav hr.len ?_)
  intro i n fm hn hfm hid ⟨l, hl⟩
  exact ht i n l hn (by rw [idOn, hfm, ← hid]; rfl) hl

/-- **C77.** Whether `write_string` panics does not depend on the buffer. -/
theorem C77_panics (root : Kserd) (f : Formatter) (h : Reachable root f) (a b : Str) : f.writeString a = none ↔ f.writeString b = none := by
  have ha := C24_write_partial root f h a
  have hb := C24_write_partial root f h b
  rw [← hb] at ha
  constructor <;> intro hn
  · cases hc : f.writeString b with
    | none => rfl
    | some out =>
      obtain ⟨o, ho⟩ := ha.mpr ⟨out, hc⟩
      rw [hn] at ho; cases ho
  · cases hc : f.writeString a with
    | none => rfl
    | some out =>
      obtain ⟨o, ho⟩ := ha.mp ⟨out, hc⟩
      rw [hn] at ho; cases ho

/-- **C77 negated.** The tuple `T(1)` with its identity hidden, written to a buffer holding `ab`, takes away the `b`. -/
theorem C77_eats : ∃ f, Reachable (.mk (some (str "T")) (.tuple [.mk none (.num (.uint 1))])) f ∧ f.writeString (str "ab") = some (str "a(1)") := by
  refine ⟨_, .config { idOnTuples := false } (.new rfl) rfl, by decide +kernel⟩

/-- A case of `C77_appends_partial` in which a tuple shows its identity. -/
example : ∃ f, Reachable (.mk (some (str "T")) (.tuple [.mk none (.tuple [])])) f ∧
    (∀ (i : Nat) (n : NavNode) (l : List Kserd), f.nav[i]? = some n → idOn f i = some false → n.kserd.val = .tuple l → n.kserd.id = none) ∧
    f.writeString (str "ab") = some (str "abT(())") := by
  refine ⟨_, .config {} (.new rfl) rfl, ?_, by decide +kernel⟩
  intro i n l hn hi
  exfalso
  match i, hi with
  | 0, hi => revert hi; decide +kernel
  | 1, hi => revert hi; decide +kernel
  | i + 2, hi => cases hi

theorem at_marks {f : Formatter} (hr : Rules f) (m : Char) :
    At IdsOk (showAll f.fmts) 0 (preorder (marked m (flag f.fmts) 0 f.root)) := by
  intro j x hx
  have hj : j < (preorder (marked m (flag f.fmts) 0 f.root)).length := (List.getElem?_eq_some_iff.mp hx).1
  rw [size_preorder, marked_size, ← size_preorder] at hj
  have hl : f.fmts.length = (preorder f.root).length := by rw [hr.len, hr.nav, new_length, ← size_preorder]
  rw [← hl] at hj
  refine ⟨_, by rw [showAll_get, Nat.zero_add, List.getElem?_eq_getElem hj]; rfl, ?_⟩
  intro h; cases h

/-- **C28 and C77 (partial).** What hidden identities do, also to tuples and to the buffer: write the Kserd without its hidden identities, with a
mark before every tuple that has a hidden one, behind the buffer, and let every mark rub out the character before it. The mark may
be any control character other than the line break that does not occur in the texts. Missing: maps with a value of several lines behind a key on
one line within which the identity of a tuple is hidden; there the column of the value is also off (`C28_column_off`). -/
theorem C28_rubout_partial (root : Kserd) (f : Formatter) (h : Reachable root f) (m : Char) (hm : m.toNat < 32 ∧ m ≠ '\n')
    (ht : ∀ x ∈ preorder root, TextAll (· ≠ m) x) (hk : ColumnsOk f) (buf : Str) (hb : m ∉ buf) :
    f.writeString buf = ((withMarks m f).writeString []).map fun t => rubOut m (buf ++ t) := by
  obtain ⟨rfl, hr⟩ := C22_rules root f h
  have e0 : rubOut m buf = buf := by
    have := rub_app (m := m) [] buf (fun c hc e => hb (e ▸ hc))
    exact this.trans (by rw [show rubOut m [] = [] from rfl, List.nil_append])
  have e1 := node_rub (fmts := f.fmts) hm f.root 0 0 buf (by
    intro j x hx
    obtain ⟨n, hn, hkn⟩ := RT.nav_get hr hx
    obtain ⟨fm, hfm⟩ := Shape.fmt ⟨hr.nav, hr.len⟩ hn
    rw [Nat.zero_add]
    refine ⟨fm, hfm, ht _ (List.mem_of_getElem? hx), fun l hl => ?_⟩
    obtain ⟨id, v⟩ := x
    cases hl
    refine keysOk_of hr l (j + 1) (fun i y hy => ?_) (hk j id l hx)
    rw [hr.nav] at hn
    have := preorder_sub (j := i + 1) hn (by rw [hkn, preorder, preorderV]; exact hy)
    rwa [show j + (i + 1) = j + 1 + i by omega] at this)
  have e2 := node_pre (fmts := showAll f.fmts) (marked m (flag f.fmts) 0 f.root) 0 0 buf [] (at_marks hr m)
  rw [e0] at e1
  rw [List.append_nil] at e2
  rw [e2, Option.map_map] at e1
  exact e1

/-- **C28** (the column). Where the condition of `C28_rubout_partial` fails, so may its claim: in a map with the key `T(1)` on one line, whose identity
is hidden, and a sequence of several lines as value, the sequence is written two columns further to the left than with the mark. -/
theorem C28_column_off : ∃ root f, Reachable root f ∧ (∀ x ∈ preorder root, TextAll (· ≠ '\t') x) ∧ ¬ ColumnsOk f ∧
    f.writeString [] = some (str "{\n   (1): [\n            2\n        ]\n}") ∧
    ((withMarks '\t' f).writeString []).map (fun t => rubOut '\t' ([] ++ t)) = some (str "{\n   (1): [\n              2\n          ]\n}") := by
  obtain ⟨f, hf, h1, h2⟩ : ∃ f, Reachable (.mk none (.map [(.mk (some (str "T")) (.tuple [.mk none (.num (.uint 1))]),
      .mk none (.seq [.mk none (.num (.uint 2))]))])) f ∧ f.writeString [] = some (str "{\n   (1): [\n            2\n        ]\n}") ∧
      ((withMarks '\t' f).writeString []).map (fun t => rubOut '\t' ([] ++ t)) = some (str "{\n   (1): [\n              2\n          ]\n}") :=
    ⟨_, .repr 1 .inline (.config { idOnTuples := false, widthLimit := some 4 } (.new rfl) rfl) rfl, by decide +kernel, by decide +kernel⟩
  have ht : ∀ x ∈ preorder (.mk none (.map [(.mk (some (str "T")) (.tuple [.mk none (.num (.uint 1))]), .mk none (.seq [.mk none (.num (.uint 2))]))])),
      TextAll (· ≠ '\t') x := by
    intro x hx
    simp only [preorder, preorderV, preorderL, preorderM, List.mem_cons, List.not_mem_nil, or_false, List.cons_append, List.nil_append,
      List.append_nil] at hx
    rcases hx with rfl | rfl | rfl | rfl | rfl <;> refine ⟨?_, ?_, ?_⟩ <;> rintro _ h <;> cases h <;> decide
  refine ⟨_, f, hf, ht, fun hc => ?_, h1, h2⟩
  have := C28_rubout_partial _ f hf '\t' ⟨by decide, by decide⟩ ht hc [] (by simp)
  rw [h1, h2] at this
  revert this
  decide +kernel

/-- A case: in `[U(T(1)), { W(3): V(2) }]` under hidden tuple identities the marks rub out the opening bracket, the parenthesis of the outer tuple and two blanks. -/
example : ∃ root f, Reachable root f ∧ (∀ x ∈ preorder root, TextAll (· ≠ '\t') x) ∧ ColumnsOk f ∧
    (withMarks '\t' f).writeString [] = some (str "[\t(\t(1)), { \t(3): \t(2) }]") ∧ f.writeString (str "x") = some (str "x(1)), {(3):(2) }]") := by
  obtain ⟨f, hf, h1, h2, hl⟩ : ∃ f, Reachable (.mk none (.seq [.mk (some (str "U")) (.tuple [.mk (some (str "T")) (.tuple [.mk none (.num (.uint 1))])]),
      .mk none (.map [(.mk (some (str "W")) (.tuple [.mk none (.num (.uint 3))]), .mk (some (str "V")) (.tuple [.mk none (.num (.uint 2))]))])])) f ∧
      (withMarks '\t' f).writeString [] = some (str "[\t(\t(1)), { \t(3): \t(2) }]") ∧ f.writeString (str "x") = some (str "x(1)), {(3):(2) }]") ∧
      line f 7 = some .inline :=
    ⟨_, .config { idOnTuples := false } (.new rfl) rfl, by decide +kernel, by decide +kernel, by decide +kernel⟩
  refine ⟨_, f, hf, ?_, ?_, h1, h2⟩
  · intro x hx
    simp only [preorder, preorderV, preorderL, preorderM, List.mem_cons, List.not_mem_nil, or_false, List.cons_append, List.nil_append,
      List.append_nil] at hx
    rcases hx with rfl | rfl | rfl | rfl | rfl | rfl | rfl | rfl | rfl <;> refine ⟨?_, ?_, ?_⟩ <;> rintro _ h <;> cases h <;> decide
  · intro i id l hx
    rw [(C22_rules _ f hf).1] at hx
    match i, hx with
    | 4, hx => cases hx; exact ⟨.inr (.inr hl), trivial⟩
    | 0, hx | 1, hx | 2, hx | 3, hx | 5, hx | 6, hx | 7, hx | 8, hx => cases hx
    | i + 9, hx => cases hx

end KS.Props
