import Verif.Lemmas.NavFmt
import Verif.Props.Widths
/-!
# C51: writing through the navigator
-/

namespace KS.Props
open KS.Spec KS.Nav KS.Fm

/-- **C51.** Writing a node as the code does, through the navigator's links with formats looked up by node index, writes the Kserd at that node with the
formats of its subtree in preorder, whatever was written before, and panics exactly where that panics. The recursion ends: any fuel of twice the
number of Kserds or more gives the same. -/
theorem C51_node (root : Kserd) (fmts : List Fmt) {i : Nat} {n : NavNode} (h : (Nav.new root)[i]? = some n) (col : Nat) (buf : Str) (fuel : Nat)
    (hf : 2 * n.kserd.size ≤ fuel) : NW.writeNode (Nav.new root) fmts fuel n col buf = W.node fmts n.kserd i col buf := by
  have := (NW.writeNode_eq root fmts fuel).1 n (idx_self h) hf col buf
  rw [(C18_preorder root).2.1 i n h] at this
  exact this

/-- **C51.** `write_string` of a formatter as in the code is that of the recursive model, so all that is proved of the written text holds of it. -/
theorem C51_write (root : Kserd) {f : Formatter} (h : Reachable root f) (buf : Str) : NW.writeString f buf = f.writeString buf := by
  obtain ⟨e, hf⟩ := C22_rules root f h
  obtain ⟨n, h0⟩ : ∃ n, f.nav[0]? = some n :=
    ⟨_, List.getElem?_eq_getElem (by rw [hf.nav, new_length]; exact size_pos _)⟩
  have hk : n.kserd = f.root := by
    have h0' := h0
    rw [hf.nav] at h0'
    have := congrArg (·[0]?) (C18_preorder f.root).1
    simp only [List.getElem?_map, h0', Option.map_some] at this
    rcases hr : f.root with ⟨id, v⟩
    rw [hr] at this
    simpa [preorder] using this
  rw [NW.writeString, h0, Formatter.writeString, ← hk]
  simp only []
  rw [hf.nav] at h0 ⊢
  exact C51_node f.root f.fmts h0 0 buf _ (by rw [new_length, hk])

/-- **C51.** `as_str_with_config` put together from the parts as they are in the code (formatter over the navigator, width vectors, writers over the
navigator) gives what the model gives. -/
theorem C51_as_str (k : Kserd) (c : FormattingConfig) :
    ((Formatter.new k).bind fun f => (SV.applyConfig f c).bind fun f => NW.writeString f []) = k.asStrWithConfig c := by
  rw [Kserd.asStrWithConfig]
  cases h : Formatter.new k with
  | none => rfl
  | some f =>
    have hr : Reachable k f := .new h
    rw [Option.bind_some, Option.bind_some, C50_config k hr c]
    cases h' : Solver.applyConfig f c with
    | none => rfl
    | some g => rw [Option.bind_some, Option.bind_some, C51_write k (.config c hr h')]

example : ((Formatter.new widthRoot).bind fun f => (SV.applyConfig f {}).bind fun f => NW.writeString f []) =
    some (str "top (key = { 1: \"a\" }, xs = [(10, 2)])") := by decide +kernel
example : ((Formatter.new widthRoot).bind fun f => (SV.applyConfig f { widthLimit := some 0 }).bind fun f => NW.writeString f []) =
    some (str ":top\n\n[[key]]\n1: \"a\"\n\n[[xs]]\n(\n    10\n    2\n)\n") := by decide +kernel

end KS.Props
