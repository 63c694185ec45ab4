import Verif.Lemmas.Widths
/-!
# C50: the width vectors
-/

namespace KS.Props
open KS.Spec KS.Nav KS.SV KS.Fm

/-- **C50.** `inline_widths` does not panic and gives, for each node in order, the sum over all Kserds under the node of their own widths: nothing is
counted twice or left out, although results are remembered and nodes are visited again. -/
theorem C50_inline (root : Kserd) (c : FormattingConfig) :
    SV.inlineWidths (Nav.new root) c = some ((preorder root).map (subtreeWidth c)) := by
  rw [inlineWidths_eq]
  congr 1
  exact List.map_congr_left fun k _ => total_sum c k

theorem maxOf_le (w : Nat) : ∀ (l : List Nat), w ≤ maxOf w l ∧ ∀ x ∈ l, x ≤ maxOf w l
  | [] => ⟨Nat.le_refl _, by simp⟩
  | y :: r => by
    rw [maxOf]
    have := maxOf_le (max w y) r
    refine ⟨by omega, ?_⟩
    intro x hx
    rcases List.mem_cons.mp hx with rfl | hx
    · omega
    · exact this.2 x hx

theorem maxOf_cases : ∀ (w : Nat) (l : List Nat), maxOf w l = w ∨ maxOf w l ∈ l
  | w, [] => .inl rfl
  | w, y :: r => by
    rw [maxOf]
    rcases maxOf_cases (max w y) r with h | h
    · rw [h]
      by_cases hw : y ≤ w
      · left; omega
      · right; rw [show max w y = y by omega]; simp
    · right; simp [h]

theorem column_le (c : FormattingConfig) {k y : Kserd} {o : Nat} (h : Column c k o y) :
    o + Solver.conciseWidth c y.id y.val ≤ Solver.conciseTotal c k := by
  induction h with
  | self k => obtain ⟨id, v⟩ := k; rw [Solver.conciseTotal]; simp only [Kserd.id, Kserd.val]; omega
  | @tuple id l x y o hx _ ih =>
    rw [Solver.conciseTotal, Solver.conciseTotalV, conciseTotalL_eq]
    have := (maxOf_le (Solver.conciseWidth c id (.tuple l)) (l.map fun k => W.indentW + Solver.conciseTotal c k)).2 _ (List.mem_map_of_mem hx)
    simp only [W.indentW] at this ⊢; omega
  | @seq id l x y o hx _ ih =>
    rw [Solver.conciseTotal, Solver.conciseTotalV, conciseTotalL_eq]
    have := (maxOf_le (Solver.conciseWidth c id (.seq l)) (l.map fun k => W.indentW + Solver.conciseTotal c k)).2 _ (List.mem_map_of_mem hx)
    simp only [W.indentW] at this ⊢; omega
  | @cntr id f n x y o hx _ ih =>
    rw [Solver.conciseTotal, Solver.conciseTotalV, conciseTotalF_eq]
    have := (maxOf_le (Solver.conciseWidth c id (.cntr f))
      (f.map fun p => W.indentW + p.1.length + W.assigner.length + 1 + Solver.conciseTotal c p.2)).2 _ (List.mem_map_of_mem hx)
    have e : W.assigner.length = 2 := rfl
    simp only [W.indentW, e] at this ⊢; omega
  | @map id m k x y o hx _ ih =>
    rw [Solver.conciseTotal, Solver.conciseTotalV, conciseTotalM_eq]
    have := (maxOf_le (Solver.conciseWidth c id (.map m))
      (m.map fun p => W.indentW + Solver.inlineTotal c p.1 + W.keysAssigner.length + 1 + Solver.conciseTotal c p.2)).2 _ (List.mem_map_of_mem hx)
    have e : W.keysAssigner.length = 1 := rfl
    simp only [W.indentW, e, total_sum] at this ⊢; omega

/-- The concise total is that of some Kserd at its column. -/
theorem column_attained (c : FormattingConfig) : ∀ (n : Nat) (k : Kserd), k.size ≤ n →
    ∃ o y, Column c k o y ∧ o + Solver.conciseWidth c y.id y.val = Solver.conciseTotal c k
  | 0, k, h => by have := size_pos k; omega
  | n + 1, .mk id v, h => by
    have here : ∀ {w}, w = Solver.conciseWidth c id v → ∃ o y, Column c (.mk id v) o y ∧ o + Solver.conciseWidth c y.id y.val = w :=
      fun e => ⟨0, _, .self _, by simp only [Kserd.id, Kserd.val, e, Nat.zero_add]⟩
    have sub : ∀ x ∈ valuesOf v, ∃ o y, Column c x o y ∧ o + Solver.conciseWidth c y.id y.val = Solver.conciseTotal c x := fun x hx => by
      have := size_kid (k := .mk id v) (values_kids hx)
      exact column_attained c n x (by omega)
    have ea : W.assigner.length = 2 := rfl
    have ek : W.keysAssigner.length = 1 := rfl
    rw [Solver.conciseTotal]
    cases v with
    | tuple l =>
      rw [Solver.conciseTotalV, conciseTotalL_eq]
      rcases maxOf_cases (Solver.conciseWidth c id (.tuple l)) (l.map fun k => W.indentW + Solver.conciseTotal c k) with e | e
      · exact here e
      · obtain ⟨x, hx, e⟩ := List.mem_map.mp e
        obtain ⟨o, y, h1, h2⟩ := sub x hx
        refine ⟨4 + o, y, .tuple hx h1, ?_⟩
        rw [← e]; simp only [W.indentW]; omega
    | seq l =>
      rw [Solver.conciseTotalV, conciseTotalL_eq]
      rcases maxOf_cases (Solver.conciseWidth c id (.seq l)) (l.map fun k => W.indentW + Solver.conciseTotal c k) with e | e
      · exact here e
      · obtain ⟨x, hx, e⟩ := List.mem_map.mp e
        obtain ⟨o, y, h1, h2⟩ := sub x hx
        refine ⟨4 + o, y, .seq hx h1, ?_⟩
        rw [← e]; simp only [W.indentW]; omega
    | cntr l =>
      rw [Solver.conciseTotalV, conciseTotalF_eq]
      rcases maxOf_cases (Solver.conciseWidth c id (.cntr l))
        (l.map fun p => W.indentW + p.1.length + W.assigner.length + 1 + Solver.conciseTotal c p.2) with e | e
      · exact here e
      · obtain ⟨⟨nm, x⟩, hx, e⟩ := List.mem_map.mp e
        obtain ⟨o, y, h1, h2⟩ := sub x (List.mem_map.mpr ⟨_, hx, rfl⟩)
        refine ⟨_, y, .cntr hx h1, ?_⟩
        rw [← e]; simp only [W.indentW, ea]; omega
    | map l =>
      rw [Solver.conciseTotalV, conciseTotalM_eq]
      rcases maxOf_cases (Solver.conciseWidth c id (.map l))
        (l.map fun p => W.indentW + Solver.inlineTotal c p.1 + W.keysAssigner.length + 1 + Solver.conciseTotal c p.2) with e | e
      · exact here e
      · obtain ⟨⟨kk, x⟩, hx, e⟩ := List.mem_map.mp e
        obtain ⟨o, y, h1, h2⟩ := sub x (List.mem_map.mpr ⟨_, hx, rfl⟩)
        refine ⟨_, y, .map hx h1, ?_⟩
        rw [← e, total_sum]; simp only [W.indentW, ek]; omega
    | _ => exact here (by simp only [Solver.conciseTotalV]; omega)

/-- **C50.** `concise_widths`, given the inline widths, does not panic and gives, for each node in order, the width of the widest thing in its concise
layout: no Kserd under the node ends further right when everything is laid out concisely, and one ends there. -/
theorem C50_concise (root : Kserd) (c : FormattingConfig) :
    ∃ ws, (SV.inlineWidths (Nav.new root) c).bind (SV.conciseWidths (Nav.new root) c) = some ws ∧ ws.length = (preorder root).length ∧
      ∀ (i : Nat) (k : Kserd), (preorder root)[i]? = some k → ∃ w, ws[i]? = some w ∧
        (∀ o y, Column c k o y → o + headWidth c y ≤ w) ∧ ∃ o y, Column c k o y ∧ o + headWidth c y = w := by
  refine ⟨(preorder root).map (Solver.conciseTotal c), ?_, by simp, ?_⟩
  · rw [inlineWidths_eq, Option.bind_some, conciseWidths_eq]
  · intro i k hk
    have e1 := fun o y h => column_le c (k := k) (o := o) (y := y) h
    have e2 := column_attained c _ k (Nat.le_refl _)
    simp only [head_eq] at e1 e2
    exact ⟨_, by rw [List.getElem?_map, hk]; rfl, e1, e2⟩

/-! ## The solver over the vectors -/

theorem idx_self {root : Kserd} {i : Nat} {n : NavNode} (h : (Nav.new root)[i]? = some n) : (Nav.new root)[n.idx]? = some n := by
  rw [(C18_preorder root).2.1 i n h, h]

theorem parent_self {root : Kserd} {n p : NavNode} (h : Nav.parent (Nav.new root) n = some p) : (Nav.new root)[p.idx]? = some p := by
  rw [Nav.parent, Option.bind_eq_some_iff] at h
  obtain ⟨j, _, hj⟩ := h
  exact idx_self hj

theorem value_kind {root : Kserd} {i : Nat} {n : NavNode} (h : (Nav.new root)[i]? = some n) :
    n.kserd.val.kind = match Nav.value (Nav.new root) n with
      | .primitive => .prim
      | .tuple _ => .tuple
      | .cntr _ => .cntr
      | .seq _ => .seq
      | .map _ => .map := by
  have h45 := C45_value root i n h
  cases hv : n.kserd.val <;> cases hw : Nav.value (Nav.new root) n <;> rw [hv, hw] at h45 <;> first | rfl | exact h45.elim

theorem concisePCC_eq {root : Kserd} (c : FormattingConfig) (fmts : List Fmt) {p : NavNode} (child : NavNode) {i : Nat}
    (hp : (Nav.new root)[i]? = some p) :
    SV.concisePCC ((preorder root).map (Solver.inlineTotal c)) fmts (Nav.value (Nav.new root) p) child =
      Solver.concisePCC c (Nav.new root) fmts p child := by
  have h45 := C45_value root i p hp
  cases hv : p.kserd.val <;> cases hw : Nav.value (Nav.new root) p <;> rw [hv, hw] at h45 <;> simp only at h45 <;>
    simp only [SV.concisePCC, Solver.concisePCC, hv]
  · rename_i f ns
    congr 1
    rw [SV.cntrFieldOffset, Solver.cntrFieldOffset, ← h45.1, List.getElem?_map, Option.map_map]
    rfl
  · rename_i m ns
    congr 1
    rw [SV.mapEntryOffset, Solver.mapEntryOffset]
    split
    · rfl
    · have hk : (ns.map fun p => some p.1)[idxInParent child]? = (p.keyChildren.map fun j => (Nav.new root)[j]?)[idxInParent child]? := by rw [h45.2.1]
      rw [List.getElem?_map, List.getElem?_map] at hk
      cases hn : ns[idxInParent child]? with
      | none =>
        rw [hn] at hk
        cases hc : p.keyChildren[idxInParent child]? with
        | none => rfl
        | some j => rw [hc] at hk; cases hk
      | some q =>
        rw [hn] at hk
        cases hc : p.keyChildren[idxInParent child]? with
        | none => rw [hc] at hk; cases hk
        | some j =>
          rw [hc] at hk
          simp only [Option.map_some, Option.some.injEq] at hk
          have hj : q.1.idx = j := (C18_preorder root).2.1 j q.1 hk.symm
          subst hj
          have := iw_get (c := c) (idx_self hk.symm)
          simp only [← hk]
          cases hf : fmts[q.1.idx]? with
          | none => rfl
          | some kf => cases hl : kf.line <;> simp only [this, hl, Option.map_some]

theorem verbosePCC_eq {root : Kserd} {p ch : NavNode} {i j : Nat} (hp : (Nav.new root)[i]? = some p) (hc : (Nav.new root)[j]? = some ch) :
    SV.verbosePCC (Nav.value (Nav.new root) p) (Nav.value (Nav.new root) ch) ch = Solver.verbosePCC p ch := by
  rw [SV.verbosePCC.eq_def, Solver.verbosePCC.eq_def, value_kind hp, value_kind hc]
  cases Nav.value (Nav.new root) p <;> cases Nav.value (Nav.new root) ch <;> rfl

theorem offsetLoop_eq {root : Kserd} (c : FormattingConfig) (fmts : List Fmt) : ∀ (fuel : Nat) (ch : NavNode) (off : Nat),
    (Nav.new root)[ch.idx]? = some ch →
    SV.offsetLoop ((preorder root).map (Solver.inlineTotal c)) (Nav.new root) fmts fuel ch off = Solver.offsetLoop c (Nav.new root) fmts fuel ch off
  | 0, _, _, _ => rfl
  | fuel + 1, ch, off, hc => by
    rw [SV.offsetLoop, Solver.offsetLoop]
    cases hp : Nav.parent (Nav.new root) ch with
    | none => rfl
    | some p =>
      have hps := parent_self hp
      simp only [concisePCC_eq c fmts ch hps, verbosePCC_eq hps hc]
      cases fmts[p.idx]? with
      | none => rfl
      | some pf =>
        simp only []
        cases pf.line with
        | inline => exact offsetLoop_eq c fmts fuel p _ hps
        | concise =>
          cases Solver.concisePCC c (Nav.new root) fmts p ch with
          | none => rfl
          | some a => exact offsetLoop_eq c fmts fuel p _ hps
        | verbose =>
          cases Solver.verbosePCC p ch with
          | none => rfl
          | some a => exact offsetLoop_eq c fmts fuel p _ hps

theorem calculateOffset_eq {root : Kserd} (c : FormattingConfig) (fmts : List Fmt) (n : NavNode) :
    SV.calculateOffset ((preorder root).map (Solver.inlineTotal c)) (Nav.new root) fmts n = Solver.calculateOffset c (Nav.new root) fmts n := by
  rw [SV.calculateOffset, Solver.calculateOffset]
  cases hp : Nav.parent (Nav.new root) n with
  | none => rfl
  | some p =>
    have hps := parent_self hp
    simp only [concisePCC_eq c fmts n hps]
    cases fmts[p.idx]? with
    | none => rfl
    | some pf =>
      simp only []
      cases pf.line with
      | inline => exact offsetLoop_eq c fmts _ p _ hps
      | _ =>
        cases Solver.concisePCC c (Nav.new root) fmts p n with
        | none => rfl
        | some a => exact offsetLoop_eq c fmts _ p _ hps

theorem minLineRepr_eq {iw cw : List Nat} {i a b : Nat} (ha : iw[i]? = some a) (hb : cw[i]? = some b) (lim : Option Nat) :
    SV.minLineRepr i lim iw cw = some (Solver.minLineRepr lim a b) := by
  cases lim with
  | none => rfl
  | some l =>
    simp only [SV.minLineRepr, Solver.minLineRepr, ha, hb]
    split
    · rfl
    · rfl

theorem widths_get {root : Kserd} (T : Kserd → Nat) {i : Nat} {n : NavNode} (h : (Nav.new root)[i]? = some n) :
    ((preorder root).map T)[i]? = some (T n.kserd) := by
  rw [← (C18_preorder root).1, List.map_map, List.getElem?_map, h]; rfl

theorem applyNode_eq (c : FormattingConfig) {f : Formatter} (hf : f.nav = Nav.new f.root) (i : Nat) :
    SV.applyNode c ((preorder f.root).map (Solver.inlineTotal c)) ((preorder f.root).map (Solver.conciseTotal c)) f i = Solver.applyNode c f i := by
  rw [SV.applyNode, Solver.applyNode, hf]
  cases hn : (Nav.new f.root)[i]? with
  | none => rfl
  | some n =>
    simp only [calculateOffset_eq, minLineRepr_eq (widths_get _ hn) (widths_get _ hn)]
    cases Solver.calculateOffset c (Nav.new f.root) f.fmts n with
    | none => rfl
    | some off =>
      simp only []
      cases hp : Nav.parent (Nav.new f.root) n with
      | none => rfl
      | some p =>
        simp only []
        congr 1
        rw [value_kind hn, value_kind (parent_self hp)]
        cases Solver.minLineRepr (Option.map (· - off) c.widthLimit) (Solver.inlineTotal c n.kserd) (Solver.conciseTotal c n.kserd) <;>
          cases Nav.value (Nav.new f.root) n <;> cases Nav.value (Nav.new f.root) p <;> rfl

theorem idStep_eq (c : FormattingConfig) {f : Formatter} (hf : f.nav = Nav.new f.root) {i : Nat} (hi : i < f.nav.length) :
    SV.idStep c f i = some (Solver.idStep c f i) := by
  obtain ⟨n, hn⟩ : ∃ n, f.nav[i]? = some n := ⟨_, List.getElem?_eq_getElem hi⟩
  rw [SV.idStep, Solver.idStep, hn]
  simp only []
  have hn' := hn
  rw [hf] at hn'
  rw [value_kind hn', hf]
  cases Nav.value (Nav.new f.root) n <;> simp only [Solver.idFlag] <;> split <;> rename_i h <;> simp only [h]

theorem setId_nav {f f' : Formatter} {i : Nat} {b : Bool} (h : f.setId i b = .ok f') : f'.nav = f.nav ∧ f'.root = f.root := by
  rw [Formatter.setId] at h
  split at h
  · cases h; exact ⟨rfl, rfl⟩
  · cases h

theorem idStep_nav (c : FormattingConfig) (f : Formatter) (i : Nat) : (Solver.idStep c f i).nav = f.nav ∧ (Solver.idStep c f i).root = f.root := by
  rw [Solver.idStep]
  split
  · exact ⟨rfl, rfl⟩
  · split
    · rename_i h; exact setId_nav h
    · exact ⟨rfl, rfl⟩

theorem ids_eq (c : FormattingConfig) : ∀ (l : List Nat) {f : Formatter}, f.nav = Nav.new f.root → (∀ i ∈ l, i < f.nav.length) →
    l.foldlM (SV.idStep c) f = some (l.foldl (Solver.idStep c) f)
  | [], f, _, _ => rfl
  | i :: r, f, hf, hl => by
    obtain ⟨h1, h2⟩ := idStep_nav c f i
    rw [List.foldlM_cons, idStep_eq c hf (hl i (by simp)), List.foldl_cons]
    exact ids_eq c r (by rw [h1, h2, hf]) (fun j hj => by rw [h1]; exact hl j (by simp [hj]))

theorem nodes_eq (c : FormattingConfig) : ∀ (l : List Nat) {f : Formatter}, Rules f →
    l.foldlM (SV.applyNode c ((preorder f.root).map (Solver.inlineTotal c)) ((preorder f.root).map (Solver.conciseTotal c))) f =
      l.foldlM (Solver.applyNode c) f
  | [], f, _ => rfl
  | i :: r, f, hf => by
    rw [List.foldlM_cons, List.foldlM_cons, applyNode_eq c hf.nav]
    cases h : Solver.applyNode c f i with
    | none => rfl
    | some g =>
      obtain ⟨h1, h2, _⟩ := rules_applyNode hf h
      have := nodes_eq c r h1
      rw [h2] at this
      exact this

/-- **C50.** `apply_config` as in the code, reading widths from the vectors and children from the navigator, does what the recursive model does, so all
that is proved of the model holds of it. -/
theorem C50_config (root : Kserd) {f : Formatter} (h : Reachable root f) (c : FormattingConfig) : SV.applyConfig f c = Solver.applyConfig f c := by
  obtain ⟨_, hf⟩ := C22_rules root f h
  rw [SV.applyConfig, Solver.applyConfig, ids_eq c _ hf.nav (by simp)]
  obtain ⟨g1, g2, g3⟩ := rules_applyIds hf c
  rw [Solver.applyIds] at g1 g2 g3
  rw [Solver.applyIds]
  generalize hg : (List.range f.nav.length).foldl (Solver.idStep c) f = g at g1 g2 g3
  simp only []
  cases h0 : g.nav[0]? with
  | none => rfl
  | some r =>
    have h0' := h0
    rw [g1.nav] at h0'
    have ei := inlineWidths_eq g.root c
    have ec := conciseWidths_eq g.root c
    rw [← g1.nav] at ei ec
    simp only [ei, ec, minLineRepr_eq (widths_get (root := g.root) _ h0') (widths_get _ h0')]
    cases Nav.descendantsBreadth g.nav r with
    | none => rfl
    | some ds =>
      simp only []
      cases hr : g.requestOk 0 (Solver.minLineRepr c.widthLimit (Solver.inlineTotal c r.kserd) (Solver.conciseTotal c r.kserd)) with
      | none => rfl
      | some q =>
        obtain ⟨q1, q2, _⟩ := rules_requestOk g1 hr
        have := nodes_eq c ds q1
        rw [q2] at this
        exact this

/-! ### Examples -/

/-- `top (key = { 1: "a" }, xs = [(10, 2)])` -/
def widthRoot : Kserd := .mk (some (str "top")) (.cntr [
  (str "key", .mk none (.map [(.mk none (.num (.uint 1)), .mk none (.str (str "a")))])),
  (str "xs", .mk none (.seq [.mk none (.tuple [.mk none (.num (.uint 10)), .mk none (.num (.uint 2))])]))])

example : SV.inlineWidths (Nav.new widthRoot) {} = some [36, 8, 1, 3, 9, 7, 2, 1] := by decide +kernel
example : (SV.inlineWidths (Nav.new widthRoot) {}).bind (SV.conciseWidths (Nav.new widthRoot) {}) = some [20, 10, 1, 3, 10, 6, 2, 1] := by decide +kernel

/-- The widest thing in its concise layout is the map value, from column 11 to 20. -/
example : Column {} widthRoot (4 + (3 + 3) + (4 + (1 + 2) + 0)) (.mk none (.str (str "a"))) :=
  .cntr (n := str "key") (List.mem_cons_self) (.map (k := .mk none (.num (.uint 1))) (List.mem_cons_self) (.self _))

end KS.Props
