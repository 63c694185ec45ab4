import Verif.Lemmas.ChoiceRun
import Verif.Lemmas.Estimate
/-!
# From the settled formatter to the layouts of the tree
-/

namespace KS.Ch
open KS KS.Spec KS.Nav KS.Fm KS.Wr KS.Props

def stepOf (c : FormattingConfig) (g : Formatter) (P : Repr') (q m : NavNode) : Option Nat :=
  match P with
  | .inline => some 0
  | .concise => Solver.concisePCC c g.nav g.fmts q m
  | .verbose => Solver.verbosePCC q m

/-- The column at which the children of a node are indented, without correction for a verbose root. -/
inductive Left (c : FormattingConfig) (g : Formatter) : Nat → Nat → Prop
  | root : Left c g 0 0
  | child {j p e d : Nat} {m q : NavNode} {P : Repr'} : g.nav[j]? = some m → m.parent = some p → g.nav[p]? = some q → line g p = some P →
      stepOf c g P q m = some d → Left c g p e → Left c g j (e + d)

/-- A formatter that is settled on a set of nodes, which has with every node its parent, and with every value of a map its key. -/
structure DoneOn (c : FormattingConfig) (g : Formatter) (R : Repr') (S : Nat → Prop) : Prop where
  rules : Rules g
  good : ∀ d, 0 < d → d < g.nav.length → S d → Good c g d
  root : line g 0 = some R
  up : ∀ j m p, g.nav[j]? = some m → m.parent = some p → S j → S p
  key : ∀ v n p q k, g.nav[v]? = some n → n.parent = some p → g.nav[p]? = some q → isKey n = false →
    q.keyChildren[idxInParent n]? = some k → S v → S k

/-- A settled formatter. -/
abbrev Done (c : FormattingConfig) (g : Formatter) (R : Repr') : Prop := DoneOn c g R (fun _ => True)

/-- The correction for a verbose root. -/
def corr (R : Repr') : Nat := if R = .verbose then 4 else 0

theorem loop_left {c : FormattingConfig} {g : Formatter} {R : Repr'} {S : Nat → Prop} (h : DoneOn c g R S) {j e : Nat} (hl : Left c g j e) :
    ∀ (fuel off o : Nat) (m : NavNode), g.nav[j]? = some m → Solver.offsetLoop c g.nav g.fmts fuel m off = some o → o = off + e - corr R := by
  induction hl with
  | root =>
    intro fuel off o m hm ho
    cases fuel with
    | zero => cases ho
    | succ fuel =>
      have hm' := hm; rw [h.rules.nav] at hm'
      have hp : Nav.parent g.nav m = none := by rw [h.rules.nav]; exact (C19_links _ 0 m hm').1.mpr rfl
      rw [Solver.offsetLoop, hp] at ho
      simp only [idx_of h.rules hm] at ho
      have h0 := h.root
      rw [line] at h0
      cases hf : g.fmts[0]? with
      | none => rw [hf] at ho; cases ho
      | some fm =>
        rw [hf] at ho h0
        have h0 : fm.line = R := Option.some.inj h0
        simp only [h0] at ho
        cases ho
        rw [corr]
        by_cases hR : R = .verbose
        · rw [if_pos hR, if_pos hR, ind4, Nat.add_zero]
        · rw [if_neg hR, if_neg hR]; omega
  | child hm hp hq hP hs _ ih =>
    rename_i j p e d m q P _
    intro fuel off o m' hm' ho
    rw [hm] at hm'; cases hm'
    cases fuel with
    | zero => cases ho
    | succ fuel =>
      rw [Solver.offsetLoop, parent_of hp hq] at ho
      simp only [idx_of h.rules hq] at ho
      rw [line] at hP
      cases hf : g.fmts[p]? with
      | none => rw [hf] at ho; cases ho
      | some fm =>
        rw [hf] at ho hP
        have hlf : fm.line = P := Option.some.inj hP
        simp only [hlf] at ho
        cases P with
        | inline => cases hs; simp only at ho; have := ih fuel (off + 0) o q hq ho; omega
        | concise => simp only [stepOf] at ho hs; rw [hs] at ho; have := ih fuel (off + d) o q hq ho; omega
        | verbose => simp only [stepOf] at ho hs; rw [hs] at ho; have := ih fuel (off + d) o q hq ho; omega

/-- The offset of a node in a parent that is not inline. -/
theorem offset_left {c : FormattingConfig} {g : Formatter} {R P : Repr'} {S : Nat → Prop} (h : DoneOn c g R S) {p e o : Nat} {n q : NavNode}
    (hp : n.parent = some p) (hq : g.nav[p]? = some q) (hP : line g p = some P) (hne : P ≠ .inline)
    (hl : Left c g p e) (ho : Solver.calculateOffset c g.nav g.fmts n = some o) :
    ∃ d, Solver.concisePCC c g.nav g.fmts q n = some d ∧ o = e + d - corr R := by
  rw [Solver.calculateOffset, parent_of hp hq] at ho
  simp only [idx_of h.rules hq] at ho
  rw [line] at hP
  cases hf : g.fmts[p]? with
  | none => rw [hf] at ho; cases ho
  | some fm =>
    rw [hf] at ho hP
    have hlf : fm.line = P := Option.some.inj hP
    simp only [hlf] at ho
    cases hc : Solver.concisePCC c g.nav g.fmts q n with
    | none => rw [hc] at ho; cases P <;> first | exact absurd rfl hne | cases ho
    | some d =>
      refine ⟨d, rfl, ?_⟩
      rw [hc] at ho
      cases P with
      | inline => exact absurd rfl hne
      | concise => have := loop_left h hl _ _ _ _ hq ho; omega
      | verbose => have := loop_left h hl _ _ _ _ hq ho; omega

/-- The lines from node `i` on, as far as they are settled. -/
def Seg (S : Nat → Prop) (g : Formatter) (i : Nat) (L : List Repr') : Prop := ∀ j x, L[j]? = some x → S (i + j) → line g (i + j) = some x

theorem Seg.nil (S : Nat → Prop) (g : Formatter) (i : Nat) : Seg S g i [] := fun j x h => by cases j <;> cases h

theorem Seg.cons {S : Nat → Prop} {g : Formatter} {i : Nat} {x : Repr'} {L : List Repr'} (h : line g i = some x) (hs : Seg S g (i + 1) L) :
    Seg S g i (x :: L) := by
  intro j y hy hS
  cases j with
  | zero => cases hy; exact h
  | succ j => rw [show i + (j + 1) = i + 1 + j by omega] at hS ⊢; exact hs j y hy hS

theorem Seg.append {S : Nat → Prop} {g : Formatter} {i : Nat} {A B : List Repr'} (h : Seg S g i A) (hs : Seg S g (i + A.length) B) :
    Seg S g i (A ++ B) := by
  intro j y hy hS
  by_cases hj : j < A.length
  · rw [List.getElem?_append_left hj] at hy; exact h j y hy hS
  · rw [List.getElem?_append_right (by omega)] at hy
    have := hs _ y hy
    rw [show i + A.length + (j - A.length) = i + j by omega] at this
    exact this hS

/-- Nothing below a node outside the set is in it. -/
theorem DoneOn.out {c : FormattingConfig} {g : Formatter} {R : Repr'} {S : Nat → Prop} (h : DoneOn c g R S) {i j : Nat} (hS : ¬ S i)
    (hb : Below g.nav i j) : ¬ S j := by
  induction hb with
  | child hm hp => exact fun hj => hS (h.up _ _ _ hm hp hj)
  | step hm hp _ ih => exact fun hj => ih (h.up _ _ _ hm hp hj)

theorem Seg.out {c : FormattingConfig} {g : Formatter} {R : Repr'} {S : Nat → Prop} (h : DoneOn c g R S) {i : Nat} {n : NavNode} {L : List Repr'}
    (hn : g.nav[i]? = some n) (hL : L.length = n.kserd.size) (hS : ¬ S i) : Seg S g i L := by
  intro j x hx hj
  exfalso
  rcases Nat.eq_zero_or_pos j with rfl | hjp
  · exact hS hj
  · have hlt := (List.getElem?_eq_some_iff.mp hx).1
    rw [h.rules.nav] at hn
    have hb := below_of_range hn (i + j) (by omega) (by omega)
    rw [← h.rules.nav] at hb
    exact h.out hS hb hj

mutual
theorem plan_length (c : FormattingConfig) (t : Nat) (p : Repr') (b : Bool) (e col : Nat) (k : Kserd) : (plan c t p b e col k).length = k.size := by
  match k with
  | .mk id v =>
    rw [plan, size_eq]
    simp only [List.length_cons, planV_length]
    rw [Nat.add_comm]; rfl
termination_by structural k
theorem planV_length (c : FormattingConfig) (t : Nat) (p : Repr') (e : Nat) (v : Value) : (planV c t p e v).length = total (kidsOf v) := by
  match v with
  | .tuple l => rw [planV, planL_length]; rfl
  | .seq l => rw [planV, planL_length]; rfl
  | .cntr f => rw [planV, planF_length]; rfl
  | .map m => rw [planV, planM_length]; rfl
  | .unit => rfl
  | .bool _ => rfl
  | .num _ => rfl
  | .str _ => rfl
  | .barr _ => rfl
termination_by structural v
theorem planL_length (c : FormattingConfig) (t : Nat) (p : Repr') (b : Bool) (e col : Nat) (l : List Kserd) :
    (planL c t p b e col l).length = total l := by
  match l with
  | [] => rfl
  | k :: r => rw [planL, List.length_append, plan_length, planL_length, total]
termination_by structural l
theorem planF_length (c : FormattingConfig) (t : Nat) (p : Repr') (e : Nat) (l : List (Str × Kserd)) :
    (planF c t p e l).length = total (l.map (·.2)) := by
  match l with
  | [] => rfl
  | (n, k) :: r => rw [planF, List.length_append, plan_length, planF_length, List.map_cons, total]
termination_by structural l
theorem planM_length (c : FormattingConfig) (t : Nat) (p : Repr') (e : Nat) (l : List (Kserd × Kserd)) :
    (planM c t p e l).length = total (l.flatMap (fun p => [p.1, p.2])) := by
  match l with
  | [] => rfl
  | (k, v) :: r =>
    rw [planM]
    simp only [List.length_append, plan_length, planM_length, List.flatMap_cons, List.cons_append, List.nil_append, total]
termination_by structural l
end

theorem get_of {g : Formatter} (hr : Rules g) {i : Nat} {m : NavNode} (hm : node g.root i = some m) :
    ∃ n, g.nav[i]? = some n ∧ n.parent = m.parent ∧ n.kserd = m.kserd ∧ isKey n = isKey m ∧ idxInParent n = idxInParent m := by
  obtain ⟨n, hn, h1, h2, h3, h4⟩ := node_get hm
  refine ⟨n, by rw [hr.nav]; exact hn, h1, h4, ?_, ?_⟩
  · rw [isKey, isKey, h3]
  · rw [idxInParent, idxInParent, h2, h3]

theorem minLine_wish (c : FormattingConfig) (room : Option Nat) (k : Kserd) :
    Solver.minLineRepr room (Solver.inlineTotal c k) (Solver.conciseTotal c k) = wish c room k := by
  rw [SV.total_sum, SV.block_eq]
  cases room <;> rfl

theorem wishAt_eq {c : FormattingConfig} {m q : NavNode} {o : Nat} :
    wishAt c m q o = wishOf c (decide (q.kserd.val.kind = .seq)) o m.kserd := by
  have e : Solver.minLineRepr (c.widthLimit.map (· - o)) (Solver.inlineTotal c m.kserd) (Solver.conciseTotal c m.kserd) =
      wish c (c.widthLimit.map (· - o)) m.kserd := minLine_wish c _ _
  rw [wishAt, wishOf]
  simp only [e, decide_eq_true_eq]
  by_cases h1 : m.kserd.val.kind = .cntr <;> by_cases h2 : q.kserd.val.kind = .seq <;> simp [h1, h2]

theorem least_inline (a b : Repr') : least a b .inline = .inline := by cases a <;> cases b <;> rfl

theorem head_plan (c : FormattingConfig) (t : Nat) (p : Repr') (b : Bool) (e col : Nat) (k : Kserd) :
    ∃ x L, plan c t p b e col k = x :: L := by
  obtain ⟨id, v⟩ := k
  exact ⟨_, _, by rw [plan]⟩

mutual
theorem node_plan {c : FormattingConfig} {g : Formatter} {R : Repr'} {S : Nat → Prop} (h : DoneOn c g R S) (k : Kserd) (i p ep e col : Nat) (P : Repr') (b : Bool)
    (m n q : NavNode) (hm : node g.root i = some m) (hk : m.kserd = k) (hn : g.nav[i]? = some n) (hp : m.parent = some p) (hq : g.nav[p]? = some q)
    (hb : b = decide (q.kserd.val.kind = .seq)) (hP : line g p = some P) (hep : Left c g p ep) (he : Left c g i e)
    (hcol : P ≠ .inline → ∀ d, Solver.concisePCC c g.nav g.fmts q n = some d → col = ep + d - corr R) :
    Seg S g i (plan c (corr R) P b e col k) := by
  match k with
  | .mk id v =>
    obtain ⟨n', hn', n1, n2, n3, n4⟩ := get_of h.rules hm
    rw [hn] at hn'; cases hn'
    rw [hk] at n2
    by_cases hS : S i
    case neg => exact Seg.out h hn (by rw [plan_length, n2]) hS
    have hi : 0 < i := by
      rcases Nat.eq_zero_or_pos i with rfl | hi
      · have := hn; rw [h.rules.nav] at this
        have := (C19_links _ 0 n this).2.1.mpr rfl
        rw [n1, hp] at this; cases this
      · exact hi
    obtain ⟨n5, p5, q5, o, P5, g1, g2, g3, g4, g5, g6⟩ := h.good i hi (List.getElem?_eq_some_iff.mp hn).1 hS
    rw [hn] at g1; cases g1
    rw [n1, hp] at g2; cases g2
    rw [hq] at g3; cases g3
    rw [hP] at g5; cases g5
    have hline : line g i = some (least (wishOf c b col (.mk id v)) (maxRepr v) P) := by
      rw [g6, wishAt_eq, ← hb, n2]
      by_cases hne : P = .inline
      · rw [hne, least_inline, least_inline]
      · obtain ⟨d, hd, hod⟩ := offset_left h (by rw [n1]; exact hp) hq hP hne hep g4
        rw [hod, ← hcol hne d hd]
        rfl
    rw [plan]
    refine Seg.cons hline ?_
    have hkids := node_child hm
    rw [hk] at hkids
    have hval : n.kserd.val = v := by rw [n2]; rfl
    exact val_plan h v i e _ n hkids hn hval hline he
termination_by structural k
theorem val_plan {c : FormattingConfig} {g : Formatter} {R : Repr'} {S : Nat → Prop} (h : DoneOn c g R S) (v : Value) (p e : Nat) (P : Repr') (q : NavNode)
    (hkids : ∀ m ∈ roots (p + 1) (kids p v), node g.root m.idx = some m) (hq : g.nav[p]? = some q) (hv : q.kserd.val = v)
    (hP : line g p = some P) (he : Left c g p e) : Seg S g (p + 1) (planV c (corr R) P e v) := by
  match v with
  | .tuple l =>
    rw [planV]
    refine list_plan h l (p + 1) p 0 e _ _ P false q hkids hq (by rw [hv]; rfl) hP he (fun n => by rw [Solver.concisePCC, hv, ind4]) ?_ rfl rfl
    intro n hPv
    have := h.rules.max p q _ hq hP
    rw [hPv, hv, maxRepr] at this
    exfalso
    revert this; split <;> decide
  | .seq l =>
    rw [planV]
    exact list_plan h l (p + 1) p 0 e _ _ P true q hkids hq (by rw [hv]; rfl) hP he (fun n => by rw [Solver.concisePCC, hv, ind4])
      (fun n _ => by rw [Solver.verbosePCC, hv]; rfl) rfl rfl
  | .cntr f =>
    rw [planV]
    exact fields_plan h f [] (p + 1) p e P q hkids hq hv hP he
  | .map l =>
    rw [planV]
    exact map_plan h l [] (p + 1) p e P q hkids hq hv hP he
  | .unit => exact Seg.nil _ _ _
  | .bool _ => exact Seg.nil _ _ _
  | .num _ => exact Seg.nil _ _ _
  | .str _ => exact Seg.nil _ _ _
  | .barr _ => exact Seg.nil _ _ _
termination_by structural v
theorem list_plan {c : FormattingConfig} {g : Formatter} {R : Repr'} {S : Nat → Prop} (h : DoneOn c g R S) (l : List Kserd) (s p x e e' col : Nat) (P : Repr') (b : Bool)
    (q : NavNode) (hkids : ∀ m ∈ roots s (listKids p x l), node g.root m.idx = some m) (hq : g.nav[p]? = some q)
    (hb : b = decide (q.kserd.val.kind = .seq)) (hP : line g p = some P) (he : Left c g p e)
    (hcc : ∀ n, Solver.concisePCC c g.nav g.fmts q n = some 4) (hvc : ∀ n, P = .verbose → Solver.verbosePCC q n = some 0)
    (he' : e' = e + shiftBy P 4 0) (hcol : col = e + 4 - corr R) :
    Seg S g s (planL c (corr R) P b e' col l) := by
  match l with
  | [] => rw [planL]; exact Seg.nil _ _ _
  | k :: r =>
    rw [planL]
    simp only [listKids, roots] at hkids
    have hm := hkids _ (List.mem_cons_self ..)
    obtain ⟨n, hn, n1, n2, n3, n4⟩ := get_of h.rules hm
    refine Seg.append (node_plan h k s p e e' col P b _ n q hm rfl hn rfl hq hb hP he ?_ ?_) ?_
    · rw [he']
      refine .child hn (by rw [n1]; rfl) hq hP ?_ he
      cases P with
      | inline => rfl
      | concise => exact hcc n
      | verbose => exact hvc n rfl
    · intro _ d hd
      rw [hcc n] at hd; cases hd; exact hcol
    · rw [plan_length]
      exact list_plan h r _ p (x + 1) e e' col P b q (fun m hm => hkids m (List.mem_cons_of_mem _ hm)) hq hb hP he hcc hvc he' hcol
termination_by structural l
theorem fields_plan {c : FormattingConfig} {g : Formatter} {R : Repr'} {S : Nat → Prop} (h : DoneOn c g R S) (l a : List (Str × Kserd)) (s p e : Nat) (P : Repr')
    (q : NavNode) (hkids : ∀ m ∈ roots s (listKids p a.length (l.map (·.2))), node g.root m.idx = some m) (hq : g.nav[p]? = some q)
    (hv : q.kserd.val = .cntr (a ++ l)) (hP : line g p = some P) (he : Left c g p e) : Seg S g s (planF c (corr R) P e l) := by
  match l with
  | [] => rw [planF]; exact Seg.nil _ _ _
  | (nm, k) :: r =>
    rw [planF]
    simp only [List.map_cons, listKids, roots] at hkids
    have hm := hkids _ (List.mem_cons_self ..)
    obtain ⟨n, hn, n1, n2, n3, n4⟩ := get_of h.rules hm
    have hcc : Solver.concisePCC c g.nav g.fmts q n = some (4 + (nm.length + 3)) := by
      rw [Solver.concisePCC, hv]
      have n4 : idxInParent n = a.length := n4
      simp only [Solver.cntrFieldOffset, n4]
      rw [List.getElem?_append_right (Nat.le_refl _), Nat.sub_self, ind4]
      simp only [List.getElem?_cons_zero, Option.map_some, asg_len]
    refine Seg.append (node_plan h k s p e _ _ P false _ n q hm rfl hn rfl hq (by rw [hv]; rfl) hP he ?_ ?_) ?_
    · refine .child hn (by rw [n1]; rfl) hq hP ?_ he
      cases P with
      | inline => rfl
      | concise => exact hcc
      | verbose =>
        simp only [stepOf, shiftBy, Solver.verbosePCC, hv, n2, Value.kind]
        show _ = _
        cases hk : k.val <;> simp [mkN, hk, ind4]
    · intro _ d hd
      rw [hcc] at hd; cases hd; rfl
    · rw [plan_length]
      refine fields_plan h r (a ++ [(nm, k)]) _ p e P q (fun m hm => hkids m (List.mem_cons_of_mem _ ?_)) hq (by rw [hv]; simp) hP he
      rw [List.length_append] at hm; exact hm
termination_by structural l
theorem map_plan {c : FormattingConfig} {g : Formatter} {R : Repr'} {S : Nat → Prop} (h : DoneOn c g R S) (l a : List (Kserd × Kserd)) (s p e : Nat) (P : Repr')
    (q : NavNode) (hkids : ∀ m ∈ roots s (mapKids p a.length l), node g.root m.idx = some m) (hq : g.nav[p]? = some q)
    (hv : q.kserd.val = .map (a ++ l)) (hP : line g p = some P) (he : Left c g p e) : Seg S g s (planM c (corr R) P e l) := by
  match l with
  | [] => rw [planM]; exact Seg.nil _ _ _
  | (k, v) :: r =>
    rw [planM]
    simp only [mapKids, roots] at hkids
    have hm := hkids _ (List.mem_cons_self ..)
    obtain ⟨n, hn, n1, n2, n3, n4⟩ := get_of h.rules hm
    have hm' := hkids _ (List.mem_cons_of_mem _ (List.mem_cons_self ..))
    obtain ⟨n', hn', n1', n2', n3', n4'⟩ := get_of h.rules hm'
    have hn : g.nav[s]? = some n := hn
    have hn' : g.nav[s + k.size]? = some n' := hn'
    have n4 : idxInParent n = a.length := n4
    have n4' : idxInParent n' = a.length := n4'
    have hkk : isKey n = true := n3
    have hkv : isKey n' = false := n3'
    have hcc : Solver.concisePCC c g.nav g.fmts q n = some 4 := by
      rw [Solver.concisePCC, hv]
      simp only [Solver.mapEntryOffset, hkk, if_true, ind4]
      rfl
    have hkey : Seg S g s (plan c (corr R) P false (e + shiftBy P 4 0) (e + 4 - corr R) k) := by
      refine node_plan h k s p e _ _ P false _ n q hm rfl hn rfl hq (by rw [hv]; rfl) hP he ?_ ?_
      · refine .child hn (by rw [n1]; rfl) hq hP ?_ he
        cases P with
        | inline => rfl
        | concise => exact hcc
        | verbose =>
          simp only [stepOf, shiftBy, Solver.verbosePCC, hv, Value.kind, hkk, if_true]
      · intro _ d hd
        rw [hcc] at hd; cases hd; rfl
    have hki : q.keyChildren[idxInParent n']? = some s := by
      have hq' := hq; rw [h.rules.nav] at hq'
      obtain ⟨_, _, h3, _, h5, _, h7⟩ := C19_links g.root p q hq'
      have hn0 := hn; rw [h.rules.nav] at hn0
      have hmem := (h3 s n hn0).2.mpr ⟨by rw [n1]; rfl, hkk⟩
      obtain ⟨x, hx, hxk⟩ := List.mem_iff_getElem.mp hmem
      have hxe : q.keyChildren[x]? = some s := by rw [List.getElem?_eq_getElem hx, hxk]
      obtain ⟨n0, hn00, hxi⟩ := h5 x s hxe
      rw [hn0] at hn00; cases hn00
      rw [n4] at hxi
      rw [n4']
      have e1 : x = a.length := hxi.symm
      rw [e1] at hxe
      exact hxe
    refine Seg.append hkey ?_
    rw [plan_length]
    refine Seg.append ?_ ?_
    · by_cases hSv : S (s + k.size)
      case neg => exact Seg.out h hn' (by rw [plan_length]; exact congrArg Kserd.size n2'.symm) hSv
      obtain ⟨K, L, hKL⟩ := head_plan c (corr R) P false (e + shiftBy P 4 0) (e + 4 - corr R) k
      have hK : line g s = some K := by
        have := hkey 0 K (by rw [hKL]; rfl) (h.key _ n' p q s hn' (by rw [n1']; rfl) hq hkv hki hSv)
        exact this
      -- the column of the value
      have hval : ∀ d, Solver.concisePCC c g.nav g.fmts q n' = some d →
          d = 4 + ((if (plan c (corr R) P false (e + shiftBy P 4 0) (e + 4 - corr R) k).head? = some .inline then subtreeWidth c k else 1) + 2) := by
        intro d hd
        rw [← SV.total_sum]
        rw [Solver.concisePCC, hv] at hd
        simp only [Solver.mapEntryOffset, hkv, Bool.false_eq_true, if_false, hki, hn, ind4] at hd
        rw [line] at hK
        rw [hKL, List.head?_cons]
        cases hf : g.fmts[s]? with
        | none => rw [hf] at hK; cases hK
        | some fm =>
          rw [hf] at hd hK
          have hKf : fm.line = K := Option.some.inj hK
          have hnk : n.kserd = k := n2
          simp only [hKf, hnk, kas_len] at hd
          cases K with
          | inline => cases hd; rfl
          | concise => cases hd; rfl
          | verbose => cases hd
      have hne : P ≠ .inline → ∃ d, Solver.concisePCC c g.nav g.fmts q n' = some d := by
        intro hne
        have hi : 0 < s + k.size := by have := size_pos k; omega
        obtain ⟨n5, p5, q5, o, P5, g1, g2, g3, g4, g5, g6⟩ := h.good (s + k.size) hi (List.getElem?_eq_some_iff.mp hn').1 hSv
        rw [hn'] at g1; cases g1
        obtain ⟨d, hd, _⟩ := offset_left h (p := p) (by rw [n1']; rfl) hq hP hne he g4
        exact ⟨d, hd⟩
      refine node_plan h v (s + k.size) p e _ _ P false _ n' q hm' rfl hn' rfl hq (by rw [hv]; rfl) hP he ?_ ?_
      · refine .child hn' (by rw [n1']; rfl) hq hP ?_ he
        cases P with
        | inline => rfl
        | concise =>
          obtain ⟨d, hd⟩ := hne (by intro h; cases h)
          exact hd.trans (congrArg some (hval d hd))
        | verbose =>
          simp only [stepOf, shiftBy, Solver.verbosePCC, hv, Value.kind, hkv, ind4]
          rfl
      · intro _ d hd
        rw [hval d hd]
    · rw [plan_length]
      refine map_plan h r (a ++ [(k, v)]) _ p e P q (fun m hm => hkids m (List.mem_cons_of_mem _ (List.mem_cons_of_mem _ ?_))) hq (by rw [hv]; simp) hP he
      rw [List.length_append] at hm; exact hm
termination_by structural l
end

end KS.Ch
