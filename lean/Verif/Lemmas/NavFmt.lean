import Verif.Model.NavFmt
import Verif.Lemmas.Widths
/-!
# Lemmas about the writers over the navigator
-/

namespace KS.NW
open KS.Spec KS.Nav KS.Props W

/-! ## Children as nodes -/

def ChainL (nav : Navigator) : Nat → List NavNode → List Kserd → Prop
  | _, [], [] => True
  | i, n :: ns, k :: ks => nav[i]? = some n ∧ n.idx = i ∧ n.kserd = k ∧ ChainL nav (i + k.size) ns ks
  | _, _, _ => False

def ChainF (nav : Navigator) : Nat → List (Str × NavNode) → Fields → Prop
  | _, [], [] => True
  | i, n :: ns, k :: ks => nav[i]? = some n.2 ∧ n.2.idx = i ∧ n.1 = k.1 ∧ n.2.kserd = k.2 ∧ ChainF nav (i + k.2.size) ns ks
  | _, _, _ => False

def ChainM (nav : Navigator) : Nat → List (NavNode × NavNode) → KMap → Prop
  | _, [], [] => True
  | i, n :: ns, k :: ks => (nav[i]? = some n.1 ∧ n.1.idx = i ∧ n.1.kserd = k.1) ∧
      (nav[i + k.1.size]? = some n.2 ∧ n.2.idx = i + k.1.size ∧ n.2.kserd = k.2) ∧ ChainM nav (i + k.1.size + k.2.size) ns ks
  | _, _, _ => False

section
variable {root : Kserd}

theorem chainL : ∀ (ns : List NavNode) (b : Nat) (l : List Kserd), ns.map (·.kserd) = l → ns.map some = (offs b l).map (fun j => (Nav.new root)[j]?) →
    ChainL (Nav.new root) b ns l
  | [], b, [], _, _ => trivial
  | [], b, k :: r, h, _ => by cases h
  | n :: ns, b, [], h, _ => by cases h
  | n :: ns, b, k :: r, h, h' => by
    simp only [List.map_cons, List.cons.injEq, offs] at h h'
    exact ⟨h'.1.symm, (C18_preorder root).2.1 b n h'.1.symm, h.1, chainL ns _ r h.2 h'.2⟩

theorem chainF : ∀ (ns : List (Str × NavNode)) (b : Nat) (l : Fields), ns.map (fun p => (p.1, p.2.kserd)) = l →
    ns.map (fun p => some p.2) = (offs b (l.map (·.2))).map (fun j => (Nav.new root)[j]?) → ChainF (Nav.new root) b ns l
  | [], b, [], _, _ => trivial
  | [], b, k :: r, h, _ => by cases h
  | n :: ns, b, [], h, _ => by cases h
  | n :: ns, b, k :: r, h, h' => by
    simp only [List.map_cons, List.cons.injEq, offs] at h h'
    have e := h.1
    subst e
    exact ⟨h'.1.symm, (C18_preorder root).2.1 b n.2 h'.1.symm, rfl, rfl, chainF ns _ r h.2 h'.2⟩

theorem chainM : ∀ (ns : List (NavNode × NavNode)) (b : Nat) (l : KMap), ns.map (fun p => (p.1.kserd, p.2.kserd)) = l →
    ns.map (fun p => some p.1) = (keyOffs b l).map (fun j => (Nav.new root)[j]?) →
    ns.map (fun p => some p.2) = (valOffs b l).map (fun j => (Nav.new root)[j]?) → ChainM (Nav.new root) b ns l
  | [], b, [], _, _, _ => trivial
  | [], b, k :: r, h, _, _ => by cases h
  | n :: ns, b, [], h, _, _ => by cases h
  | n :: ns, b, (k, v) :: r, h, h', h'' => by
    simp only [List.map_cons, List.cons.injEq, keyOffs, valOffs, Prod.mk.injEq] at h h' h''
    exact ⟨⟨h'.1.symm, (C18_preorder root).2.1 b n.1 h'.1.symm, h.1.1⟩,
      ⟨h''.1.symm, (C18_preorder root).2.1 _ n.2 h''.1.symm, h.1.2⟩, chainM ns _ r h.2 h'.2 h''.2⟩

/-- `Node::value` with the positions of the children. -/
theorem value_chain {n : NavNode} (h : (Nav.new root)[n.idx]? = some n) :
    match n.kserd.val, Nav.value (Nav.new root) n with
    | .tuple l, .tuple ns => ChainL (Nav.new root) (n.idx + 1) ns l ∧ n.valueChildren.isEmpty = l.isEmpty
    | .seq l, .seq ns => ChainL (Nav.new root) (n.idx + 1) ns l ∧ n.valueChildren.isEmpty = l.isEmpty
    | .cntr f, .cntr ns => ChainF (Nav.new root) (n.idx + 1) ns f ∧ n.valueChildren.isEmpty = f.isEmpty
    | .map m, .map ns => ChainM (Nav.new root) (n.idx + 1) ns m ∧ n.valueChildren.isEmpty = m.isEmpty
    | .unit, .primitive => True
    | .bool _, .primitive => True
    | .num _, .primitive => True
    | .str _, .primitive => True
    | .barr _, .primitive => True
    | _, _ => False := by
  have h45 := C45_value root n.idx n h
  obtain ⟨_, _, _, _, _, _, h5, h6⟩ := get_node h
  rw [← valKids_eq] at h5
  rw [← keyKids_eq] at h6
  cases hv : n.kserd.val <;> cases hw : Nav.value (Nav.new root) n <;> rw [hv, hw] at h45 <;> simp only at h45 <;> simp only [] <;>
    simp only [hv, valKids, keyKids, kidsOf] at h5 h6
  · exact ⟨chainL _ _ _ h45.1 (by rw [← h5]; exact h45.2), by rw [h5]; cases ‹List Kserd› <;> rfl⟩
  · exact ⟨chainF _ _ _ h45.1 (by rw [← h5]; exact h45.2), by rw [h5]; cases ‹Fields› <;> rfl⟩
  · exact ⟨chainL _ _ _ h45.1 (by rw [← h5]; exact h45.2), by rw [h5]; cases ‹List Kserd› <;> rfl⟩
  · exact ⟨chainM _ _ _ h45.1 (by rw [← h6]; exact h45.2.1) (by rw [← h5]; exact h45.2.2), by rw [h5]; cases ‹KMap› <;> rfl⟩

end

/-! ## Loops -/

/-- The call writes the node. -/
def Ok (rec : Rec) (fmts : List Fmt) (n : NavNode) : Prop := ∀ col buf, rec n col buf = W.node fmts n.kserd n.idx col buf

/-- A call on a smaller Kserd writes it. -/
def Below (nav : Navigator) (rec : Rec) (fmts : List Fmt) (s : Nat) : Prop := ∀ m, nav[m.idx]? = some m → m.kserd.size < s → Ok rec fmts m

variable {nav : Navigator} {rec : Rec} {fmts : List Fmt} {s : Nat}

theorem below {n : NavNode} {i : Nat} {k : Kserd} (hb : Below nav rec fmts s) (h1 : nav[i]? = some n) (h2 : n.idx = i) (h3 : n.kserd = k) (hs : k.size < s)
    (col : Nat) (buf : Str) : rec n col buf = W.node fmts k i col buf := by
  subst h2; subst h3; exact hb n h1 hs col buf

theorem rmTrailing_eq (rm : Bool) (buf : Str) : rmTrailing rm buf = if rm then popSep buf else buf := rfl

theorem listInline_eq (hb : Below nav rec fmts s) (col : Nat) : ∀ (ns : List NavNode) (l : List Kserd) (i : Nat) (buf : Str), ChainL nav i ns l →
    (∀ k ∈ l, k.size < s) → ns.foldlM (fun buf x => (rec x col buf).map (· ++ separator)) buf = W.listInline fmts l i col buf
  | [], [], i, buf, _, _ => by rw [W.listInline]; rfl
  | n :: ns, k :: ks, i, buf, ⟨h1, h2, h3, h4⟩, hs => by
    rw [List.foldlM_cons, W.listInline, below hb h1 h2 h3 (hs k (by simp))]
    cases W.node fmts k i col buf with
    | none => rfl
    | some b => exact listInline_eq hb col ns ks _ _ h4 (fun x hx => hs x (by simp [hx]))

theorem listConcise_eq (hb : Below nav rec fmts s) (c : Nat) : ∀ (ns : List NavNode) (l : List Kserd) (i : Nat) (buf : Str), ChainL nav i ns l →
    (∀ k ∈ l, k.size < s) → ns.foldlM (fun buf x => (rec x c (indent buf c)).map (· ++ ['\n'])) buf = W.listConcise fmts l i c buf
  | [], [], i, buf, _, _ => by rw [W.listConcise]; rfl
  | n :: ns, k :: ks, i, buf, ⟨h1, h2, h3, h4⟩, hs => by
    rw [List.foldlM_cons, W.listConcise, below hb h1 h2 h3 (hs k (by simp))]
    cases W.node fmts k i c (indent buf c) with
    | none => rfl
    | some b => exact listConcise_eq hb c ns ks _ _ h4 (fun x hx => hs x (by simp [hx]))

theorem seqVerbose_eq (hb : Below nav rec fmts s) (name : Str) (col : Nat) : ∀ (ns : List NavNode) (l : List Kserd) (i : Nat) (buf : Str),
    ChainL nav i ns l → (∀ k ∈ l, k.size < s) →
    ns.foldlM (fun buf x =>
        let buf := indent buf col ++ str "[[" ++ name ++ str "]]\n"
        match fmts[x.idx]? with
        | none => none
        | some xf =>
          let body := match xf.line with
            | .verbose => rec x (col + indentW) buf
            | _ => (rec x col (indent buf col)).map (· ++ ['\n'])
          body.map (· ++ ['\n'])) buf = W.seqVerbose fmts name l i col buf
  | [], [], i, buf, _, _ => by rw [W.seqVerbose]; rfl
  | n :: ns, k :: ks, i, buf, ⟨h1, h2, h3, h4⟩, hs => by
    rw [List.foldlM_cons, W.seqVerbose]
    simp only [below hb h1 h2 h3 (hs k (by simp)), h2]
    cases fmts[i]? with
    | none => rfl
    | some f =>
      have ih := fun b => seqVerbose_eq hb name col ns ks (i + k.size) b h4 (fun x hx => hs x (by simp [hx]))
      cases hl : f.line with
      | verbose =>
        simp only [if_pos, hl]
        cases W.node fmts k i (col + indentW) (indent buf col ++ str "[[" ++ name ++ str "]]\n") with
        | none => rfl
        | some b => exact ih _
      | _ =>
        simp only [hl, reduceCtorEq, if_false]
        cases W.node fmts k i col (indent (indent buf col ++ str "[[" ++ name ++ str "]]\n") col) with
        | none => rfl
        | some b => exact ih _

theorem cntrInline_eq (hb : Below nav rec fmts s) (col : Nat) : ∀ (ns : List (Str × NavNode)) (l : Fields) (i : Nat) (buf : Str), ChainF nav i ns l →
    (∀ k ∈ l, k.2.size < s) →
    ns.foldlM (fun buf (p : Str × NavNode) => (rec p.2 col (buf ++ p.1 ++ assigner ++ [' '])).map (· ++ separator)) buf = W.cntrInline fmts l i col buf
  | [], [], i, buf, _, _ => by rw [W.cntrInline]; rfl
  | n :: ns, (nm, k) :: ks, i, buf, ⟨h1, h2, h3, h4, h5⟩, hs => by
    simp only at h3
    rw [List.foldlM_cons, W.cntrInline, h3, below hb h1 h2 h4 (hs (nm, k) (by simp))]
    simp only []
    cases W.node fmts k i col (buf ++ nm ++ assigner ++ [' ']) with
    | none => rfl
    | some b => exact cntrInline_eq hb col ns ks _ _ h5 (fun x hx => hs x (by simp [hx]))

theorem fieldMapping_eq (buf name : Str) (n : NavNode) (col : Nat) :
    fieldMapping rec buf name n col =
      (rec n (col + (name ++ assigner ++ [' ']).length) (buf ++ (name ++ assigner ++ [' ']))).map (· ++ ['\n']) := by
  rw [fieldMapping]
  have : written buf (buf ++ name ++ assigner ++ [' ']) = (name ++ assigner ++ [' ']).length := by
    simp only [written, List.length_append]; omega
  show (rec n (col + written buf (buf ++ name ++ assigner ++ [' '])) (buf ++ name ++ assigner ++ [' '])).map _ = _
  rw [this]
  simp only [List.append_assoc]

theorem cntrConcise_eq (hb : Below nav rec fmts s) (c : Nat) : ∀ (ns : List (Str × NavNode)) (l : Fields) (i : Nat) (buf : Str), ChainF nav i ns l →
    (∀ k ∈ l, k.2.size < s) →
    ns.foldlM (fun buf (p : Str × NavNode) => fieldMapping rec (indent buf c) p.1 p.2 c) buf = W.cntrConcise fmts l i c buf
  | [], [], i, buf, _, _ => by rw [W.cntrConcise]; rfl
  | n :: ns, (nm, k) :: ks, i, buf, ⟨h1, h2, h3, h4, h5⟩, hs => by
    simp only at h3
    rw [List.foldlM_cons, W.cntrConcise, fieldMapping_eq, h3, below hb h1 h2 h4 (hs (nm, k) (by simp))]
    simp only []
    cases W.node fmts k i (c + (nm ++ assigner ++ [' ']).length) (indent buf c ++ (nm ++ assigner ++ [' '])) with
    | none => rfl
    | some b => exact cntrConcise_eq hb c ns ks _ _ h5 (fun x hx => hs x (by simp [hx]))

theorem mapInline_eq (hb : Below nav rec fmts s) (col : Nat) : ∀ (ns : List (NavNode × NavNode)) (l : KMap) (i : Nat) (buf : Str), ChainM nav i ns l →
    (∀ k ∈ l, k.1.size < s ∧ k.2.size < s) →
    ns.foldlM (fun buf (p : NavNode × NavNode) =>
      (rec p.1 col buf).bind fun buf => (rec p.2 col (buf ++ keysAssigner ++ [' '])).map (· ++ separator)) buf = W.mapInline fmts l i col buf
  | [], [], i, buf, _, _ => by rw [W.mapInline]; rfl
  | n :: ns, (k, v) :: ks, i, buf, ⟨⟨h1, h2, h3⟩, ⟨g1, g2, g3⟩, h4⟩, hs => by
    obtain ⟨s1, s2⟩ := hs (k, v) (by simp)
    rw [List.foldlM_cons, W.mapInline, below hb h1 h2 h3 s1]
    simp only []
    cases W.node fmts k i col buf with
    | none => rfl
    | some b =>
      simp only [Option.bind_some]
      rw [below hb g1 g2 g3 s2]
      simp only []
      cases W.node fmts v (i + k.size) col (b ++ keysAssigner ++ [' ']) with
      | none => rfl
      | some b => exact mapInline_eq hb col ns ks _ _ h4 (fun x hx => hs x (by simp [hx]))

theorem mapConcise_eq (hb : Below nav rec fmts s) (c : Nat) : ∀ (ns : List (NavNode × NavNode)) (l : KMap) (i : Nat) (buf : Str), ChainM nav i ns l →
    (∀ k ∈ l, k.1.size < s ∧ k.2.size < s) →
    ns.foldlM (fun buf (p : NavNode × NavNode) => keyAndValue rec fmts (indent buf c) p.1 p.2 c) buf = W.mapConcise fmts l i c buf
  | [], [], i, buf, _, _ => by rw [W.mapConcise]; rfl
  | n :: ns, (k, v) :: ks, i, buf, ⟨⟨h1, h2, h3⟩, ⟨g1, g2, g3⟩, h4⟩, hs => by
    obtain ⟨s1, s2⟩ := hs (k, v) (by simp)
    rw [List.foldlM_cons, W.mapConcise, keyAndValue, below hb h1 h2 h3 s1, h2]
    simp only []
    cases fmts[i]? with
    | none => rfl
    | some kf =>
      simp only []
      cases W.node fmts k i c (indent buf c) with
      | none => rfl
      | some b =>
        simp only []
        rw [below hb g1 g2 g3 s2]
        simp only []
        cases W.node fmts v (i + k.size) (c + if kf.line = .inline then written (indent buf c) (b ++ keysAssigner ++ [' '])
          else 2 + keysAssigner.length) (b ++ keysAssigner ++ [' ']) with
        | none => rfl
        | some b => exact mapConcise_eq hb c ns ks _ _ h4 (fun x hx => hs x (by simp [hx]))

theorem node_none {k : Kserd} {i : Nat} (h : fmts[i]? = none) (c : Nat) (b : Str) : W.node fmts k i c b = none := by
  obtain ⟨id, v⟩ := k
  cases v <;> simp only [W.node, h]

theorem mapVerbose_eq (hb : Below nav rec fmts s) (name : Str) (col : Nat) : ∀ (ns : List (NavNode × NavNode)) (l : KMap) (i : Nat) (buf : Str),
    ChainM nav i ns l → (∀ k ∈ l, k.1.size < s ∧ k.2.size < s) →
    ns.foldlM (fun buf (p : NavNode × NavNode) =>
        let buf := buf ++ str "[[" ++ name ++ str "]]\n"
        match fmts[p.2.idx]? with
        | none => none
        | some vf =>
          match vf.line with
          | .verbose => (rec p.1 col buf).bind fun buf => (rec p.2 (col + indentW) (buf ++ keysAssigner ++ ['\n'])).map (· ++ ['\n'])
          | _ => keyAndValue rec fmts buf p.1 p.2 col) buf = W.mapVerbose fmts name l i col buf
  | [], [], i, buf, _, _ => by rw [W.mapVerbose]; rfl
  | n :: ns, (k, v) :: ks, i, buf, ⟨⟨h1, h2, h3⟩, ⟨g1, g2, g3⟩, h4⟩, hs => by
    obtain ⟨s1, s2⟩ := hs (k, v) (by simp)
    have ih := fun b => mapVerbose_eq hb name col ns ks (i + k.size + v.size) b h4 (fun x hx => hs x (by simp [hx]))
    rw [List.foldlM_cons, W.mapVerbose]
    simp only [keyAndValue, below hb h1 h2 h3 s1, below hb g1 g2 g3 s2, h2, g2]
    cases hk : fmts[i]? with
    | none =>
      have : ∀ c b, W.node fmts k i c b = none := fun c b => node_none hk c b
      cases fmts[i + k.size]? with
      | none => rfl
      | some vf => cases hl : vf.line <;> simp only [hl, this] <;> rfl
    | some kf =>
      cases fmts[i + k.size]? with
      | none => rfl
      | some vf =>
        cases hl : vf.line with
        | verbose =>
          simp only [hl, if_pos]
          cases W.node fmts k i col (buf ++ str "[[" ++ name ++ str "]]\n") with
          | none => rfl
          | some b =>
            simp only [Option.bind_some]
            cases W.node fmts v (i + k.size) (col + indentW) (b ++ keysAssigner ++ ['\n']) with
            | none => rfl
            | some b => exact ih _
        | _ =>
          simp only [hl, reduceCtorEq, if_false]
          cases W.node fmts k i col (buf ++ str "[[" ++ name ++ str "]]\n") with
          | none => rfl
          | some b =>
            simp only []
            cases W.node fmts v (i + k.size) (col + if kf.line = .inline then written (buf ++ str "[[" ++ name ++ str "]]\n")
              (b ++ keysAssigner ++ [' ']) else 2 + keysAssigner.length) (b ++ keysAssigner ++ [' ']) with
            | none => rfl
            | some b => exact ih _

/-! ## The writers -/

theorem tuples_eq {root : Kserd} (hb : Below (Nav.new root) rec fmts s) {n : NavNode} (hn : (Nav.new root)[n.idx]? = some n) (hs : n.kserd.size ≤ s)
    {ns : List NavNode} (hv : Nav.value (Nav.new root) n = .tuple ns) (col : Nat) (buf : Str) :
    tuples rec fmts n col ns buf = W.node fmts n.kserd n.idx col buf := by
  have hc := value_chain hn
  rcases hk : n.kserd with ⟨id, v⟩
  rw [hv] at hc
  have hsz := fun x hx => Nat.lt_of_lt_of_le (SV.size_kid (k := n.kserd) (x := x) hx) hs
  rw [hk] at hc hsz
  simp only [Kserd.val] at hc hsz
  cases v <;> simp only at hc
  rename_i l
  simp only [tuples, W.node, hk, Kserd.id]
  cases fmts[n.idx]? with
  | none => rfl
  | some f =>
    simp only []
    cases hl : f.line with
    | inline =>
      simp only [delimWriter]
      rw [listInline_eq hb col ns l _ _ hc.1 hsz, Option.map_map]
      congr 1; funext b
      simp only [Function.comp, rmTrailing_eq, hc.2]
      cases l <;> rfl
    | concise =>
      simp only [delimWriter]
      rw [listConcise_eq hb _ ns l _ _ hc.1 hsz, Option.map_map]
      rfl
    | verbose => rfl

theorem seqs_eq {root : Kserd} (hb : Below (Nav.new root) rec fmts s) {n : NavNode} (hn : (Nav.new root)[n.idx]? = some n) (hs : n.kserd.size ≤ s)
    {ns : List NavNode} (hv : Nav.value (Nav.new root) n = .seq ns) (col : Nat) (buf : Str) :
    seqs rec fmts n col ns none buf = W.node fmts n.kserd n.idx col buf ∧
      ∀ (f : Fmt) (name : Str) (l : List Kserd), fmts[n.idx]? = some f → f.line = .verbose → n.kserd.val = .seq l →
        seqs rec fmts n col ns (some name) buf = W.seqVerbose fmts name l (n.idx + 1) col buf := by
  have hc := value_chain hn
  rcases hk : n.kserd with ⟨id, v⟩
  rw [hv] at hc
  have hsz := fun x hx => Nat.lt_of_lt_of_le (SV.size_kid (k := n.kserd) (x := x) hx) hs
  rw [hk] at hc hsz
  simp only [Kserd.val] at hc hsz
  cases v <;> simp only at hc
  rename_i l
  constructor
  · simp only [seqs, W.node, hk, Kserd.id]
    cases fmts[n.idx]? with
    | none => rfl
    | some f =>
      simp only []
      cases hl : f.line with
      | inline =>
        simp only [delimWriter]
        rw [listInline_eq hb col ns l _ _ hc.1 hsz, Option.map_map]
        congr 1; funext b
        simp only [Function.comp, rmTrailing_eq, hc.2]
        cases l <;> rfl
      | _ =>
        simp only [delimWriter]
        rw [listConcise_eq hb _ ns l _ _ hc.1 hsz, Option.map_map, List.append_assoc]
        rfl
  · intro f name l' hf hl e
    simp only [Kserd.val, Value.seq.injEq] at e
    subst e
    simp only [seqs, hf, hl]
    exact seqVerbose_eq hb name col ns l _ _ hc.1 hsz

theorem maps_eq {root : Kserd} (hb : Below (Nav.new root) rec fmts s) {n : NavNode} (hn : (Nav.new root)[n.idx]? = some n) (hs : n.kserd.size ≤ s)
    {ns : List (NavNode × NavNode)} (hv : Nav.value (Nav.new root) n = .map ns) (col : Nat) (buf : Str) :
    maps rec fmts n col ns none buf = W.node fmts n.kserd n.idx col buf ∧
      ∀ (f : Fmt) (name : Str) (l : KMap), fmts[n.idx]? = some f → f.line = .verbose → n.kserd.val = .map l →
        maps rec fmts n col ns (some name) buf = W.mapVerbose fmts name l (n.idx + 1) col buf := by
  have hc := value_chain hn
  rcases hk : n.kserd with ⟨id, v⟩
  rw [hv] at hc
  have hsz := fun x hx => Nat.lt_of_lt_of_le (SV.size_kid (k := n.kserd) (x := x) hx) hs
  rw [hk] at hc hsz
  simp only [Kserd.val] at hc hsz
  cases v <;> simp only at hc
  rename_i l
  have hsz : ∀ k ∈ l, k.1.size < s ∧ k.2.size < s := fun k hk =>
    ⟨hsz _ (List.mem_flatMap.mpr ⟨k, hk, by simp⟩), hsz _ (List.mem_flatMap.mpr ⟨k, hk, by simp⟩)⟩
  constructor
  · simp only [maps, W.node, hk, Kserd.id]
    cases fmts[n.idx]? with
    | none => rfl
    | some f =>
      simp only []
      cases hl : f.line with
      | inline =>
        simp only [delimWriter]
        rw [mapInline_eq hb col ns l _ _ hc.1 hsz, Option.map_map, hc.2]
        cases l with
        | nil => simp [rmTrailing_eq, Function.comp_def]
        | cons x r =>
          simp only [List.isEmpty_cons, Bool.not_false, if_true, Bool.false_eq_true, if_false, List.append_assoc]
          congr 1; funext b
          simp [rmTrailing_eq]
      | _ =>
        simp only [delimWriter]
        rw [mapConcise_eq hb _ ns l _ _ hc.1 hsz, Option.map_map, List.append_assoc]
        rfl
  · intro f name l' hf hl e
    simp only [Kserd.val, Value.map.injEq] at e
    subst e
    simp only [maps, hf, hl]
    exact mapVerbose_eq hb name col ns l _ _ hc.1 hsz

/-- What `cntr::write` writes for a node. -/
def CntrOk (root : Kserd) (fmts : List Fmt) (cw : NavNode → Nat → Bool → List (Str × NavNode) → Str → Option Str) (n : NavNode) : Prop :=
  ∀ (ns : List (Str × NavNode)) (col : Nat) (buf : Str), Nav.value (Nav.new root) n = .cntr ns →
    cw n col true ns buf = W.node fmts n.kserd n.idx col buf ∧
      ∀ (f : Fmt) (l : Fields), fmts[n.idx]? = some f → f.line = .verbose → n.kserd.val = .cntr l →
        cw n col false ns buf = W.cntrVerbose fmts l (n.idx + 1) col buf

theorem cntrVerbose_eq {root : Kserd} (hb : Below (Nav.new root) rec fmts s)
    {cw : NavNode → Nat → Bool → List (Str × NavNode) → Str → Option Str}
    (hcw : ∀ m, (Nav.new root)[m.idx]? = some m → m.kserd.size < s → CntrOk root fmts cw m) (col : Nat) :
    ∀ (ns : List (Str × NavNode)) (l : Fields) (i : Nat) (buf : Str), ChainF (Nav.new root) i ns l → (∀ k ∈ l, k.2.size < s) →
    ns.foldlM (fun buf (p : Str × NavNode) =>
          match fmts[p.2.idx]? with
          | none => none
          | some vf =>
            match vf.line, Nav.value (Nav.new root) p.2 with
            | .verbose, .cntr m =>
              let buf := indent (buf ++ ['\n']) col ++ '[' :: p.1
              let buf := if vf.id then
                  match p.2.kserd.id with
                  | some id => buf ++ ':' :: id
                  | none => buf
                else buf
              cw p.2 (col + indentW) false m (buf ++ str "]\n")
            | .verbose, .seq s => (seqs rec fmts p.2 col s (some p.1) (buf ++ ['\n'])).map pop
            | .verbose, .map m => maps rec fmts p.2 col m (some p.1) (buf ++ ['\n'])
            | _, _ => fieldMapping rec (indent buf col) p.1 p.2 col) buf = W.cntrVerbose fmts l i col buf
  | [], [], i, buf, _, _ => by rw [W.cntrVerbose]; rfl
  | n :: ns, (nm, k) :: ks, i, buf, ⟨h1, h2, h3, h4, h5⟩, hs => by
    have ih := fun b => cntrVerbose_eq hb hcw col ns ks (i + k.size) b h5 (fun x hx => hs x (by simp [hx]))
    have hsk := hs (nm, k) (by simp)
    simp only at h3 h4 hsk
    have hn : (Nav.new root)[n.2.idx]? = some n.2 := by rw [h2]; exact h1
    rw [List.foldlM_cons, W.cntrVerbose]
    have plain : ∀ (buf : Str), ((fieldMapping rec (indent buf col) n.1 n.2 col).bind fun b => W.cntrVerbose fmts ks (i + k.size) col b) =
        match (W.node fmts k i (col + (nm ++ assigner ++ [' ']).length) (indent buf col ++ (nm ++ assigner ++ [' ']))).map (· ++ ['\n']) with
        | none => none
        | some buf => W.cntrVerbose fmts ks (i + k.size) col buf := by
      intro buf
      rw [fieldMapping_eq, h3, below hb h1 h2 h4 hsk]
      cases W.node fmts k i (col + (nm ++ assigner ++ [' ']).length) (indent buf col ++ (nm ++ assigner ++ [' '])) <;> rfl
    rw [h2]
    cases hf : fmts[i]? with
    | none => rfl
    | some vf =>
      simp only [ih]
      have hf' : fmts[n.2.idx]? = some vf := by rw [h2]; exact hf
      have hc := value_chain hn
      rw [h4] at hc
      cases hl : vf.line with
      | verbose =>
        obtain ⟨vid, v⟩ := k
        simp only [Kserd.val] at hc
        cases v with
        | cntr l =>
          cases hv : Nav.value (Nav.new root) n.2 <;> rw [hv] at hc <;> simp only at hc
          rename_i m
          have := fun col buf => (hcw n.2 hn (by rw [h4]; exact hsk) m col buf hv).2 vf l hf' hl (by rw [h4]; rfl)
          simp only [this, h2, h3, h4, Kserd.id, W.nested, nests, Kserd.val, and_self, if_true]
          generalize W.cntrVerbose fmts l (i + 1) (col + indentW) _ = r
          cases r <;> rfl
        | seq l =>
          cases hv : Nav.value (Nav.new root) n.2 <;> rw [hv] at hc <;> simp only at hc
          rename_i m
          have := fun col buf => (seqs_eq hb hn (by rw [h4]; omega) hv col buf).2 vf nm l hf' hl (by rw [h4]; rfl)
          simp only [h3, this, h2, W.nested, nests, Kserd.val, and_self, if_true]
          generalize W.seqVerbose fmts nm l (i + 1) col _ = r
          cases r <;> rfl
        | map l =>
          cases hv : Nav.value (Nav.new root) n.2 <;> rw [hv] at hc <;> simp only at hc
          rename_i m
          have := fun col buf => (maps_eq hb hn (by rw [h4]; omega) hv col buf).2 vf nm l hf' hl (by rw [h4]; rfl)
          simp only [h3, this, h2, W.nested, nests, Kserd.val, and_self, if_true]
          generalize W.mapVerbose fmts nm l (i + 1) col _ = r
          cases r <;> rfl
        | _ =>
          cases hv : Nav.value (Nav.new root) n.2 <;> rw [hv] at hc <;> simp only at hc
          simp only [nests, Kserd.val, Bool.false_eq_true, and_false, if_false]
          exact plain buf
      | _ =>
        simp only [reduceCtorEq, false_and, if_false]
        exact plain buf

theorem cntr_eq {root : Kserd} {fuel : Nat} (hb : Below (Nav.new root) (writeNode (Nav.new root) fmts fuel) fmts s)
    (hcw : ∀ m, (Nav.new root)[m.idx]? = some m → m.kserd.size < s → CntrOk root fmts (cntr (Nav.new root) fmts fuel) m)
    {n : NavNode} (hn : (Nav.new root)[n.idx]? = some n) (hs : n.kserd.size ≤ s) : CntrOk root fmts (cntr (Nav.new root) fmts (fuel + 1)) n := by
  intro ns col buf hv
  have hc := value_chain hn
  rcases hk : n.kserd with ⟨id, v⟩
  rw [hv] at hc
  have hsz := fun x hx => Nat.lt_of_lt_of_le (SV.size_kid (k := n.kserd) (x := x) hx) hs
  rw [hk] at hc hsz
  simp only [Kserd.val] at hc hsz
  cases v <;> simp only at hc
  rename_i l
  have hsz : ∀ k ∈ l, k.2.size < s := fun k hk => hsz _ (List.mem_map_of_mem hk)
  constructor
  · simp only [cntr, W.node, hk, Kserd.id]
    cases fmts[n.idx]? with
    | none => rfl
    | some f =>
      simp only []
      cases hl : f.line with
      | inline =>
        simp only [delimWriter]
        rw [cntrInline_eq hb col ns l _ _ hc.1 hsz, Option.map_map]
        congr 1; funext b
        simp only [Function.comp, rmTrailing_eq, hc.2]
        cases l <;> rfl
      | concise =>
        simp only [delimWriter]
        rw [cntrConcise_eq hb _ ns l _ _ hc.1 hsz, Option.map_map, List.append_assoc]
        rfl
      | verbose =>
        simp only [Bool.and_true]
        exact cntrVerbose_eq hb hcw col ns l _ _ hc.1 hsz
  · intro f l' hf hl e
    simp only [Kserd.val, Value.cntr.injEq] at e
    subst e
    simp only [cntr, hf, hl, Bool.and_false, Bool.false_eq_true, if_false]
    exact cntrVerbose_eq hb hcw col ns l _ _ hc.1 hsz

theorem writeNode_eq (root : Kserd) (fmts : List Fmt) : ∀ fuel,
    (∀ n, (Nav.new root)[n.idx]? = some n → 2 * n.kserd.size ≤ fuel → Ok (writeNode (Nav.new root) fmts fuel) fmts n) ∧
    (∀ n, (Nav.new root)[n.idx]? = some n → 2 * n.kserd.size ≤ fuel + 1 → CntrOk root fmts (cntr (Nav.new root) fmts fuel) n)
  | 0 => ⟨fun n _ h => by have := size_pos n.kserd; omega, fun n _ h => by have := size_pos n.kserd; omega⟩
  | fuel + 1 => by
    obtain ⟨h1, h2⟩ := writeNode_eq root fmts fuel
    constructor
    · intro n hn hs col buf
      have hb : Below (Nav.new root) (writeNode (Nav.new root) fmts fuel) fmts n.kserd.size := fun m hm hlt => h1 m hm (by omega)
      rw [writeNode]
      cases hv : Nav.value (Nav.new root) n with
      | primitive =>
        have hc := value_chain hn
        rw [hv] at hc
        rcases hk : n.kserd with ⟨id, v⟩
        rw [hk] at hc
        simp only [Kserd.val] at hc
        cases v <;> simp only at hc <;> simp only [W.node, Kserd.id, Kserd.val] <;> cases fmts[n.idx]? <;> rfl
      | tuple ns => exact tuples_eq hb hn (Nat.le_refl _) hv col buf
      | seq ns => exact (seqs_eq hb hn (Nat.le_refl _) hv col buf).1
      | map ns => exact (maps_eq hb hn (Nat.le_refl _) hv col buf).1
      | cntr ns => exact (h2 n hn (by omega) ns col buf hv).1
    · intro n hn hs
      exact cntr_eq (s := n.kserd.size) (fun m hm hlt => h1 m hm (by omega)) (fun m hm hlt => h2 m hm (by omega)) hn (Nat.le_refl _)

end KS.NW
