import Verif.Spec.Iter
import Verif.Model.NavIter
import Verif.Props.Nav
import Verif.Lemmas.Debug
import Verif.Lemmas.RtDec
/-!
# C69: iterators over nodes, and the `Debug` text of nodes
-/

namespace KS.Props
open KS.Spec KS.Nav

/-- An invariant between states and what is to come. -/
theorem steps {σ α : Type} {next : σ → Option α × σ} (R : σ → List α → Prop) (h0 : ∀ s, R s [] → (next s).1 = none ∧ R (next s).2 [])
    (h1 : ∀ s x l, R s (x :: l) → (next s).1 = some x ∧ R (next s).2 l) : ∀ (j : Nat) (s : σ) (l : List α), R s l →
    (next (stateAfter next j s)).1 = l[j]? ∧ R (stateAfter next j s) (l.drop j)
  | 0, s, [], h => ⟨(h0 s h).1, h⟩
  | 0, s, x :: l, h => ⟨(h1 s x l h).1, h⟩
  | j + 1, s, [], h => by simpa [stateAfter] using steps R h0 h1 j _ _ (h0 s h).2
  | j + 1, s, x :: l, h => by simpa [stateAfter] using steps R h0 h1 j _ _ (h1 s x l h).2

theorem counts_of {σ α : Type} {next : σ → Option α × σ} {len : σ → Nat} {isEmpty : σ → Bool} (R : σ → List α → Prop)
    (h0 : ∀ s, R s [] → (next s).1 = none ∧ R (next s).2 []) (h1 : ∀ s x l, R s (x :: l) → (next s).1 = some x ∧ R (next s).2 l)
    (h2 : ∀ s l, R s l → len s = l.length ∧ (isEmpty s = l.isEmpty)) {s : σ} {l : List α} (h : R s l) :
    Gives next s l ∧ Counts next len isEmpty s l := by
  refine ⟨fun j => (steps R h0 h1 j s l h).1, fun j => ?_⟩
  obtain ⟨a, b⟩ := h2 _ _ (steps R h0 h1 j s l h).2
  rw [a, b, List.length_drop]
  refine ⟨rfl, ?_⟩
  rw [List.isEmpty_iff, List.drop_eq_nil_iff]

theorem seq_gives (nav : Navigator) {idxs : List Nat} {l : List NavNode} (h : l.map some = idxs.map (fun j => nav[j]?)) :
    Gives (SeqIter.next nav) ⟨idxs⟩ l ∧ Counts (SeqIter.next nav) SeqIter.len SeqIter.isEmpty ⟨idxs⟩ l := by
  refine counts_of (fun it l => l.map some = it.seq.map (fun j => nav[j]?)) ?_ ?_ ?_ h
  · rintro ⟨s⟩ h
    cases s with
    | nil => exact ⟨rfl, rfl⟩
    | cons a s => simp at h
  · rintro ⟨s⟩ x l h
    cases s with
    | nil => simp at h
    | cons a s =>
      simp only [List.map_cons, List.cons.injEq] at h
      exact ⟨h.1.symm, h.2⟩
  · rintro ⟨s⟩ l h
    have hl := congrArg List.length h
    simp only [List.length_map] at hl
    refine ⟨hl.symm, ?_⟩
    cases s <;> cases l <;> first | rfl | simp at hl

theorem named_gives (nav : Navigator) {names : List Str} {idxs : List Nat} {l : List (Str × NavNode)} (hn : l.map (·.1) = names)
    (h : l.map (fun p => some p.2) = idxs.map (fun j => nav[j]?)) :
    Gives (NamedIter.next nav) ⟨names, idxs⟩ l ∧ Counts (NamedIter.next nav) NamedIter.len NamedIter.isEmpty ⟨names, idxs⟩ l := by
  refine counts_of (fun it l => l.map (·.1) = it.names ∧ l.map (fun p => some p.2) = it.values.map (fun j => nav[j]?)) ?_ ?_ ?_ ⟨hn, h⟩
  · rintro ⟨m, s⟩ ⟨hm, h⟩
    cases hm
    cases s with
    | nil => exact ⟨rfl, rfl, rfl⟩
    | cons a s => simp at h
  · rintro ⟨m, s⟩ ⟨y, x⟩ l ⟨hm, h⟩
    cases hm
    cases s with
    | nil => simp at h
    | cons a s =>
      simp only [List.map_cons, List.cons.injEq] at h
      exact ⟨by simp [NamedIter.next, ← h.1], rfl, h.2⟩
  · rintro ⟨m, s⟩ l ⟨-, h⟩
    have hl := congrArg List.length h
    simp only [List.length_map] at hl
    refine ⟨hl.symm, ?_⟩
    cases s <;> cases l <;> first | rfl | simp at hl

theorem keyed_gives (nav : Navigator) {keys idxs : List Nat} {l : List (NavNode × NavNode)} (hk : l.map (fun p => some p.1) = keys.map (fun j => nav[j]?))
    (h : l.map (fun p => some p.2) = idxs.map (fun j => nav[j]?)) :
    Gives (KeyedIter.next nav) ⟨keys, idxs⟩ l ∧ Counts (KeyedIter.next nav) KeyedIter.len KeyedIter.isEmpty ⟨keys, idxs⟩ l := by
  refine counts_of (fun it l => l.map (fun p => some p.1) = it.keys.map (fun j => nav[j]?) ∧ l.map (fun p => some p.2) = it.values.map (fun j => nav[j]?))
    ?_ ?_ ?_ ⟨hk, h⟩
  · rintro ⟨m, s⟩ ⟨hm, h⟩
    cases m with
    | nil =>
      cases s with
      | nil => exact ⟨rfl, rfl, rfl⟩
      | cons a s => simp at h
    | cons a m => simp at hm
  · rintro ⟨m, s⟩ ⟨y, x⟩ l ⟨hm, h⟩
    cases m with
    | nil => simp at hm
    | cons b m =>
      cases s with
      | nil => simp at h
      | cons a s =>
        simp only [List.map_cons, List.cons.injEq] at h hm
        simp only [KeyedIter.next, ← h.1, ← hm.1]
        exact ⟨rfl, hm.2, h.2⟩
  · rintro ⟨m, s⟩ l ⟨-, h⟩
    have hl := congrArg List.length h
    simp only [List.length_map] at hl
    refine ⟨hl.symm, ?_⟩
    cases s <;> cases l <;> first | rfl | simp at hl

/-- Iterating over all nodes gives the Kserds of the tree in depth-first order, at the positions `get` finds them at; `len` counts them. -/
theorem C69_nodes (root : Kserd) : ∃ l : List NavNode, Gives NodeIter.next (nodes (Nav.new root)) l ∧ l.map (·.kserd) = preorder root ∧
    (∀ i, get (Nav.new root) i = l[i]?) ∧ len (Nav.new root) = (preorder root).length ∧ isEmpty (Nav.new root) = false := by
  have hp := (C18_preorder root).1
  refine ⟨Nav.new root, ?_, hp, fun i => rfl, ?_, ?_⟩
  · refine fun j => (steps (next := NodeIter.next) (fun it l => it.iter = l) ?_ ?_ j (nodes (Nav.new root)) _ rfl).1
    · rintro ⟨s⟩ h; cases h; exact ⟨rfl, rfl⟩
    · rintro ⟨s⟩ x l h; cases h; exact ⟨rfl, rfl⟩
  · rw [← hp, List.length_map]; rfl
  · obtain ⟨n, hn, -⟩ := (C18_preorder root).2.2
    show (Nav.new root).isEmpty = false
    cases h : Nav.new root with
    | nil => rw [h] at hn; cases hn
    | cons => rfl

/-- The nodes of a list are the children of node `i`, at their places. -/
def ChildrenOf (root : Kserd) (i : Nat) (key : Bool) (l : List NavNode) : Prop :=
  ∀ (x : Nat) (m : NavNode), l[x]? = some m → (Nav.new root)[m.idx]? = some m ∧ Nav.parent (Nav.new root) m = (Nav.new root)[i]? ∧ isKey m = key ∧ idxInParent m = x

theorem childrenOf {root : Kserd} {i : Nat} {n : NavNode} (h : (Nav.new root)[i]? = some n) {l : List NavNode} :
    (l.map some = n.valueChildren.map (fun j => (Nav.new root)[j]?) → ChildrenOf root i false l) ∧
    (l.map some = n.keyChildren.map (fun j => (Nav.new root)[j]?) → ChildrenOf root i true l) := by
  obtain ⟨_, _, h3, h4, h5, _, _⟩ := C19_links root i n h
  have key : ∀ {idxs : List Nat}, l.map some = idxs.map (fun j => (Nav.new root)[j]?) → ∀ (x : Nat) (m : NavNode), l[x]? = some m → ∃ j, idxs[x]? = some j ∧ (Nav.new root)[j]? = some m := by
    intro idxs e x m hx
    have := congrArg (fun l => l[x]?) e
    simp only [List.getElem?_map, hx, Option.map_some] at this
    cases hj : idxs[x]? with
    | none => rw [hj] at this; cases this
    | some j => rw [hj] at this; exact ⟨j, rfl, (Option.some.inj this).symm⟩
  constructor
  · intro e x m hx
    obtain ⟨j, hj, hm⟩ := key e x m hx
    have hi := (C18_preorder root).2.1 j m hm
    obtain ⟨p, q⟩ := (h3 j m hm).1.mp (List.mem_of_getElem? hj)
    obtain ⟨m', hm', hx'⟩ := h4 x j hj
    rw [hm] at hm'; cases hm'
    exact ⟨by rw [hi]; exact hm, by rw [Nav.parent, p]; rfl, q, hx'⟩
  · intro e x m hx
    obtain ⟨j, hj, hm⟩ := key e x m hx
    have hi := (C18_preorder root).2.1 j m hm
    obtain ⟨p, q⟩ := (h3 j m hm).2.mp (List.mem_of_getElem? hj)
    obtain ⟨m', hm', hx'⟩ := h5 x j hj
    rw [hm] at hm'; cases hm'
    exact ⟨by rw [hi]; exact hm, by rw [Nav.parent, p]; rfl, q, hx'⟩

/-- The iterators `value_children` and `key_children` give a node for each value and each key, in order, and count them. -/
theorem C69_children (root : Kserd) (i : Nat) (n : NavNode) (h : get (Nav.new root) i = some n) :
    (∃ l, Gives (SeqIter.next (Nav.new root)) (valueIter n) l ∧ Counts (SeqIter.next (Nav.new root)) SeqIter.len SeqIter.isEmpty (valueIter n) l ∧
      l.map (·.kserd) = valuesOf n.kserd.val ∧ ChildrenOf root i false l) ∧
    (∃ l, Gives (SeqIter.next (Nav.new root)) (keyIter n) l ∧ Counts (SeqIter.next (Nav.new root)) SeqIter.len SeqIter.isEmpty (keyIter n) l ∧
      l.map (·.kserd) = keysOf n.kserd.val ∧ ChildrenOf root i true l) := by
  obtain ⟨_, _, _, _, _, h6, h7⟩ := C19_links root i n h
  obtain ⟨a, b⟩ := seqItems_all _ _ _ h6
  obtain ⟨c, d⟩ := seqItems_all _ _ _ h7
  exact ⟨⟨_, (seq_gives _ b).1, (seq_gives _ b).2, a, (childrenOf h).1 b⟩, ⟨_, (seq_gives _ d).1, (seq_gives _ d).2, c, (childrenOf h).2 d⟩⟩

/-- The iterator of `value`: the kind is that of the Kserd, and it gives the elements, the fields with their names, the entries with their keys. -/
theorem C69_value (root : Kserd) (i : Nat) (n : NavNode) (h : get (Nav.new root) i = some n) :
    match n.kserd.val, iters n with
    | .tuple ks, .tuple it => ∃ l, Gives (SeqIter.next (Nav.new root)) it l ∧ Counts (SeqIter.next (Nav.new root)) SeqIter.len SeqIter.isEmpty it l ∧
        l.map (·.kserd) = ks ∧ ChildrenOf root i false l
    | .seq ks, .seq it => ∃ l, Gives (SeqIter.next (Nav.new root)) it l ∧ Counts (SeqIter.next (Nav.new root)) SeqIter.len SeqIter.isEmpty it l ∧
        l.map (·.kserd) = ks ∧ ChildrenOf root i false l
    | .cntr f, .cntr it => ∃ l, Gives (NamedIter.next (Nav.new root)) it l ∧ Counts (NamedIter.next (Nav.new root)) NamedIter.len NamedIter.isEmpty it l ∧
        l.map (fun p => (p.1, p.2.kserd)) = f ∧ ChildrenOf root i false (l.map (·.2))
    | .map m, .map it => ∃ l, Gives (KeyedIter.next (Nav.new root)) it l ∧ Counts (KeyedIter.next (Nav.new root)) KeyedIter.len KeyedIter.isEmpty it l ∧
        l.map (fun p => (p.1.kserd, p.2.kserd)) = m ∧ ChildrenOf root i true (l.map (·.1)) ∧ ChildrenOf root i false (l.map (·.2))
    | .unit, .primitive => True
    | .bool _, .primitive => True
    | .num _, .primitive => True
    | .str _, .primitive => True
    | .barr _, .primitive => True
    | _, _ => False := by
  obtain ⟨_, _, _, _, _, h6, h7⟩ := C19_links root i n h
  cases hv : n.kserd.val with
  | tuple l =>
    rw [hv] at h6; simp only [iters, hv]
    obtain ⟨a, b⟩ := seqItems_all _ _ _ h6
    exact ⟨_, (seq_gives _ b).1, (seq_gives _ b).2, a, (childrenOf h).1 b⟩
  | seq l =>
    rw [hv] at h6; simp only [iters, hv]
    obtain ⟨a, b⟩ := seqItems_all _ _ _ h6
    exact ⟨_, (seq_gives _ b).1, (seq_gives _ b).2, a, (childrenOf h).1 b⟩
  | cntr f =>
    rw [hv] at h6; simp only [iters, hv]
    obtain ⟨a, b⟩ := namedItems_all _ _ _ h6
    have hn := congrArg (List.map Prod.fst) a
    rw [List.map_map] at hn
    exact ⟨_, (named_gives _ hn b).1, (named_gives _ hn b).2, a, (childrenOf h).1 (by rw [List.map_map]; exact b)⟩
  | map m =>
    rw [hv] at h6 h7; simp only [iters, hv]
    obtain ⟨a, b, c⟩ := keyedItems_all _ _ _ _ h7 h6
    exact ⟨_, (keyed_gives _ b c).1, (keyed_gives _ b c).2, a, (childrenOf h).2 (by rw [List.map_map]; exact b), (childrenOf h).1 (by rw [List.map_map]; exact c)⟩
  | _ => simp [iters, hv]

/-! ## `Debug` -/

theorem kindName_inj {a b : Kind} (h : kindName a = kindName b) : a = b := by
  cases a <;> cases b <;> first | rfl | (revert h; decide)

theorem optText_inj {a b : Option Nat} {x y : Str} (h : optText a ++ x = optText b ++ y) : a = b ∧ x = y := by
  cases a with
  | none =>
    cases b with
    | none => exact ⟨rfl, List.append_cancel_left h⟩
    | some b => exact absurd (show some 'N' = some 'S' from congrArg List.head? h) (by decide)
  | some a =>
    cases b with
    | none => exact absurd (show some 'S' = some 'N' from congrArg List.head? h) (by decide)
    | some b =>
      have e : ∀ n : Nat, optText (some n) = KS.str "Some(" ++ natDigits n ++ KS.str ")" := fun _ => rfl
      rw [e, e, List.append_assoc, List.append_assoc, List.append_assoc, List.append_assoc] at h
      obtain ⟨h1, h2⟩ := Dbg.split_at (c := ')') (Dbg.digits_close (by decide) a) (Dbg.digits_close (by decide) b) (List.append_cancel_left h)
      exact ⟨by rw [Dbg.natDigits_inj h1], h2⟩

/-- The number of a primitive is one. -/
def NumWF (v : Value) : Prop := ∀ x, v = .num x → x.WF

theorem prim_inj {plain : Char → Bool} {v w : Value} {x y : Str} (hv : v.kind = .prim) (hw : w.kind = .prim) (nv : NumWF v) (nw : NumWF w)
    (h : Dbg.value plain v ++ x = Dbg.value plain w ++ y) : mapNumV oneNan v = mapNumV oneNan w ∧ x = y := by
  have ht := Dbg.value_tag h
  cases v <;> cases w <;> first | (cases ht; done) | (cases hv; done) | (cases hw; done) | skip
  case unit.unit => exact ⟨rfl, List.append_cancel_left h⟩
  case bool.bool a b =>
    rw [Dbg.value_bool, Dbg.value_bool, List.append_assoc, List.append_assoc, List.append_assoc, List.append_assoc] at h
    obtain ⟨rfl, h2⟩ := Dbg.bool_inj (List.append_cancel_left h)
    exact ⟨rfl, List.append_cancel_left h2⟩
  case num.num a b =>
    rw [Dbg.value_num, Dbg.value_num, List.append_assoc, List.append_assoc, List.append_assoc, List.append_assoc] at h
    obtain ⟨h1, h2⟩ := Dbg.number_inj (nv _ rfl) (nw _ rfl) (List.append_cancel_left h)
    exact ⟨congrArg Value.num h1, h2⟩
  case str.str a b =>
    rw [Dbg.value_str, Dbg.value_str, List.append_assoc, List.append_assoc, List.append_assoc, List.append_assoc] at h
    obtain ⟨rfl, h2⟩ := Dbg.quote_inj (List.append_cancel_left h)
    exact ⟨rfl, List.append_cancel_left h2⟩
  case barr.barr a b =>
    rw [Dbg.value_barr, Dbg.value_barr, List.append_assoc, List.append_assoc, List.append_assoc, List.append_assoc] at h
    obtain ⟨rfl, h2⟩ := Dbg.bytes_inj (List.append_cancel_left h)
    exact ⟨rfl, List.append_cancel_left h2⟩

theorem valueText_inj {plain : Char → Bool} {v w : Value} {x y : Str} (hk : v.kind = w.kind) (nv : NumWF v) (nw : NumWF w)
    (h : valueText plain v ++ x = valueText plain w ++ y) : (v.kind = .prim → mapNumV oneNan v = mapNumV oneNan w) ∧ x = y := by
  by_cases hp : v.kind = .prim
  · have hp' := hk ▸ hp
    have e : ∀ v : Value, v.kind = .prim → valueText plain v = KS.str ", value: " ++ Dbg.value plain v := by
      intro v hv; unfold valueText; rw [hv]
    rw [e v hp, e w hp', List.append_assoc, List.append_assoc] at h
    obtain ⟨a, b⟩ := prim_inj hp hp' nv nw (List.append_cancel_left h)
    exact ⟨fun _ => a, b⟩
  · have hp' : w.kind ≠ .prim := hk ▸ hp
    have e : ∀ v : Value, v.kind ≠ .prim → valueText plain v = [] := by
      intro v hv; unfold valueText; split <;> first | contradiction | rfl
    rw [e v hp, e w hp'] at h
    exact ⟨fun h => absurd h hp, h⟩

theorem value_oneNan (plain : Char → Bool) {v w : Value} (h : mapNumV oneNan v = mapNumV oneNan w) :
    Dbg.value plain v = Dbg.value plain w := by
  have e := Dbg.kserd_oneNan (plain := plain) (.mk none v)
  have e' := Dbg.kserd_oneNan (plain := plain) (.mk none w)
  have : mapNum oneNan (.mk none v) = mapNum oneNan (.mk none w) := congrArg (Kserd.mk none) h
  rw [← this, e] at e'
  rw [Dbg.kserd_mk, Dbg.kserd_mk] at e'
  simp only [List.append_assoc] at e'
  have := List.append_cancel_left (List.append_cancel_left (List.append_cancel_left e'))
  exact List.append_cancel_right this

/-- Two nodes have the same text exactly when they have the same identity, kind, value if it is primitive (but for the bits of a NaN), index,
index of the parent, place in the parent, and both are keys or neither is. -/
theorem C69_debug (plain : Char → Bool) (nav nav' : Navigator) (n m : NavNode) (hn : NumWF n.kserd.val) (hm : NumWF m.kserd.val) :
    Nav.debug plain nav n = Nav.debug plain nav' m ↔ n.kserd.id = m.kserd.id ∧ n.kserd.val.kind = m.kserd.val.kind ∧
      (n.kserd.val.kind = .prim → mapNumV oneNan n.kserd.val = mapNumV oneNan m.kserd.val) ∧ n.idx = m.idx ∧
      (parent nav n).map (·.idx) = (parent nav' m).map (·.idx) ∧ isKey n = isKey m ∧ idxInParent n = idxInParent m := by
  constructor
  · intro h
    unfold Nav.debug at h
    simp only [List.append_assoc] at h
    obtain ⟨h1, h⟩ := Dbg.ident_inj (List.append_cancel_left h)
    obtain ⟨h2, h⟩ := Dbg.quote_inj (List.append_cancel_left h)
    have h2 := kindName_inj h2
    obtain ⟨h3, h⟩ := valueText_inj h2 hn hm h
    obtain ⟨h4, h⟩ := Dbg.digits_end (by intro c r e; cases e; decide) (by intro c r e; cases e; decide) (List.append_cancel_left h)
    obtain ⟨h5, h⟩ := optText_inj (List.append_cancel_left h)
    obtain ⟨h6, h⟩ := Dbg.bool_inj (List.append_cancel_left h)
    obtain ⟨h7, -⟩ := Dbg.digits_end (by intro c r e; cases e; decide) (by intro c r e; cases e; decide) (List.append_cancel_left h)
    exact ⟨h1, h2, h3, h4, h5, h6, h7⟩
  · rintro ⟨h1, h2, h3, h4, h5, h6, h7⟩
    unfold Nav.debug
    have hv : valueText plain n.kserd.val = valueText plain m.kserd.val := by
      unfold valueText
      rw [← h2]
      split
      · rename_i hp; rw [value_oneNan plain (h3 hp)]
      · rfl
    rw [h1, h2, hv, h4, h5, h6, h7]

/-- Within a navigator only the same node has the same text. -/
theorem C69_debug_same (plain : Char → Bool) (root : Kserd) (i j : Nat) (n m : NavNode) (hi : get (Nav.new root) i = some n) (hj : get (Nav.new root) j = some m)
    (hn : NumWF n.kserd.val) (hm : NumWF m.kserd.val) (h : Nav.debug plain (Nav.new root) n = Nav.debug plain (Nav.new root) m) : i = j ∧ n = m := by
  have e := ((C69_debug plain _ _ n m hn hm).mp h).2.2.2.1
  rw [(C18_preorder root).2.1 i n hi, (C18_preorder root).2.1 j m hj] at e
  subst e
  exact ⟨rfl, Option.some.inj (hi.symm.trans hj)⟩

private def sample : Kserd := .mk none (.map [
  (.mk none (.num (.uint 1)), .mk (some (KS.str "A b")) (.cntr [(KS.str "x", .mk none (.str (KS.str "q\""))), (KS.str "y", .mk none (.tuple []))])),
  (.mk none .unit, .mk none (.bool true))])

private def ascii (c : Char) : Bool := 32 ≤ c.toNat && c.toNat < 127

private def shown (i : Nat) : Option Str := (get (Nav.new sample) i).map (Nav.debug ascii (Nav.new sample))

example : (shown 0) = some (KS.str "Node { id: None, value-type: \"Map\", index: 0, parent: None, is_key: false, idx_in_parent: 0 }") := by decide +kernel
example : (shown 3) = some (KS.str ("Node { id: None, value-type: \"Primitive\", value: Str(\"q\\\"\"), index: 3, parent: Some(2), is_key: false, " ++
    "idx_in_parent: 0 }")) := by decide +kernel
example : (shown 5) = some (KS.str "Node { id: None, value-type: \"Primitive\", value: Unit, index: 5, parent: Some(0), is_key: true, idx_in_parent: 1 }") := by
  decide +kernel

/-- The hypotheses hold of the second entry's key, and the iterators of the root give two entries. -/
example : ∃ n, get (Nav.new sample) 5 = some n ∧ NumWF n.kserd.val ∧ n.kserd.val = .unit := by
  have : ((get (Nav.new sample) 5).map (·.kserd.val)) = some .unit := by decide +kernel
  cases h : get (Nav.new sample) 5 with
  | none => rw [h] at this; cases this
  | some n =>
    rw [h] at this
    have e : n.kserd.val = .unit := Option.some.inj this
    exact ⟨n, rfl, (fun x hx => by rw [e] at hx; cases hx), e⟩

example : ∃ n it, get (Nav.new sample) 0 = some n ∧ iters n = .map it ∧ it.len = 2 ∧ ((it.next (Nav.new sample)).2.next (Nav.new sample)).2.isEmpty = true :=
  ⟨_, _, rfl, rfl, by decide +kernel, by decide +kernel⟩

end KS.Props
