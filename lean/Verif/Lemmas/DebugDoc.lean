import Verif.Model.DebugPretty
import Verif.Spec.DebugDoc
/-! `Debug` texts as documents. -/

namespace KS.Spec.Lay
open Doc KS.Dbg

theorem lines_append (d : Nat) (s t : Str) : lines d (s ++ t) = lines d s ++ lines d t := by
  unfold lines; rw [List.flatMap_append]

theorem lines_cons (d : Nat) (c : Char) (t : Str) : lines d (c :: t) = (if c = '\n' then '\n' :: blanks d else [c]) ++ lines d t := rfl

theorem lines_zero : ∀ t : Str, lines 0 t = t
  | [] => rfl
  | c :: t => by
    rw [lines_cons, lines_zero t]
    by_cases h : c = '\n'
    · rw [if_pos h, h]; rfl
    · rw [if_neg h]; rfl

theorem lines_blanks (e d : Nat) : lines e (blanks d) = blanks d := by
  unfold lines blanks
  rw [List.flatMap_replicate, if_neg (by decide), List.flatten_replicate_singleton]

theorem blanks_add (d e : Nat) : blanks d ++ blanks e = blanks (d + e) := by
  unfold blanks
  rw [List.replicate_append_replicate, Nat.mul_add]

theorem lines_lines (e d : Nat) : ∀ t : Str, lines e (lines d t) = lines (d + e) t
  | [] => rfl
  | c :: t => by
    rw [lines_cons, lines_append, lines_lines e d t, lines_cons]
    by_cases h : c = '\n'
    · rw [if_pos h, if_pos h, lines_cons, if_pos rfl, lines_blanks, List.cons_append, blanks_add, Nat.add_comm]
    · rw [if_neg h, if_neg h, lines_cons, if_neg h]; rfl

theorem lines_nl (e : Nat) (t : Str) : lines e ('\n' :: t) = '\n' :: (blanks e ++ lines e t) := rfl

mutual
theorem tall_lines (e : Nat) : ∀ (d : Nat) (x : Doc), lines e (tall d x) = tall (d + e) x
  | d, .leaf t => lines_lines e d t
  | d, .cat a b => by
    simp only [tall]
    rw [lines_append, tall_lines e d a, tall_lines e d b]
  | d, .block o g items c => by
    simp only [tall]
    rw [lines_append, lines_append, lines_append, lines_lines, lines_lines, talls_lines e (d + 1) items, lines_nl, lines_blanks, blanks_add,
      Nat.add_comm e d, Nat.add_right_comm]
theorem talls_lines (e : Nat) : ∀ (d : Nat) (l : List Doc), lines e (talls d l) = talls (d + e) l
  | _, [] => rfl
  | d, x :: l => by
    simp only [talls]
    have hc : ∀ t, lines e (',' :: t) = ',' :: lines e t := fun t => by rw [lines_cons, if_neg (by decide)]; rfl
    rw [lines_append, lines_append, lines_nl, lines_blanks, blanks_add, tall_lines e d x, hc, talls_lines e d l, Nat.add_comm e d]
end

theorem pad_line : ∀ (b : Bool) (t : Str), Pretty.padFrom b (t ++ str ",\n") = (if b then blanks 1 else []) ++ (lines 1 t ++ str ",\n")
  | b, [] => by cases b <;> decide
  | b, c :: t => by
    rw [List.cons_append, Pretty.padFrom, pad_line (c == '\n') t, lines_cons]
    have hb : str "    " = blanks 1 := by decide
    by_cases h : c = '\n'
    · subst h; rw [if_pos rfl, hb]; simp
    · rw [if_neg h, hb]
      have : (c == '\n') = false := by simp [h]
      rw [this]; simp

theorem part_tall (x : Doc) : Pretty.part (tall 0 x) = blanks 1 ++ (tall 1 x ++ str ",\n") := by
  rw [Pretty.part, pad_line, tall_lines]; rfl

/-- The parts of a builder. -/
def parts (l : List Doc) : Str := l.flatMap fun x => Pretty.part (tall 0 x)

theorem parts_tall : ∀ l : List Doc, '\n' :: parts l = talls 1 l ++ ['\n']
  | [] => rfl
  | x :: l => by
    have h : parts (x :: l) = Pretty.part (tall 0 x) ++ parts l := rfl
    have h2 : str ",\n" = [',', '\n'] := by decide
    rw [h, part_tall, talls, h2]
    have ih := parts_tall l
    simp only [List.append_assoc, List.cons_append, List.nil_append, ih]

theorem tall_block (o : Str) (g : Bool) (items : List Doc) (c : Str) :
    tall 0 (.block o g items c) = o ++ ('\n' :: parts items ++ c) := by
  simp only [tall]
  rw [parts_tall, lines_zero, lines_zero]
  simp [blanks]

theorem tall_named (n : Str) (x : Doc) : tall 0 (Doc.named n x) = n ++ str ": " ++ tall 0 x := by
  unfold Doc.named; simp only [tall]; rw [lines_zero]

theorem tall_leaf (t : Str) : tall 0 (.leaf t) = t := lines_zero t

theorem flats_cons (d : Doc) : ∀ l : List Doc, flats (d :: l) = flat d ++ l.flatMap fun x => str ", " ++ flat x
  | [] => by rw [flats]; simp
  | e :: l => by
    rw [flats, flats_cons e l]
    simp [List.append_assoc]

/-- The leaves of the model. -/
def leaves (plain : Char → Bool) : Leaves := ⟨natDigits, Dbg.float, quote plain⟩

theorem num_leaf (plain : Char → Bool) (n : Number) : Dbg.number n = (leaves plain).num n := by
  cases n with
  | uint n => rfl
  | int i =>
    rw [Dbg.number, Leaves.num]
    have : intText i = (if i < 0 then ['-'] else []) ++ natDigits i.natAbs := rfl
    rw [this]; simp [leaves]
  | float x => rfl

theorem flats_leaf : ∀ l : List Str, flats (l.map Doc.leaf) = (str ", ").intercalate l
  | [] => rfl
  | [a] => by simp [flats, flat, List.intercalate]
  | a :: b :: l => by
    have ih := flats_leaf (b :: l)
    simp only [List.map_cons] at ih ⊢
    rw [flats, ih]
    simp [flat, List.intercalate]

theorem bytes_leaf (plain : Char → Bool) (b : Bytes) : Dbg.bytes b = (leaves plain).bytes b := by
  rw [Dbg.bytes, Dbg.listed, Leaves.bytes, flat, ← flats_leaf, List.map_map]
  simp [leaves, Function.comp_def]

variable {plain : Char → Bool}

theorem ident_leaf (i : Option Str) : Dbg.ident plain i = (match i with
    | none => str "None"
    | some i => str "Some(" ++ (leaves plain).quote i ++ str ")") := by cases i <;> rfl

theorem docK_mk (i : Option Str) (v : Value) : docK (leaves plain) (.mk i v) = .block (str "Kserd {") true
    [.named (str "id") (.leaf (Dbg.ident plain i)), .named (str "val") (docV (leaves plain) v)] (str "}") := by
  rw [ident_leaf]; rfl

private theorem o1 : str "Kserd {\n" = str "Kserd {" ++ ['\n'] := by decide
private theorem o2 : str "Tuple(\n" = str "Tuple(" ++ ['\n'] := by decide
private theorem o3 : str "Cntr {\n" = str "Cntr {" ++ ['\n'] := by decide
private theorem o4 : str "[\n" = str "[" ++ ['\n'] := by decide
private theorem o5 : str "{\n" = str "{" ++ ['\n'] := by decide

theorem parts_cons (x : Doc) (l : List Doc) : parts (x :: l) = Pretty.part (tall 0 x) ++ parts l := rfl

mutual
theorem kserd_tall : ∀ k : Kserd, Pretty.kserd plain k = tall 0 (docK (leaves plain) k)
  | .mk i v => by
    have h : Pretty.kserd plain (.mk i v) = str "Kserd {\n" ++ Pretty.named (str "id") (Dbg.ident plain i) ++
      Pretty.named (str "val") (Pretty.value plain v) ++ str "}" := rfl
    rw [h, docK_mk, tall_block, parts_cons, parts_cons, tall_named, tall_named, tall_leaf, value_tall v, o1]
    unfold Pretty.named
    simp [parts]
theorem value_tall : ∀ v : Value, Pretty.value plain v = tall 0 (docV (leaves plain) v)
  | .unit => by rw [docV, tall_leaf]; rfl
  | .bool true => by rw [docV, tall_leaf]; show str "Bool(" ++ str "true" ++ str ")" = _; decide
  | .bool false => by rw [docV, tall_leaf]; show str "Bool(" ++ str "false" ++ str ")" = _; decide
  | .num n => by rw [docV, tall_leaf, ← num_leaf]; rfl
  | .str s => by rw [docV, tall_leaf]; rfl
  | .barr b => by rw [docV, tall_leaf, ← bytes_leaf]; rfl
  | .tuple [] => by rw [docV, tall_leaf]; rfl
  | .tuple (k :: l) => by
    have h : Pretty.value plain (.tuple (k :: l)) = str "Tuple(\n" ++ Pretty.part (Pretty.kserd plain k) ++ Pretty.kserds plain l ++ str ")" := rfl
    rw [h, docV, tall_block, parts_cons, kserd_tall k, kserds_tall l, o2]
    simp
  | .cntr [] => by rw [docV, tall_leaf]; rfl
  | .cntr ((n, k) :: l) => by
    have h : Pretty.value plain (.cntr ((n, k) :: l)) = str "Cntr {\n" ++ Pretty.named n (Pretty.kserd plain k) ++ Pretty.fields plain l ++ str "}" := rfl
    rw [h, docV, tall_block, parts_cons, tall_named, kserd_tall k, fields_tall l, o3]
    unfold Pretty.named
    simp
  | .seq [] => by rw [docV, tall_leaf]; rfl
  | .seq (k :: l) => by
    have h : Pretty.value plain (.seq (k :: l)) = str "[\n" ++ Pretty.part (Pretty.kserd plain k) ++ Pretty.kserds plain l ++ str "]" := rfl
    rw [h, docV, tall_block, parts_cons, kserd_tall k, kserds_tall l, o4]
    simp
  | .map [] => by rw [docV, tall_leaf]; rfl
  | .map ((k, v) :: l) => by
    have h : Pretty.value plain (.map ((k, v) :: l)) = str "{\n" ++ Pretty.named (Pretty.kserd plain k) (Pretty.kserd plain v) ++ Pretty.entries plain l ++ str "}" := rfl
    rw [h, docV, tall_block, parts_cons, kserd_tall k, kserd_tall v, entries_tall l, o5]
    unfold Pretty.named
    simp only [tall, lines_zero]
    simp
theorem kserds_tall : ∀ l : List Kserd, Pretty.kserds plain l = parts (docL (leaves plain) l)
  | [] => rfl
  | k :: l => by
    have h : Pretty.kserds plain (k :: l) = Pretty.part (Pretty.kserd plain k) ++ Pretty.kserds plain l := rfl
    rw [h, docL, parts_cons, kserd_tall k, kserds_tall l]
theorem fields_tall : ∀ l : List (Str × Kserd), Pretty.fields plain l = parts (docF (leaves plain) l)
  | [] => rfl
  | (n, k) :: l => by
    have h : Pretty.fields plain ((n, k) :: l) = Pretty.named n (Pretty.kserd plain k) ++ Pretty.fields plain l := rfl
    rw [h, docF, parts_cons, tall_named, kserd_tall k, fields_tall l]; rfl
theorem entries_tall : ∀ l : List (Kserd × Kserd), Pretty.entries plain l = parts (docM (leaves plain) l)
  | [] => rfl
  | (k, v) :: l => by
    have h : Pretty.entries plain ((k, v) :: l) = Pretty.named (Pretty.kserd plain k) (Pretty.kserd plain v) ++ Pretty.entries plain l := rfl
    rw [h, docM, parts_cons, kserd_tall k, kserd_tall v, entries_tall l]
    unfold Pretty.named
    simp only [tall, lines_zero, List.append_assoc]
end

/-- The items after the first. -/
def rest (l : List Doc) : Str := l.flatMap fun x => str ", " ++ flat x

theorem rest_cons (x : Doc) (l : List Doc) : rest (x :: l) = str ", " ++ flat x ++ rest l := rfl

theorem flat_block (o : Str) (g : Bool) (x : Doc) (items : List Doc) (c : Str) :
    flat (.block o g (x :: items) c) = o ++ (if g then [' '] else []) ++ (flat x ++ rest items) ++ (if g then [' '] else []) ++ c := by
  rw [flat, flats_cons]; rfl

theorem flat_named (n : Str) (x : Doc) : flat (Doc.named n x) = n ++ str ": " ++ flat x := by
  unfold Doc.named; simp only [flat]

private theorem p1 : str "Kserd { id: " = str "Kserd {" ++ ' ' :: (str "id" ++ str ": ") := by decide
private theorem p2 : str ", val: " = str ", " ++ (str "val" ++ str ": ") := by decide
private theorem p3 : str " }" = ' ' :: str "}" := by decide
private theorem p4 : str "Cntr { " = str "Cntr {" ++ [' '] := by decide

mutual
theorem kserd_flat : ∀ k : Kserd, Dbg.kserd plain k = flat (docK (leaves plain) k)
  | .mk i v => by
    have h : Dbg.kserd plain (.mk i v) = str "Kserd { id: " ++ Dbg.ident plain i ++ str ", val: " ++ Dbg.value plain v ++ str " }" := rfl
    rw [h, docK_mk, flat_block, rest_cons, flat_named, flat_named, flat, value_flat v, p1, p2, p3]
    simp [rest]
theorem value_flat : ∀ v : Value, Dbg.value plain v = flat (docV (leaves plain) v)
  | .unit => by rw [docV, flat]; rfl
  | .bool true => by rw [docV, flat]; show str "Bool(" ++ str "true" ++ str ")" = _; decide
  | .bool false => by rw [docV, flat]; show str "Bool(" ++ str "false" ++ str ")" = _; decide
  | .num n => by rw [docV, flat, ← num_leaf]; rfl
  | .str s => by rw [docV, flat]; rfl
  | .barr b => by rw [docV, flat, ← bytes_leaf]; rfl
  | .tuple [] => by rw [docV, flat]; rfl
  | .tuple (k :: l) => by
    have h : Dbg.value plain (.tuple (k :: l)) = str "Tuple(" ++ Dbg.kserd plain k ++ Dbg.kserds plain l ++ str ")" := rfl
    rw [h, docV, flat_block, kserd_flat k, kserds_flat l]
    simp
  | .cntr [] => by rw [docV, flat]; rfl
  | .cntr ((n, k) :: l) => by
    have h : Dbg.value plain (.cntr ((n, k) :: l)) = str "Cntr { " ++ n ++ str ": " ++ Dbg.kserd plain k ++ Dbg.fields plain l ++ str " }" := rfl
    rw [h, docV, flat_block, flat_named, kserd_flat k, fields_flat l, p3, p4]
    simp
  | .seq [] => by rw [docV, flat]; rfl
  | .seq (k :: l) => by
    have h : Dbg.value plain (.seq (k :: l)) = str "[" ++ Dbg.kserd plain k ++ Dbg.kserds plain l ++ str "]" := rfl
    rw [h, docV, flat_block, kserd_flat k, kserds_flat l]
    simp
  | .map [] => by rw [docV, flat]; rfl
  | .map ((k, v) :: l) => by
    have h : Dbg.value plain (.map ((k, v) :: l)) = str "{" ++ Dbg.kserd plain k ++ str ": " ++ Dbg.kserd plain v ++ Dbg.entries plain l ++ str "}" := rfl
    rw [h, docV, flat_block, kserd_flat k, kserd_flat v, entries_flat l]
    simp only [flat]
    simp
theorem kserds_flat : ∀ l : List Kserd, Dbg.kserds plain l = rest (docL (leaves plain) l)
  | [] => rfl
  | k :: l => by
    have h : Dbg.kserds plain (k :: l) = str ", " ++ Dbg.kserd plain k ++ Dbg.kserds plain l := rfl
    rw [h, docL, rest_cons, kserd_flat k, kserds_flat l]
theorem fields_flat : ∀ l : List (Str × Kserd), Dbg.fields plain l = rest (docF (leaves plain) l)
  | [] => rfl
  | (n, k) :: l => by
    have h : Dbg.fields plain ((n, k) :: l) = str ", " ++ n ++ str ": " ++ Dbg.kserd plain k ++ Dbg.fields plain l := rfl
    rw [h, docF, rest_cons, flat_named, kserd_flat k, fields_flat l]
    simp
theorem entries_flat : ∀ l : List (Kserd × Kserd), Dbg.entries plain l = rest (docM (leaves plain) l)
  | [] => rfl
  | (k, v) :: l => by
    have h : Dbg.entries plain ((k, v) :: l) = str ", " ++ Dbg.kserd plain k ++ str ": " ++ Dbg.kserd plain v ++ Dbg.entries plain l := rfl
    rw [h, docM, rest_cons, kserd_flat k, kserd_flat v, entries_flat l]
    simp only [flat, List.append_assoc]
end

theorem opt_tall (o : Option Str) : Pretty.opt o = tall 0 (docO o) := by
  cases o with
  | none => rw [docO, tall_leaf]; rfl
  | some t =>
    have h : str "Some(\n" = str "Some(" ++ ['\n'] := by decide
    rw [docO, tall_block, parts_cons, tall_leaf, Pretty.opt, h]
    simp [parts]

theorem opt_flat (o : Option Nat) : Nav.optText o = flat (docO (o.map natDigits)) := by
  cases o with
  | none => rfl
  | some t => rw [Option.map_some, docO, flat_block, flat, Nav.optText]; simp [rest]

theorem id_flat (o : Option Str) : Dbg.ident plain o = flat (docO (o.map (quote plain))) := by
  cases o with
  | none => rfl
  | some t => rw [Option.map_some, docO, flat_block, flat, Dbg.ident]; simp [rest]

theorem kind_name (v : Value) : Nav.kindName v.kind = (match v with
    | .tuple _ => str "Tuple"
    | .cntr _ => str "Cntr"
    | .seq _ => str "Seq"
    | .map _ => str "Map"
    | _ => str "Primitive") := by cases v <;> rfl

/-- The value of a node, when it is primitive. -/
def docP (plain : Char → Bool) : Value → List Doc
  | .tuple _ | .cntr _ | .seq _ | .map _ => []
  | v => [.named (str "value") (docV (leaves plain) v)]

theorem docN_mk (k : Kserd) (idx : Nat) (parent : Option Nat) (key : Bool) (place : Nat) :
    docN (leaves plain) k idx parent key place = .block (str "Node {") true (.named (str "id") (docO (k.id.map (quote plain))) ::
      .named (str "value-type") (.leaf (quote plain (Nav.kindName k.val.kind))) :: (docP plain k.val ++
      [.named (str "index") (.leaf (natDigits idx)), .named (str "parent") (docO (parent.map natDigits)),
        .named (str "is_key") (.leaf (if key then str "true" else str "false")), .named (str "idx_in_parent") (.leaf (natDigits place))])) (str "}") := by
  rcases k with ⟨i, v⟩
  rw [kind_name, docN]
  cases v <;> rfl

theorem prim_tall (v : Value) : Pretty.nodeValue plain v = parts (docP plain v) := by
  have h : ∀ v, Pretty.named (str "value") (Pretty.value plain v) = parts [.named (str "value") (docV (leaves plain) v)] := by
    intro v
    rw [parts_cons, tall_named, value_tall]; unfold Pretty.named; simp [parts]
  cases v <;> first | rfl | exact h _

theorem prim_flat (v : Value) : Nav.valueText plain v = rest (docP plain v) := by
  have h : ∀ v, str ", value: " ++ Dbg.value plain v = rest [.named (str "value") (docV (leaves plain) v)] := by
    intro v
    have e : str ", value: " = str ", " ++ (str "value" ++ str ": ") := by decide
    rw [rest_cons, flat_named, value_flat, e]; simp [rest]
  cases v <;> first | rfl | exact h _

theorem parts_append (l m : List Doc) : parts (l ++ m) = parts l ++ parts m := List.flatMap_append
theorem rest_append (l m : List Doc) : rest (l ++ m) = rest l ++ rest m := List.flatMap_append

theorem node_tall (nav : Navigator) (n : NavNode) : Pretty.node plain nav n =
    tall 0 (docN (leaves plain) n.kserd n.idx ((Nav.parent nav n).map (·.idx)) (Nav.isKey n) (Nav.idxInParent n)) := by
  have h : str "Node {\n" = str "Node {" ++ ['\n'] := by decide
  have om : ∀ o : Option NavNode, (o.map fun p => natDigits p.idx) = (o.map (·.idx)).map natDigits := by intro o; cases o <;> rfl
  rw [docN_mk, tall_block, parts_cons, parts_cons, parts_append, parts_cons, parts_cons, parts_cons, parts_cons, ← prim_tall]
  simp only [tall_named, tall_leaf, ← opt_tall]
  unfold Pretty.node Pretty.named
  rw [h, om]
  simp [parts]

theorem node_flat (nav : Navigator) (n : NavNode) : Nav.debug plain nav n =
    flat (docN (leaves plain) n.kserd n.idx ((Nav.parent nav n).map (·.idx)) (Nav.isKey n) (Nav.idxInParent n)) := by
  have e1 : str "Node { id: " = str "Node {" ++ ' ' :: (str "id" ++ str ": ") := by decide
  have e2 : str ", value-type: " = str ", " ++ (str "value-type" ++ str ": ") := by decide
  have e3 : str ", index: " = str ", " ++ (str "index" ++ str ": ") := by decide
  have e4 : str ", parent: " = str ", " ++ (str "parent" ++ str ": ") := by decide
  have e5 : str ", is_key: " = str ", " ++ (str "is_key" ++ str ": ") := by decide
  have e6 : str ", idx_in_parent: " = str ", " ++ (str "idx_in_parent" ++ str ": ") := by decide
  rw [docN_mk, flat_block, rest_cons, rest_append, rest_cons, rest_cons, rest_cons, rest_cons, ← prim_flat]
  simp only [flat_named, flat, ← opt_flat, ← id_flat]
  unfold Nav.debug
  rw [e1, e2, e3, e4, e5, e6, p3]
  simp [rest]

end KS.Spec.Lay
