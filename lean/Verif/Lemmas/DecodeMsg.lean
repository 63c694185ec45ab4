import Verif.Lemmas.Debug
import Verif.Spec.DecodeMsg
/-!
# The wording of errors of the decoder
-/

namespace KS.DM
open KS.Spec KS.Spec.De KS.Dbg KS.DL KS.Rnd KS.Sh

attribute [local irreducible] F64.scale F64.magLimit F64.decScale F64.decExact F64.shortest F64.decNorm

theorem hexDigit_mem : ∀ n < 16, hexDigit n ∈ str "0123456789abcdef" := by decide
theorem hexDigit_idx : ∀ n < 16, (str "0123456789abcdef").idxOf (hexDigit n) = n := by decide

theorem hex_mem : ∀ (f n : Nat), hex f n ≠ [] ∧ ∀ d ∈ hex f n, d ∈ str "0123456789abcdef"
  | 0, n => by
    refine ⟨by simp [hex], ?_⟩
    simp only [hex, List.mem_singleton]
    rintro d rfl
    exact hexDigit_mem _ (Nat.mod_lt _ (by decide))
  | f + 1, n => by
    unfold hex
    split
    · rename_i h
      refine ⟨by simp, ?_⟩
      simp only [List.mem_singleton]
      rintro d rfl
      exact hexDigit_mem _ h
    · refine ⟨by simp, ?_⟩
      simp only [List.mem_append, List.mem_singleton]
      rintro d (h | rfl)
      · exact (hex_mem f _).2 d h
      · exact hexDigit_mem _ (Nat.mod_lt _ (by decide))

theorem hex_idx : ∀ (f n : Nat), n < 16 ^ (f + 1) →
    (hex f n).foldl (fun a c => a * 16 + (str "0123456789abcdef").idxOf c) 0 = n
  | 0, n, h => by
    simp only [hex, List.foldl_cons, List.foldl_nil]
    rw [hexDigit_idx _ (Nat.mod_lt _ (by decide)), Nat.mod_eq_of_lt (by simpa using h)]
    simp
  | f + 1, n, h => by
    unfold hex
    split
    · rename_i h'
      simp only [List.foldl_cons, List.foldl_nil]
      rw [hexDigit_idx _ h']; simp
    · rw [List.foldl_append, hex_idx f (n / 16) (by rw [pow_succ] at h; omega)]
      simp only [List.foldl_cons, List.foldl_nil]
      rw [hexDigit_idx _ (Nat.mod_lt _ (by decide))]
      omega

theorem stands (plain : Char → Bool) (c : Char) : Stands plain c (escape plain c) := by
  unfold escape
  split
  · rename_i h; subst h; exact .zero
  split
  · rename_i h; subst h; exact .tab
  split
  · rename_i h; subst h; exact .cr
  split
  · rename_i h; subst h; exact .lf
  split
  · rename_i h; subst h; exact .quote
  split
  · rename_i h; subst h; exact .backslash
  split
  · rename_i h1 h2 h3; exact .self h1 h2 h3
  · rename_i h; exact .code (Bool.eq_false_iff.mpr h) (hex_mem _ _).1 (hex_mem _ _).2 (hex_idx 5 _ (char_lt c))

theorem inside (plain : Char → Bool) : ∀ s : Str, Inside plain s (s.flatMap (escape plain))
  | [] => .nil
  | c :: s => by
    rw [List.flatMap_cons]
    exact .cons (stands plain c) (inside plain s)

theorem pointed (s : Bool) (t : Str) (b : Bool) (hb : b = true) :
    (if b && !(((if s then ['-'] else []) ++ t).contains '.') then ((if s then ['-'] else []) ++ t) ++ str ".0" else (if s then ['-'] else []) ++ t) =
      (if s then ['-'] else []) ++ (if t.contains '.' then t else t ++ str ".0") := by
  subst hb
  have : ((if s then ['-'] else []) ++ t).contains '.' = t.contains '.' := by
    cases s <;> simp
  rw [this]
  cases t.contains '.' <;> simp

theorem floatText_fin (s : Bool) (m : Nat) : floatText (.fin s m) = (if s then ['-'] else []) ++
    (if (F64.decText (F64.shortest m) 1074).contains '.' then F64.decText (F64.shortest m) 1074 else F64.decText (F64.shortest m) 1074 ++ str ".0") := by
  unfold floatText
  rw [F64.disp]
  exact pointed s _ _ rfl

theorem has_point (s : Bool) (t : Str) : '.' ∈ (if s then ['-'] else []) ++ (if t.contains '.' then t else t ++ str ".0") := by
  refine List.mem_append_right _ ?_
  by_cases ht : t.contains '.' = true
  · rw [if_pos ht]; exact List.contains_iff_mem.mp ht
  · rw [if_neg ht]; exact List.mem_append_right _ (by decide)

theorem float_text {x : F64} (hx : x.WF) : Decimals x (floatText x) := by
  cases x with
  | nan s p => exact .nan
  | inf s => cases s; exacts [.inf, .negInf]
  | fin s m =>
    obtain ⟨d, h1, h2, h3, h4⟩ := point_text s (F64.shortest m) 1074
    rw [floatText_fin]
    refine .fin (d := d) ?_ h1 h3 (has_point _ _)
    have hr := F64.ofRat_neg s (shortest_reads m hx)
    rw [parse_text h1 h3, h2, h4]
    have hc := rndQ_div (b := 52) (S := F64.scale) (n := F64.shortest m) (d := 10 ^ 1074) (Nat.pow_pos (by decide))
    rw [Nat.cast_pow, Nat.cast_ofNat] at hc
    rw [hc, ← ofRat_finish, ← Props.decScale_pow, hr]

theorem named (plain : Char → Bool) (u : Unexp) (h : ∀ x, u = .float x → x.WF) : Named plain u (u.text plain) := by
  cases u with
  | bool b => cases b; exacts [.false, .true]
  | unsigned n => exact .unsigned
  | signed i =>
    obtain ⟨n, rfl | rfl⟩ := Int.eq_nat_or_neg i
    · have : intText (n : Int) = natDigits n := by unfold intText; rw [if_neg (by omega)]; simp
      show Named plain _ (str "integer `" ++ intText n ++ str "`")
      rw [this]; exact .signed
    · rcases Nat.eq_zero_or_pos n with rfl | hn
      · exact .signed (n := 0)
      · have : intText (-(n : Int)) = '-' :: natDigits n := by unfold intText; rw [if_pos (by omega)]; simp; rfl
        show Named plain _ (str "integer `" ++ intText (-(n : Int)) ++ str "`")
        rw [this]; exact .negative hn
  | float x => exact .float (float_text (h x rfl))
  | str s =>
    have : Unexp.text plain (.str s) = KS.str "string \"" ++ s.flatMap (escape plain) ++ KS.str "\"" := rfl
    rw [this]; exact .str (inside plain s)
  | bytes => exact .bytes
  | unit => exact .unit
  | option => exact .option
  | newtypeStruct => exact .newtypeStruct
  | seq => exact .seq
  | map => exact .map
  | unitVariant => exact .unitVariant
  | other s => exact .other

theorem ticks : ∀ (a : Str) (r : List Str), a ++ str "`" ++ (r.map (fun x => str ", `" ++ x ++ str "`")).flatten = (str "`, `").intercalate (a :: r) ++ str "`"
  | a, [] => by simp [List.intercalate]
  | a, b :: r => by
    have := ticks b r
    simp only [List.intercalate, List.map_cons, List.intersperse_cons_cons, List.flatten_cons, List.append_assoc] at this ⊢
    rw [← this]
    rfl

theorem choice (l : List Str) : Choice l (if l.isEmpty then str "there are no variants" else str "expected " ++ oneOf l) := by
  match l with
  | [] => exact .none
  | [a] => exact .one
  | [a, b] =>
    exact .two
  | a :: b :: c :: r =>
    have : str "expected " ++ oneOf (a :: b :: c :: r) = str "expected one of `" ++ (str "`, `").intercalate (a :: b :: c :: r) ++ str "`" := by
      rw [List.append_assoc, ← ticks a (b :: c :: r)]
      rfl
    show Choice _ (str "expected " ++ oneOf (a :: b :: c :: r))
    rw [this]
    exact .many (by simp)

/-! ## The text tells the error -/

theorem floatText_parse {x : F64} (hx : x.WF) :
    F64.parse (floatText x) = some (match (generalizing := false) x with | .nan _ _ => .nan false (2 ^ 51) | y => y) := by
  have h := float_text hx
  cases x with
  | nan s p => show F64.parse (str "NaN") = some (.nan false (2 ^ 51)); decide +kernel
  | inf s => clear h hx; cases s <;> decide +kernel
  | fin s m =>
    generalize floatText (.fin s m) = t at h ⊢
    cases h with
    | fin h => exact h

theorem floatText_inj {x y : F64} (hx : x.WF) (hy : y.WF) (h : floatText x = floatText y) : kept (.float x) = kept (.float y) := by
  have := floatText_parse hx
  rw [h, floatText_parse hy] at this
  have := Option.some.inj this
  cases x <;> cases y <;> simp_all [kept]

theorem floatText_comma {x : F64} (hx : x.WF) : ',' ∉ floatText x := by
  have h := float_text hx
  cases x with
  | nan s p => show ',' ∉ KS.str "NaN"; decide
  | inf s => clear h hx; cases s <;> decide
  | fin s m =>
    generalize floatText (.fin s m) = t at h ⊢
    cases h with
    | fin _ h1 h2 => exact literal_free (fun h => absurd h.1 (by decide)) (by decide) h1 h2

theorem intText_free {z : Char} (hz : isDigit z = false) (hz' : z ≠ '-') (i : Int) : z ∉ intText i := by
  unfold intText
  split <;> simp only [List.mem_append, not_or]
  · exact ⟨fun h => hz' (List.mem_singleton.mp h), digits_close hz _⟩
  · exact ⟨by simp, digits_close hz _⟩

/-- Descriptions which are no strings. -/
inductive View where
  | bool (b : Bool)
  | int (i : Int) (s : Fin 3)
  | float (x : F64)
  | const (n : Fin 9)

def suffix : Fin 3 → Str
  | 0 => str "`"
  | 1 => str "` as u128"
  | 2 => str "` as i128"

def fixed : Fin 9 → Unexp
  | 0 => .bytes
  | 1 => .unit
  | 2 => .option
  | 3 => .newtypeStruct
  | 4 => .seq
  | 5 => .map
  | 6 => .unitVariant
  | 7 => .other (str "tuple")
  | 8 => .other (str "container")

def View.text : View → Str
  | .bool b => KS.str "boolean `" ++ (if b then KS.str "true" else KS.str "false") ++ KS.str "`"
  | .int i s => KS.str "integer `" ++ intText i ++ suffix s
  | .float x => KS.str "floating point `" ++ floatText x ++ KS.str "`"
  | .const n => (fixed n).text fun _ => true

def View.kept : View → Unexp
  | .bool b => .bool b
  | .int i s => if s = 0 then .signed i else .other (KS.str "integer `" ++ intText i ++ suffix s)
  | .float x => De.kept (.float x)
  | .const n => fixed n

def View.Ok : View → Prop
  | .float x => x.WF
  | _ => True

theorem text_bool (b : Bool) : (View.bool b).text = KS.str "boolean `" ++ (if b then KS.str "true" else KS.str "false") ++ KS.str "`" := rfl
theorem text_int (i : Int) (s : Fin 3) : (View.int i s).text = KS.str "integer `" ++ intText i ++ suffix s := rfl
theorem text_float (x : F64) : (View.float x).text = KS.str "floating point `" ++ floatText x ++ KS.str "`" := rfl

theorem intText_nat (n : Nat) : intText (n : Int) = natDigits n := by
  unfold intText; rw [if_neg (by omega)]; simp

theorem view (plain : Char → Bool) {u : Unexp} (hu : Usual u) (hx : ∀ x, u = .float x → x.WF) :
    (∃ s, u = .str s) ∨ ∃ v : View, v.Ok ∧ u.text plain = v.text ∧ kept u = v.kept := by
  cases u with
  | bool b => exact .inr ⟨.bool b, trivial, rfl, rfl⟩
  | unsigned n => exact .inr ⟨.int n 0, trivial, by show _ = KS.str "integer `" ++ intText n ++ suffix 0; rw [intText_nat]; rfl, rfl⟩
  | signed i => exact .inr ⟨.int i 0, trivial, rfl, rfl⟩
  | float x => exact .inr ⟨.float x, hx x rfl, rfl, rfl⟩
  | str s => exact .inl ⟨s, rfl⟩
  | bytes => exact .inr ⟨.const 0, trivial, rfl, rfl⟩
  | unit => exact .inr ⟨.const 1, trivial, rfl, rfl⟩
  | option => exact .inr ⟨.const 2, trivial, rfl, rfl⟩
  | newtypeStruct => exact .inr ⟨.const 3, trivial, rfl, rfl⟩
  | seq => exact .inr ⟨.const 4, trivial, rfl, rfl⟩
  | map => exact .inr ⟨.const 5, trivial, rfl, rfl⟩
  | unitVariant => exact .inr ⟨.const 6, trivial, rfl, rfl⟩
  | other s =>
    rcases hu with rfl | rfl | ⟨n, rfl⟩ | ⟨i, rfl⟩
    · exact .inr ⟨.const 7, trivial, rfl, rfl⟩
    · exact .inr ⟨.const 8, trivial, rfl, rfl⟩
    · refine .inr ⟨.int n 1, trivial, ?_, ?_⟩
      · show _ = KS.str "integer `" ++ intText n ++ suffix 1
        rw [intText_nat]; rfl
      · show _ = Unexp.other (KS.str "integer `" ++ intText n ++ suffix 1)
        rw [intText_nat]; rfl
    · exact .inr ⟨.int i 2, trivial, rfl, rfl⟩

theorem fixed_text : ∀ n : Fin 9, ',' ∉ (fixed n).text (fun _ => true) ∧ ((fixed n).text fun _ => true).take 2 ∉ [['b', 'o'], ['i', 'n'], ['f', 'l'], ['s', 't']] := by
  decide

theorem fixed_inj : ∀ n m : Fin 9, (fixed n).text (fun _ => true) = (fixed m).text (fun _ => true) → n = m := by decide

theorem suffix_inj : ∀ {a b : Fin 3}, suffix a = suffix b → a = b := by decide

theorem suffix_head : ∀ a : Fin 3, ∃ r, suffix a = '`' :: r := by
  intro a
  match a with
  | 0 | 1 | 2 => exact ⟨_, rfl⟩

theorem view_comma {v : View} (h : v.Ok) : ',' ∉ v.text := by
  cases v with
  | bool b => cases b <;> decide
  | int i s =>
    simp only [text_int, List.mem_append, not_or]
    refine ⟨⟨by decide, intText_free (by decide) (by decide) i⟩, ?_⟩
    clear h; revert s; decide
  | float x =>
    simp only [text_float, List.mem_append, not_or]
    exact ⟨⟨by decide, floatText_comma h⟩, by decide⟩
  | const n => exact (fixed_text n).1

/-- Two letters. -/
def View.two : View → Str
  | .bool _ => ['b', 'o']
  | .int _ _ => ['i', 'n']
  | .float _ => ['f', 'l']
  | .const n => ((fixed n).text fun _ => true).take 2

theorem view_two (v : View) : v.text.take 2 = v.two := by
  cases v <;> rfl

theorem two_str (v : View) : v.two ≠ ['s', 't'] := by
  cases v with
  | const n => exact fun h => (fixed_text n).2 (by rw [show ((fixed n).text fun _ => true).take 2 = ['s', 't'] from h]; decide)
  | bool b => exact fun h => absurd (show ['b', 'o'] = ['s', 't'] from h) (by decide)
  | int i t => exact fun h => absurd (show ['i', 'n'] = ['s', 't'] from h) (by decide)
  | float x => exact fun h => absurd (show ['f', 'l'] = ['s', 't'] from h) (by decide)

theorem two_const {n : Fin 9} {l : Str} (hl : l ∈ [['b', 'o'], ['i', 'n'], ['f', 'l'], ['s', 't']]) : ((fixed n).text fun _ => true).take 2 ≠ l :=
  fun h => (fixed_text n).2 (by rw [h]; exact hl)

theorem view_inj {v w : View} (hv : v.Ok) (hw : w.Ok) (h : v.text = w.text) : v.kept = w.kept := by
  have h2 : v.two = w.two := by rw [← view_two, h, view_two]
  cases v with
  | bool a =>
    cases w with
    | bool b =>
      simp only [text_bool, List.append_assoc] at h
      rw [(bool_inj (List.append_cancel_left h)).1]
    | int i s => exact absurd (show ['b', 'o'] = ['i', 'n'] from h2) (by decide)
    | float x => exact absurd (show ['b', 'o'] = ['f', 'l'] from h2) (by decide)
    | const n => exact absurd h2.symm (two_const (l := ['b', 'o']) (by decide))
  | int i s =>
    cases w with
    | int j t =>
      simp only [text_int, List.append_assoc] at h
      obtain ⟨r, hr⟩ := suffix_head s
      obtain ⟨q, hq⟩ := suffix_head t
      have h := List.append_cancel_left h
      have h' := h
      rw [hr, hq] at h'
      obtain ⟨h1, -⟩ := split_at (intText_free (by decide) (by decide) i) (intText_free (by decide) (by decide) j) h'
      rw [h1] at h
      rw [intText_inj h1, suffix_inj (List.append_cancel_left h)]
    | bool b => exact absurd (show ['i', 'n'] = ['b', 'o'] from h2) (by decide)
    | float x => exact absurd (show ['i', 'n'] = ['f', 'l'] from h2) (by decide)
    | const n => exact absurd h2.symm (two_const (l := ['i', 'n']) (by decide))
  | float x =>
    cases w with
    | float y =>
      simp only [text_float] at h
      exact floatText_inj hv hw (List.append_cancel_left (List.append_cancel_right h))
    | bool b => exact absurd (show ['f', 'l'] = ['b', 'o'] from h2) (by decide)
    | int i s => exact absurd (show ['f', 'l'] = ['i', 'n'] from h2) (by decide)
    | const n => exact absurd h2.symm (two_const (l := ['f', 'l']) (by decide))
  | const n =>
    cases w with
    | const m => rw [fixed_inj n m h]
    | bool b => exact absurd h2 (two_const (l := ['b', 'o']) (by decide))
    | int i s => exact absurd h2 (two_const (l := ['i', 'n']) (by decide))
    | float x => exact absurd h2 (two_const (l := ['f', 'l']) (by decide))

theorem unexp_inj {plain : Char → Bool} {u u' : Unexp} (hu : Usual u) (hx : ∀ x, u = .float x → x.WF) (hu' : Usual u') (hx' : ∀ x, u' = .float x → x.WF)
    {w w' : Str} (h : u.text plain ++ (str ", expected " ++ w) = u'.text plain ++ (str ", expected " ++ w')) : kept u = kept u' ∧ w = w' := by
  have two : ∀ (v : View) (s : Str) (x y : Str), v.text ++ x ≠ Unexp.text plain (.str s) ++ y := by
    intro v s x y e
    have hl : 2 ≤ v.text.length := by
      cases v with
      | bool b => simp only [text_bool, List.length_append]; exact Nat.le_trans (by decide : 2 ≤ (str "boolean `").length) (by omega)
      | int i s => simp only [text_int, List.length_append]; exact Nat.le_trans (by decide : 2 ≤ (str "integer `").length) (by omega)
      | float x => simp only [text_float, List.length_append]; exact Nat.le_trans (by decide : 2 ≤ (str "floating point `").length) (by omega)
      | const n => clear e; revert n; decide
    have : (v.text ++ x).take 2 = v.two := by rw [List.take_append_of_le_length hl, view_two]
    rw [e] at this
    exact two_str v (this.symm.trans rfl)
  rcases view plain hu hx with ⟨s, rfl⟩ | ⟨v, hv, ev, kv⟩
  · rcases view plain hu' hx' with ⟨t, rfl⟩ | ⟨v, hv, ev, kv⟩
    · have h : str "string " ++ quote plain s ++ (str ", expected " ++ w) = str "string " ++ quote plain t ++ (str ", expected " ++ w') := h
      rw [List.append_assoc, List.append_assoc] at h
      obtain ⟨rfl, h2⟩ := quote_inj (List.append_cancel_left h)
      exact ⟨rfl, List.append_cancel_left h2⟩
    · rw [ev] at h
      exact absurd h.symm (two _ _ _ _)
  · rw [ev] at h
    rcases view plain hu' hx' with ⟨t, rfl⟩ | ⟨v', hv', ev', kv'⟩
    · exact absurd h (two _ _ _ _)
    · rw [ev'] at h
      obtain ⟨h1, h2⟩ := split_at (view_comma hv) (view_comma hv') (show v.text ++ ',' :: (str " expected " ++ w) = v'.text ++ ',' :: (str " expected " ++ w') from h)
      exact ⟨by rw [kv, kv', view_inj hv hv' h1], List.append_cancel_left h2⟩

/-! Lists of names -/

theorem ticked : ∀ {l m : List Str}, (∀ x ∈ l, '`' ∉ x) → (∀ x ∈ m, '`' ∉ x) →
    (l.map fun x => str ", `" ++ x ++ str "`").flatten = (m.map fun x => str ", `" ++ x ++ str "`").flatten → l = m
  | [], [], _, _, _ => rfl
  | [], _ :: _, _, _, h => absurd (show none = some ',' from congrArg List.head? h) (by decide)
  | _ :: _, [], _, _, h => absurd (show some ',' = none from congrArg List.head? h) (by decide)
  | a :: l, b :: m, hl, hm, h => by
    simp only [List.map_cons, List.flatten_cons, List.append_assoc] at h
    obtain ⟨h1, h2⟩ := split_at (hl a List.mem_cons_self) (hm b List.mem_cons_self) (List.append_cancel_left h)
    rw [h1, ticked (fun x hx => hl x (List.mem_cons_of_mem _ hx)) (fun x hx => hm x (List.mem_cons_of_mem _ hx)) h2]

/-- The list after the first name. -/
def rest : List Str → Str
  | [] => str ""
  | [b] => str " or `" ++ b ++ str "`"
  | r => (r.map fun x => str ", `" ++ x ++ str "`").flatten

theorem choice_inj {l m : List Str} (hl : ∀ x ∈ l, '`' ∉ x) (hm : ∀ x ∈ m, '`' ∉ x)
    (h : (if l.isEmpty then str "there are no variants" else str "expected " ++ oneOf l) =
      (if m.isEmpty then str "there are no variants" else str "expected " ++ oneOf m)) : l = m := by
  have tl : ∀ {a : Str} {l : List Str}, (∀ x ∈ a :: l, '`' ∉ x) → '`' ∉ a := fun h => h _ List.mem_cons_self
  match l, m with
  | [], [] => rfl
  | [], m :: r => exact absurd (show some 't' = some 'e' from congrArg List.head? h) (by decide)
  | m :: r, [] => exact absurd (show some 'e' = some 't' from congrArg List.head? h) (by decide)
  | [a], [b] =>
    have h : str "expected `" ++ (a ++ str "`") = str "expected `" ++ (b ++ str "`") := h
    rw [List.append_cancel_right (List.append_cancel_left h)]
  | [a, b], [c, d] =>
    have h : str "expected `" ++ (a ++ '`' :: (str " or `" ++ (b ++ str "`"))) = str "expected `" ++ (c ++ '`' :: (str " or `" ++ (d ++ str "`"))) := by
      have h : str "expected " ++ oneOf _ = str "expected " ++ oneOf _ := h
      simp only [oneOf, List.append_assoc] at h
      exact h
    obtain ⟨h1, h2⟩ := split_at (tl hl) (tl hm) (List.append_cancel_left h)
    rw [h1, List.append_cancel_right (List.append_cancel_left h2)]
  | [a], [c, d] =>
    have h : str "expected `" ++ (a ++ '`' :: []) = str "expected `" ++ (c ++ '`' :: (str " or `" ++ (d ++ str "`"))) := by
      have h : str "expected " ++ oneOf _ = str "expected " ++ oneOf _ := h
      simp only [oneOf, List.append_assoc] at h
      exact h
    obtain ⟨-, h2⟩ := split_at (tl hl) (tl hm) (List.append_cancel_left h)
    exact absurd (show none = some ' ' from congrArg List.head? h2) (by decide)
  | [c, d], [a] =>
    have h : str "expected `" ++ (c ++ '`' :: (str " or `" ++ (d ++ str "`"))) = str "expected `" ++ (a ++ '`' :: []) := by
      have h : str "expected " ++ oneOf _ = str "expected " ++ oneOf _ := h
      simp only [oneOf, List.append_assoc] at h
      exact h
    obtain ⟨-, h2⟩ := split_at (tl hl) (tl hm) (List.append_cancel_left h)
    exact absurd (show some ' ' = none from congrArg List.head? h2) (by decide)
  | [a], c :: d :: e :: r => exact absurd (show some '`' = some 'o' from congrArg (fun t => (t.drop 9).head?) h) (by decide)
  | [a, b], c :: d :: e :: r => exact absurd (show some '`' = some 'o' from congrArg (fun t => (t.drop 9).head?) h) (by decide)
  | c :: d :: e :: r, [a] => exact absurd (show some 'o' = some '`' from congrArg (fun t => (t.drop 9).head?) h) (by decide)
  | c :: d :: e :: r, [a, b] => exact absurd (show some 'o' = some '`' from congrArg (fun t => (t.drop 9).head?) h) (by decide)
  | a :: b :: c :: l, a' :: b' :: c' :: m =>
    have h : str "expected " ++ (str "one of `" ++ a ++ str "`" ++ ((b :: c :: l).map fun x => str ", `" ++ x ++ str "`").flatten) =
      str "expected " ++ (str "one of `" ++ a' ++ str "`" ++ ((b' :: c' :: m).map fun x => str ", `" ++ x ++ str "`").flatten) := h
    simp only [List.append_assoc] at h
    obtain ⟨h1, h2⟩ := split_at (tl hl) (tl hm) (List.append_cancel_left (List.append_cancel_left h))
    rw [h1, ticked (fun x hx => hl x (List.mem_cons_of_mem _ hx)) (fun x hx => hm x (List.mem_cons_of_mem _ hx)) h2]

end KS.DM
