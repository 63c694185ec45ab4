import Verif.Lemmas.InlineLength
import Verif.Props.Widths
import Verif.Props.Choice
/-!
# C74: the length of a text on one line, and when it fits
-/

namespace KS.Props
open KS.Spec KS.Nav KS.Fm KS.Wr KS.IL KS.SV

/-- A formatter whose root is inline and whose identity flags are those of the configuration. -/
theorem inline_length {f f' : Formatter} {c : FormattingConfig} (hr : Rules f) (h : Solver.applyConfig f c = some f') (hr' : Rules f') (hroot : f'.root = f.root)
    (hl : line f' 0 = some .inline) (ht : TupleIds c f'.root) (out : Str) (ho : f'.writeString [] = some out) :
    out.length = oneLineWidth c f'.root := by
  have hat : At (WidthOk c) f'.fmts 0 (preorder f'.root) := by
    apply at_of_nav hr'.nav hr'.len
    intro i n fm hn hfm
    have a := root_inline_all hr' hl i n hn
    have b := config_id hr h i n (by rw [hr.nav, ← hroot, ← hr'.nav]; exact hn)
    rw [line, hfm] at a
    rw [idOn, hfm] at b
    exact ⟨Option.some.inj a, Option.some.inj b⟩
  have := node_exact f'.root 0 0 [] out hat ht ho
  rw [this, List.length_nil, Nat.zero_add]; rfl

/-- **C74.** The text on one line has as many characters as the parts of the Kserd are said to have. -/
theorem C74_length (k : Kserd) (c : FormattingConfig) (hc : c.widthLimit = none) (ht : TupleIds c k) (out : Str) (ho : k.asStrWithConfig c = some out) :
    out.length = oneLineWidth c k := by
  obtain ⟨f, hf, _, _⟩ := C22_new k
  obtain ⟨f', hf', h1, h2⟩ := C25_inline k f (.new hf) c hc
  rw [Kserd.asStrWithConfig, hf] at ho
  simp only [Option.bind_some, hf'] at ho
  obtain ⟨e, hr⟩ := C22_rules k f (.new hf)
  obtain ⟨e', hr'⟩ := C22_rules k f' (.config c (.new hf) hf')
  rw [← e'] at ht ⊢
  exact inline_length hr hf' hr' (by rw [e, e']) (h2 0 (by rw [size_preorder]; exact size_pos _)) ht out ho

theorem sum_est (c : FormattingConfig) : ∀ l : List Kserd,
    (l.map (estWidth c)).sum + (l.map (missed1 c)).sum = (l.map (ownWidth c)).sum + (l.map (surplus1 c)).sum
  | [] => rfl
  | x :: r => by
    have h := own_est c x
    rw [own_eq] at h
    have := sum_est c r
    simp only [List.map_cons, List.sum_cons]; omega

/-- **C74.** What the formatter reckons for a line (the widths of C50) together with what is missed is what the line has together with what is
reckoned too much. -/
theorem C74_reckoned (k : Kserd) (c : FormattingConfig) : subtreeWidth c k + missed c k = oneLineWidth c k + surplus c k := sum_est c (preorder k)

theorem simple_sum : ∀ {s : Str}, (∀ d ∈ s, Simple d) → (s.map escSurplus).sum = 0
  | [], _ => rfl
  | d :: s, h => by
    rw [List.map_cons, List.sum_cons, escSurplus, if_pos (h d (List.mem_cons_self ..)), simple_sum fun e he => h e (List.mem_cons_of_mem _ he)]

theorem plain_none {c : FormattingConfig} {x : Kserd} (h : PlainPart c x) : missed1 c x = 0 ∧ surplus1 c x = 0 := by
  obtain ⟨id, v⟩ := x
  obtain ⟨h0, h⟩ := h
  have hb : blankMissed c (.mk id v) = 0 := if_neg fun e => h0 e.2
  have hn : (c.idOnPrimitives = true → id ≠ none) → noIdSurplus c (.mk id v) = 0 := fun h => if_neg fun e => h e.1 e.2
  cases v <;> simp only [missed1, surplus1, Kserd.val, Kserd.id] at h h0 ⊢
  case unit => exact ⟨if_pos (.inl h), trivial⟩
  case bool b => exact ⟨trivial, hn h⟩
  case num n => exact ⟨trivial, hn h⟩
  case str s => exact ⟨if_neg fun e => (h.2 _ e).2.2.1 rfl, by rw [hn h.1, simple_sum h.2]⟩
  case tuple l => exact ⟨trivial, if_neg fun e => e.2.1 h⟩
  case cntr f => exact ⟨hb, trivial⟩
  case seq l => exact ⟨hb, trivial⟩
  case map m => exact ⟨by rw [hb, if_pos h], trivial⟩

theorem sum_zero {f : Kserd → Nat} : ∀ {l : List Kserd}, (∀ x ∈ l, f x = 0) → (l.map f).sum = 0
  | [], _ => rfl
  | x :: r, h => by rw [List.map_cons, List.sum_cons, h x (List.mem_cons_self ..), sum_zero fun y hy => h y (List.mem_cons_of_mem _ hy)]

/-- **C74.** The estimate of the formatter is exact for Kserds of plain parts. -/
theorem C74_estimate (k : Kserd) (c : FormattingConfig) (h : ∀ x ∈ preorder k, PlainPart c x) : subtreeWidth c k = oneLineWidth c k := by
  have := C74_reckoned k c
  rw [missed, surplus, sum_zero fun x hx => (plain_none (h x hx)).1, sum_zero fun x hx => (plain_none (h x hx)).2] at this
  exact this

/-- The width on one line does not depend on the limit. -/
theorem oneLineWidth_limit (c : FormattingConfig) (l : Option Nat) (k : Kserd) : oneLineWidth { c with widthLimit := l } k = oneLineWidth c k := rfl

/-- **C74.** A non-empty Kserd is put on one line exactly if that line, corrected by what the formatter misses and reckons too much, fits the limit,
provided its text on several lines is not reckoned to be wider than the line. -/
theorem C74_fits_exact (k : Kserd) (c : FormattingConfig) (w : Nat) (hc : c.widthLimit = some w) (ht : TupleIds c k)
    (hm : maxRepr k.val ≠ .inline) (hle : blockWidth c k ≤ subtreeWidth c k) (one : Str)
    (h1 : k.asStrWithConfig { c with widthLimit := none } = some one) (f f' : Formatter) (hf : Formatter.new k = some f)
    (hf' : Solver.applyConfig f c = some f') :
    (line f' 0 = some .inline ↔ one.length + surplus c k ≤ w + missed c k) ∧
      (one.length + surplus c k ≤ w + missed c k → f'.writeString [] = some one) := by
  have hlen := C74_length k { c with widthLimit := none } rfl ht one h1
  rw [oneLineWidth_limit] at hlen
  have hest := C74_reckoned k c
  have key : line f' 0 = some .inline ↔ one.length + surplus c k ≤ w + missed c k := by
    rw [(C72_preference_partial k f f' hf c w hc hf' hle).1]
    constructor
    · intro h
      have := h.resolve_left hm
      omega
    · intro h; right; omega
  refine ⟨key, fun hw => ?_⟩
  have hl := key.mpr hw
  obtain ⟨f1, hf1, e1, h2⟩ := C25_inline k f (.new hf) { c with widthLimit := none } rfl
  obtain ⟨e, hr⟩ := C22_rules k f (.new hf)
  obtain ⟨e', hr'⟩ := C22_rules k f' (.config c (.new hf) hf')
  obtain ⟨_, hr1⟩ := C22_rules k f1 (.config _ (.new hf) hf1)
  have hfm : f1.fmts = f'.fmts := by
    apply List.ext_getElem?
    intro i
    cases hn : f.nav[i]? with
    | none =>
      rw [List.getElem?_eq_none_iff] at hn
      rw [List.getElem?_eq_none (by rw [hr1.len, hr1.nav, e1, ← e, ← hr.nav]; exact hn),
        List.getElem?_eq_none (by rw [hr'.len, hr'.nav, e', ← e, ← hr.nav]; exact hn)]
    | some n =>
      have hn1 : f1.nav[i]? = some n := by rw [hr1.nav, e1, ← e, ← hr.nav]; exact hn
      have hn' : f'.nav[i]? = some n := by rw [hr'.nav, e', ← e, ← hr.nav]; exact hn
      obtain ⟨a, ha⟩ := Shape.fmt ⟨hr1.nav, hr1.len⟩ hn1
      obtain ⟨b, hb⟩ := Shape.fmt ⟨hr'.nav, hr'.len⟩ hn'
      have i1 := config_id hr hf1 i n hn
      have i2 := config_id hr hf' i n hn
      have l1 := root_inline_all hr1 (h2 0 (by rw [size_preorder]; exact size_pos _)) i n hn1
      have l2 := root_inline_all hr' hl i n hn'
      rw [idOn, ha] at i1
      rw [idOn, hb] at i2
      rw [line, ha] at l1
      rw [line, hb] at l2
      have i1 : a.id = _ := Option.some.inj i1
      have i2 : b.id = _ := Option.some.inj i2
      have l1 : a.line = _ := Option.some.inj l1
      have l2 : b.line = _ := Option.some.inj l2
      rw [ha, hb]
      obtain ⟨a1, a2⟩ := a
      obtain ⟨b1, b2⟩ := b
      simp only at i1 i2 l1 l2
      rw [i1, i2, l1, l2]
      rfl
  rw [Kserd.asStrWithConfig, hf] at h1
  simp only [Option.bind_some, hf1] at h1
  rw [← h1, Formatter.writeString, Formatter.writeString, hfm, e', e1]

/-- **C74.** A non-empty Kserd of plain parts is put on one line exactly if that line fits the limit, provided its text on several lines is not reckoned to
be wider than the line. -/
theorem C74_fits (k : Kserd) (c : FormattingConfig) (w : Nat) (hc : c.widthLimit = some w) (h : ∀ x ∈ preorder k, PlainPart c x)
    (hm : maxRepr k.val ≠ .inline) (hle : blockWidth c k ≤ oneLineWidth c k) (one : Str)
    (h1 : k.asStrWithConfig { c with widthLimit := none } = some one) (f f' : Formatter) (hf : Formatter.new k = some f)
    (hf' : Solver.applyConfig f c = some f') :
    (line f' 0 = some .inline ↔ one.length ≤ w) ∧ (one.length ≤ w → f'.writeString [] = some one) := by
  have ht : TupleIds c k := by
    intro x hx l hl
    have := (h x hx).2
    rw [hl] at this
    exact .inl this
  have := C74_fits_exact k c w hc ht hm (by rw [C74_estimate k c h]; exact hle) one h1 f f' hf hf'
  rwa [missed, surplus, sum_zero fun x hx => (plain_none (h x hx)).1, sum_zero fun x hx => (plain_none (h x hx)).2, Nat.add_zero, Nat.add_zero] at this

/-- A case meeting the hypotheses, with a line of 31 characters. -/
def plainRoot : Kserd := .mk (some (str "T")) (.cntr [(str "a", .mk none (.seq [nm 1, nm 2, nm 3])), (str "b", .mk none (.str (str "~hello")))])

example : plainRoot.asStrWithConfig { widthLimit := none } = some (str "T (a = [1, 2, 3], b = \"~hello\")") ∧ maxRepr plainRoot.val ≠ .inline ∧
    oneLineWidth {} plainRoot = 31 ∧ blockWidth {} plainRoot ≤ oneLineWidth {} plainRoot := by decide +kernel

instance (c : FormattingConfig) (x : Kserd) : Decidable (PlainPart c x) := by unfold PlainPart; cases x.val <;> infer_instance

example : ∀ x ∈ preorder plainRoot, PlainPart {} x := by decide +kernel

/-- A case with errors of both kinds: the map is missed by 2, the string with an umlaut reckoned 5 too wide. The line of 18 characters is put on one
line from limit 21 on. -/
def oddRoot : Kserd := .mk none (.seq [.mk none (.map [(nm 1, .mk none (.str (str "ü")))]), nm 2, nm 3])

example : oddRoot.asStrWithConfig { widthLimit := none } = some (str "[{ 1: \"ü\" }, 2, 3]") ∧ missed {} oddRoot = 2 ∧ surplus {} oddRoot = 5 ∧
    oneLineWidth {} oddRoot = 18 ∧ blockWidth {} oddRoot ≤ subtreeWidth {} oddRoot ∧ maxRepr oddRoot.val ≠ .inline ∧
    oddRoot.asStrWithConfig { widthLimit := some 21 } = some (str "[{ 1: \"ü\" }, 2, 3]") ∧
    oddRoot.asStrWithConfig { widthLimit := some 20 } ≠ some (str "[{ 1: \"ü\" }, 2, 3]") := by decide +kernel

end KS.Props
