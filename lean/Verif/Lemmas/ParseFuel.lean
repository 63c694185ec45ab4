import Verif.Lemmas.ParseTotal
/-!
# The parser's fuel does not matter once it exceeds the input length
-/

namespace KS.PG
open KS.Spec

variable {α β γ : Type}

theorem bind_congr {i : Str} {Q : Str → α → Prop} {x : PRes α} {f g : Str → α → PRes β} (h : Res i Q x)
    (hf : ∀ r a, r <:+ i → Q r a → f r a = g r a) : x.bind f = x.bind g := by
  cases x with
  | ok r a => exact hf r a h.1 h.2
  | err e => rfl
  | fail e => rfl
  | panic => rfl
  | oof => rfl

theorem context_congr {s : String} {p q : Parser α} {i : Str} (h : p i = q i) : Nom.context s p i = Nom.context s q i := by
  rw [Nom.context, Nom.context, h]
theorem cut_congr {p q : Parser α} {i : Str} (h : p i = q i) : Nom.cut p i = Nom.cut q i := by
  rw [Nom.cut, Nom.cut, h]
theorem terminated_congr {p q : Parser α} {t : Parser β} {i : Str} (h : p i = q i) : Nom.terminated p t i = Nom.terminated q t i := by
  rw [Nom.terminated, Nom.terminated, h]
theorem preceded_congr {p : Parser β} {q q' : Parser α} {i : Str} {Q : Str → β → Prop} (hp : Res i Q (p i))
    (h : ∀ j a, j <:+ i → Q j a → q j = q' j) : Nom.preceded p q i = Nom.preceded p q' i :=
  bind_congr hp fun r a hr ha => h r a hr ha

theorem ignoreWs_congr {p q : Parser α} {i : Str} (h : ∀ j, j <:+ i → p j = q j) : P.ignoreWs p i = P.ignoreWs q i := by
  have h1 : Res i (fun _ _ => True) (P.inlineWs i) := (takeWhile_res _ i).imp fun _ _ _ _ => trivial
  exact bind_congr (opt_res h1) fun r _ hr _ => h r hr

theorem sep_congr {p p' : Parser α} {s : Parser β} {q q' : Parser γ} {i : Str} {Q : α → Prop}
    (hr : Res i (fun _ a => Q a) (p i)) (hp : p i = p' i)
    (hs : ∀ j, j <:+ i → Res j (fun _ _ => True) (s j)) (hq : ∀ j, j <:+ i → q j = q' j) :
    Nom.separatedPair p s q i = Nom.separatedPair p' s q' i := by
  rw [Nom.separatedPair, Nom.separatedPair, ← hp]
  exact bind_congr hr fun r a hr _ => bind_congr (hs r hr) fun r' _ hr' _ => by rw [hq r' (hr'.trans hr)]

theorem sepLoop_congr {sep : Parser β} {f f' : Parser α} {Q : α → Prop} : ∀ (n : Nat) (i : Str) (acc : List α),
    (∀ j, j <:+ i → Res j (fun _ _ => True) (sep j)) → (∀ j, j <:+ i → Res j (fun _ a => Q a) (f j)) →
    (∀ j, j <:+ i → f j = f' j) →
    Nom.sepLoop sep f n i acc = Nom.sepLoop sep f' n i acc
  | 0, _, _, _, _, _ => rfl
  | n + 1, i, acc, hs, hf, he => by
    rw [Nom.sepLoop, Nom.sepLoop]
    have h1 := hs i (List.suffix_refl _)
    cases hp : sep i with
    | err e => rfl
    | fail e => rfl
    | panic => rfl
    | oof => rfl
    | ok i1 x =>
      rw [hp] at h1
      dsimp only
      rw [← he i1 h1.1]
      have h2 := hf i1 h1.1
      split
      · rfl
      · cases hq : f i1 with
        | err e => rfl
        | fail e => rfl
        | panic => rfl
        | oof => rfl
        | ok i2 a =>
          rw [hq] at h2
          have hs2 := h2.1.trans h1.1
          exact sepLoop_congr n i2 _ (fun j hj => hs j (hj.trans hs2)) (fun j hj => hf j (hj.trans hs2)) (fun j hj => he j (hj.trans hs2))

theorem separatedList0_congr {sep : Parser β} {f f' : Parser α} {Q : α → Prop} {i : Str}
    (hs : ∀ j, j <:+ i → Res j (fun _ _ => True) (sep j)) (hf : ∀ j, j <:+ i → Res j (fun _ a => Q a) (f j))
    (he : ∀ j, j <:+ i → f j = f' j) : Nom.separatedList0 sep f i = Nom.separatedList0 sep f' i := by
  rw [Nom.separatedList0, Nom.separatedList0, ← he i (List.suffix_refl _)]
  have h := hf i (List.suffix_refl _)
  cases hp : f i with
  | err e => rfl
  | fail e => rfl
  | panic => rfl
  | oof => rfl
  | ok r a =>
    rw [hp] at h
    exact sepLoop_congr _ r _ (fun j hj => hs j (hj.trans h.1)) (fun j hj => hf j (hj.trans h.1)) (fun j hj => he j (hj.trans h.1))

theorem many0Loop_congr {f f' : Parser α} {Q : α → Prop} : ∀ (n : Nat) (i : Str) (acc : List α),
    (∀ j, j <:+ i → Res j (fun _ a => Q a) (f j)) → (∀ j, j <:+ i → f j = f' j) →
    Nom.many0Loop f n i acc = Nom.many0Loop f' n i acc
  | 0, _, _, _, _ => rfl
  | n + 1, i, acc, hf, he => by
    rw [Nom.many0Loop, Nom.many0Loop, ← he i (List.suffix_refl _)]
    have h1 := hf i (List.suffix_refl _)
    cases hp : f i with
    | err e => rfl
    | fail e => rfl
    | panic => rfl
    | oof => rfl
    | ok i1 x =>
      rw [hp] at h1
      dsimp only
      split
      · rfl
      · exact many0Loop_congr n i1 _ (fun j hj => hf j (hj.trans h1.1)) (fun j hj => he j (hj.trans h1.1))

/-- Two parsers agree on all suffixes, and the first behaves. -/
def Agree (k k' : Bool → Parser Kserd) (i : Str) : Prop :=
  ∀ b j, j <:+ i → Res j (fun _ a => Parsed a) (k b j) ∧ k b j = k' b j

theorem Agree.sub {k k' : Bool → Parser Kserd} {i j : Str} (h : Agree k k' i) (hj : j <:+ i) : Agree k k' j :=
  fun b l hl => h b l (hl.trans hj)

variable {k k' : Bool → Parser Kserd}

theorem inlineList_congr {i : Str} (h : Agree k k' i) : P.inlineList k i = P.inlineList k' i :=
  context_congr (separatedList0_congr (Q := Parsed) (fun j _ => comma_res ',' j)
    (fun j hj => ignoreWs_res fun l hl => (h true l (hl.trans hj)).1) fun j hj => ignoreWs_congr fun l hl => (h true l (hl.trans hj)).2)

theorem ws_true (i : Str) : Res i (fun _ _ => True) (P.multiWs i) := (takeWhile_res _ i).imp fun _ _ _ _ => trivial

theorem conciseList_congr {i : Str} (h : Agree k k' i) : P.conciseList k i = P.conciseList k' i :=
  preceded_congr (ws_true i) fun r _ hr _ => cut_congr (terminated_congr
    (separatedList0_congr (Q := Parsed) (fun j _ => ws_true j) (fun j hj => (h false j (hj.trans hr)).1) fun j hj => (h false j (hj.trans hr)).2))

theorem alt2_congr {p q p' q' : Parser α} {i : Str} (h1 : p i = p' i) (h2 : q i = q' i) : Nom.alt [p, q] i = Nom.alt [p', q'] i := by
  simp only [Nom.alt, h1, h2]

theorem kvpKserd_congr (force : Bool) {i : Str} (h : Agree k k' i) : P.kvpKserd k force i = P.kvpKserd k' force i := by
  refine context_congr (sep_congr (Q := Parsed) ?_ (alt2_congr (h false i (List.suffix_refl _)).2 (h true i (List.suffix_refl _)).2)
    (fun j _ => comma_res ':' j) fun j hj => ignoreWs_congr fun l hl => (h force l (hl.trans hj)).2)
  apply alt_res
  intro p hp
  simp only [List.mem_cons, List.not_mem_nil, or_false] at hp
  rcases hp with rfl | rfl <;> exact (h _ i (List.suffix_refl _)).1

theorem inlineMap_congr {i : Str} (h : Agree k k' i) : P.inlineMap k i = P.inlineMap k' i :=
  context_congr (separatedList0_congr (fun j _ => comma_res ',' j)
    (fun j hj => ignoreWs_res fun l hl => kvpKserd_res k true l fun b m hm => (h b m (hm.trans (hl.trans hj))).1)
    fun j hj => ignoreWs_congr fun l hl => kvpKserd_congr true (h.sub (hl.trans hj)))

theorem conciseMap_congr {i : Str} (h : Agree k k' i) : P.conciseMap k i = P.conciseMap k' i :=
  context_congr (preceded_congr (ws_true i) fun r _ hr _ => terminated_congr
    (separatedList0_congr (fun j _ => ws_true j) (fun j hj => kvpKserd_res k false j fun b m hm => (h b m (hm.trans (hj.trans hr))).1)
      fun j hj => kvpKserd_congr false (h.sub (hj.trans hr))))

theorem kvpField_congr (force : Bool) {i : Str} (h : Agree k k' i) : P.kvpField k force i = P.kvpField k' force i :=
  context_congr (sep_congr (Q := fun (s : Str) => ∀ c ∈ s, NameChar c) (fieldName_res i) rfl (fun j _ => comma_res '=' j)
    fun j hj => ignoreWs_congr fun l hl => cut_congr (h force l (hl.trans hj)).2)

theorem inlineCntr_congr {i : Str} (h : Agree k k' i) : P.inlineCntr k i = P.inlineCntr k' i :=
  context_congr (separatedList0_congr (fun j _ => comma_res ',' j)
    (fun j hj => ignoreWs_res fun l hl => kvpField_res k true l fun b m hm => (h b m (hm.trans (hl.trans hj))).1)
    fun j hj => ignoreWs_congr fun l hl => kvpField_congr true (h.sub (hl.trans hj)))

theorem conciseCntr_congr {i : Str} (h : Agree k k' i) : P.conciseCntr k i = P.conciseCntr k' i :=
  context_congr (preceded_congr (ws_true i) fun r _ hr _ => cut_congr (terminated_congr
    (separatedList0_congr (fun j _ => ws_true j) (fun j hj => kvpField_res k false j fun b m hm => (h b m (hm.trans (hj.trans hr))).1)
      fun j hj => kvpField_congr false (h.sub (hj.trans hr)))))

theorem opened_congr {force : Bool} {o : Char} {body body' : Bool → Option Str → Parser α} {i : Str}
    (h : ∀ c id j, j <:+ i → j.length < i.length → body c id j = body' c id j) :
    P.opened force o body i = P.opened force o body' i := by
  refine bind_congr (opt_res (ident_res false i)) fun r id hr _ => ?_
  have hc : Res r (fun r' _ => r'.length < i.length) (P.ignoreWs (Nom.char o) r) :=
    ignoreWs_res fun l hl => (char_res o l).imp fun r' _ _ h' => by
      have := suffix_len hl; have := suffix_len hr; omega
  exact bind_congr hc fun j _ hj hlt => h _ _ j (hj.trans hr) hlt

/-- Agreement below the opening delimiter. -/
def AgreeLt (k k' : Bool → Parser Kserd) (i : Str) : Prop :=
  ∀ b j, j <:+ i → j.length < i.length → Res j (fun _ a => Parsed a) (k b j) ∧ k b j = k' b j

theorem AgreeLt.agree {i j : Str} (h : AgreeLt k k' i) (hj : j <:+ i) (hl : j.length < i.length) : Agree k k' j :=
  fun b l hs => h b l (hs.trans hj) (by have := suffix_len hs; omega)

theorem tuple_congr (force : Bool) {i : Str} (h : AgreeLt k k' i) : P.tuple k force i = P.tuple k' force i := by
  refine opened_congr fun c id j hj hl => ?_
  have ha := h.agree hj hl
  congr 1
  refine context_congr (cut_congr (terminated_congr ?_))
  cases c
  · exact inlineList_congr ha
  · exact conciseList_congr ha

theorem seq_congr (force : Bool) {i : Str} (h : AgreeLt k k' i) : P.seqDelimited k force i = P.seqDelimited k' force i := by
  refine opened_congr fun c id j hj hl => ?_
  have ha := h.agree hj hl
  congr 1
  refine context_congr (cut_congr (terminated_congr ?_))
  cases c
  · exact inlineList_congr ha
  · exact conciseList_congr ha

theorem map_del_congr (force : Bool) {i : Str} (h : AgreeLt k k' i) : P.mapDelimited k force i = P.mapDelimited k' force i := by
  refine opened_congr fun c id j hj hl => ?_
  have ha := h.agree hj hl
  congr 1
  refine context_congr (terminated_congr ?_)
  cases c
  · exact inlineMap_congr ha
  · exact conciseMap_congr ha

theorem cntr_congr (force : Bool) {i : Str} (h : AgreeLt k k' i) : P.cntrDelimited k force i = P.cntrDelimited k' force i := by
  refine opened_congr fun c id j hj hl => ?_
  have ha := h.agree hj hl
  congr 1
  refine context_congr (terminated_congr ?_)
  cases c
  · exact inlineCntr_congr ha
  · exact conciseCntr_congr ha

theorem delimited_fuel : ∀ (f g : Nat) (force : Bool) (i : Str), i.length < f → i.length < g →
    P.kserdDelimited f force i = P.kserdDelimited g force i
  | 0, _, _, _, h, _ => by omega
  | _ + 1, 0, _, _, _, h => by omega
  | f + 1, g + 1, force, i, hf, hg => by
    rw [P.kserdDelimited, P.kserdDelimited]
    refine bind_congr (patternDelimited_res i) ?_
    rintro r pat _ rfl
    have ha : AgreeLt (P.kserdDelimited f) (P.kserdDelimited g) r := fun b j _ hl =>
      ⟨delimited_res f b j (by omega), delimited_fuel f g b j (by omega) (by omega)⟩
    cases pat
    · exact tuple_congr force ha
    · exact cntr_congr force ha
    · exact seq_congr force ha
    · exact map_del_congr force ha
    · rfl

/-- Agreement of nested parsers on shorter suffixes. -/
def NestAgree (n n' : Parser Kserd) (i : Str) : Prop :=
  ∀ j, j <:+ i → j.length < i.length → Res j (fun _ a => Parsed a) (n j) ∧ n j = n' j

theorem mapEntryValue_congr {n n' : Parser Kserd} {i : Str} (h : NestAgree n n' i) : P.mapEntryValue n i = P.mapEntryValue n' i :=
  context_congr (alt2_congr rfl (preceded_congr (wsLineEnding_res i) fun j _ hj hl => (h j hj hl).2))

theorem entryField_congr {n n' : Parser Kserd} {i : Str} (h : NestAgree n n' i) : P.entryField n i = P.entryField n' i := by
  rw [P.entryField, P.entryField]
  have h0 : Res i (fun r _ => r.length < i.length)
      (Nom.context "field name. expecting 'field_name[:identity]'"
        (Nom.cut (Nom.preceded (Nom.tag (str "[[")) (Nom.terminated P.nameAndIdentity (P.ignoreWs (Nom.tag (str "]]")))))) i) := by
    refine context_res (cut_res (preceded_res (tag_res _ i) fun r _ _ hr => terminated_res (nameAndIdentity_res r) fun r2 a h2 ha =>
      ignoreWs_res fun l hl => (tag_res _ l).imp fun r3 _ h3 _ => ?_))
    have := suffix_len h2; have := suffix_len hl; have := suffix_len h3
    have e : i.length = 2 + r.length := by rw [hr]; simp [str]; omega
    omega
  refine bind_congr h0 fun r ni hr hlt => bind_congr (wsLineEnding_res r) fun r1 _ hr1 _ => ?_
  have hkey : Res r1 (fun _ _ => True)
      (Nom.opt (Nom.terminated (P.ignoreWs (P.uncut P.kserdInline)) (P.ignoreWs (Nom.char ':'))) r1) :=
    (opt_res (close_res (Q := Parsed) (ignoreWs_res fun l _ => uncut_res (inline_res l)))).imp fun _ _ _ _ => trivial
  refine bind_congr hkey fun r2 key hr2 _ => ?_
  have hs : r2 <:+ i := hr2.trans (hr1.trans hr)
  have hl : r2.length < i.length := by have := suffix_len hr2; have := suffix_len hr1; omega
  cases key with
  | some key =>
    dsimp only
    rw [mapEntryValue_congr (n' := n') fun j hj hl' => h j (hj.trans hs) (by omega)]
  | none =>
    dsimp only
    rw [context_congr (q := n') (h r2 hs hl).2]

theorem nestedField_congr {n n' : Parser Kserd} {i : Str} (h : NestAgree n n' i) : P.nestedField n i = P.nestedField n' i := by
  rw [P.nestedField, P.nestedField]
  have h0 : Res i (fun r _ => r.length < i.length)
        (Nom.preceded (Nom.tag ['[']) (Nom.terminated P.nameAndIdentity (P.ignoreWs (Nom.tag [']']))) i) := by
    refine preceded_res (tag_res _ i) fun r _ _ hr => terminated_res (nameAndIdentity_res r) fun r2 a h2 ha =>
      ignoreWs_res fun l hl => (tag_res _ l).imp fun r3 _ h3 _ => ?_
    have := suffix_len h2; have := suffix_len hl; have := suffix_len h3
    have e : i.length = 1 + r.length := by rw [hr]; simp; omega
    omega
  refine bind_congr h0 fun r ni hr hlt => bind_congr (wsLineEnding_res r) fun r1 _ hr1 _ => ?_
  rw [context_congr (q := n') (h r1 (hr1.trans hr) (by have := suffix_len hr1; omega)).2]

theorem fieldBody_congr {n n' : Parser Kserd} {i : Str} (h : NestAgree n n' i) : P.fieldBody n i = P.fieldBody n' i := by
  unfold P.fieldBody
  split
  · rfl
  · split
    · rfl
    · exact entryField_congr h
    · exact nestedField_congr h
    · rfl

theorem verboseField_congr {n n' : Parser Kserd} (m : Nat) {i : Str} (h : NestAgree n n' i) :
    P.verboseField n m i = P.verboseField n' m i := by
  rw [P.verboseField, P.verboseField]
  refine bind_congr (skipBlank_res _ i (by omega)) fun r _ hr _ => bind_congr (expectIndents_res m r) fun r1 _ hr1 _ =>
    bind_congr (takeWhile_res _ r1) fun r2 _ hr2 _ => fieldBody_congr fun j hj hl => ?_
  have hs : r2 <:+ i := hr2.trans (hr1.trans hr)
  exact h j (hj.trans hs) (by have := suffix_len hs; omega)

theorem nested_fuel : ∀ (f g n : Nat) (i : Str), i.length < f → i.length < g →
    P.kserdNested f n i = P.kserdNested g n i
  | 0, _, _, _, h, _ => by omega
  | _ + 1, 0, _, _, _, h => by omega
  | f + 1, g + 1, n, i, hf, hg => by
    rw [P.kserdNested, P.kserdNested]
    split
    · rw [P.verbose, P.verbose]
      congr 1
      refine many0Loop_congr (Q := CFieldOk) _ i [] (fun j hj => verboseField_res n j fun l _ hl => ?_) fun j hj =>
        verboseField_congr n fun l _ hl => ⟨?_, ?_⟩
      · exact nested_res f (n + 1) l (by have := suffix_len hj; omega)
      · exact nested_res f (n + 1) l (by have := suffix_len hj; omega)
      · exact nested_fuel f g (n + 1) l (by have := suffix_len hj; omega) (by have := suffix_len hj; omega)
    · rfl

end KS.PG
