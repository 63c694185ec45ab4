import Verif.Spec.Own
import Verif.Spec.Kserd
import Verif.Model.ToKserd
import Verif.Lemmas.BTree
import Verif.Props.Kserds
/-!
# C16, C17: ownership conversions and `ToKserd`
-/

namespace KS.Props
open KS.Spec

/-! ## C16 -/

theorem dataF_eq : ∀ f, OKserd.dataF f = f.map (fun p => (p.1.data, p.2.data))
  | [] => rfl
  | (n, k) :: r => by simp [OKserd.dataF, dataF_eq r]

theorem dataM_eq : ∀ f, OKserd.dataM f = f.map (fun p => (p.1.data, p.2.data))
  | [] => rfl
  | (n, k) :: r => by simp [OKserd.dataM, dataM_eq r]

theorem dataL_isEmpty (l : List OKserd) : (OKserd.dataL l).isEmpty = l.isEmpty := by cases l <;> rfl
theorem dataF_isEmpty (l : List (Cow Str × OKserd)) : (OKserd.dataF l).isEmpty = l.isEmpty := by
  rcases l with _ | ⟨⟨n, k⟩, r⟩ <;> rfl

mutual
theorem eq_data : ∀ a b : OKserd, OKserd.eq a b = Kserd.eq a.data b.data
  | .mk i v, .mk j w => by
    simp only [OKserd.eq, OKserd.data, Kserd.eq]
    exact eqV_data v w
termination_by structural a => a
theorem eqV_data : ∀ a b : OValue, OKserd.eqV a b = Kserd.eqV (OKserd.dataV a) (OKserd.dataV b)
  | .unit, b => by cases b <;> simp [OKserd.eqV, OKserd.dataV, Kserd.eqV]
  | .bool a, b => by cases b <;> simp [OKserd.eqV, OKserd.dataV, Kserd.eqV]
  | .num a, b => by cases b <;> simp [OKserd.eqV, OKserd.dataV, Kserd.eqV]
  | .str a, b => by cases b <;> simp [OKserd.eqV, OKserd.dataV, Kserd.eqV, Cow.eq]
  | .barr a, b => by cases b <;> simp [OKserd.eqV, OKserd.dataV, Kserd.eqV, Cow.eq]
  | .tuple a, b => by
    have h := eqList_data a
    cases b <;> simp [OKserd.eqV, OKserd.dataV, Kserd.eqV, h, dataL_isEmpty, dataF_isEmpty]
  | .cntr a, b => by
    have h := eqFields_data a
    cases b <;> simp [OKserd.eqV, OKserd.dataV, Kserd.eqV, h, dataL_isEmpty, dataF_isEmpty]
  | .seq a, b => by
    have h := eqList_data a
    cases b <;> simp [OKserd.eqV, OKserd.dataV, Kserd.eqV, h]
  | .map a, b => by
    have h := eqMap_data a
    cases b <;> simp [OKserd.eqV, OKserd.dataV, Kserd.eqV, h]
termination_by structural a => a
theorem eqList_data : ∀ a b, OKserd.eqList a b = Kserd.eqList (OKserd.dataL a) (OKserd.dataL b)
  | [], b => by cases b <;> simp [OKserd.eqList, OKserd.dataL, Kserd.eqList]
  | x :: r, b => by
    have h := eq_data x
    have h2 := eqList_data r
    cases b <;> simp [OKserd.eqList, OKserd.dataL, Kserd.eqList, h, h2]
termination_by structural a => a
theorem eqFields_data : ∀ a b, OKserd.eqFields a b = Kserd.eqFields (OKserd.dataF a) (OKserd.dataF b)
  | [], b => by cases b <;> simp [OKserd.eqFields, OKserd.dataF, Kserd.eqFields]
  | (n, x) :: r, b => by
    have h := eq_data x
    have h2 := eqFields_data r
    cases b <;> simp [OKserd.eqFields, OKserd.dataF, Kserd.eqFields, h, h2, Cow.eq]
termination_by structural a => a
theorem eqMap_data : ∀ a b, OKserd.eqMap a b = Kserd.eqMap (OKserd.dataM a) (OKserd.dataM b)
  | [], b => by cases b <;> simp [OKserd.eqMap, OKserd.dataM, Kserd.eqMap]
  | (n, x) :: r, b => by
    have h := eq_data x
    have h1 := eq_data n
    have h2 := eqMap_data r
    cases b <;> simp [OKserd.eqMap, OKserd.dataM, Kserd.eqMap, h, h1, h2]
termination_by structural a => a
end

mutual
theorem cmp_data : ∀ a b : OKserd, OKserd.cmp a b = Kserd.cmp a.data b.data
  | .mk i v, .mk j w => by
    simp only [OKserd.cmp, OKserd.data, Kserd.cmp]
    exact cmpV_data v w
termination_by structural a => a
theorem cmpV_data : ∀ a b : OValue, OKserd.cmpV a b = Kserd.cmpV (OKserd.dataV a) (OKserd.dataV b)
  | .unit, b => by cases b <;> simp [OKserd.cmpV, OKserd.dataV, Kserd.cmpV, OKserd.rankV, Kserd.rankV]
  | .bool a, b => by cases b <;> simp [OKserd.cmpV, OKserd.dataV, Kserd.cmpV, OKserd.rankV, Kserd.rankV]
  | .num a, b => by cases b <;> simp [OKserd.cmpV, OKserd.dataV, Kserd.cmpV, OKserd.rankV, Kserd.rankV]
  | .str a, b => by cases b <;> simp [OKserd.cmpV, OKserd.dataV, Kserd.cmpV, OKserd.rankV, Kserd.rankV, OKserd.cmpName]
  | .barr a, b => by cases b <;> simp [OKserd.cmpV, OKserd.dataV, Kserd.cmpV, OKserd.rankV, Kserd.rankV, OKserd.cmpBarr]
  | .tuple a, b => by
    have h := cmpList_data a
    cases b <;> simp [OKserd.cmpV, OKserd.dataV, Kserd.cmpV, OKserd.rankV, Kserd.rankV, h]
  | .cntr a, b => by
    have h := cmpFields_data a
    cases b <;> simp [OKserd.cmpV, OKserd.dataV, Kserd.cmpV, OKserd.rankV, Kserd.rankV, h]
  | .seq a, b => by
    have h := cmpList_data a
    cases b <;> simp [OKserd.cmpV, OKserd.dataV, Kserd.cmpV, OKserd.rankV, Kserd.rankV, h]
  | .map a, b => by
    have h := cmpMap_data a
    cases b <;> simp [OKserd.cmpV, OKserd.dataV, Kserd.cmpV, OKserd.rankV, Kserd.rankV, h]
termination_by structural a => a
theorem cmpList_data : ∀ a b, OKserd.cmpList a b = Kserd.cmpList (OKserd.dataL a) (OKserd.dataL b)
  | [], b => by cases b <;> simp [OKserd.cmpList, OKserd.dataL, Kserd.cmpList]
  | x :: r, b => by
    have h := cmp_data x
    have h2 := cmpList_data r
    cases b <;> simp [OKserd.cmpList, OKserd.dataL, Kserd.cmpList, h, h2]
termination_by structural a => a
theorem cmpFields_data : ∀ a b, OKserd.cmpFields a b = Kserd.cmpFields (OKserd.dataF a) (OKserd.dataF b)
  | [], b => by cases b <;> simp [OKserd.cmpFields, OKserd.dataF, Kserd.cmpFields]
  | (n, x) :: r, b => by
    have h := cmp_data x
    have h2 := cmpFields_data r
    cases b <;> simp [OKserd.cmpFields, OKserd.dataF, Kserd.cmpFields, h, h2, OKserd.cmpName]
termination_by structural a => a
theorem cmpMap_data : ∀ a b, OKserd.cmpMap a b = Kserd.cmpMap (OKserd.dataM a) (OKserd.dataM b)
  | [], b => by cases b <;> simp [OKserd.cmpMap, OKserd.dataM, Kserd.cmpMap]
  | (n, x) :: r, b => by
    have h := cmp_data x
    have h1 := cmp_data n
    have h2 := cmpMap_data r
    cases b <;> simp [OKserd.cmpMap, OKserd.dataM, Kserd.cmpMap, h, h1, h2]
termination_by structural a => a
end

theorem rebuild_fields (f g : List (Cow Str × OKserd)) (hg : OKserd.dataF g = OKserd.dataF f)
    (h : Ascending cmpStr (OKserd.dataF f)) : OKserd.rebuild OKserd.cmpName g = g := by
  have h2 : Ascending OKserd.cmpName g := by
    rw [← hg, dataF_eq] at h
    simpa [Ascending, List.pairwise_map, OKserd.cmpName] using h
  simpa [OKserd.rebuild] using BTree.foldl_insert_sorted (cmp := OKserd.cmpName)
    (fun a b => cmpStr_swap a.data b.data) g [] (by simpa using h2)

theorem rebuild_map (f g : List (OKserd × OKserd)) (hg : OKserd.dataM g = OKserd.dataM f)
    (h : Ascending Kserd.cmp (OKserd.dataM f)) : OKserd.rebuild OKserd.cmp g = g := by
  have h2 : Ascending OKserd.cmp g := by
    rw [← hg, dataM_eq] at h
    simpa [Ascending, List.pairwise_map, cmp_data] using h
  simpa [OKserd.rebuild] using BTree.foldl_insert_sorted (cmp := OKserd.cmp)
    (fun a b => by rw [cmp_data, cmp_data]; exact KS.cmp_swap a.data b.data) g [] (by simpa using h2)

def sortedP (k : Kserd) : Prop := match k.val with
    | .cntr f => Ascending cmpStr f
    | .map m => Ascending Kserd.cmp m
    | _ => True

mutual
theorem intoOwned_spec : ∀ k : OKserd, All sortedP k.data → k.intoOwned.data = k.data ∧ Owned true k.intoOwned
  | .mk i v, h => by
    simp only [OKserd.data, All] at h
    have := intoOwnedV_spec v i h.1 h.2
    constructor
    · simp [OKserd.intoOwned, OKserd.data, this.1, Cow.intoOwned, Cow.mkOwned, Function.comp_def]
    · refine ⟨?_, this.2⟩
      intro s hs
      cases i <;> simp [Cow.intoOwned, Cow.mkOwned] at hs
      subst hs; rfl
theorem intoOwnedV_spec : ∀ (v : OValue) (i : Option (Cow Str)), sortedP (.mk (i.map (·.data)) (OKserd.dataV v)) →
    AllV sortedP (OKserd.dataV v) →
    OKserd.dataV (OKserd.intoOwnedV v) = OKserd.dataV v ∧ OwnedV true (OKserd.intoOwnedV v)
  | .unit, _, _, _ => ⟨rfl, trivial⟩
  | .bool _, _, _, _ => ⟨rfl, trivial⟩
  | .num _, _, _, _ => ⟨rfl, trivial⟩
  | .str _, _, _, _ => ⟨rfl, rfl⟩
  | .barr _, _, _, _ => ⟨rfl, rfl⟩
  | .tuple l, _, _, h => by
    have := intoOwnedL_spec l h
    exact ⟨by simp [OKserd.intoOwnedV, OKserd.dataV, this.1], this.2⟩
  | .seq l, _, _, h => by
    have := intoOwnedL_spec l h
    exact ⟨by simp [OKserd.intoOwnedV, OKserd.dataV, this.1], this.2⟩
  | .cntr f, _, hs, h => by
    have := intoOwnedF_spec f h
    have e := rebuild_fields f _ this.1 (by simpa [sortedP, OKserd.dataV] using hs)
    refine ⟨by simp [OKserd.intoOwnedV, OKserd.dataV, e, this.1], ?_⟩
    simp only [OKserd.intoOwnedV, e, OwnedV]; exact this.2
  | .map f, _, hs, h => by
    have := intoOwnedM_spec f h
    have e := rebuild_map f _ this.1 (by simpa [sortedP, OKserd.dataV] using hs)
    refine ⟨by simp [OKserd.intoOwnedV, OKserd.dataV, e, this.1], ?_⟩
    simp only [OKserd.intoOwnedV, e, OwnedV]; exact this.2
theorem intoOwnedL_spec : ∀ l : List OKserd, AllL sortedP (OKserd.dataL l) →
    OKserd.dataL (OKserd.intoOwnedL l) = OKserd.dataL l ∧ OwnedL true (OKserd.intoOwnedL l)
  | [], _ => ⟨rfl, trivial⟩
  | k :: r, h => by
    simp only [OKserd.dataL, AllL] at h
    have h1 := intoOwned_spec k h.1
    have h2 := intoOwnedL_spec r h.2
    exact ⟨by simp [OKserd.intoOwnedL, OKserd.dataL, h1.1, h2.1], h1.2, h2.2⟩
theorem intoOwnedF_spec : ∀ l : List (Cow Str × OKserd), AllF sortedP (OKserd.dataF l) →
    OKserd.dataF (OKserd.intoOwnedF l) = OKserd.dataF l ∧ OwnedF true (OKserd.intoOwnedF l)
  | [], _ => ⟨rfl, trivial⟩
  | (n, k) :: r, h => by
    simp only [OKserd.dataF, AllF] at h
    have h1 := intoOwned_spec k h.1
    have h2 := intoOwnedF_spec r h.2
    exact ⟨by simp [OKserd.intoOwnedF, OKserd.dataF, h1.1, h2.1, Cow.intoOwned, Cow.mkOwned], rfl, h1.2, h2.2⟩
theorem intoOwnedM_spec : ∀ l : List (OKserd × OKserd), AllM sortedP (OKserd.dataM l) →
    OKserd.dataM (OKserd.intoOwnedM l) = OKserd.dataM l ∧ OwnedM true (OKserd.intoOwnedM l)
  | [], _ => ⟨rfl, trivial⟩
  | (n, k) :: r, h => by
    simp only [OKserd.dataM, AllM] at h
    have h0 := intoOwned_spec n h.1
    have h1 := intoOwned_spec k h.2.1
    have h2 := intoOwnedM_spec r h.2.2
    exact ⟨by simp [OKserd.intoOwnedM, OKserd.dataM, h0.1, h1.1, h2.1], h0.2, h1.2, h2.2⟩
end

mutual
theorem mkBrw_spec : ∀ k : OKserd, All sortedP k.data → k.mkBrw.data = k.data ∧ Owned false k.mkBrw
  | .mk i v, h => by
    simp only [OKserd.data, All] at h
    have := mkBrwV_spec v i h.1 h.2
    constructor
    · simp [OKserd.mkBrw, OKserd.data, this.1, Cow.brwed, Function.comp_def]
    · refine ⟨?_, this.2⟩
      intro s hs
      cases i <;> simp [Cow.brwed] at hs
      subst hs; rfl
theorem mkBrwV_spec : ∀ (v : OValue) (i : Option (Cow Str)), sortedP (.mk (i.map (·.data)) (OKserd.dataV v)) →
    AllV sortedP (OKserd.dataV v) →
    OKserd.dataV (OKserd.mkBrwV v) = OKserd.dataV v ∧ OwnedV false (OKserd.mkBrwV v)
  | .unit, _, _, _ => ⟨rfl, trivial⟩
  | .bool _, _, _, _ => ⟨rfl, trivial⟩
  | .num _, _, _, _ => ⟨rfl, trivial⟩
  | .str _, _, _, _ => ⟨rfl, rfl⟩
  | .barr _, _, _, _ => ⟨rfl, rfl⟩
  | .tuple l, _, _, h => by
    have := mkBrwL_spec l h
    exact ⟨by simp [OKserd.mkBrwV, OKserd.dataV, this.1], this.2⟩
  | .seq l, _, _, h => by
    have := mkBrwL_spec l h
    exact ⟨by simp [OKserd.mkBrwV, OKserd.dataV, this.1], this.2⟩
  | .cntr f, _, hs, h => by
    have := mkBrwF_spec f h
    have e := rebuild_fields f _ this.1 (by simpa [sortedP, OKserd.dataV] using hs)
    refine ⟨by simp [OKserd.mkBrwV, OKserd.dataV, e, this.1], ?_⟩
    simp only [OKserd.mkBrwV, e, OwnedV]; exact this.2
  | .map f, _, hs, h => by
    have := mkBrwM_spec f h
    have e := rebuild_map f _ this.1 (by simpa [sortedP, OKserd.dataV] using hs)
    refine ⟨by simp [OKserd.mkBrwV, OKserd.dataV, e, this.1], ?_⟩
    simp only [OKserd.mkBrwV, e, OwnedV]; exact this.2
theorem mkBrwL_spec : ∀ l : List OKserd, AllL sortedP (OKserd.dataL l) →
    OKserd.dataL (OKserd.mkBrwL l) = OKserd.dataL l ∧ OwnedL false (OKserd.mkBrwL l)
  | [], _ => ⟨rfl, trivial⟩
  | k :: r, h => by
    simp only [OKserd.dataL, AllL] at h
    have h1 := mkBrw_spec k h.1
    have h2 := mkBrwL_spec r h.2
    exact ⟨by simp [OKserd.mkBrwL, OKserd.dataL, h1.1, h2.1], h1.2, h2.2⟩
theorem mkBrwF_spec : ∀ l : List (Cow Str × OKserd), AllF sortedP (OKserd.dataF l) →
    OKserd.dataF (OKserd.mkBrwF l) = OKserd.dataF l ∧ OwnedF false (OKserd.mkBrwF l)
  | [], _ => ⟨rfl, trivial⟩
  | (n, k) :: r, h => by
    simp only [OKserd.dataF, AllF] at h
    have h1 := mkBrw_spec k h.1
    have h2 := mkBrwF_spec r h.2
    exact ⟨by simp [OKserd.mkBrwF, OKserd.dataF, h1.1, h2.1, Cow.brwed], rfl, h1.2, h2.2⟩
theorem mkBrwM_spec : ∀ l : List (OKserd × OKserd), AllM sortedP (OKserd.dataM l) →
    OKserd.dataM (OKserd.mkBrwM l) = OKserd.dataM l ∧ OwnedM false (OKserd.mkBrwM l)
  | [], _ => ⟨rfl, trivial⟩
  | (n, k) :: r, h => by
    simp only [OKserd.dataM, AllM] at h
    have h0 := mkBrw_spec n h.1
    have h1 := mkBrw_spec k h.2.1
    have h2 := mkBrwM_spec r h.2.2
    exact ⟨by simp [OKserd.mkBrwM, OKserd.dataM, h0.1, h1.1, h2.1], h0.2, h1.2, h2.2⟩
end

/-- **C16.** `into_owned` of any Kserd a Rust program can hold leaves all data and identities exactly as
they were and makes every string, byte array, field name and identity owned, at every depth. -/
theorem C16_into_owned (k : OKserd) (h : Sorted k.data) :
    k.intoOwned.data = k.data ∧ Owned true k.intoOwned := intoOwned_spec k h

/-- **C16.** `mk_brw` likewise leaves everything as it was, with every piece borrowed. -/
theorem C16_mk_brw (k : OKserd) (h : Sorted k.data) :
    k.mkBrw.data = k.data ∧ Owned false k.mkBrw := mkBrw_spec k h

/-- **C16.** Both results equal the original. -/
theorem C16_equal (k : OKserd) (h : Sorted k.data) :
    OKserd.eq k.intoOwned k = true ∧ OKserd.eq k.mkBrw k = true ∧
    OKserd.cmp k.intoOwned k = .eq ∧ OKserd.cmp k.mkBrw k = .eq := by
  simp only [cmp_data, eq_data, (C16_into_owned k h).1, (C16_mk_brw k h).1, C10_refl, and_self]

/-- **C16.** Equality and order do not see ownership: comparing two values with their strings, byte arrays,
field names and identities owned or borrowed in any mixture, at any depth, is comparing their data. -/
theorem C16_ownership_invisible (a b : OKserd) :
    OKserd.eq a b = Kserd.eq a.data b.data ∧ OKserd.cmp a b = Kserd.cmp a.data b.data :=
  ⟨eq_data a b, cmp_data a b⟩

/-- Two values which differ in ownership everywhere are equal; two with the same ownership and other data are not. -/
example : OKserd.eq (.mk none (.cntr [(⟨true, str "a"⟩, .mk none (.str ⟨false, str "x"⟩))]))
      (.mk none (.cntr [(⟨false, str "a"⟩, .mk none (.str ⟨true, str "x"⟩))])) = true ∧
    OKserd.cmp (.mk none (.cntr [(⟨true, str "a"⟩, .mk none (.str ⟨false, str "x"⟩))]))
      (.mk none (.cntr [(⟨true, str "a"⟩, .mk none (.str ⟨false, str "w"⟩))])) = .gt := by decide

/-- A container with mixed ownership, a map with a nested key, and identities of both kinds. -/
example : let k : OKserd := .mk (some ⟨false, str "Top"⟩) (.cntr [
      (⟨true, str "a"⟩, .mk none (.str ⟨false, str "x"⟩)),
      (⟨false, str "b"⟩, .mk (some ⟨true, str "M"⟩) (.map [
        (.mk none (.seq [.mk none (.barr ⟨false, [1, 2]⟩)]), .mk none .unit),
        (.mk none (.seq [.mk none (.barr ⟨true, [1, 3]⟩)]), .mk none (.num (.uint 1)))]))])
    Sorted k.data ∧ ¬ Owned true k ∧ ¬ Owned false k ∧ k.intoOwned.data = k.data ∧ k.mkBrw.data = k.data := by
  intro k
  have hs : Sorted k.data := by
    simp [k, Sorted, OKserd.data, OKserd.dataV, OKserd.dataF, OKserd.dataM, OKserd.dataL, All, AllV, AllF, AllM,
      AllL, Ascending]
    decide
  refine ⟨hs, ?_, ?_, (C16_into_owned k hs).1, (C16_mk_brw k hs).1⟩
  · simp [k, Owned]
  · simp [k, Owned, OwnedV, OwnedF]

/-! ## C17 -/

/-- The name of a number type in Rust. -/
def numName : NumTy → Str
  | .usize => 'u' :: str "size" | .isize => 'i' :: str "size"
  | .u8 => 'u' :: str "8" | .u16 => 'u' :: str "16" | .u32 => 'u' :: str "32" | .u64 => 'u' :: str "64" | .u128 => 'u' :: str "128"
  | .i8 => 'i' :: str "8" | .i16 => 'i' :: str "16" | .i32 => 'i' :: str "32" | .i64 => 'i' :: str "64" | .i128 => 'i' :: str "128"
  | .f32 => 'f' :: str "32" | .f64 => 'f' :: str "64"

/-- The documented result of `into_kserd`: what each kind of Rust value turns into. -/
inductive Converts : RVal → Kserd → Prop
  | own (k) : Converts (.custom (.ok k)) k
  | num (t n) : Converts (.num t n) (.mk (some (numName t)) (.num n))
  | unit : Converts .unit (.mk none .unit)
  | bool (b) : Converts (.bool b) (.mk (some (str "bool")) (.bool b))
  | ch (c) : Converts (.ch c) (.mk (some (str "char")) (.str [c]))
  | string (s) : Converts (.string s) (.mk (some (str "String")) (.str s))
  | str (s) : Converts (.str s) (.mk (some (str "str")) (.str s))
  | tuple (l ks) : List.Forall₂ Converts l ks → Converts (.tuple l) (.mk none (.tuple ks))
  | array (l ks) : List.Forall₂ Converts l ks → Converts (.array l) (.mk (some (KS.str "array")) (.seq ks))
  | vec (l ks) : List.Forall₂ Converts l ks → Converts (.vec l) (.mk (some (KS.str "Vec")) (.seq ks))
  | box (v k) : Converts v k → Converts (.box v) k
  | some (v k) : Converts v k → Converts (.some v) k
  | none : Converts .none (.mk (Option.some (KS.str "None")) (.tuple []))
  | ok (v k) : Converts v k → Converts (.ok v) (.mk (Option.some (KS.str "Ok")) (.tuple [k]))
  | err (v k) : Converts v k → Converts (.err v) (.mk (Option.some (KS.str "Err")) (.tuple [k]))

mutual
/-- The failing conversions inside a value, from left to right. -/
def failures : RVal → List ToKserdErr
  | .custom (.error e) => [e]
  | .custom (.ok _) => []
  | .num _ _ => []
  | .unit => []
  | .bool _ => []
  | .ch _ => []
  | .string _ => []
  | .str _ => []
  | .tuple l => failuresL l
  | .array l => failuresL l
  | .vec l => failuresL l
  | .box v => failures v
  | .some v => failures v
  | .none => []
  | .ok v => failures v
  | .err v => failures v
termination_by structural a => a
def failuresL : List RVal → List ToKserdErr
  | [] => []
  | v :: r => failures v ++ failuresL r
termination_by structural a => a
end

mutual
theorem into_spec : ∀ v : RVal, (failures v = [] ∧ ∃ k, v.intoKserd = .ok k ∧ Converts v k) ∨
    ∃ e r, failures v = e :: r ∧ v.intoKserd = .error e
  | .custom (.ok k) => .inl ⟨rfl, k, rfl, .own k⟩
  | .custom (.error e) => .inr ⟨e, [], rfl, rfl⟩
  | .num t n => .inl ⟨rfl, _, rfl, by cases t <;> exact .num _ n⟩
  | .unit => .inl ⟨rfl, _, rfl, .unit⟩
  | .bool b => .inl ⟨rfl, _, rfl, .bool b⟩
  | .ch b => .inl ⟨rfl, _, rfl, .ch b⟩
  | .string b => .inl ⟨rfl, _, rfl, .string b⟩
  | .str b => .inl ⟨rfl, _, rfl, .str b⟩
  | .none => .inl ⟨rfl, _, rfl, .none⟩
  | .box v => by
    rcases into_spec v with ⟨h, k, hk, hc⟩ | ⟨e, r, h, he⟩
    · exact .inl ⟨h, k, hk, .box _ _ hc⟩
    · exact .inr ⟨e, r, h, he⟩
  | .some v => by
    rcases into_spec v with ⟨h, k, hk, hc⟩ | ⟨e, r, h, he⟩
    · exact .inl ⟨h, k, hk, .some _ _ hc⟩
    · exact .inr ⟨e, r, h, he⟩
  | .ok v => by
    rcases into_spec v with ⟨h, k, hk, hc⟩ | ⟨e, r, h, he⟩
    · exact .inl ⟨h, _, by simp only [RVal.intoKserd, hk]; rfl, .ok _ _ hc⟩
    · exact .inr ⟨e, r, h, by simp only [RVal.intoKserd, he]⟩
  | .err v => by
    rcases into_spec v with ⟨h, k, hk, hc⟩ | ⟨e, r, h, he⟩
    · exact .inl ⟨h, _, by simp only [RVal.intoKserd, hk]; rfl, .err _ _ hc⟩
    · exact .inr ⟨e, r, h, by simp only [RVal.intoKserd, he]⟩
  | .tuple l => by
    rcases intos_spec l with ⟨h, k, hk, hc⟩ | ⟨e, r, h, he⟩
    · exact .inl ⟨h, _, by simp only [RVal.intoKserd, hk]; rfl, .tuple _ _ hc⟩
    · exact .inr ⟨e, r, h, by simp only [RVal.intoKserd, he]⟩
  | .array l => by
    rcases intos_spec l with ⟨h, k, hk, hc⟩ | ⟨e, r, h, he⟩
    · exact .inl ⟨h, _, by simp only [RVal.intoKserd, hk]; rfl, .array _ _ hc⟩
    · exact .inr ⟨e, r, h, by simp only [RVal.intoKserd, he]⟩
  | .vec l => by
    rcases intos_spec l with ⟨h, k, hk, hc⟩ | ⟨e, r, h, he⟩
    · exact .inl ⟨h, _, by simp only [RVal.intoKserd, hk]; rfl, .vec _ _ hc⟩
    · exact .inr ⟨e, r, h, by simp only [RVal.intoKserd, he]⟩
theorem intos_spec : ∀ l : List RVal, (failuresL l = [] ∧ ∃ ks, RVal.intoKserds l = .ok ks ∧ List.Forall₂ Converts l ks) ∨
    ∃ e r, failuresL l = e :: r ∧ RVal.intoKserds l = .error e
  | [] => .inl ⟨rfl, [], rfl, .nil⟩
  | v :: l => by
    rcases into_spec v with ⟨h, k, hk, hc⟩ | ⟨e, r, h, he⟩
    · rcases intos_spec l with ⟨h', k', hk', hc'⟩ | ⟨e', r', h', he'⟩
      · exact .inl ⟨by simp [failuresL, h, h'], _, by simp only [RVal.intoKserds, hk, hk'], .cons hc hc'⟩
      · exact .inr ⟨e', r', by simp [failuresL, h, h'], by simp only [RVal.intoKserds, hk, he']⟩
    · exact .inr ⟨e, r ++ failuresL l, by simp [failuresL, h], by simp only [RVal.intoKserds, he]⟩
end

/-- `Converts` relates a value to at most one Kserd. -/
theorem Converts.unique {v : RVal} {k k' : Kserd} (h : Converts v k) (h' : Converts v k') : k = k' := by
  have key : ∀ v k, Converts v k → v.intoKserd = .ok k := by
    intro v k h
    induction h using Converts.rec (motive_2 := fun l ks _ => RVal.intoKserds l = .ok ks) with
    | nil => rfl
    | cons _ _ h1 h2 => simp only [RVal.intoKserds, h1, h2]
    | num t n => cases t <;> rfl
    | _ => simp_all [RVal.intoKserd, Kserd.withIdUnchk, Kserd.new]
  have := (key _ _ h).symm.trans (key _ _ h')
  simpa using this

/-- **C17.** `into_kserd` succeeds exactly with the documented Kserd (elements in order, documented
identity), and fails exactly when some part fails, with the first failure from the left. -/
theorem C17_into_kserd (v : RVal) :
    (∀ k, v.intoKserd = .ok k ↔ Converts v k) ∧
    (∀ e, v.intoKserd = .error e ↔ (failures v).head? = some e) := by
  rcases into_spec v with ⟨h, k, hk, hc⟩ | ⟨e, r, h, he⟩
  · refine ⟨fun k' => ⟨fun hh => ?_, fun hh => ?_⟩, fun e => ?_⟩
    · rw [hk] at hh; cases hh; exact hc
    · rw [hk, hc.unique hh]
    · rw [hk, h]; simp
  · refine ⟨fun k' => ⟨fun hh => ?_, fun hh => ?_⟩, fun e' => ?_⟩
    · rw [he] at hh; cases hh
    · exfalso
      have key : ∀ v k, Converts v k → failures v = [] := by
        intro v k h
        induction h using Converts.rec (motive_2 := fun l ks _ => failuresL l = []) with
        | cons _ _ h1 h2 => simp [failuresL, h1, h2]
        | _ => simp_all [failures, failuresL]
      rw [key _ _ hh] at h; cases h
    · rw [he, h]; simp

/-- A nested value converts, and the same value with two failing parts reports the left one. -/
example : (RVal.tuple [.vec [.num .u8 (.uint 3), .num .u8 (.uint 4)], .some (.ch 'x'), .ok .none]).intoKserd =
    .ok (.mk none (.tuple [
      .mk (some (str "Vec")) (.seq [.mk (some (str "u8")) (.num (.uint 3)), .mk (some (str "u8")) (.num (.uint 4))]),
      .mk (some (str "char")) (.str ['x']),
      .mk (some (str "Ok")) (.tuple [.mk (some (str "None")) (.tuple [])])])) ∧
    (RVal.tuple [.unit, .vec [.custom (.error (.invalidId (str "a.b")))], .custom (.error (.invalidId (str "<")))]).intoKserd =
      .error (.invalidId (str "a.b")) := by
  constructor <;> rfl

end KS.Props
