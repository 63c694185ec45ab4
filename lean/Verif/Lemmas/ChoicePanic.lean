import Verif.Lemmas.ChoicePlan
import Verif.Props.Format
/-!
# When a run of `apply_config` panics
-/

namespace KS.Ch
open KS KS.Spec KS.Nav KS.Fm KS.Wr KS.Props

/-- A granted request keeps what is settled, and settles one node more. -/
theorem good_step {c : FormattingConfig} {root : Kserd} {a : List Nat} {d p o : Nat} {m q : NavNode} {P r : Repr'} {g g' : Formatter}
    (hr : Rules g) (e0 : g.root = root) (hcl : Closed (Nav.new root) (0 :: a)) (hnx : Next (Nav.new root) (0 :: a) d)
    (ha : ∀ j ∈ a, Good c g j) (hm : (Nav.new root)[d]? = some m) (hp : m.parent = some p) (hq : (Nav.new root)[p]? = some q)
    (ho : Solver.calculateOffset c g.nav g.fmts m = some o) (hP : line g p = some P) (hrr : wishAt c m q o = r)
    (h3 : g.request d r = .ok g') (hmax : r ≤ maxRepr m.kserd.val) (hrP : r ≤ P) :
    (∀ j ∈ 0 :: a, line g' j = line g j) ∧ ∀ j ∈ a ++ [d], Good c g' j := by
  have hnav : g.nav = Nav.new root := by rw [hr.nav, e0]
  obtain ⟨q1, q2, q3, q4, q5, _⟩ := C23_effect _ _ hr d r h3
  have hmg : g.nav[d]? = some m := by rw [hnav]; exact hm
  have hqg : g.nav[p]? = some q := by rw [hnav]; exact hq
  have same : ∀ j ∈ 0 :: a, line g' j = line g j := by
    intro j hj
    refine q5 j (fun h => hnx.fresh (h ▸ hj)) ?_
    rw [hnav]; exact not_below hcl hnx.fresh hj
  refine ⟨same, ?_⟩
  intro j hj
  rcases List.mem_append.mp hj with hj | hj
  · obtain ⟨m2, p2, q2', o2, P2, a1, a2, a3, a4, a5, a6⟩ := ha j hj
    have hjS : j ∈ 0 :: a := List.mem_cons_of_mem _ hj
    have a1' := a1; rw [hnav] at a1'
    have a3' := a3; rw [hnav] at a3'
    refine ⟨m2, p2, q2', o2, P2, by rw [q2]; exact a1, a2, by rw [q2]; exact a3, ?_, ?_, ?_⟩
    · rw [q2, hnav] at *
      rw [← a4]
      exact offset_congr c hcl same a1' (fun p hp => hcl.parent j hjS m2 p a1' hp)
        (fun p q ki hp hq hk hki => hcl.key j hjS m2 p q ki a1' hp hq hk hki)
    · rw [same p2 (hcl.parent j hjS m2 p2 a1' a2)]; exact a5
    · rw [same j hjS]; exact a6
  · rcases List.mem_singleton.mp hj with rfl
    refine ⟨m, p, q, o, P, by rw [q2]; exact hmg, hp, by rw [q2]; exact hqg, ?_, ?_, ?_⟩
    · rw [← ho, q2, hnav]
      exact offset_congr c hcl same hm (fun p hp => hnx.parent m p hm hp)
        (fun p q ki hp hq hk hki => hnx.key m p q ki hm hp hq hk hki)
    · rw [same p (hnx.parent m p hm hp)]; exact hP
    · rw [q3, hrr, ← granted_value hmax hrP]

/-- A failing run has made some key verbose; up to there everything is settled. -/
theorem run_fails {c : FormattingConfig} {root : Kserd} {ds : List Nat}
    (hord : ∀ a d b, ds = a ++ d :: b → Closed (Nav.new root) (0 :: a) ∧ Next (Nav.new root) (0 :: a) d)
    (hmem : ∀ j, j ∈ ds ↔ 0 < j ∧ j < (Nav.new root).length) :
    ∀ (b a : List Nat) (g : Formatter), ds = a ++ b → g.root = root → Rules g → (∀ d ∈ a, Good c g d) → (∀ d ∈ b, Down g d) →
      (∀ d ∈ a, ∀ m, g.nav[d]? = some m → isKey m = true → line g d ≠ some .verbose) →
      b.foldlM (Solver.applyNode c) g = none →
      ∃ a' d b' m g', ds = a' ++ d :: b' ∧ (∀ j ∈ a' ++ [d], Good c g' j) ∧ Rules g' ∧ g'.root = root ∧ line g' 0 = line g 0 ∧
        g'.nav[d]? = some m ∧ isKey m = true ∧ line g' d = some .verbose
  | [], a, g, e, e0, hr, ha, _, _, h => by
    simp only [List.foldlM_nil] at h
    cases h
  | d :: b, a, g, e, e0, hr, ha, hb, hkeys, h => by
    have h' := h
    rw [List.foldlM_cons] at h
    obtain ⟨hcl, hnx⟩ := hord a d b e
    have hnav : g.nav = Nav.new root := by rw [hr.nav, e0]
    have hd0 : d ∈ ds := by rw [e]; simp
    obtain ⟨hdp, hdl⟩ := (hmem d).mp hd0
    have hm : (Nav.new root)[d]? = some ((Nav.new root)[d]'hdl) := List.getElem?_eq_getElem hdl
    generalize (Nav.new root)[d]'hdl = m at hm
    obtain ⟨p, hp⟩ : ∃ p, m.parent = some p := by
      cases hp : m.parent with
      | some p => exact ⟨p, rfl⟩
      | none => have := (C19_links _ d m hm).2.1.mp hp; omega
    obtain ⟨hlt, q, hq⟩ := parent_lt hm hp
    have hmg : g.nav[d]? = some m := by rw [hnav]; exact hm
    have hqg : g.nav[p]? = some q := by rw [hnav]; exact hq
    obtain ⟨P, hP⟩ := line_some ⟨hr.nav, hr.len⟩ hqg
    have hold := hb d (by simp) m p P hmg hp hP
    have e' : ds = (a ++ [d]) ++ b := by rw [e]; simp
    have keyle : ∀ {n : NavNode} {Q : Repr'}, isKey n = true → Repr'.min (start n) Q ≠ .verbose := by
      intro n Q hk hc
      rw [start, hk] at hc
      simp only [if_true] at hc
      revert hc
      cases maxRepr n.kserd.val <;> cases Q <;> decide
    -- as no key is verbose yet, the column can be computed
    have hkok : KeysOk g := by
      intro j n hn hk hv
      have hn' := hn; rw [hnav] at hn'
      obtain ⟨p', hp'⟩ := key_has_parent hn' hk
      have hjd : j ∈ ds := (hmem j).mpr ⟨by have := (parent_lt hn' hp').1; omega, (List.getElem?_eq_some_iff.mp hn').1⟩
      rw [e] at hjd
      rcases List.mem_append.mp hjd with hj | hj
      · exact hkeys j hj n hn hk hv
      · obtain ⟨_, q', hq'⟩ := parent_lt hn' hp'
        obtain ⟨Q, hQ⟩ := line_some ⟨hr.nav, hr.len⟩ (show g.nav[p']? = some q' by rw [hnav]; exact hq')
        have := hb j hj n p' Q hn hp' hQ
        rw [hv] at this
        exact keyle hk (Option.some.inj this).symm
    obtain ⟨o, ho⟩ := calculateOffset_some hr hkok (config := c) hmg
    have hap := wish_applyNode hmg hp hqg ho
    generalize hrr : wishAt c m q o = r at hap
    rcases requestOk_cases ⟨hr.nav, hr.len⟩ d r with ⟨g', h2, h3⟩ | ⟨h2, er, h3⟩
    · rw [hap, h2] at h
      have h : b.foldlM (Solver.applyNode c) g' = none := h
      obtain ⟨r1, r2, r3⟩ := rules_requestOk hr h2
      obtain ⟨m', hm', hmax, hpar, _⟩ := (C23_granted g hr d r).mp ⟨_, h3⟩
      rw [hmg] at hm'; cases hm'
      have hrP := hpar p P hp hP
      obtain ⟨same, hgood⟩ := good_step hr e0 hcl hnx ha hm hp hq ho hP hrr h3 hmax hrP
      have q3 := (C23_effect _ _ hr d r h3).2.2.1
      by_cases hle : r ≤ Repr'.min (start m) P
      · have hb' : ∀ j ∈ b, Down g' j := by
          intro j hj
          have hjd : j ≠ d := by
            rintro rfl
            obtain ⟨b1, b2, eb⟩ := List.append_of_mem hj
            exact (hord (a ++ j :: b1) j b2 (by rw [e, eb]; simp)).2.fresh (by simp)
          exact down_kept hr h3 hold hle hjd (hb j (by simp [hj]))
        have hkeys' : ∀ j ∈ a ++ [d], ∀ n, g'.nav[j]? = some n → isKey n = true → line g' j ≠ some .verbose := by
          intro j hj n hn hk
          rw [r3] at hn
          rcases List.mem_append.mp hj with hj | hj
          · rw [same j (List.mem_cons_of_mem _ hj)]; exact hkeys j hj n hn hk
          · rcases List.mem_singleton.mp hj with rfl
            rw [hmg] at hn; cases hn
            rw [q3]
            intro hv
            have hv := Option.some.inj hv
            rw [hv] at hle
            have := keyle (Q := P) hk
            revert hle this
            cases Repr'.min (start m) P <;> decide
        obtain ⟨a', d', b', m', g2, x1, x2, x3, x4, x5, x6⟩ := run_fails hord hmem b (a ++ [d]) g' e' (by rw [r2, e0]) r1 hgood hb' hkeys' h
        exact ⟨a', d', b', m', g2, x1, x2, x3, x4, x5.trans (same 0 (by simp)), x6⟩
      · rw [start] at hle
        obtain ⟨hkm, hrv⟩ := raised hmax hrP hle
        rw [hrv] at q3
        exact ⟨a, d, b, m, g', e, hgood, r1, by rw [r2, e0], same 0 (by simp), by rw [r3]; exact hmg, hkm, q3⟩
    · rw [hap, h2] at h
      have h : b.foldlM (Solver.applyNode c) g = none := h
      refine run_fails hord hmem b (a ++ [d]) g e' e0 hr ?_ (fun j hj => hb j (by simp [hj])) ?_ h
      · intro j hj
        rcases List.mem_append.mp hj with hj | hj
        · exact ha j hj
        · rcases List.mem_singleton.mp hj with rfl
          refine ⟨m, p, q, o, P, hmg, hp, hqg, ho, hP, ?_⟩
          rw [hold, hrr, start]
          congr 1
          apply refused_value
          rintro ⟨h4, h5⟩
          obtain ⟨g3, h6⟩ := (C23_granted g hr j r).mpr ⟨m, hmg, h4, fun p' q' hp' hq' => by
            rw [hp] at hp'; cases hp'; rw [hP] at hq'; cases hq'; exact h5, fun h => by omega⟩
          rw [h6] at h3; cases h3
      · intro j hj n hn hk
        rcases List.mem_append.mp hj with hj | hj
        · exact hkeys j hj n hn hk
        · rcases List.mem_singleton.mp hj with rfl
          rw [hmg] at hn; cases hn
          rw [hold]
          intro hv
          exact keyle hk (Option.some.inj hv)

/-- In a settled formatter no key is verbose. -/
theorem no_verbose_key {c : FormattingConfig} {g : Formatter} {R : Repr'} (h : Done c g R) {k : Nat} {m : NavNode} (hm : g.nav[k]? = some m)
    (hk : isKey m = true) : line g k ≠ some .verbose := by
  intro hl
  have hr := h.rules
  have hm' := hm; rw [hr.nav] at hm'
  obtain ⟨p, hp⟩ := key_has_parent hm' hk
  obtain ⟨_, q, hq⟩ := parent_lt hm' hp
  obtain ⟨v, n, hn, hpn, hkn, hki, hmap⟩ := value_of_key hm' hp hq hk
  rw [← hr.nav] at hq hn
  have hv0 : 0 < v := by have := hn; rw [hr.nav] at this; have := (parent_lt this hpn).1; omega
  obtain ⟨n5, p5, q5, o, P, g1, g2, g3, g4, g5, _⟩ := h.good v hv0 (List.getElem?_eq_some_iff.mp hn).1 trivial
  rw [hn] at g1; cases g1
  have := verbose_key_panics (c := c) [v] g hr hm hp hq hn hpn hkn hki hmap hl (by simp)
    (by
      intro x hx
      rcases List.mem_singleton.mp hx with rfl
      refine ⟨?_, ?_⟩
      · rintro rfl; rw [hm] at hn; cases hn; rw [hk] at hkn; cases hkn
      · intro hb
        cases hb with
        | child a b => rw [hm] at a; cases a; rw [hp] at b; cases b
                       have := hn; rw [hr.nav] at this
                       have := (parent_lt this hpn).1; omega
        | step a b hb' =>
          rw [hm] at a; cases a; rw [hp] at b; cases b
          have h1 := hn; rw [hr.nav] at h1 hb'
          have h2 := (below_bounds h1 hb').1
          have := (parent_lt h1 hpn).1; omega)
  rw [List.foldlM_cons, wish_applyNode hn g2 g3 g4] at this
  obtain ⟨g', hg'⟩ := requestOk_some ⟨hr.nav, hr.len⟩ v (wishAt c n q5 o)
  rw [hg'] at this
  cases this

end KS.Ch
