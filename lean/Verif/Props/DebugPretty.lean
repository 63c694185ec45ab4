import Verif.Lemmas.DebugPretty
import Verif.Props.Debug
import Verif.Lemmas.DebugDoc
/-!
# C71: the pretty `Debug` text says as much as the plain one
-/

namespace KS.Props
open KS.Spec KS.Dbg

/-- **C71**: Two Kserds have the same `{:#?}` text exactly when they have the same `{:?}` text. -/
theorem C71_same (plain : Char → Bool) {a b : Kserd} (ha : All Plainly a) (hb : All Plainly b) :
    Pretty.kserd plain a = Pretty.kserd plain b ↔ Dbg.kserd plain a = Dbg.kserd plain b := by
  rw [C66_debug_same plain ha hb]
  constructor
  · intro h
    exact (Pretty.kserd_inj a (x := []) (y := []) ha hb (by rw [h])).1
  · intro h
    rw [← Pretty.kserd_oneNan a, h, Pretty.kserd_oneNan]

/-- The text ends where the Kserd ends. -/
theorem C71_ends (plain : Char → Bool) {a b : Kserd} (ha : All Plainly a) (hb : All Plainly b) {x y : Str}
    (h : Pretty.kserd plain a ++ x = Pretty.kserd plain b ++ y) : mapNum oneNan a = mapNum oneNan b ∧ x = y := Pretty.kserd_inj a ha hb h

/-- So do nodes. -/
theorem C71_node (plain : Char → Bool) (nav nav' : Navigator) (n m : NavNode) (hn : NumWF n.kserd.val) (hm : NumWF m.kserd.val) :
    Pretty.node plain nav n = Pretty.node plain nav' m ↔ Nav.debug plain nav n = Nav.debug plain nav' m := by
  rw [C69_debug plain nav nav' n m hn hm]
  constructor
  · intro h
    rw [Pretty.node_raw, Pretty.node_raw] at h
    obtain ⟨h, -⟩ := Pretty.close (c := '}') (x := []) (y := []) (Pretty.rawN_full nav n) (Pretty.rawN_full nav' m) (by decide) (List.append_cancel_left h)
    unfold Pretty.rawN at h
    obtain ⟨h1, h⟩ := Pretty.opt_inj (fun h => ⟨(quote_inj h).1, List.append_cancel_left (quote_inj h).2⟩) (List.append_cancel_left h)
    obtain ⟨h2, h⟩ := quote_inj (List.append_cancel_left (List.append_cancel_left h))
    have h2 := kindName_inj h2
    have h := List.append_cancel_left h
    obtain ⟨h3, h⟩ : (n.kserd.val.kind = .prim → mapNumV oneNan n.kserd.val = mapNumV oneNan m.kserd.val) ∧ _ := by
      by_cases hp : n.kserd.val.kind = .prim
      · have hp' := h2 ▸ hp
        rw [Pretty.rawV_prim hp, Pretty.rawV_prim hp', List.append_assoc, List.append_assoc, List.append_assoc, List.append_assoc] at h
        obtain ⟨a, b⟩ := prim_inj hp hp' hn hm (List.append_cancel_left h)
        exact ⟨fun _ => a, List.append_cancel_left b⟩
      · have hp' : m.kserd.val.kind ≠ .prim := h2 ▸ hp
        rw [Pretty.rawV_other hp, Pretty.rawV_other hp'] at h
        exact ⟨fun h => absurd h hp, h⟩
    obtain ⟨h4, h⟩ := Pretty.digits_inj (List.append_cancel_left h)
    have om : ∀ o : Option NavNode, (o.map fun p => natDigits p.idx) = (o.map (·.idx)).map natDigits := by intro o; cases o <;> rfl
    rw [om, om] at h
    obtain ⟨h5, h⟩ := Pretty.opt_inj (fun h => Pretty.digits_inj h) (List.append_cancel_left h)
    obtain ⟨h6, h⟩ := bool_inj (List.append_cancel_left (List.append_cancel_left h))
    obtain ⟨h7, -⟩ := Pretty.digits_inj (x := []) (y := []) (List.append_cancel_left (List.append_cancel_left h))
    exact ⟨h1, h2, h3, h4, h5, h6, h7⟩
  · rintro ⟨h1, h2, h3, h4, h5, h6, h7⟩
    have hv : Pretty.nodeValue plain n.kserd.val = Pretty.nodeValue plain m.kserd.val := by
      unfold Pretty.nodeValue
      rw [← h2]
      split
      · rename_i hp
        rw [← Pretty.value_oneNan n.kserd.val, h3 hp, Pretty.value_oneNan]
      · rfl
    have om : ∀ o : Option NavNode, (o.map fun p => natDigits p.idx) = (o.map (·.idx)).map natDigits := by intro o; cases o <;> rfl
    unfold Pretty.node
    rw [h1, h2, hv, h4, h6, h7, om, om, h5]

/-- **C71**: both texts are the same document, on one line and on many: the items of every block separated by commas, or each on its own line,
indented by four blanks for every block around it. The document of a Kserd is written out in `Spec/DebugDoc`. -/
theorem C71_layout (plain : Char → Bool) (k : Kserd) :
    Dbg.kserd plain k = (Lay.docK ⟨natDigits, Dbg.float, Dbg.quote plain⟩ k).flat ∧
    Pretty.kserd plain k = (Lay.docK ⟨natDigits, Dbg.float, Dbg.quote plain⟩ k).tall 0 := ⟨Lay.kserd_flat k, Lay.kserd_tall k⟩

/-- Likewise for nodes. -/
theorem C71_node_layout (plain : Char → Bool) (nav : Navigator) (n : NavNode) :
    let doc := Lay.docN ⟨natDigits, Dbg.float, Dbg.quote plain⟩ n.kserd n.idx ((Nav.parent nav n).map (·.idx)) (Nav.isKey n) (Nav.idxInParent n)
    Nav.debug plain nav n = doc.flat ∧ Pretty.node plain nav n = doc.tall 0 := ⟨Lay.node_flat nav n, Lay.node_tall nav n⟩

/-! ## Non-vacuity -/

private def shown : Kserd := .mk (some (str "Pt")) (.cntr [(str "a", .mk none (.tuple [])),
  (str "b", .mk none (.map [(.mk none (.str (str "x\n")), .mk none (.seq [.mk none (.num (.float (.nan true 7)))]))]))])

example : All Plainly shown := by
  simp only [shown, All, AllV, AllF, AllL, AllM, Plainly, Kserd.val]
  decide +kernel

example : String.ofList (Pretty.kserd (fun c => 32 ≤ c.toNat && c.toNat < 127) shown) = "Kserd {
    id: Some(\"Pt\"),
    val: Cntr {
        a: Kserd {
            id: None,
            val: Tuple,
        },
        b: Kserd {
            id: None,
            val: {
                Kserd {
                    id: None,
                    val: Str(\"x\\n\"),
                }: Kserd {
                    id: None,
                    val: [
                        Kserd {
                            id: None,
                            val: Num(Float(NaN)),
                        },
                    ],
                },
            },
        },
    },
}" := by decide +kernel

/-- The hypotheses of `C71_node` hold of the map's node. -/
example : ∃ n, Nav.get (Nav.new shown) 2 = some n ∧ NumWF n.kserd.val ∧ n.kserd.val.kind = .map :=
  ⟨_, rfl, (fun x hx => by cases hx), rfl⟩

end KS.Props
