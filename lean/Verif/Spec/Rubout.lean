import Verif.Spec.Fmt
/-!
# Text with rub-out marks

A tuple whose identity is hidden takes away the character written before it. To say which one, a mark is put
where the identity would stand, and every mark then rubs out the character before it.
-/

namespace KS.Spec

/-- Read from left to right, every mark takes away the character before it, if there is one, and itself. -/
def rubOut (m : Char) (s : Str) : Str := s.foldl (fun out c => if c = m then out.dropLast else out ++ [c]) []

/-- The identity that is written: hidden ones are dropped, but those of tuples are replaced by a mark; a unit always shows its own. -/
def markedId (m : Char) (on : Bool) (v : Value) (id : Option Str) : Option Str :=
  match v with
  | .unit => id
  | .tuple _ => if on then id else id.map fun _ => [m]
  | _ => if on then id else none

/-! The Kserd without the identities that are not shown, a mark standing for those of tuples; `on i` tells whether the
node with preorder number `i` shows its identity. -/
mutual
def marked (m : Char) (on : Nat → Bool) : Nat → Kserd → Kserd
  | i, .mk id v => .mk (markedId m (on i) v id) (markedV m on (i + 1) v)
termination_by structural _ a => a
def markedV (m : Char) (on : Nat → Bool) : Nat → Value → Value
  | i, .tuple l => .tuple (markedL m on i l)
  | i, .seq l => .seq (markedL m on i l)
  | i, .cntr f => .cntr (markedF m on i f)
  | i, .map l => .map (markedM m on i l)
  | _, .unit => .unit
  | _, .bool b => .bool b
  | _, .num n => .num n
  | _, .str s => .str s
  | _, .barr b => .barr b
termination_by structural _ a => a
def markedL (m : Char) (on : Nat → Bool) : Nat → List Kserd → List Kserd
  | _, [] => []
  | i, k :: r => marked m on i k :: markedL m on (i + k.size) r
termination_by structural _ a => a
def markedF (m : Char) (on : Nat → Bool) : Nat → List (Str × Kserd) → List (Str × Kserd)
  | _, [] => []
  | i, (n, k) :: r => (n, marked m on i k) :: markedF m on (i + k.size) r
termination_by structural _ a => a
def markedM (m : Char) (on : Nat → Bool) : Nat → List (Kserd × Kserd) → List (Kserd × Kserd)
  | _, [] => []
  | i, (k, v) :: r => (marked m on i k, marked m on (i + k.size) v) :: markedM m on (i + k.size + v.size) r
termination_by structural _ a => a
end

/-- The formatter of the marked Kserd, with all identities shown and the same line representations. -/
def withMarks (m : Char) (f : Formatter) : Formatter :=
  { root := marked m (flags f) 0 f.root, nav := Nav.new (marked m (flags f) 0 f.root),
    fmts := f.fmts.map fun x => { x with id := true } }

/-- Neither this key, which has number `i`, nor anything in it is a tuple with a hidden identity. -/
def KeyShown (f : Formatter) (i : Nat) (k : Kserd) : Prop :=
  ∀ j y, (preorder k)[j]? = some y → (∃ t, y.val = .tuple t) → flags f (i + j) = false → y.id = none

/-- Every entry has a key that hides nothing, or a key of several lines, or a value on one line. -/
def EntryCols (f : Formatter) : Nat → List (Kserd × Kserd) → Prop
  | _, [] => True
  | i, (k, v) :: r => (KeyShown f i k ∨ line f i ≠ some .inline ∨ line f (i + k.size) = some .inline) ∧ EntryCols f (i + k.size + v.size) r

/-- The column of no value of several lines comes from a key that hides the identity of a tuple. -/
def ColumnsOk (f : Formatter) : Prop := ∀ i id l, (preorder f.root)[i]? = some (.mk id (.map l)) → EntryCols f (i + 1) l

end KS.Spec
