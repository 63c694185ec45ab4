import Verif.Model.ParseErr
import Verif.Model.Formatter
import Verif.Model.Encode
import Verif.Model.ToKserd
/-!
# The crate's own tests, run on the model

The modules below `Conformance` transcribe the tests of `/repo/tests` and of the `tests` modules in `/repo/src`: inputs and expected results
are copied from there. They prove nothing about other inputs; they check that the model does what the crate's authors have observed.
Here: shorthands.
-/

namespace KS.Conf

/-- `Kserd::new_num` of an `i32` literal. -/
def n (i : Int) : Kserd := .mk (some (str "i32")) (.num (.int i))
/-- `Kserd::new_num` of a `u8`. -/
def u (i : Nat) : Kserd := .mk (some (str "u8")) (.num (.uint i))
/-- A float literal. -/
def fl (t : String) : F64 := (F64.parse (str t)).getD (.nan false 0)
/-- `Kserd::new_num` of an `f64` literal. -/
def x (t : String) : Kserd := .mk (some (str "f64")) (.num (.float (fl t)))
/-- `Kserd::new_str`. -/
def st (t : String) : Kserd := .mk (some (str "str")) (.str (str t))
/-- `Kserd::new_bool`. -/
def bo (b : Bool) : Kserd := .mk (some (str "bool")) (.bool b)
/-- `Kserd::new_barr`. -/
def ba (l : Bytes) : Kserd := .mk (some (str "barr")) (.barr l)
/-- `Kserd::new(Value::Tuple(..))`, `Seq`, `Unit`. -/
def tu (l : List Kserd) : Kserd := .mk none (.tuple l)
def se (l : List Kserd) : Kserd := .mk none (.seq l)
def un : Kserd := .mk none .unit
/-- `Kserd::new_cntr(..).unwrap()`; an invalid name gives something that is equal to no container. -/
def cn (l : List (String × Kserd)) : Kserd :=
  match Value.newCntr (l.map fun p => (str p.1, p.2)) with
  | .ok v => .mk none v
  | .error _ => un
/-- `Kserd::new_map`. -/
def ma (l : List (Kserd × Kserd)) : Kserd := .mk none (Value.newMap l)
/-- `Kserd::with_id(..).unwrap()`. -/
def wi (i : String) (k : Kserd) : Kserd :=
  match Kserd.withId (str i) k.val with
  | .ok k => k
  | .error _ => un
/-- `Kserd::enc(..).unwrap()`. -/
def enc (v : Ser) : Kserd :=
  match v.encode with
  | .ok k => k
  | .error _ => un
/-- `into_kserd().unwrap()`. -/
def ik (v : RVal) : Kserd :=
  match v.intoKserd with
  | .ok k => k
  | .error _ => un

/-- `assert_eq!(parse(t).unwrap(), k)`. -/
def reads (t : Str) (k : Kserd) : Bool :=
  match parse t with
  | .ok r => Kserd.eq r k
  | _ => false
/-- `parse(t).is_err()`. -/
def rejects (t : Str) : Bool :=
  match parse t with
  | .err _ => true
  | _ => false
/-- `assert_eq!(parse(t).unwrap_err().backtrace(), ans)`. -/
def traces (t ans : String) : Bool :=
  match parseText (str t) with
  | some (.error e) => e.backtrace == some (str ans)
  | _ => false
/-- The formatted text parses to the Kserd. -/
def trip (k : Kserd) (c : FormattingConfig) : Bool :=
  match k.asStrWithConfig c with
  | some t => reads t k
  | none => false

end KS.Conf
