import Verif.Conformance.Decoding
import Verif.Model.DebugPretty
import Verif.Model.ErrText
/-!
# Tests, not proofs: unit tests of `Debug` texts and of the texts of errors on the model
-/

namespace KS.Conf

/-- Characters that are printed as they are, among those of the tests. -/
def ascii (c : Char) : Bool := 32 ≤ c.toNat && c.toNat < 127

/-! ## `/repo/src/ds/val.rs` 1040-1075 -/

#guard Dbg.value ascii (.barr [1, 2, 3]) == str "Barr([1, 2, 3])"
#guard Dbg.value ascii (.seq [n 101]) == str "[Kserd { id: Some(\"i32\"), val: Num(Int(101)) }]"
#guard Dbg.value ascii (Value.newMap [(n 1, n 2)]) ==
  str "{Kserd { id: Some(\"i32\"), val: Num(Int(1)) }: Kserd { id: Some(\"i32\"), val: Num(Int(2)) }}"

def invalidField (s : String) : Option Str := (KS.validateField (str s)).map FieldNameErr.text
#guard invalidField "" == some (str "invalid field name: name is empty")
#guard invalidField "9name" == some (str "invalid field name: name can not begin with digit")
#guard invalidField "na\tme" == some (str "invalid field name: invalid character '\t' exists in name 'na\tme'")

/-! ## `/repo/src/ds/kserd.rs` 434-445, `/repo/src/ds/barr.rs` 154-160 -/

#guard Dbg.kserd ascii (.mk none (.bool false)) == str "Kserd { id: None, val: Bool(false) }"
def idError (i : String) (v : Value) : Option Str :=
  match Kserd.withId (str i) v with
  | .ok _ => none
  | .error i => some (invalidIdText i)
#guard idError "\\// " (.bool true) == some (str "identity '\\// ' contains invalid characters. Invalid characters: '(){}[]<> ,./\\='")
#guard Dbg.bytes [100] == str "[100]"

/-! ## `/repo/src/encode/encoder.rs` 459-480 -/

def encError (v : Ser) : Option Str :=
  match v.encode with
  | .ok _ => none
  | .error e => some e.text
#guard (enc (.newtypeStruct (str "Test") .unit)).id == some (str "Test") && Kserd.eq (enc (.newtypeStruct (str "Test") .unit)) (tu [un])
#guard encError (.newtypeStruct (str "\\Test") .unit) ==
  some (str "identity '\\Test' contains invalid characters. Invalid characters: '(){}[]<> ,./\\='")
#guard encError (.newtypeVariant (str "\\Test") .unit) ==
  some (str "identity '\\Test' contains invalid characters. Invalid characters: '(){}[]<> ,./\\='")
#guard encError (.fail (str "Hello")) == some (str "custom error: Hello")

/-! ## `/repo/src/to_kserd.rs` 151-167 -/

#guard (match Kserd.withId (str ".") .unit with | .error i => some (ToKserdErr.invalidId i).text | _ => none) ==
  some (str "identity '.' contains invalid characters. Invalid characters: '(){}[]<> ,./\\='")
#guard (match Value.newCntr [(str "/", un)] with | .error e => some (ToKserdErr.invalidFieldName e).text | _ => none) ==
  some (str "invalid field name: invalid character '/' exists in name '/'")

/-! ## `/repo/src/encode/decoder.rs` 573-715

The visitors of these tests are never called: the access fails before. -/

def errText (r : Except DErr Ser) : Option Str :=
  match r with
  | .ok _ => none
  | .error e => some (e.text ascii)
def never (_ : Ty) (_ : Kserd) : Except DErr Ser := .ok .unit
def variantError (d : VarDef) (k : Kserd) : Option Str := errText (DecE.variantOf never [] d k.val)

#guard (decodeE env .char (st "x")).toOption == some (.char 'x')
#guard errText (decodeE env .char (st "")) == some (str "custom error: invalid type: string \"\", expected char")
#guard errText (decodeE env .char (x "1.01")) == some (str "custom error: invalid type: floating point `1.01`, expected char")
#guard variantError .unit un == none
#guard variantError .unit (n 3) == some (str "custom error: invalid type: integer `3`, expected unit enum variant")
#guard variantError (.newtype .unit) (wi "Test" (tu [un, un])) ==
  some (str "custom error: invalid length 2, expected a tuple with a single element was expected")
#guard variantError (.newtype .unit) (n 3) == some (str "custom error: invalid type: integer `3`, expected newtype enum variant")
#guard variantError (.tuple [.unit]) (wi "Test" (tu [un, un])) ==
  some (str "custom error: invalid length 2, expected a tuple with 1 element(s) was expected")
#guard variantError (.tuple [.unit]) (n 3) == some (str "custom error: invalid type: integer `3`, expected tuple enum variant")
#guard variantError (.struct []) (n 3) == some (str "custom error: invalid type: integer `3`, expected struct enum variant")

def unexp (k : Kserd) (t : String) : Bool :=
  variantError (.tuple [.unit]) k == some (str "custom error: invalid type: " ++ str t ++ str ", expected tuple enum variant")
#guard unexp un "unit value"
#guard unexp (bo true) "boolean `true`"
#guard unexp (u 123) "integer `123`"
#guard unexp (n (-123)) "integer `-123`"
#guard unexp (x "1.01") "floating point `1.01`"
#guard unexp (st "Hello") "string \"Hello\""
#guard unexp (ba [0, 1, 2]) "byte array"
#guard unexp (cn [("a", un)]) "container"
#guard unexp (se []) "sequence"
#guard unexp (ma []) "map"

/-! ## `/repo/src/nav/node.rs` 333-417 -/

def rootText (k : Kserd) : Option String := ((Nav.new k)[0]?).map fun r => String.ofList (Dbg.Pretty.node ascii (Nav.new k) r)
#guard rootText un == some "Node {
    id: None,
    value-type: \"Primitive\",
    value: Unit,
    index: 0,
    parent: None,
    is_key: false,
    idx_in_parent: 0,
}"
def emptyText (t : String) : String := "Node {
    id: None,
    value-type: \"" ++ t ++ "\",
    index: 0,
    parent: None,
    is_key: false,
    idx_in_parent: 0,
}"
#guard rootText (tu []) == some (emptyText "Tuple")
#guard rootText (cn []) == some (emptyText "Cntr")
#guard rootText (se []) == some (emptyText "Seq")
#guard rootText (ma []) == some (emptyText "Map")

end KS.Conf
