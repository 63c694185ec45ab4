import Verif.Conformance.Util
/-!
# Tests, not proofs: `/repo/tests/formatting.rs` on the model
-/

namespace KS.Conf

/-- `assert_eq!(&kserd.as_str_with_config(config), t)`. -/
def shows (k : Kserd) (c : FormattingConfig) (t : String) : Bool := k.asStrWithConfig c == some (str t)

/-! ## `fmt_unit`, 20-69 -/

def unitsK : Kserd := wi "Units" (cn [("uvalue", un), ("ustruct", wi "AStruct" un), ("uenum", wi "EnumVariant" un)])
#guard shows unitsK { widthLimit := none } "Units (uenum = EnumVariant(), ustruct = AStruct(), uvalue = ())"
#guard shows unitsK { widthLimit := some 25 } "Units (
    uenum = EnumVariant()
    ustruct = AStruct()
    uvalue = ()
)"
#guard shows unitsK { widthLimit := some 0 } ":Units
uenum = EnumVariant()
ustruct = AStruct()
uvalue = ()
"

/-! ## `fmt_bool`, `fmt_ch`, `fmt_float`, `fmt_str`, `fmt_string`, `fmt_barr`, 71-222 -/

def prim (v : Ser) (w wo : String) : Bool :=
  shows (enc v) { idOnPrimitives := false } wo && shows (enc v) { idOnPrimitives := true } w
#guard prim (.bool true) "<bool> true" "true"
#guard prim (.bool false) "<bool> false" "false"
#guard prim (.char 'a') "<char> \"a\"" "\"a\""
#guard prim (.char '㌊') "<char> \"㌊\"" "\"㌊\""
-- `3.14f32` has the bits `0x4048F5C3`.
#guard prim (.f32 (.fin false (0xC8F5C3 * 2 ^ 127))) "<f32> 3.14" "3.14"
#guard prim (.f32 (.inf false)) "<f32> inf" "inf"
#guard prim (.f32 (.inf true)) "<f32> -inf" "-inf"
#guard prim (.f32 (.nan false 1)) "<f32> NaN" "NaN"
#guard prim (.str (str "My ❤ \"beats\",\non a 'new' line!")) "<str> str#My ❤ \"beats\",
on a 'new' line!#" "str#My ❤ \"beats\",
on a 'new' line!#"
#guard prim (.str (str "My ❤ beats,\non a new line!")) "<str> \"My ❤ beats,
on a new line!\"" "\"My ❤ beats,
on a new line!\""
#guard shows (ba [0, 1, 2, 5, 10, 20, 50, 100, 150, 200, 255]) {} "b91':C!WEH#L4RHMWL'"

/-! ## `fmt_tuple`, `fmt_seq`, 224-304 -/

def plainC (lim : Option Nat) : FormattingConfig := { idOnPrimitives := false, idOnTuples := false, widthLimit := lim }
def tup3 : Kserd := enc (.tuple [.int .i32 100, .int .i32 (-101), .str (str "Hello, world!")])
#guard shows tup3 (plainC none) "(100, -101, \"Hello, world!\")"
#guard shows tup3 (plainC (some 10)) "(
    100
    -101
    \"Hello, world!\"
)"
#guard shows (enc (.tuple [.tuple [.int .i32 100, .int .i32 (-101)], .str (str "Hello, world!")])) (plainC (some 10)) "(
    (
        100
        -101
    )
    \"Hello, world!\"
)"
def seq4 : Kserd := enc (.seq [.int .i32 100, .int .i32 (-101), .int .i32 102, .int .i32 (-103)])
#guard shows seq4 (plainC none) "[100, -101, 102, -103]"
#guard shows seq4 (plainC (some 16)) "[
    100
    -101
    102
    -103
]"
#guard shows seq4 (plainC (some 0)) "[
    100
    -101
    102
    -103
]"

/-! ## `fmt_struct`, 306-431 -/

def simple (a b₁ b₂ : Int) (c : List Int) : Ser :=
  .struct (str "Simple") [(str "a", .int .u8 a), (str "b", .tuple [.int .i32 b₁, .int .i32 b₂]), (str "c", .seq (c.map (.int .u8)))]
def simpleK : Kserd := enc (simple 100 (-1) (-2) [100, 101, 102, 103])
def withC (lim : Option Nat) : FormattingConfig := { idOnPrimitives := false, idOnTuples := false, idOnContainers := true, widthLimit := lim }
#guard shows simpleK (withC none) "Simple (a = 100, b = (-1, -2), c = [100, 101, 102, 103])"
#guard shows simpleK (withC (some 50)) "Simple (
    a = 100
    b = (-1, -2)
    c = [100, 101, 102, 103]
)"
#guard shows simpleK (withC (some 0)) ":Simple
a = 100
b = (
        -1
        -2
    )

[[c]]
100

[[c]]
101

[[c]]
102

[[c]]
103
"
def bare (lim : Option Nat) : FormattingConfig :=
  { idOnContainers := false, idOnPrimitives := false, idOnTuples := false, idOnMaps := false, idOnSeqs := false, widthLimit := lim }
#guard shows (enc (.struct (str "Seq") [(str "inner", .seq [simple 100 0 1 [2, 3], simple 101 1 2 [4, 5], simple 103 2 3 [6, 7]])])) (bare (some 16)) "
[[inner]]
    a = 100
    b = (0, 1)
    c = [2, 3]

[[inner]]
    a = 101
    b = (1, 2)
    c = [4, 5]

[[inner]]
    a = 103
    b = (2, 3)
    c = [6, 7]
"

/-! ## `fmt_map`, 433-593 -/

def mapK : Kserd :=
  let key (a b : Int) : Ser := .tuple [.int .u8 a, .int .u8 b]
  enc (.struct (str "SimpleMap") [(str "name", .str (str "A simple mapping")), (str "mapping", .map [
    .entry (key 1 2) (simple 100 0 1 [2, 3]), .entry (key 2 3) (simple 101 1 2 [4, 5]), .entry (key 3 4) (simple 103 2 3 [6, 7])])])
#guard shows mapK (bare none) "(mapping = { (1, 2): (a = 100, b = (0, 1), c = [2, 3]), (2, 3): (a = 101, b = (1, 2), c = [4, 5]), (3, 4): (a = 103, b = (2, 3), c = [6, 7]) }, name = \"A simple mapping\")"
#guard shows mapK (bare (some 80)) "(
    mapping = {
                  (1, 2): (a = 100, b = (0, 1), c = [2, 3])
                  (2, 3): (a = 101, b = (1, 2), c = [4, 5])
                  (3, 4): (a = 103, b = (2, 3), c = [6, 7])
              }
    name = \"A simple mapping\"
)"
#guard shows mapK (bare (some 50)) "(
    mapping = {
                  (1, 2): (
                              a = 100
                              b = (0, 1)
                              c = [2, 3]
                          )
                  (2, 3): (
                              a = 101
                              b = (1, 2)
                              c = [4, 5]
                          )
                  (3, 4): (
                              a = 103
                              b = (2, 3)
                              c = [6, 7]
                          )
              }
    name = \"A simple mapping\"
)"
#guard shows mapK (bare (some 35)) "mapping = {
              (1, 2): (
                          a = 100
                          b = (0, 1)
                          c = [2, 3]
                      )
              (2, 3): (
                          a = 101
                          b = (1, 2)
                          c = [4, 5]
                      )
              (3, 4): (
                          a = 103
                          b = (2, 3)
                          c = [6, 7]
                      )
          }
name = \"A simple mapping\"
"
#guard shows mapK { bare (some 14) with idOnContainers := true } ":SimpleMap

[[mapping]]
(1, 2):
    :Simple
    a = 100
    b = (0, 1)
    c = [2, 3]

[[mapping]]
(2, 3):
    :Simple
    a = 101
    b = (1, 2)
    c = [4, 5]

[[mapping]]
(3, 4):
    :Simple
    a = 103
    b = (2, 3)
    c = [6, 7]

name = \"A simple mapping\"
"

/-! ## `map_as_root`, `map_value_indenting`, `seq_of_seq_fmts_as_concise`, `bug_1`, 595-696 -/

def rootMap : Kserd := ma [(st "hello", n 1), (st "world", n 2), (st "whats", n 3), (st "up", n 4)]
#guard shows rootMap (bare none) "{ \"hello\": 1, \"up\": 4, \"whats\": 3, \"world\": 2 }"
#guard shows rootMap (bare (some 0)) "{
    \"hello\": 1
    \"up\": 4
    \"whats\": 3
    \"world\": 2
}"
#guard shows (wi "map" (ma [(enc (.tuple [.char 'c', .char 'c']), enc (.tuple [.f64 (fl "3.3"), .str (str "cc")])),
      (enc (.tuple [.char 'a', .char 'a']), enc (.tuple [.f64 (fl "1.1"), .str (str "aa")]))])) { widthLimit := some 22 } "{
    (\"a\", \"a\"): (
                    1.1
                    \"aa\"
                )
    (\"c\", \"c\"): (
                    3.3
                    \"cc\"
                )
}"
#guard ((cn [("seq", se [se [n 0], ma [(n 1, n 2)]])]).asStrWithConfig { widthLimit := some 0 }).isSome
#guard (match parse (str "render-as = \"table\"
header = [ \"Case\",\"Expr\",\"Desc\" ]
data = [
    [1, \"benchmark open foo-quals.csv\", \"Cloning in Table (6 MB)\"]
    [2, \"benchmark open bar.csv\", \"Cloning in Table (922 MB)\"]
    [3, \"open diamonds.csv | benchmark filter { get carat | > 0.3 }\", \"Filtering _out_ 10% rows\"]
    [4, \"open diamonds.csv | benchmark filter { get carat | <= 0.3 }\", \"Filtering _to_ 10% rows\"]
]") with
    | .ok k => k.asStr.isSome
    | _ => false)

end KS.Conf
