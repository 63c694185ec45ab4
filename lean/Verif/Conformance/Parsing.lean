import Verif.Conformance.Util
/-!
# `/repo/tests/parsing.rs`, `/repo/tests/named-verbose.kserd`
-/

namespace KS.Conf

/-! ## `misc`, 43-144 -/

#guard reads (str "a = 101\n\t") (cn [("a", n 101)])
#guard reads (str "a = 101\n\t\t") (cn [("a", n 101)])
#guard reads (str "a = 101\n\t\t\nb = 202") (cn [("a", n 101), ("b", n 202)])
#guard reads (str "[[list]]
\"Hello, world!\"

[[list]]
\"This is a list\"

[[list]]
\"as entries\"

[key]
    inner-item = \"This is a container\"
    num = 101
    another = \"more words to write stuff\"
    byte-array = b91'fdsaljfjdsa'
\t") (cn [("list", se [st "Hello, world!", st "This is a list", st "as entries"]),
    ("key", cn [("inner-item", st "This is a container"), ("num", n 101), ("another", st "more words to write stuff"),
      ("byte-array", ba [110, 74, 45, 89, 50, 72, 22, 252, 52])])])
#guard reads (str ":ScatterPlot
data = \"./zog.csv\"

use_gl = false

[[fmts]]
\"foo\":
    colour = \"BurlyWood\"
[[fmts]]
\"bar\":
    colour = \"DimGray\"
") (cn [("data", st "./zog.csv"), ("use_gl", bo false),
    ("fmts", ma [(st "foo", cn [("colour", st "BurlyWood")]), (st "bar", cn [("colour", st "DimGray")])])])

/-! ## `prims`, 146-213 -/

#guard trip (.mk none (.num (.uint (2 ^ 128 - 1)))) {}
#guard reads (str "<something> 123456789") (wi "something" (n 123456789))
#guard reads (str "<something>   \t\t\t  123456789") (wi "something" (n 123456789))
#guard reads (str "<something>123456789") (wi "something" (n 123456789))
#guard reads (str "<u8> 0") (u 0)
#guard (match (Kserd.mk none (.num (.int (2 ^ 127 - 1)))).asStr with
    | some t => reads t (.mk none (.num (.uint (2 ^ 127 - 1))))
    | none => false)
#guard trip (.mk none (.num (.int (-2 ^ 127)))) {}
#guard reads (str "<something> -123456789") (wi "something" (n (-123456789)))
#guard reads (str "<something>   \t\t\t  -123456789") (wi "something" (n (-123456789)))
#guard reads (str "<something>-123456789") (wi "something" (n (-123456789)))

/-! ## `tuples`, 215-280 -/

def tuple1 : Kserd := tu [wi "something" (n 123456789), n 255]
#guard reads (str "(<something> 123456789, 255)") tuple1
#guard reads (str "(    <something>  \t\t 123456789  \t,   255 \t\t )") tuple1
#guard reads (str "A-Name (    <something>  \t\t 123456789  \t,   255 \t\t )") tuple1
def tuple2 : Kserd := tu [wi "something" (n 123456789), n 255, wi "last" (n 100)]
#guard reads (str "(\n<something> 123456789\n255\n<last> 100\n)") tuple2
#guard rejects (str "(\n<something> 123456789\n255\n<last> 100)")
#guard reads (str "(\n\t\t\t\t\t<something>    123456789   \n\t\t\t\t\t255   \n\t\t\t\t\t<last>    100   \n)") tuple2
#guard reads (str "(\n\n\n\n\t\t\t\t\t<something>    123456789   \n\n\n\n\t\t\t\t\t255   \n\n\n\n\t\t\t\t\t<last>    100   \n\n\n\n)") tuple2
#guard reads (str "  Some-Name    (\n<something> 123456789\n255\n<last> 100\n)") tuple2

/-! ## `containers`, 282-687 -/

#guard reads (str "(a=1)") (cn [("a", n 1)])
#guard reads (str "(a=1  \t, b \t = \t 2)") (cn [("a", n 1), ("b", n 2)])
#guard reads (str "(a   =  ()  \t, b \t = \t 2)") (cn [("a", un), ("b", n 2)])
#guard reads (str "Some-Name(a   =  ()  \t, b \t = \t 2)") (cn [("a", un), ("b", n 2)])

/-- `f32` literals. -/
def f32 (t : String) : F32 := F32.ofF64 (fl t)

def primitives : Kserd := enc (.struct (str "Primitives") [(str "a", .unit), (str "bc", .bool true), (str "def", .char 'c'), (str "ghij", .int .u8 100),
  (str "klmno", .int .i8 (-100)), (str "pqrstu", .f32 (f32 "3.14")), (str "v", .str (str "Hello,\r\nworld!")), (str "wx", .bytes [0, 1, 2, 5, 10, 20, 50, 100])])

#guard trip primitives { widthLimit := none }
#guard trip primitives { widthLimit := none, idOnPrimitives := true, idOnContainers := true }
#guard trip primitives { widthLimit := some 80, idOnPrimitives := true, idOnContainers := true }
#guard trip primitives { widthLimit := some 60, idOnPrimitives := true, idOnContainers := true }
#guard reads (str "A-Name (
        a = 1
        b = 2
        )") (cn [("a", n 1), ("b", n 2)])
-- With `trim_end`.
#guard (match primitives.asStrWithConfig { widthLimit := some 0, idOnPrimitives := true, idOnContainers := true } with
    | some t => reads (t.reverse.dropWhile Char.isWhitespace).reverse primitives
    | none => false)

def verbose2 : Kserd := enc (.struct (str "Test") [
  (str "items", .seq [.struct (str "Test2") [(str "a_string", .str (str "Hello, world!")), (str "a_number", .f64 (fl "3.14"))]]),
  (str "items2", .seq [.tuple [.int .u8 0, .int .i64 0], .tuple [.int .u8 1, .int .i64 (-1)], .tuple [.int .u8 2, .int .i64 (-2)], .tuple [.int .u8 3, .int .i64 (-3)]])])
#guard trip verbose2 { widthLimit := some 0, idOnPrimitives := true, idOnContainers := true, idOnSeqs := true }

def verbose3 : Kserd :=
  let test2 (a b : String) (l : List Ser) : Ser := .struct (str "Test2") [(str "a_string", .str (str a)), (str "a_number", .f64 (fl b)), (str "inner_test_items", .seq l)]
  let test (l : List Ser) : Ser := .struct (str "Test") [(str "items", .seq l)]
  enc (test [test2 "Hello, world!" "3.14" [test [test2 "Hello," "3.00" []], test [test2 "world!" "0.14" []]]])
#guard (match verbose3.asStrWithConfig { widthLimit := some 0, idOnPrimitives := true, idOnContainers := true, idOnSeqs := true } with
    | some t => reads t (cn [("items", se [cn [("a_number", x "3.14"), ("a_string", st "Hello, world!"), ("inner_test_items", se [
        cn [("items", se [cn [("a_number", x "3.0"), ("a_string", st "Hello,"), ("inner_test_items", se [])]])],
        cn [("items", se [cn [("a_number", x "0.14"), ("a_string", st "world!"), ("inner_test_items", se [])]])]])]])])
    | none => false)

def verbose4 : Kserd := enc (.struct (str "Test2") [(str "a_string", .str (str "Hello, world!")), (str "a_number", .f64 (fl "3.14")),
  (str "inner_test_numbers", .struct (str "Test") [(str "items", .seq [.int .u8 0, .int .u8 2, .int .u8 4, .int .u8 6, .int .u8 8])])])
#guard trip verbose4 { widthLimit := some 0, idOnPrimitives := true, idOnContainers := true, idOnSeqs := true }
#guard reads (str "a = 1") (cn [("a", n 1)])
#guard reads (str "a = 101
        
        b = 202") (cn [("a", n 101), ("b", n 202)])

/-- `/repo/tests/named-verbose.kserd`. -/
def named : Str := str ":container-name
a = <A> ()
b = <B> true
c = <C> 101
d = <D> \"Hello\"
e = <E> b91''
f = F (0, 1)
g = G [1, 0]
h = H {0:1, 1: 0}
i = I ( aa = 1, bb = 2)

[[  list  :   list-name]]
1

[[list   ]]
2

[[list]]
3

[[map]]
\"a\": 3

[[map]]
\"b\": 2

[[   map :map-name   ]]
\"c\":
    1

[[map]]
\"d\":
\t:a-name
\ta = 1

[cntr : cntr1-name]
    aaa = 101
    bbb = 202

[   cntr2 ]
    :  cntr2name
    aaa = 111
    bbb = 222

    [nest]
\t\t:cntr-nested
\t\tccc = 333
\t\tddd = 444
"
-- `named_verbose_layouts_test`, 594-625: the identities.
#guard (match parse named with
    | .ok k => k.id == some (str "container-name") && (match k.val with
      | .cntr f =>
        f.map (fun (p : Str × Kserd) => (p.1, p.2.id)) == [("a", "A"), ("b", "B"), ("c", "C"), ("cntr", "cntr1-name"), ("cntr2", "cntr2name"), ("d", "D"), ("e", "E"), ("f", "F"),
          ("g", "G"), ("h", "H"), ("i", "I"), ("list", "list-name"), ("map", "map-name")].map (fun (p : String × String) => (str p.1, some (str p.2))) &&
        f.any (fun p => p.1 == str "cntr2" && (match p.2.val with
          | .cntr g => g.any fun q => q.1 == str "nest" && q.2.id == some (str "cntr-nested")
          | _ => false)) &&
        f.any (fun p => p.1 == str "map" && (match p.2.val with
          | .map g => g.any fun q => Kserd.eq q.1 (st "d") && q.2.id == some (str "a-name")
          | _ => false))
      | _ => false)
    | _ => false)

def mapText : Str := str "[[map]]
            <foo>   0   :    <bar>   1  

        [[map]]
    <foo>2:<bar>4"
#guard reads mapText (cn [("map", ma [(n 0, n 1), (n 2, n 4)])])
#guard (match parse mapText with
    | .ok (.mk _ (.cntr [(_, .mk _ (.map l))])) => l.all fun p => p.1.id == some (str "foo") && p.2.id == some (str "bar")
    | _ => false)

/-! ## `seq`, 689-776 -/

def nums : Kserd := se [n (-5), n (-2), n (-1), n 0, n 1, n 2, n 5]
def list : Kserd := wi "list" (se [n (-5), n (-2), n (-1), u 0, u 1, u 2, u 5])
#guard reads (str "[-5,-2,-1,0,1,2,5]") nums
#guard trip list { idOnPrimitives := true, idOnSeqs := true, widthLimit := none }
#guard reads (str "Some-name[-5,-2,-1,0,1,2,5]") nums
#guard trip list { idOnPrimitives := true, idOnSeqs := true, widthLimit := some 0 }

/-! ## `map`, 778-894 -/

def map1 : Kserd := ma [(n 0, n 1), (n 2, n 3), (n 4, n 5)]
#guard reads (str "{0:1,2:3,4:5}") map1
#guard reads (str "{   \t\t 0  \t\t :  \t 1  ,  \t 2 :   \t 3 \t\t , 4 \t\t :\t5\t\t}") map1
#guard trip (wi "map" map1) { idOnPrimitives := true, idOnMaps := true, widthLimit := none }
#guard reads (str "A-Crazy-Map {0:1,2:3,4:5}") map1
#guard reads (str "{\n\t\t\t0: 1\n\t\t\t2: 3\n\t\t\t4: 5\n\t\t}") map1
#guard trip (wi "map" map1) { idOnPrimitives := true, idOnMaps := true, widthLimit := some 0 }
#guard trip (wi "map" (ma [(enc (.tuple [.char 'a', .char 'a']), enc (.tuple [.f64 (fl "1.1"), .str (str "aa")]))]))
    { idOnPrimitives := true, idOnTuples := true, idOnMaps := true, widthLimit := some 0 }

/-! ## `err`, 896-1040 -/

#guard traces "field name = [0, 1]" "#0: at 1:7 :: expected '=', found 'n'
field name = [0, 1]
      ^

#1: at 1:1 :: in name-kserd key value pair
field name = [0, 1]
^"
#guard traces "field!name = <str> [0,1]" "#0: at 1:6 :: expected '=', found '!'
field!name = <str> [0,1]
     ^

#1: at 1:1 :: in name-kserd key value pair
field!name = <str> [0,1]
^"
#guard traces "field-name = [0, 1]
what the = 101" "#0: at 2:6 :: expected '=', found 't'
what the = 101
     ^

#1: at 2:1 :: in name-kserd key value pair
what the = 101
^"
#guard traces "[[field name]]" "#0: at 1:9 :: in Tag
[[field name]]
        ^

#1: at 1:1 :: in field name. expecting 'field_name[:identity]'
[[field name]]
^"
#guard traces "a = 101

        b = 202
        c
        d = 404" "#0: at 4:10 :: expected '=', reached end of line or end of file first
        c
         ^

#1: at 4:9 :: in name-kserd key value pair
        c
        ^"
#guard traces "imgs = [
    Image ( src = \"\" )
    Image (
        src = \"\",
        title = \"\"
    )
]" "#0: at 4:17 :: in SeparatedList
        src = \"\",
                ^

#1: at 3:12 :: in newline separated (concise) kserdstr-kserd pair
    Image (
           ^

#2: at 3:12 :: in concise container
    Image (
           ^

#3: at 1:9 :: in multi-line (concise) sequence
imgs = [
        ^

#4: at 1:1 :: in name-kserd key value pair
imgs = [
^"

end KS.Conf
