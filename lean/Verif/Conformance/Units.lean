import Verif.Conformance.Util
import Verif.Model.Widths
/-!
# Tests, not proofs: unit tests of `/repo/src/fmt`, `/repo/src/nav`, `/repo/src/parse` and `/repo/src/to_kserd.rs` on the model

Left out: `Debug` output (in `Texts`), random values, `clone`.
-/

namespace KS.Conf

def shows' (k : Kserd) (c : FormattingConfig) (t : String) : Bool := k.asStrWithConfig c == some (str t)

/-! ## `/repo/src/fmt/cntr.rs` 132-275 -/

def strukt : Kserd := wi "Struct" (cn [("a", n 101), ("b", tu [n 0, n 10101]), ("c", se [n 111, x "3.14"])])
#guard shows' strukt { widthLimit := none } "Struct (a = 101, b = (0, 10101), c = [111, 3.14])"
#guard shows' strukt { widthLimit := some 20 } "Struct (
    a = 101
    b = (0, 10101)
    c = [111, 3.14]
)"
#guard shows' strukt { widthLimit := some 0 } ":Struct
a = 101
b = (
        0
        10101
    )

[[c]]
111

[[c]]
3.14
"
/-- Steps on a formatter, each `unwrap`ped; then `write_string`. -/
def steps (k : Kserd) (l : List (Formatter → Except FmtError Formatter)) : Option Formatter :=
  l.foldl (fun f g => f.bind fun f => (g f).toOption) (Formatter.new k)
def written (k : Kserd) (l : List (Formatter → Except FmtError Formatter)) (t : String) : Bool :=
  (steps k l).any fun f => f.writeString [] == some (str t)
def vb (i : Nat) (f : Formatter) := f.request i .verbose
def co (i : Nat) (f : Formatter) := f.request i .concise
def il (i : Nat) (f : Formatter) := f.request i .inline
def idw (i : Nat) (b : Bool) (f : Formatter) := f.setId i b
#guard written (cn [("a", n 1), ("b", n 2)]) [vb 0, idw 1 false, idw 2 false] "a = 1\nb = 2\n"
def nestK : Kserd := cn [("un", cn [("dos", cn [("treis", cn [("quattro", un)])])])]
#guard shows' nestK { widthLimit := some 0 } "
[un]

    [dos]

        [treis]
            quattro = ()
"
def fails (k : Kserd) (g : Formatter → Except FmtError Formatter) : Bool :=
  match Formatter.new k with
  | some f => (g f).toOption.isNone
  | none => false
#guard let k := wi "something" (cn []); fails k (vb 0) && fails k (co 0) && written k [idw 0 true, il 0] "something ()" &&
  written k [idw 0 true, il 0, idw 0 false, il 0] "()"

/-! ## `/repo/src/fmt/formatter.rs` 508-765 -/

def isOk (r : Except FmtError Repr') (x : Repr') : Bool :=
  match r with
  | .ok y => y == x
  | .error _ => false
def isErr (r : Except FmtError Repr') (x : FmtError) : Bool :=
  match r with
  | .ok _ => false
  | .error y => y == x
#guard isOk (Formatter.validateRequest .inline none .inline) .inline
#guard isErr (Formatter.validateRequest .concise (some .inline) .concise) .parentIsInline
#guard isErr (Formatter.validateRequest .verbose (some .concise) .verbose) .parentIsConcise
#guard isOk (Formatter.validateRequest .verbose (some .verbose) .concise) .concise
def lines (k : Kserd) (l : List (Formatter → Except FmtError Formatter)) (e : List Repr') : Bool :=
  (steps k l).any fun f => f.fmts.map Fmt.line == e
#guard [st "Hello", tu [], cn [], se [], ma []].all fun k => lines k [] [.inline]
#guard lines (tu [cn [], se [], ma []]) [] [.concise, .inline, .inline, .inline]
def inl1 : Kserd := tu [un, se [x "1.01", st "Hello, world!"], n 10101]
#guard lines inl1 [] [.concise, .inline, .concise, .inline, .inline, .inline]
#guard lines inl1 [il 0] (List.replicate 6 .inline)
def inl2 : Kserd := cn [("a", x "1.01"), ("b", se [n 1])]
#guard lines inl2 [] [.verbose, .inline, .verbose, .inline]
#guard lines inl2 [il 2] [.verbose, .inline, .inline, .inline]
#guard lines inl2 [il 2, il 0] [.inline, .inline, .inline, .inline]
def big : Kserd := cn [("a", se [n 0, n 1]), ("b", tu [n 1, st "Hello"]), ("c", ma [(tu [un], un), (se [un], un)]), ("d", st "asdf")]
#guard lines big [] [.verbose, .verbose, .inline, .inline, .concise, .inline, .inline, .verbose, .concise, .inline, .inline, .concise, .inline, .inline, .inline]
#guard lines big [co 1] [.verbose, .concise, .inline, .inline, .concise, .inline, .inline, .verbose, .concise, .inline, .inline, .concise, .inline, .inline, .inline]
#guard lines big [co 1, co 0] [.concise, .concise, .inline, .inline, .concise, .inline, .inline, .concise, .concise, .inline, .inline, .concise, .inline, .inline, .inline]
#guard lines big [il 0] (List.replicate 15 .inline)
#guard lines big [il 0, co 0] (.concise :: List.replicate 14 .inline)
#guard lines big [il 0, co 0, co 1] (.concise :: .concise :: List.replicate 13 .inline)
#guard lines big [il 0, co 0, co 1, vb 0] (.verbose :: .concise :: List.replicate 13 .inline)

/-! ## `/repo/src/fmt/maps.rs` 123-226 -/

def mapF : Kserd := ma [(un, n 100), (n 1, n (-101)), (tu [n 0, n 1], x "3.14")]
#guard shows' mapF { widthLimit := none } "{ (): 100, 1: -101, (0, 1): 3.14 }"
#guard shows' mapF { widthLimit := some 20 } "{
    (): 100
    1: -101
    (0, 1): 3.14
}"
#guard shows' mapF { widthLimit := some 0 } "{
    (): 100
    1: -101
    (
        0
        1
    ): 3.14
}"
#guard written (ma [(tu [n 0, n 1], tu [n 2, n 3])]) [] "{
    (
        <i32> 0
        <i32> 1
    ): (
           <i32> 2
           <i32> 3
       )
}"
#guard let k := wi "something" (ma []); fails k (vb 0) && fails k (co 0) && written k [idw 0 true, il 0] "something {}" &&
  written k [idw 0 true, il 0, idw 0 false, il 0] "{}"

/-! ## `/repo/src/fmt/mod.rs` 503-639 -/

def cargo : Kserd := wi "my-crate" (cn [("package", wi "Package" (cn [("name", st "a-crate"), ("version", st "0.1.0")])),
  ("dependencies", se [cn [("name", st "serde"), ("version", st "1")], cn [("name", st "rand"), ("version", st "0.5")]])])
#guard shows' cargo {} "my-crate (
    dependencies = [
                       (name = \"serde\", version = \"1\")
                       (name = \"rand\", version = \"0.5\")
                   ]
    package = Package (name = \"a-crate\", version = \"0.1.0\")
)"
#guard shows' cargo { widthLimit := some 0 } ":my-crate

[[dependencies]]
    name = \"serde\"
    version = \"1\"

[[dependencies]]
    name = \"rand\"
    version = \"0.5\"

[package:Package]
    name = \"a-crate\"
    version = \"0.1.0\"
"
#guard (do
  let f ← Formatter.new cargo
  let f ← Solver.applyConfig f { widthLimit := some 0 }
  let i ← f.nav.findIdx? fun n => n.kserd.id == some (str "Package")
  let f ← (f.request i .inline).toOption
  f.writeString []) == some (str ":my-crate

[[dependencies]]
    name = \"serde\"
    version = \"1\"

[[dependencies]]
    name = \"rand\"
    version = \"0.5\"
package = Package (name = \"a-crate\", version = \"0.1.0\")
")
#guard [("", "\"\""), ("Hello, world!", "\"Hello, world!\""), ("Hello\nWorld", "\"Hello\nWorld\""), ("Hello \"World\"", "str'Hello \"World\"'"),
  ("'Hello'\n\"World\"", "str#'Hello'\n\"World\"#"), ("#Hello# \"World\"", "str'#Hello# \"World\"'")].all fun p => shows' (st p.1) {} p.2

/-! ## `/repo/src/fmt/seqs.rs` 87-163, `/repo/src/fmt/tuples.rs` 57-120 -/

def seqF : Kserd := wi "hello" (se [n 100, n (-101), x "3.14"])
#guard shows' seqF { idOnPrimitives := true, idOnSeqs := true, widthLimit := none } "hello [<i32> 100, <i32> -101, <f64> 3.14]"
#guard [20, 0].all fun w => shows' seqF { idOnPrimitives := true, idOnSeqs := true, widthLimit := some w } "hello [
    <i32> 100
    <i32> -101
    <f64> 3.14
]"
#guard let k := wi "something" (se []); fails k (vb 0) && fails k (co 0) && written k [idw 0 true, il 0] "something []" &&
  written k [idw 0 true, il 0, idw 0 false, il 0] "[]"
def tupF : Kserd := wi "hello" (tu [n 100, n (-101), x "3.14"])
#guard shows' tupF { idOnPrimitives := true, widthLimit := none } "hello(<i32> 100, <i32> -101, <f64> 3.14)"
#guard shows' tupF { idOnPrimitives := true, widthLimit := some 0 } "hello(
    <i32> 100
    <i32> -101
    <f64> 3.14
)"
#guard let k := wi "a-tuple" (tu []); fails k (vb 0) && fails k (co 0) && written k [idw 0 true, il 0] "a-tuple()" &&
  written k [idw 0 true, il 0, idw 0 false, il 0] "()"

/-! ## `/repo/src/fmt/solver.rs` 446-630 -/

def noIds : FormattingConfig := { idOnPrimitives := false, idOnTuples := false, idOnContainers := false, idOnSeqs := false, idOnMaps := false }
/-- The offsets of all nodes after some steps. -/
def offsets (k : Kserd) (c : FormattingConfig) (l : List (Formatter → Except FmtError Formatter)) : List (Option Nat) :=
  match steps k l with
  | some f => f.nav.map fun n => Solver.calculateOffset c f.nav f.fmts n
  | none => []
#guard let k := enc (.tuple [.int .i32 100, .int .i32 (-101), .str (str "Hello\n")])
  (Nav.new k).map (fun n => Solver.inlineTotal { idOnTuples := false } n.kserd) == [6 + 3 + 4 + 9, 3, 4, 9]
#guard offsets (cn [("field-name", ma [(n 1234, n 1234567)])]) { idOnContainers := false } [co 0, co 1, il 2, il 3] == [some 0, some 17, some 21, some 27]
def off2 : Kserd := cn [("mapping", ma [(tu [n 1, n 2], cn [("a", n 100), ("b", tu [n 0, n 1]), ("c", se [n 2, n 3])])])]
#guard let o := offsets off2 noIds [vb 0, vb 1, il 2]
  o.length == 13 && o.take 8 == [some 0, some 10, some 0, some 0, some 0, some 8, some 8, some 8] && o[10]? == some (some 8)
#guard (do
  let f ← steps off2 [vb 0, vb 1, il 2]
  Solver.verbosePCC (← f.nav[1]?) (← f.nav[2]?)) == some 0
#guard offsets nestK noIds [] == [some 0, some 5, some 10, some 16, some 22]
#guard offsets (ma [(n 1234, n 123456)]) {} [co 0] == [some 0, some 4, some 10]

/-! ## `/repo/src/nav` -/

def ids (k : Kserd) : List (Option Str) := (Nav.new k).map fun n => n.kserd.id
def upTo (m : Nat) : List (Option Str) := (List.range m).map fun i => some (natDigits i)
#guard ids (wi "0" (tu [wi "1" (tu [wi "2" un]), wi "3" un, wi "4" (tu [wi "5" un])])) == upTo 6
#guard ids (wi "0" (cn [("a", wi "1" (cn [("a", wi "2" un)])), ("b", wi "3" un), ("c", wi "4" (cn [("a", wi "5" un)]))])) == upTo 6
#guard ids (wi "0" (se [wi "1" (se [wi "2" un]), wi "3" un, wi "4" (se [wi "5" un])])) == upTo 6
def mapN : Kserd := wi "0" (ma [(wi "1" (n 0), wi "2" (ma [(wi "3" un, wi "4" un)])), (wi "5" (n 1), wi "6" un),
  (wi "7" (ma [(wi "8" un, wi "9" un)]), wi "10" (ma [(wi "11" un, wi "12" un)]))])
#guard ids mapN == upTo 13
#guard ((Nav.new mapN)[0]?.any fun r => r.keyChildren.map (fun i => (Nav.new mapN)[i]?.map fun n => n.kserd.id) ==
  ["1", "5", "7"].map fun s => some (some (str s)))
#guard (Nav.new un).length == 1

/-! ## `/repo/src/parse/cntr.rs` 320-368 and `/repo/src/parse/err.rs` 194-433 -/

#guard reads (str "
[[map-1]]
\"a\":
100

[[map-1]]
\"b\":
200

[[map-2]]
(1,2):
(
    3
    4
)

[[map-2]]
(5,6):
(7,8)
") (cn [("map-1", ma [(st "a", n 100), (st "b", n 200)]), ("map-2", ma [(tu [n 1, n 2], tu [n 3, n 4]), (tu [n 5, n 6], tu [n 7, n 8])])])
#guard errOffset (str "Hello, world!") (str ", world!") == 5
#guard errOffset (str "Hello, world!") (str "Hello, world!") == 0
def brave : Str := str "Hello\nA\r\nBrave\r\nWorld"
#guard linesToMap brave == [(0, 1, str "Hello"), (6, 2, str "A"), (9, 3, str "Brave"), (16, 4, str "World")]
#guard getLine (linesToMap []) 0 == none && getLine (linesToMap []) 1 == none
#guard (List.range 6).all fun i => getLine (linesToMap brave) i == some (0, 1, str "Hello")
#guard [6, 7, 8].all fun i => getLine (linesToMap brave) i == some (6, 2, str "A")
#guard ((List.range 7).map (· + 9)).all fun i => getLine (linesToMap brave) i == some (9, 3, str "Brave")
#guard ((List.range 9).map (· + 16)).all fun i => getLine (linesToMap brave) i == some (16, 4, str "World")
def errOf (t : String) : Option ParseError :=
  match parseText (str t) with
  | some (.error e) => some e
  | _ => none
def tr (line col : Nat) (l m : String) : Option (Option Trace) := some (some ⟨line, col, str l, str m⟩)
def hello : String := "<str> \"Hello, world!"
#guard (errOf hello).any fun e => e.get 0 == tr 1 21 hello "expected '\"', reached end of line or end of file first" &&
  e.get 1 == tr 1 7 hello "in string" && e.get 2 == tr 1 7 hello "in primitive value" && e.get 3 == tr 1 1 hello "in primitive" && e.get 4 == some none
#guard (errOf "
[[a-map]]
(\"key, 1):
    [1,2,3,,4]
").any fun e => e.get 0 == tr 4 16 "    [1,2,3,,4]" "expected '\"', reached end of line or end of file first"
#guard (errOf "").any fun e => (e.iterFrom 100 0).any fun l => l.all fun t => (str "got empty input").isSuffixOf t.msg
#guard emptyTrace (.char 'x') == ⟨0, 0, [], str "expected 'x', got empty input"⟩
#guard emptyTrace (.ctx "some-context") == ⟨0, 0, [], str "in some-context, got empty input"⟩
#guard emptyTrace .alt == ⟨0, 0, [], str "in Alt, got empty input"⟩
#guard traceMsg (str "a line string") 5 (.char 'x') == some (str "expected 'x', found 'e'")
#guard traceMsg (str "a line string") 5 (.ctx "some-context") == some (str "in some-context")
#guard traceMsg (str "a line string") 5 .alt == some (str "in Alt")
#guard traces "
list = [
    (0,1)
    (2,3]
]" "#0: at 4:9 :: expected ')', found ']'
    (2,3]
        ^

#1: at 4:6 :: in inline tuple
    (2,3]
     ^

#2: at 2:9 :: in multi-line (concise) sequence
list = [
        ^

#3: at 2:1 :: in name-kserd key value pair
list = [
^"

/-! ## `/repo/src/parse/heuristics.rs` 117-208 -/

def pat (e : P.Nonprim) (l : List String) : Bool := l.all fun t =>
  match P.patternDelimited (str t) with
  | .ok i r => i == str t && r == e
  | _ => false
#guard pat .none ["123456", "123456 [", "-123456", "-123456 [", "-3.14e-314", "-3.14e-314 [", "()", "() [", "a = 123", "a = 123 [", "\"Hello, world!\"",
  "\"Hello, world!\" [", "str'Hello, world!'", "true", "true [", "false", "false\n[", "b91':C!WEH#L4R'", "b91':C!WEH#L4R' ["]
#guard pat .seq ["[1,2,3]", "[\n1,2,3\n]", "Hello [1,2,3]", "Hello [\n1,2,3\n]", "Hello[1,2,3]", "Hello[\n1,2,3\n]"]
#guard pat .map ["{1:2, 3:4, 5:6}", "{\n1:2\n3:4\n5:6\n}", "Hello {1:2, 3:4, 5:6}", "Hello {\n1:2\n3:4\n5:6\n}", "Hello{1:2, 3:4, 5:6}",
  "Hello{\n1:2\n3:4\n5:6\n}"]
#guard pat .tuple ["(1,2,3)", "(\n1,2,3\n)", "Hello (1,2,3)", "Hello (\n1,2,3\n)", "Hello(1,2,3)", "Hello(\n1,2,3\n)"]
#guard pat .cntr ["(a=1, 2, 3)", "(\na  = 1,2,3\n)", "Hello (a = 1,2,3)", "Hello (\na=1,2,3\n)", "Hello(_a=1,2,3)", "Hello(\na \t\t\t =1,2,3\n)"]

/-! ## `/repo/src/parse/prims.rs` 104-235 -/

def str? (t r rem : String) : Bool :=
  match P.string (str t) with
  | .ok i s => i == str rem && s == str r
  | _ => false
#guard str? "\"\"" "" "" && str? "\"abcdef\"" "abcdef" "" && str? "\"Hello, world!\"" "Hello, world!" "" && str? "\"Hello\nnewline\"" "Hello\nnewline" "" &&
  str? "\" \"" " " "" && str? "\"\r\n \n\"" "\r\n \n" "" && str? "\"\t\"" "\t" "" && str? "str'  \"  '" "  \"  " "" && str? "str\"  '  \"" "  '  " "" &&
  str? "\"'\t\n\r\n\"" "'\t\n\r\n" ""
def barr? (t : Str) (r : Bytes) (rem : String) : Bool :=
  match P.barr t with
  | .ok i s => i == str rem && s == r
  | _ => false
#guard [[], [0], [0, 1, 2, 5, 10, 20, 50, 100, 110, 120, 150, 200, 210, 220, 250], (List.range 255).map UInt8.ofNat].all fun l =>
  (ba l).asStr.any fun t => barr? t l ""
#guard barr? (str "b91'',") [] "," && barr? (str "b91']',") [82] "," && barr? (str "b91'],',") [143] ","
def num? (x : Number) (f : Number → Bool) : Bool :=
  match P.num x.disp with
  | .ok _ y => f y
  | _ => false
#guard [0, 1, 2 ^ 8 - 1, 2 ^ 16 - 1, 2 ^ 32 - 1, 2 ^ 64 - 1, 2 ^ 128 - 1, 16803534192531604596, 16803534192531605504].all fun x =>
  num? (.uint x) fun y => y.asU128 == some x
#guard [0, 1, -1, 2 ^ 7 - 1, - 2 ^ 7, 2 ^ 15 - 1, - 2 ^ 15, 2 ^ 31 - 1, - 2 ^ 31, 2 ^ 63 - 1, - 2 ^ 63, 2 ^ 127 - 1, - 2 ^ 127].all fun x =>
  num? (.int x) fun y => y.asI128 == some x
#guard ["0.0", "-0.0", "2.718281828459045", "0.3183098861837907", "0.7071067811865476", "0.6931471805599453", "2.302585092994046", "3.141592653589793",
  "6.283185307179586"].all fun t => num? (.float (fl t)) fun y => F64.ieeeEq y.asF64 (fl t)
#guard [true, false].all fun s => num? (.float (.inf s)) fun y => y.asF64 == .inf s

/-! ## `/repo/src/to_kserd.rs` -/

def into (v : RVal) (k : Kserd) : Bool := Kserd.eq (ik v) k
#guard into (.num .i32 (.int 123456)) (n 123456) && into (.num .i32 (.int (-1234567))) (n (-1234567)) && into (.num .f64 (.float (fl "3.14"))) (x "3.14") &&
  into .unit un && into (.bool true) (bo true) && into (.ch 'y') (st "y")
#guard into (.box (.string (str "Hello, world!"))) (st "Hello, world!") && into (.some (.string (str "Hello, world!"))) (st "Hello, world!")
#guard into .none (wi "None" (tu [])) && into (.ok (.string (str "I am okay!"))) (tu [st "I am okay!"]) && into (.err (.string (str "I am not!"))) (tu [st "I am not!"])

/-! ## `/repo/src/encode/encoder.rs` 453-514 -/

#guard let k := enc (.newtypeStruct (str "Test") .unit); Kserd.eq k (tu [un]) && k.id == some (str "Test")
#guard (Ser.encode (.newtypeStruct (str "\\Test") .unit)).toOption.isNone && (Ser.encode (.newtypeVariant (str "\\Test") .unit)).toOption.isNone
#guard Kserd.eq (enc (.map [.entry (.int .u64 100) (.str (str "Hello"))])) (ma [(n 100, st "Hello")])
#guard Kserd.eq (enc (.map [.key (.int .i32 100), .value (.str (str "Hello"))])) (ma [(n 100, st "Hello")])

end KS.Conf
