import Verif.Model.Formatter
import Verif.Model.Parse
import Verif.Model.ParseErr
import Verif.Lemmas.Digits
import Verif.Lemmas.F64
import Verif.Lemmas.Num
import Verif.Lemmas.NumEq
import Verif.Props.Numbers
import Verif.Props.Tame
import Verif.Props.NumPrim
import Verif.Lemmas.NumText
import Verif.Props.NumText
import Verif.Spec.Kserd
import Verif.Lemmas.Order
import Verif.Lemmas.KserdOrd
import Verif.Lemmas.BTree
import Verif.Props.Kserds
import Verif.Props.Own
import Verif.Lemmas.Nav
import Verif.Props.Nav
import Verif.Lemmas.Formatter
import Verif.Props.Formatter
import Verif.Lemmas.Write
import Verif.Lemmas.NumChars
import Verif.Props.Format
import Verif.Lemmas.WriteInline
import Verif.Lemmas.Base91
import Verif.Lemmas.ParseGood
import Verif.Lemmas.ParseTotal
import Verif.Lemmas.ParseFuel
import Verif.Lemmas.ParseErr
import Verif.Lemmas.WriteIds
import Verif.Lemmas.WriteWidth
import Verif.Props.Layout
import Verif.Props.Literals
import Verif.Props.Parse
import Verif.Spec.RoundTrip
import Verif.Lemmas.RtMain
import Verif.Lemmas.RtWrite
import Verif.Lemmas.RtRoot
import Verif.Lemmas.RtGlue
import Verif.Lemmas.RtEq
import Verif.Lemmas.RtDec
import Verif.Props.RoundTrip
import Verif.Lemmas.F32
import Verif.Props.Float32
import Verif.Lemmas.F32Mid
import Verif.Props.Float32Exact
import Verif.Lemmas.Encode
import Verif.Lemmas.Decode
import Verif.Lemmas.DecodeIff
import Verif.Lemmas.Serde
import Verif.Props.Serde
import Verif.Props.Fields
import Verif.Spec.Verbose
import Verif.Lemmas.RtAsm
import Verif.Lemmas.RtVerbose
import Verif.Lemmas.RtKeys
import Verif.Lemmas.RtLines
import Verif.Lemmas.RtVWrite
import Verif.Lemmas.RtVMain
import Verif.Lemmas.RtVDec
import Verif.Props.Verbose
import Verif.Spec.Plain
import Verif.Lemmas.RtPlain
import Verif.Props.Default
import Verif.Lemmas.ExtBase
import Verif.Lemmas.ExtList
import Verif.Props.Trailing
import Verif.Spec.SerdeText
import Verif.Lemmas.SerdeText
import Verif.Props.EndToEnd
import Verif.Lemmas.HideIds
import Verif.Props.Identities
import Verif.Spec.Lines
import Verif.Lemmas.WriteLines
import Verif.Props.Lines
import Verif.Model.Widths
import Verif.Spec.Widths
import Verif.Lemmas.Widths
import Verif.Props.Widths
import Verif.Model.NavFmt
import Verif.Lemmas.NavFmt
import Verif.Props.NavFmt
import Verif.Spec.Renum
import Verif.Lemmas.Renum
import Verif.Lemmas.FixedPoint
import Verif.Lemmas.Settle
import Verif.Props.FixedPoint
import Verif.Props.Layouts
import Verif.Model.DecodeOwn
import Verif.Spec.DecodeOwn
import Verif.Lemmas.DecodeOwn
import Verif.Props.DecodeOwn
import Verif.Spec.Encoded
import Verif.Lemmas.Encoded
import Verif.Props.Encoded
import Verif.Props.Maps
import Verif.Props.Structs
import Verif.Spec.Order
import Verif.Props.Order
import Verif.Spec.VerboseText
import Verif.Lemmas.Assemble
import Verif.Lemmas.VerboseText
import Verif.Props.VerboseText
import Verif.Spec.DecodeTy
import Verif.Lemmas.DecodeTy
import Verif.Props.DecodeTy
import Verif.Props.Traces
import Verif.Spec.Grammar
import Verif.Lemmas.GrammarVal
import Verif.Lemmas.GrammarSound
import Verif.Lemmas.GrammarComplete
import Verif.Lemmas.GrammarDoc
import Verif.Lemmas.GrammarDocComplete
import Verif.Lemmas.GrammarRoot
import Verif.Lemmas.GrammarTail
import Verif.Props.Grammar
import Verif.Spec.GrammarKeys
import Verif.Lemmas.GrammarMeans
import Verif.Conformance.Util
import Verif.Conformance.Parsing
import Verif.Conformance.Formatting
import Verif.Conformance.Numbers
import Verif.Conformance.Units
import Verif.Conformance.Decoding
import Verif.Conformance.Texts
import Verif.Spec.Decimal
import Verif.Lemmas.Rounding
import Verif.Lemmas.Shortest
import Verif.Lemmas.RatRound
import Verif.Lemmas.DecimalText
import Verif.Lemmas.Best
import Verif.Props.Decimals
import Verif.Props.Bits
import Verif.Props.EqExact
import Verif.Props.DecodeErr
import Verif.Spec.Says
import Verif.Lemmas.Says
import Verif.Props.Says
import Verif.Spec.Express
import Verif.Lemmas.Express
import Verif.Lemmas.ExpressTree
import Verif.Lemmas.ExpressRange
import Verif.Props.Express
import Verif.Model.Debug
import Verif.Spec.Debug
import Verif.Lemmas.DebugNum
import Verif.Lemmas.Debug
import Verif.Spec.Choice
import Verif.Lemmas.Choice
import Verif.Lemmas.ChoiceRun
import Verif.Lemmas.ChoicePlan
import Verif.Lemmas.ChoicePanic
import Verif.Lemmas.ChoiceAgain
import Verif.Props.Choice
import Verif.Lemmas.ChoiceHistory
import Verif.Props.ChoiceHistory
import Verif.Props.Panics
import Verif.Spec.Width
import Verif.Lemmas.InlineLength
import Verif.Props.InlineLength
import Verif.Props.Debug
import Verif.Model.DebugStr
import Verif.Spec.DecodeMsg
import Verif.Lemmas.DecodeMsg
import Verif.Props.DecodeMsg
import Verif.Model.ErrText
import Verif.Props.ErrText
import Verif.Model.NavIter
import Verif.Spec.Iter
import Verif.Props.NavIter
import Verif.Spec.Inline
import Verif.Lemmas.InlineText
import Verif.Lemmas.InlineRead
import Verif.Lemmas.InlineLit
import Verif.Lemmas.InlineSound
import Verif.Lemmas.InlineComplete
import Verif.Lemmas.InlineRoot
import Verif.Props.Inline
import Verif.Lemmas.Laid
import Verif.Lemmas.LaidSound
import Verif.Lemmas.LaidComplete
import Verif.Lemmas.LaidWrite
import Verif.Props.Concise
import Verif.Props.Alone
import Verif.Props.Appends
import Verif.Props.SerdeExact
import Verif.Props.RoundTripExact
import Verif.Props.LayoutAgree
import Verif.Model.DebugPretty
import Verif.Lemmas.DebugPretty
import Verif.Props.DebugPretty
import Verif.Props.DebugFloat
import Verif.Model.PartialOrd
import Verif.Props.PartialOrd
import Verif.Model.NodeEq
import Verif.Props.NodeEq
import Verif.Model.Clone
import Verif.Props.Clone
import Verif.Spec.Ieee
import Verif.Props.Ieee
import Verif.Lemmas.RuboutCols
