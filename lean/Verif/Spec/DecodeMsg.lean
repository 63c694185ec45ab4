import Verif.Model.DecodeErr
import Verif.Spec.Decimal
/-!
# The wording of errors of the decoder
-/

namespace KS.Spec.De

/-- `t` stands for `c` between double quotes. -/
inductive Stands (plain : Char → Bool) : Char → Str → Prop
  | zero : Stands plain '\x00' ['\\', '0']
  | tab : Stands plain '\t' ['\\', 't']
  | cr : Stands plain '\r' ['\\', 'r']
  | lf : Stands plain '\n' ['\\', 'n']
  | quote : Stands plain '"' ['\\', '"']
  | backslash : Stands plain '\\' ['\\', '\\']
  | self {c} : c ≠ '"' → c ≠ '\\' → plain c = true → Stands plain c [c]
  | code {c ds} : plain c = false → ds ≠ [] → (∀ d ∈ ds, d ∈ str "0123456789abcdef") →
      ds.foldl (fun a d => a * 16 + (str "0123456789abcdef").idxOf d) 0 = c.toNat → Stands plain c (str "\\u{" ++ ds ++ str "}")

/-- `t` is a string written between quotes. -/
inductive Inside (plain : Char → Bool) : Str → Str → Prop
  | nil : Inside plain [] []
  | cons {c s a t} : Stands plain c a → Inside plain s t → Inside plain (c :: s) (a ++ t)

/-- A float with a fraction, which reads as it. -/
inductive Decimals : F64 → Str → Prop
  | nan {s p} : Decimals (.nan s p) (str "NaN")
  | inf : Decimals (.inf false) (str "inf")
  | negInf : Decimals (.inf true) (str "-inf")
  | fin {s m t} {d : Spec.Decimal} : F64.parse t = some (.fin s m) → d.Ok → d.Text t → '.' ∈ t → Decimals (.fin s m) t

/-- What is called how. -/
inductive Named (plain : Char → Bool) : Unexp → Str → Prop
  | true : Named plain (.bool true) (str "boolean `true`")
  | false : Named plain (.bool false) (str "boolean `false`")
  | unsigned {n} : Named plain (.unsigned n) (str "integer `" ++ natDigits n ++ str "`")
  | signed {n : Nat} : Named plain (.signed n) (str "integer `" ++ natDigits n ++ str "`")
  | negative {n : Nat} : 0 < n → Named plain (.signed (-n)) (str "integer `-" ++ natDigits n ++ str "`")
  | float {x t} : Decimals x t → Named plain (.float x) (str "floating point `" ++ t ++ str "`")
  | str {s t} : Inside plain s t → Named plain (.str s) (KS.str "string \"" ++ t ++ KS.str "\"")
  | bytes : Named plain .bytes (KS.str "byte array")
  | unit : Named plain .unit (KS.str "unit value")
  | option : Named plain .option (KS.str "Option value")
  | newtypeStruct : Named plain .newtypeStruct (KS.str "newtype struct")
  | seq : Named plain .seq (KS.str "sequence")
  | map : Named plain .map (KS.str "map")
  | unitVariant : Named plain .unitVariant (KS.str "unit variant")
  | other {s} : Named plain (.other s) s

/-- Names to choose from. -/
inductive Choice : List Str → Str → Prop
  | none : Choice [] (str "there are no variants")
  | one {a} : Choice [a] (str "expected `" ++ a ++ str "`")
  | two {a b} : Choice [a, b] (str "expected `" ++ a ++ str "` or `" ++ b ++ str "`")
  | many {l} : 3 ≤ l.length → Choice l (str "expected one of `" ++ (str "`, `").intercalate l ++ str "`")

/-- The text of an error. `noType` is none of the crate's. -/
inductive Wording (plain : Char → Bool) : DErr → Str → Prop
  | type {u w t} : Named plain u t → Wording plain (.type u w) (str "custom error: invalid type: " ++ t ++ str ", expected " ++ w)
  | value {u w t} : Named plain u t → Wording plain (.value u w) (str "custom error: invalid value: " ++ t ++ str ", expected " ++ w)
  | length {n w} : Wording plain (.length n w) (str "custom error: invalid length " ++ natDigits n ++ str ", expected " ++ w)
  | missing {f} : Wording plain (.missing f) (str "custom error: missing field `" ++ f ++ str "`")
  | duplicate {f} : Wording plain (.duplicate f) (str "custom error: duplicate field `" ++ f ++ str "`")
  | unknownVariant {v l t} : Choice l t → Wording plain (.unknownVariant v l) (str "custom error: unknown variant `" ++ v ++ str "`, " ++ t)
  | outside : Wording plain .outside (str "custom error: original number is outside integers range")
  | tryFrom : Wording plain .tryFrom (str "custom error: out of range integral type conversion attempted")
  | noIdentity : Wording plain .noIdentity (str "custom error: enum but no identity is present")

/-- Descriptions which occur. -/
def Usual : Unexp → Prop
  | .other s => s = str "tuple" ∨ s = str "container" ∨ (∃ n, s = str "integer `" ++ natDigits n ++ str "` as u128") ∨
      ∃ i, s = str "integer `" ++ intText i ++ str "` as i128"
  | _ => True

/-- What the text of a description keeps: not the sign of the type of an integer, and not the bits of NaNs. -/
def kept : Unexp → Unexp
  | .unsigned n => .signed n
  | .float (.nan _ _) => .float (.nan false 0)
  | u => u

/-- The same for errors. -/
def keptErr : DErr → DErr
  | .type u w => .type (kept u) w
  | .value u w => .value (kept u) w
  | e => e

/-- Errors which occur, with floats in range, and variants whose names have no backtick. -/
def UsualErr : DErr → Prop
  | .type u _ => Usual u ∧ ∀ x, u = .float x → x.WF
  | .value u _ => Usual u ∧ ∀ x, u = .float x → x.WF
  | .unknownVariant v l => '`' ∉ v ∧ ∀ x ∈ l, '`' ∉ x
  | .noType => False
  | _ => True

/-- A number is within its type. -/
def InRange (k : Kserd) : Prop := ∀ n, k.val = .num n → n.WF

/-- The variant that is unknown, and those that are known, have no backtick. -/
def NoTicks (e : DErr) : Prop := ∀ v l, e = .unknownVariant v l → '`' ∉ v ∧ ∀ x ∈ l, '`' ∉ x

end KS.Spec.De
