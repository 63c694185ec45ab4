import Verif.Model.Formatter
import Verif.Model.ToKserd
import Verif.Model.Encode
/-!
# What the errors of the constructors, of the encoder, of `ToKserd` and of the formatter print
-/

namespace KS

/-- `Display for InvalidId`, `/repo/src/ds/kserd.rs` 388-396. -/
def invalidIdText (id : Str) : Str :=
  str "identity '" ++ id ++ str "' contains invalid characters. Invalid characters: '" ++ Kserd.invalidIdChars ++ str "'"

/-- The string inside `InvalidFieldName`, `/repo/src/ds/val.rs` 118-138. -/
def FieldNameErr.msg : FieldNameErr → Str
  | .empty => str "name is empty"
  | .digit => str "name can not begin with digit"
  | .badChar c s => str "invalid character '" ++ [c] ++ str "' exists in name '" ++ s ++ str "'"

/-- `Display for InvalidFieldName`, `/repo/src/ds/val.rs` 142-146. -/
def FieldNameErr.text (e : FieldNameErr) : Str := str "invalid field name: " ++ e.msg

/-- `Display for Error` of the encoder, `/repo/src/encode/encoder.rs` 264-274. -/
def EncErr.text : EncErr → Str
  | .noKeyAvailable => str "no key was available when trying to serialize map value"
  | .invalidId id => invalidIdText id
  | .message m => str "custom error: " ++ m

/-- `Display for ToKserdErr`, `/repo/src/to_kserd.rs` 102-109. -/
def ToKserdErr.text : ToKserdErr → Str
  | .invalidId id => invalidIdText id
  | .invalidFieldName e => e.text

/-- The local `n` of `mk_request_too_high`, `/repo/src/fmt/formatter.rs` 468-474. -/
def Repr'.name : Repr' → Str
  | .inline => str "inline"
  | .concise => str "concise"
  | .verbose => str "verbose"

/-- `Display for FmtError`, `/repo/src/fmt/formatter.rs` 481-506; `none` for the panic, which is no error of the code. -/
def FmtError.text : FmtError → Option Str
  | .idxOutOfBounds => some (str "the requested item index is outside the range of the formatter")
  | .parentIsInline => some (str "parent is 'inline', child must be formatted as 'inline'")
  | .parentIsConcise => some (str "parent is 'concise', child must be formatted as 'inline' or 'concise'")
  | .requestTooHigh max req =>
    some (str "requested format '" ++ req.name ++ str "' is higher than the value maximally allows '" ++ max.name ++ str "'")
  | .seqMapAtRoot => some (str "requested to format root as verbose but the root is a sequence or a map")
  | .panic => none

end KS
