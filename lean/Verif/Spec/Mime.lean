import Verif.Spec.Params
import Verif.Model.MimeFields
/-
The grammar of the MIME header fields (RFC 2045, 2183, 2231).  From the model it uses only the data
types of the results.
-/
namespace EmailParser.Spec
open Gram

/-- RFC 2045 5.1: `token = 1*<any (US-ASCII) CHAR except SPACE, CTLs, or tspecials>`. -/
def Token : Gram Bytes := chars1 tokenChar

/-- White space and at most one comment; no fold outside of the comment. -/
def InlineCfws : Gram Unit := do
  let _ ← chars wsp
  let _ ← opt Comment
  let _ ← chars wsp
  pure ()

/-- A decimal number less than 256, with any number of digits. -/
def U8Number : Gram Nat := filter (· < 256) (map decimal (chars1 digit))

/-- RFC 2045 4: the version of `MIME-Version`. -/
def MimeVersion : Gram (Nat × Nat) := do
  OptCfws
  let major ← U8Number
  lit (b! ".")
  let minor ← U8Number
  InlineCfws
  pure (major, minor)

/-- RFC 2231: `attribute ["*" section] ["*"]`. -/
def ExtendedName : Gram (Bytes × Option Nat × Bool) := do
  let name ← chars1 fun c => tokenChar c && c != 42
  let index ← opt do
    lit (b! "*")
    U8Number
  let encoded ← map Option.isSome (opt (lit (b! "*")))
  pure (name, index, encoded)

/-- A parameter name; a token that does not have the form of RFC 2231 stands for itself. -/
def ParamName : Gram (Bytes × Option Nat × Bool) := fun w v =>
  ExtendedName w v ∨ ((∀ v', ¬ ExtendedName w v') ∧ Token w w ∧ v = (w, none, false))

/-- RFC 2045 5.1: `value = token / quoted-string`. -/
def ParamText : Gram Bytes := Gram.or Token QuotedString

/-- RFC 2045 5.1: `";" attribute "=" value`. -/
def Parameter : Gram RawParam := do
  OptCfws
  lit (b! ";")
  OptCfws
  let (name, index, encoded) ← ParamName
  lit (b! "=")
  let value ← ParamText
  pure { name := name.map asciiLower, index, encoded, value }

/-- One of the names of a table (lowercase there, in any case in the text), or a token that does not begin with one
of them. -/
def NamedOr {α : Type} (table : List (Bytes × α)) (other : Bytes → α) : Gram α := fun w v =>
  (∃ s, (s, v) ∈ table ∧ w.map asciiLower = s) ∨
  (Token w w ∧ (∀ e ∈ table, ¬ e.1 <+: w.map asciiLower) ∧ v = other (w.map asciiLower))

/-- The collected parameters; not a text. -/
def Collected (c : Cfg) (ps : List RawParam) : Gram Params := fun w p =>
  w = [] ∧ ∀ name, ParamValue c ps name (p name)

/-- RFC 2045 5.1: the types. -/
def typeNames : List (Bytes × ContentType) :=
  [ (b! "text", .text), (b! "multipart", .multipart), (b! "application", .application),
    (b! "image", .image), (b! "video", .video), (b! "audio", .audio), (b! "message", .message) ]

/-- RFC 2045 5.1: `type "/" subtype *(";" parameter)`. -/
def ContentTypeG (c : Cfg) : Gram (ContentType × Bytes × Params) := do
  OptCfws
  let type ← NamedOr typeNames .unknown
  lit (b! "/")
  let subtype ← Token
  let ps ← star Parameter
  let params ← Collected c ps
  InlineCfws
  pure (type, subtype.map asciiLower, params)

/-- RFC 2183 2: the disposition types. -/
def dispositionNames : List (Bytes × DispositionType) :=
  [ (b! "inline", .inline), (b! "attachment", .attachment) ]

/-- RFC 2183 2: a date parameter. -/
def DateParam (name : Bytes) : Gram DateTime := do
  OptCfws
  lit (b! ";")
  OptCfws
  litNoCase name
  lit (b! "=\"")
  let v ← DateTimeG
  lit (b! "\"")
  pure v

/-- RFC 2183 2: the parameters of a disposition. -/
def DispositionParam : Gram DispositionItem := fun w v =>
  (∃ value, v = .filename value ∧
    (do
      OptCfws
      lit (b! ";")
      OptCfws
      litNoCase (b! "filename")
      lit (b! "=")
      ParamText : Gram Bytes) w value) ∨
  (∃ d, v = .creationDate d ∧ DateParam (b! "creation-date") w d) ∨
  (∃ d, v = .modificationDate d ∧ DateParam (b! "modification-date") w d) ∨
  (∃ d, v = .readDate d ∧ DateParam (b! "read-date") w d) ∨
  (∃ p : RawParam, v = .parameter p ∧ Parameter w p ∧
    ¬ (p.name = b! "filename" ∧ p.index = none ∧ p.encoded = false))

/-- RFC 2183 2: `disposition-type *(";" disposition-parm)`; the last occurrence of a parameter
counts. -/
def DispositionG (c : Cfg) : Gram Disposition := do
  OptCfws
  let type ← NamedOr dispositionNames .unknown
  let items ← star DispositionParam
  let params ← Collected c (items.filterMap fun | .parameter p => some p | _ => none)
  InlineCfws
  pure
    { dispositionType := type
      filename := (items.filterMap fun | .filename v => some v | _ => none).getLast?
      creationDate := (items.filterMap fun | .creationDate d => some d | _ => none).getLast?
      modificationDate := (items.filterMap fun | .modificationDate d => some d | _ => none).getLast?
      readDate := (items.filterMap fun | .readDate d => some d | _ => none).getLast?
      unstructured := params }

/-- RFC 2045 6.1: the transfer encodings. -/
def encodingNames : List (Bytes × ContentTransferEncoding) :=
  [ (b! "7bit", .sevenBit), (b! "8bit", .heightBit), (b! "binary", .binary),
    (b! "quoted-printable", .quotedPrintable), (b! "base64", .base64) ]

/-- RFC 2045 6.1. -/
def TransferEncodingG : Gram ContentTransferEncoding := do
  OptCfws
  let e ← NamedOr encodingNames .unknown
  InlineCfws
  pure e

/-- RFC 5322 2.2: field name, colon, value, CRLF. -/
def HeaderLine {α : Type} (name : Bytes) (G : Gram α) : Gram α := do
  litNoCase name
  let v ← G
  lit CRLF
  pure v

end EmailParser.Spec
