import Verif.Spec.PrintMessage
import Verif.Spec.Utf8
/-
The text of a message whose words, texts and parameters may contain any characters: what cannot be written as it is
becomes an encoded word (RFC 2047) or an encoded parameter (RFC 2231).  Nothing here refers to the parsers.
-/
namespace EmailParser.Spec

/-! ### Words and texts -/

/-- Whether a text can be written between quotation marks. -/
def printableB (x : Bytes) : Bool := x.all fun b => vchar b || wsp b

/-- RFC 2047: a text as encoded word. -/
def encodedForm (x : Bytes) : Bytes := b! "=?utf-8?b?" ++ b64Encode x ++ b! "?="

/-- A word of a display name. -/
def unicodeWord (x : Bytes) : Bytes := if printableB x then printWord x else encodedForm x

/-- Words separated by spaces. -/
def unicodePhrase : List Bytes → Bytes
  | [] => []
  | [x] => unicodeWord x
  | x :: xs => unicodeWord x ++ b! " " ++ unicodePhrase xs

def unicodeMailbox (m : Mailbox) : Bytes :=
  match m.name with
  | none => printEmailAddress m.address
  | some words => unicodePhrase words ++ b! " <" ++ printEmailAddress m.address ++ b! ">"

def unicodeAddress : Address → Bytes
  | .mailbox m => unicodeMailbox m
  | .group name members => unicodePhrase name ++ b! ": " ++ printCommas (members.map unicodeMailbox) ++ b! ";"

def unicodeBcc (v : List Address) : Bytes := if v = [] then b! "()" else printCommas (v.map unicodeAddress)

/-- Whether `=?` occurs in a text. -/
def marked : Bytes → Bool
  | [] => false
  | b :: s => looksEncoded (b :: s) || marked s

/-- Whether a text can be written as it is where encoded words are decoded. -/
def plainB (x : Bytes) : Bool := printableB x && !(x.getLast?.any wsp) && !marked x

/-- Unstructured text; the flag tells whether encoded words are decoded. -/
def unicodeText (encoded : Bool) (x : Bytes) : Bytes := if encoded && !plainB x then encodedForm x else x

/-- Words: any text if encoded words are decoded. -/
def UnicodeWord (encoded : Bool) (x : Bytes) : Prop := Printable x ∨ (encoded = true ∧ Utf8 x)

def UnicodePhrase (encoded : Bool) (words : List Bytes) : Prop := words ≠ [] ∧ ∀ x ∈ words, UnicodeWord encoded x

def UnicodeMailbox (encoded : Bool) (m : Mailbox) : Prop :=
  (∀ words, m.name = some words → UnicodePhrase encoded words) ∧ ValidAddress m.address

def UnicodeAddress (encoded : Bool) : Address → Prop
  | .mailbox m => UnicodeMailbox encoded m
  | .group name members => UnicodePhrase encoded name ∧ ∀ m ∈ members, UnicodeMailbox encoded m

/-- Texts: any text if encoded words are decoded. -/
def UnicodeText (encoded : Bool) (x : Bytes) : Prop := if encoded then Utf8 x else ValidText false x

/-! ### Parameters -/

/-- The names of parameters of a disposition that have a meaning. -/
def reservedNames : List Bytes := [b! "filename", b! "creation-date", b! "modification-date", b! "read-date"]

/-- The characters that are not escaped: letters and digits. -/
def keepChar (b : UInt8) : Bool := (48 ≤ b && b ≤ 57) || (65 ≤ b && b ≤ 90) || (97 ≤ b && b ≤ 122)

/-- RFC 2231: a parameter as encoded segment. -/
def segmentWritten (p : Bytes × Bytes) : WrittenParam :=
  { before := [], after := b! " ", name := p.1, index := some 0, encoded := true, quoted := false,
    value := b! "utf-8''" ++ pctEncode keepChar p.2 }

/-- A parameter between quotation marks if that is possible. -/
def unicodeParam (reserved : List Bytes) (p : Bytes × Bytes) : WrittenParam :=
  if p.1.contains 42 || (printableB p.2 && !reserved.contains (p.1.map asciiLower)) then plainWritten p
  else segmentWritten p

/-- A content type. -/
def unicodeContentType (v : MailType) : Bytes :=
  b! " " ++ v.type ++ b! "/" ++ v.subtype ++ (v.params.map (unicodeParam [])).flatMap WrittenParam.text

/-- A disposition. -/
def unicodeItems (v : MailDisposition) : List WrittenItem :=
  writtenDisposition v.filename v.creation v.modification v.read [] ++
    v.params.map fun p => .other (unicodeParam reservedNames p)

def unicodeDisposition (v : MailDisposition) : Bytes := b! " " ++ v.type ++ (unicodeItems v).flatMap WrittenItem.text

/-- Parameters that can be written: any text, but a name with a `*` (which must not have the form of a segment or of an
encoded parameter) has a printable value.  A name is not given two values. -/
def UnicodeParams (params : List (Bytes × Bytes)) : Prop :=
  (∀ p ∈ params, p.1 ≠ [] ∧ (∀ b ∈ p.1, tokenChar b = true) ∧ Utf8 p.2 ∧
    (42 ∈ p.1 → Printable p.2 ∧ ∀ v, ¬ ExtendedName p.1 v)) ∧
  ∀ p ∈ params, ∀ q ∈ params, p.1.map asciiLower = q.1.map asciiLower → p.2 = q.2

/-! ### Headers -/

/-- Identifiers: with the feature `compatibility-fixes` the left part may have empty atoms after a dot. -/
def UnicodeId (lax : Bool) (id : Bytes × Bytes) : Prop := DotAtomText lax id.1 id.1 ∧ ∀ b ∈ id.2, dtext b = true

/-- What is written after the colon. -/
def MailHeader.unicodeValue (f : Features) : MailHeader → Bytes
  | .from v => b! " " ++ printCommas (v.map unicodeMailbox)
  | .sender v => b! " " ++ unicodeMailbox v
  | .replyTo v => b! " " ++ printCommas (v.map unicodeAddress)
  | .to v => b! " " ++ printCommas (v.map unicodeAddress)
  | .cc v => b! " " ++ printCommas (v.map unicodeAddress)
  | .bcc v => b! " " ++ unicodeBcc v
  | .subject v => unicodeText f.mime v
  | .comments v => unicodeText f.mime v
  | .keywords v => b! " " ++ printCommas (v.map unicodePhrase)
  | .contentType v => unicodeContentType v
  | .contentDescription v => unicodeText true v
  | .contentDisposition v => unicodeDisposition v
  | .other _ value => unicodeText f.unrecognizedHeaders value
  | h => h.value

/-- The line. -/
def MailHeader.unicode (f : Features) (h : MailHeader) : Bytes := h.name ++ b! ":" ++ h.unicodeValue f ++ CRLF

/-- Headers that can be written. -/
def MailHeader.Encodable (c : Cfg) : MailHeader → Prop
  | .date v => InRange v
  | .from v => v ≠ [] ∧ ∀ m ∈ v, UnicodeMailbox c.feat.mime m
  | .sender v => UnicodeMailbox c.feat.mime v
  | .replyTo v => v ≠ [] ∧ ∀ a ∈ v, UnicodeAddress c.feat.mime a
  | .to v => v ≠ [] ∧ ∀ a ∈ v, UnicodeAddress c.feat.mime a
  | .cc v => v ≠ [] ∧ ∀ a ∈ v, UnicodeAddress c.feat.mime a
  | .bcc v => 0 < c.stack ∧ ∀ a ∈ v, UnicodeAddress c.feat.mime a
  | .messageId v => UnicodeId c.feat.compatibilityFixes v
  | .inReplyTo v => v ≠ [] ∧ ∀ id ∈ v, UnicodeId c.feat.compatibilityFixes id
  | .references v => v ≠ [] ∧ ∀ id ∈ v, UnicodeId c.feat.compatibilityFixes id
  | .subject v => UnicodeText c.feat.mime v
  | .comments v => UnicodeText c.feat.mime v
  | .keywords v => v ≠ [] ∧ ∀ words ∈ v, UnicodePhrase c.feat.mime words
  | .mimeVersion major minor => major < 256 ∧ minor < 256
  | .contentType v => ValidName typeNames v.type ∧ (v.subtype ≠ [] ∧ ∀ b ∈ v.subtype, tokenChar b = true) ∧
      UnicodeParams v.params
  | .contentTransferEncoding v => ∀ name, v ≠ .unknown name
  | .contentId v => UnicodeId c.feat.compatibilityFixes v
  | .contentDescription v => Utf8 v
  | .contentDisposition v => ValidName dispositionNames v.type ∧ (∀ x ∈ v.filename, Printable x) ∧
      (∀ d ∈ v.creation, InRange d) ∧ (∀ d ∈ v.modification, InRange d) ∧ (∀ d ∈ v.read, InRange d) ∧
      UnicodeParams v.params
  | .other name value => name ≠ [] ∧ (∀ b ∈ name, ftext b = true) ∧ ¬ Recognized c.feat (name.map asciiLower) ∧
      UnicodeText c.feat.unrecognizedHeaders value

def unicodeResent (f : Features) (v : TraceField) : Bytes := b! "Resent-" ++ (resentHeader v).unicode f

def MailTrace.unicode (f : Features) (t : MailTrace) : Bytes :=
  t.path.toList.flatMap printReturnPath ++ (t.received.flatMap printReceived ++ t.resent.flatMap (unicodeResent f))

structure MailTrace.Encodable (c : Cfg) (t : MailTrace) : Prop where
  path : ∀ a, t.path = some (some a) → ValidAddress a
  nonempty : t.received ≠ []
  received : ∀ v ∈ t.received, (∀ x ∈ v.1, ValidToken x) ∧ InRange v.2
  resent : ∀ v ∈ t.resent, (resentHeader v).Encodable c

/-! ### Messages -/

/-- The text of a message. -/
def Letter.unicode (f : Features) (m : Letter) : Bytes :=
  m.trace.flatMap (MailTrace.unicode f) ++ (m.headers.flatMap (MailHeader.unicode f) ++
    (match m.body with
      | none => []
      | some b => CRLF ++ encodeBody m.encoding b))

/-- Messages that can be written. -/
structure Letter.Encodable (c : Cfg) (m : Letter) : Prop where
  headers : ∀ h ∈ m.headers, h.Encodable c
  recognized : ∀ h ∈ m.headers, ∀ name, headerOf h.field = some name → Recognized c.feat name
  trace : m.trace = [] ∨ c.feat.trace = true
  traces : ∀ t ∈ m.trace, t.Encodable c
  separated : Separated m.trace
  others : c.feat.trace = true → ∀ v ∈ m.others, v.1.map asciiLower ≠ b! "return-path" ∧
    v.1.map asciiLower ≠ b! "received" ∧ ¬ b! "resent-" <+: v.1.map asciiLower
  date : c.feat.date = true → m.date ≠ none
  «from» : c.feat.from = true → m.from ≠ none
  sender : c.feat.sender = true → m.sender = none → ∀ authors, m.from = some authors → authors.length = 1
  body : c.feat.mime = false → ∀ b, m.body = some b → Body b

end EmailParser.Spec
