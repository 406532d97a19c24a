import Verif.Spec.PrintAddress
import Verif.Spec.HeaderLayout
import Verif.Spec.Email
import Verif.Spec.Base64
import Verif.Spec.QuotedPrintable
/-
The canonical text of a whole message.  Nothing here refers to the parsers.
-/
namespace EmailParser.Spec

/-- The value of a name of a table, in any case, or of another name. -/
def named {α : Type} (table : List (Bytes × α)) (other : Bytes → α) (w : Bytes) : α :=
  (table.lookup (w.map asciiLower)).getD (other (w.map asciiLower))

/-- A token that is a name of the table or does not begin with one. -/
def ValidName {α : Type} (table : List (Bytes × α)) (w : Bytes) : Prop :=
  w ≠ [] ∧ (∀ b ∈ w, tokenChar b = true) ∧
    (w.map asciiLower ∈ table.map (·.1) ∨ ∀ e ∈ table, ¬ e.1 <+: w.map asciiLower)

/-- A content type, as it would be given by somebody who writes a message. -/
structure MailType where
  type : Bytes
  subtype : Bytes
  params : List (Bytes × Bytes)

/-- What it says. -/
def MailType.value (t : MailType) : ContentType × Bytes × Params :=
  (named typeNames .unknown t.type, t.subtype.map asciiLower, lastValue t.params)

/-- A content disposition, as it would be given by somebody who writes a message. -/
structure MailDisposition where
  type : Bytes
  filename : Option Bytes
  creation : Option DateTime
  modification : Option DateTime
  read : Option DateTime
  params : List (Bytes × Bytes)

/-- What it says. -/
def MailDisposition.value (d : MailDisposition) : Disposition where
  dispositionType := named dispositionNames .unknown d.type
  filename := d.filename
  creationDate := d.creation
  modificationDate := d.modification
  readDate := d.read
  unstructured := lastValue d.params

/-- The name of a transfer encoding. -/
def encodingName : ContentTransferEncoding → Bytes
  | .sevenBit => b! "7bit"
  | .heightBit => b! "8bit"
  | .binary => b! "binary"
  | .quotedPrintable => b! "quoted-printable"
  | .base64 => b! "base64"
  | .unknown name => name

/-- A header, as it would be given by somebody who writes a message. -/
inductive MailHeader where
  | date (v : DateTime)
  | from (v : List Mailbox)
  | sender (v : Mailbox)
  | replyTo (v : List Address)
  | to (v : List Address)
  | cc (v : List Address)
  | bcc (v : List Address)
  | messageId (v : Bytes × Bytes)
  | inReplyTo (v : List (Bytes × Bytes))
  | references (v : List (Bytes × Bytes))
  | subject (v : Bytes)
  | comments (v : Bytes)
  | keywords (v : List (List Bytes))
  | mimeVersion (major minor : Nat)
  | contentType (v : MailType)
  | contentTransferEncoding (v : ContentTransferEncoding)
  | contentId (v : Bytes × Bytes)
  | contentDescription (v : Bytes)
  | contentDisposition (v : MailDisposition)
  | other (name value : Bytes)

/-- A message identifier; what is not a dot-atom is written between brackets. -/
def printMessageId (id : Bytes × Bytes) : Bytes := printId (!dotAtomB id.2) id

/-- Identifiers separated by spaces. -/
def printMessageIds (ids : List (Bytes × Bytes)) : Bytes := printIds (ids.map fun id => (!dotAtomB id.2, id))

/-- The blind copies may go to nobody: the value is an empty comment. -/
def printBcc (v : List Address) : Bytes := if v = [] then b! "()" else printCommas (v.map printAddress)

/-- What is written after the colon.  (White space at the beginning of a text is part of the text.) -/
def MailHeader.value : MailHeader → Bytes
  | .date v => b! " " ++ printDate true v
  | .from v => b! " " ++ printCommas (v.map printMailbox)
  | .sender v => b! " " ++ printMailbox v
  | .replyTo v => b! " " ++ printCommas (v.map printAddress)
  | .to v => b! " " ++ printCommas (v.map printAddress)
  | .cc v => b! " " ++ printCommas (v.map printAddress)
  | .bcc v => b! " " ++ printBcc v
  | .messageId v => b! " " ++ printMessageId v
  | .inReplyTo v => b! " " ++ printMessageIds v
  | .references v => b! " " ++ printMessageIds v
  | .subject v => v
  | .comments v => v
  | .keywords v => b! " " ++ printCommas (v.map printPhrase)
  | .mimeVersion major minor => b! " " ++ (printNat major ++ (b! "." ++ printNat minor))
  | .contentType v => printContentType v.type v.subtype v.params
  | .contentTransferEncoding v => b! " " ++ encodingName v
  | .contentId v => b! " " ++ printMessageId v
  | .contentDescription v => v
  | .contentDisposition v => printDisposition v.type v.filename v.creation v.modification v.read v.params
  | .other _ value => value

/-- The name in the usual case. -/
def MailHeader.name : MailHeader → Bytes
  | .date _ => b! "Date"
  | .from _ => b! "From"
  | .sender _ => b! "Sender"
  | .replyTo _ => b! "Reply-To"
  | .to _ => b! "To"
  | .cc _ => b! "Cc"
  | .bcc _ => b! "Bcc"
  | .messageId _ => b! "Message-ID"
  | .inReplyTo _ => b! "In-Reply-To"
  | .references _ => b! "References"
  | .subject _ => b! "Subject"
  | .comments _ => b! "Comments"
  | .keywords _ => b! "Keywords"
  | .mimeVersion _ _ => b! "MIME-Version"
  | .contentType _ => b! "Content-Type"
  | .contentTransferEncoding _ => b! "Content-Transfer-Encoding"
  | .contentId _ => b! "Content-ID"
  | .contentDescription _ => b! "Content-Description"
  | .contentDisposition _ => b! "Content-Disposition"
  | .other name _ => name

/-- The line. -/
def MailHeader.text (h : MailHeader) : Bytes := h.name ++ b! ":" ++ h.value ++ CRLF

/-- What the line says. -/
def MailHeader.field : MailHeader → Field
  | .date v => .date v
  | .from v => .from v
  | .sender v => .sender v
  | .replyTo v => .replyTo v
  | .to v => .to v
  | .cc v => .cc v
  | .bcc v => .bcc v
  | .messageId v => .messageId v
  | .inReplyTo v => .inReplyTo v
  | .references v => .references v
  | .subject v => .subject v
  | .comments v => .comments v
  | .keywords v => .keywords v
  | .mimeVersion major minor => .mimeVersion major minor
  | .contentType v => .contentType v.value.1 v.value.2.1 v.value.2.2
  | .contentTransferEncoding v => .contentTransferEncoding v
  | .contentId v => .contentId v
  | .contentDescription v => .contentDescription v
  | .contentDisposition v => .contentDisposition v.value
  | .other name value => .unknown name value

/-- Identifiers that can be written. -/
def ValidMessageId (id : Bytes × Bytes) : Prop :=
  dotAtomB id.1 = true ∧ (dotAtomB id.2 = true ∨ ∀ b ∈ id.2, dtext b = true)

/-- Texts that can be written on one line: without white space at the end and, if encoded words are decoded,
without `=?`. -/
def ValidText (encoded : Bool) (x : Bytes) : Prop :=
  Printable x ∧ Solid x ∧ (encoded = true → ¬ b! "=?" <:+: x)

/-- Parameters that can be written. -/
def ValidParams (params : List (Bytes × Bytes)) : Prop :=
  ∀ p ∈ params, p.1 ≠ [] ∧ (∀ b ∈ p.1, tokenChar b = true ∧ b ≠ 42) ∧ Printable p.2

/-- Lists of addresses that can be written. -/
def ValidAddresses (v : List Address) : Prop := v ≠ [] ∧ ∀ a ∈ v, ValidAddressOrGroup a

/-- Headers that can be written. -/
def MailHeader.Writable (c : Cfg) : MailHeader → Prop
  | .date v => InRange v
  | .from v => v ≠ [] ∧ ∀ m ∈ v, ValidMailbox m
  | .sender v => ValidMailbox v
  | .replyTo v => ValidAddresses v
  | .to v => ValidAddresses v
  | .cc v => ValidAddresses v
  | .bcc v => 0 < c.stack ∧ ∀ a ∈ v, ValidAddressOrGroup a
  | .messageId v => ValidMessageId v
  | .inReplyTo v => v ≠ [] ∧ ∀ id ∈ v, ValidMessageId id
  | .references v => v ≠ [] ∧ ∀ id ∈ v, ValidMessageId id
  | .subject v => ValidText c.feat.mime v
  | .comments v => ValidText c.feat.mime v
  | .keywords v => v ≠ [] ∧ ∀ words ∈ v, ValidPhrase words
  | .mimeVersion major minor => major < 256 ∧ minor < 256
  | .contentType v => ValidName typeNames v.type ∧ (v.subtype ≠ [] ∧ ∀ b ∈ v.subtype, tokenChar b = true) ∧
      ValidParams v.params
  | .contentTransferEncoding v => ∀ name, v ≠ .unknown name
  | .contentId v => ValidMessageId v
  | .contentDescription v => ValidText true v
  | .contentDisposition v => ValidName dispositionNames v.type ∧ (∀ x ∈ v.filename, Printable x) ∧
      (∀ d ∈ v.creation, InRange d) ∧ (∀ d ∈ v.modification, InRange d) ∧ (∀ d ∈ v.read, InRange d) ∧
      ValidParams v.params ∧ ∀ p ∈ v.params,
        p.1.map asciiLower ∉ [b! "filename", b! "creation-date", b! "modification-date", b! "read-date"]
  | .other name value => name ≠ [] ∧ (∀ b ∈ name, ftext b = true) ∧ ¬ Recognized c.feat (name.map asciiLower) ∧
      ValidText c.feat.unrecognizedHeaders value

/-- Headers that can be written and are recognised. -/
def MailHeader.Valid (c : Cfg) (h : MailHeader) : Prop :=
  h.Writable c ∧ ∀ name, headerOf h.field = some name → Recognized c.feat name

/-! ### Trace headers -/

def printToken : ReceivedToken → Bytes
  | .word x => if x != [] && x.all atext then x else quote x
  | .domain x => if dotAtomB x && x.contains 46 then x else b! "[" ++ x ++ b! "]"
  | .addr a => b! "<" ++ printEmailAddress a ++ b! ">"

/-- Tokens separated by spaces. -/
def printTokens : List ReceivedToken → Bytes
  | [] => []
  | [t] => printToken t
  | t :: ts => printToken t ++ b! " " ++ printTokens ts

def printReceived (v : List ReceivedToken × DateTime) : Bytes :=
  b! "Received" ++ b! ":" ++ ((if v.1 = [] then [] else b! " ") ++ (printTokens v.1 ++ b! ";" ++ (b! " " ++ printDate true v.2))) ++
    CRLF

def printReturnPath (v : Option EmailAddress) : Bytes :=
  b! "Return-Path" ++ b! ":" ++ (b! " <" ++ (match v with | some a => printEmailAddress a | none => []) ++ b! ">") ++ CRLF

/-- The header of which a resent header is a copy. -/
def resentHeader : TraceField → MailHeader
  | .date v => .date v
  | .from v => .from v
  | .sender v => .sender v
  | .to v => .to v
  | .cc v => .cc v
  | .bcc v => .bcc v
  | .messageId v => .messageId v

def printResent (v : TraceField) : Bytes := b! "Resent-" ++ (resentHeader v).text

/-- A block of trace headers. -/
structure MailTrace where
  path : Option (Option EmailAddress)
  received : List (List ReceivedToken × DateTime)
  resent : List TraceField

def MailTrace.text (t : MailTrace) : Bytes :=
  t.path.toList.flatMap printReturnPath ++ (t.received.flatMap printReceived ++ t.resent.flatMap printResent)

def ValidToken : ReceivedToken → Prop
  | .word x => Printable x
  | .domain x => dotAtomB x = true ∨ ∀ b ∈ x, dtext b = true
  | .addr a => ValidAddress a

structure MailTrace.Valid (c : Cfg) (t : MailTrace) : Prop where
  path : ∀ a, t.path = some (some a) → ValidAddress a
  nonempty : t.received ≠ []
  received : ∀ v ∈ t.received, (∀ x ∈ v.1, ValidToken x) ∧ InRange v.2
  resent : ∀ v ∈ t.resent, (resentHeader v).Writable c

/-- A block without resent headers is followed by one that begins with a return path: otherwise they are one
block. -/
def Separated : List MailTrace → Prop
  | a :: b :: ts => (a.resent = [] → b.path ≠ none) ∧ Separated (b :: ts)
  | _ => True

/-! ### Messages -/

/-- A message, as it would be given by somebody who writes it. -/
structure Letter where
  trace : List MailTrace := []
  date : Option DateTime := none
  «from» : Option (List Mailbox) := none
  sender : Option Mailbox := none
  replyTo : Option (List Address) := none
  to : Option (List Address) := none
  cc : Option (List Address) := none
  bcc : Option (List Address) := none
  messageId : Option (Bytes × Bytes) := none
  inReplyTo : Option (List (Bytes × Bytes)) := none
  references : Option (List (Bytes × Bytes)) := none
  subject : Option Bytes := none
  comments : List Bytes := []
  keywords : List (List Bytes) := []
  mimeVersion : Option (Nat × Nat) := none
  contentType : Option MailType := none
  encoding : Option ContentTransferEncoding := none
  contentId : Option (Bytes × Bytes) := none
  description : Option Bytes := none
  disposition : Option MailDisposition := none
  others : List (Bytes × Bytes) := []
  body : Option Bytes := none

def Letter.headers (m : Letter) : List MailHeader :=
  m.date.toList.map .date ++ (m.from.toList.map .from ++ (m.sender.toList.map .sender ++
  (m.replyTo.toList.map .replyTo ++ (m.to.toList.map .to ++ (m.cc.toList.map .cc ++ (m.bcc.toList.map .bcc ++
  (m.messageId.toList.map .messageId ++ (m.inReplyTo.toList.map .inReplyTo ++
  (m.references.toList.map .references ++ (m.subject.toList.map .subject ++ (m.comments.map .comments ++
  ((if m.keywords = [] then [] else [.keywords m.keywords]) ++
  (m.mimeVersion.toList.map (fun v => .mimeVersion v.1 v.2) ++ (m.contentType.toList.map .contentType ++
  (m.encoding.toList.map .contentTransferEncoding ++ (m.contentId.toList.map .contentId ++
  (m.description.toList.map .contentDescription ++ (m.disposition.toList.map .contentDisposition ++
  m.others.map fun v => .other v.1 v.2))))))))))))))))))

/-- RFC 2045 6.7: quoted-printable text without line breaks. -/
def qpText (b : Bytes) : Bytes := b.flatMap fun x => if 33 ≤ x && x ≤ 126 && x != 61 then [x] else escape x

/-- The text of the body. -/
def encodeBody (encoding : Option ContentTransferEncoding) (b : Bytes) : Bytes :=
  match encoding with
  | some .base64 => breakLines 72 (b64Encode b)
  | some .quotedPrintable => qpText b
  | _ => b

/-- The text of a message. -/
def Letter.text (m : Letter) : Bytes :=
  m.trace.flatMap MailTrace.text ++ (m.headers.flatMap MailHeader.text ++
    (match m.body with
      | none => []
      | some b => CRLF ++ encodeBody m.encoding b))

/-- Messages that can be written: the required headers are given, and what is not recognised is not used. -/
structure Letter.Valid (c : Cfg) (m : Letter) : Prop where
  headers : ∀ h ∈ m.headers, h.Valid c
  trace : m.trace = [] ∨ c.feat.trace = true
  traces : ∀ t ∈ m.trace, t.Valid c
  separated : Separated m.trace
  others : c.feat.trace = true → ∀ v ∈ m.others, v.1.map asciiLower ≠ b! "return-path" ∧
    v.1.map asciiLower ≠ b! "received" ∧ ¬ b! "resent-" <+: v.1.map asciiLower
  date : c.feat.date = true → m.date ≠ none
  «from» : c.feat.from = true → m.from ≠ none
  sender : c.feat.sender = true → m.sender = none → ∀ authors, m.from = some authors → authors.length = 1
  body : c.feat.mime = false → ∀ b, m.body = some b → Body b

/-- What the reader gets. -/
def Letter.email (f : Features) (m : Letter) : Email where
  body := if f.mime then none else m.body
  «from» := m.from
  sender := if f.sender then m.sender.or (m.from.bind List.head?) else none
  subject := m.subject
  date := m.date
  to := m.to
  cc := m.cc
  bcc := m.bcc
  messageId := m.messageId
  inReplyTo := m.inReplyTo
  references := m.references
  replyTo := m.replyTo
  comments := m.comments
  keywords := m.keywords
  trace := m.trace.map fun t => (t.path, t.received, t.resent)
  mimeEntity :=
    if f.mime then
      let t := (m.contentType.map MailType.value).getD plainText
      some
        { mimeType := t.1
          subtype := t.2.1
          description := m.description
          id := m.contentId
          parameters := t.2.2
          disposition := m.disposition.map MailDisposition.value
          value := m.body.getD []
          additionalHeaders := [] }
    else none
  unknownFields := m.others

end EmailParser.Spec
