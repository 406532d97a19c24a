import Verif.Spec.PrintMessage
import Verif.Spec.Entity
/-
How the parts of multipart messages may be laid out, and their canonical text (RFC 2045, RFC 2046).  Nothing here
refers to the parsers.
-/
namespace EmailParser.Spec

/-! ### Any layout -/

/-- The header of a message that is written like the given header of a part. -/
def partField : EntityHeader → Field
  | .encoding v => .contentTransferEncoding v
  | .type v => .contentType v.1 v.2.1 v.2.2
  | .id v => .contentId v
  | .description v => .contentDescription v
  | .disposition v => .contentDisposition v
  | .other name value => .unknown name value

/-- The headers of parts that have a meaning, in lower case. -/
def partNames : List Bytes :=
  [b! "content-transfer-encoding", b! "content-type", b! "content-id", b! "content-description",
    b! "content-disposition"]

/-- A header line of a part and what it stands for. -/
inductive PartHeaderL (c : Cfg) : Bytes → EntityHeader → Prop
  | known {name n w h} : headerOf (partField h) = some name → n.map asciiLower = name → ValueL c w (partField h) →
      PartHeaderL c (n ++ b! ":" ++ w ++ CRLF) h
  | other {n w v} : n ≠ [] → (∀ b ∈ n, ftext b = true) → n.map asciiLower ∉ partNames →
      TextL c c.feat.unrecognizedHeaders w v → PartHeaderL c (n ++ b! ":" ++ w ++ CRLF) (.other n v)

/-- After the headers: an empty line and the body, or nothing. -/
inductive PartEnd : Bytes → Bytes → Prop
  | none : PartEnd [] []
  | body {b} : PartEnd (CRLF ++ b) b

/-- A part, the headers it has and its body, which is not decoded. -/
def PartL (c : Cfg) (i : Bytes) (hs : List EntityHeader) (body : Bytes) : Prop :=
  ∃ lines tail, i = lines ++ tail ∧ LinesL (PartHeaderL c) lines hs ∧ PartEnd tail body

/-! The value of a header of one kind. -/

def typeOf : EntityHeader → Option (ContentType × Bytes × Params) | .type v => some v | _ => none
def descriptionOf : EntityHeader → Option Bytes | .description v => some v | _ => none
def idOf : EntityHeader → Option (Bytes × Bytes) | .id v => some v | _ => none
def partDispositionOf : EntityHeader → Option Disposition | .disposition v => some v | _ => none
def partEncodingOf : EntityHeader → Option ContentTransferEncoding | .encoding v => some v | _ => none
def otherOf : EntityHeader → Option (Bytes × Bytes) | .other n v => some (n, v) | _ => none

/-- The last value of one kind. -/
def lastOf {α : Type} (kind : EntityHeader → Option α) (hs : List EntityHeader) : Option α :=
  (hs.filterMap kind).getLast?

/-- What a part means, given its headers and its decoded body: the last header of each kind counts, a part without
type is plain text. -/
def partValue (hs : List EntityHeader) (value : Bytes) : RawEntity :=
  let t := (lastOf typeOf hs).getD plainText
  { mimeType := t.1
    subtype := t.2.1
    description := lastOf descriptionOf hs
    id := lastOf idOf hs
    parameters := t.2.2
    disposition := lastOf partDispositionOf hs
    value := value
    additionalHeaders := hs.filterMap otherOf }

/-- The encoding of the body. -/
def partEncoding (hs : List EntityHeader) : Option ContentTransferEncoding :=
  lastOf partEncodingOf hs

/-- The body and what it is when decoded. -/
def Decoded (encoding : Option ContentTransferEncoding) (body value : Bytes) : Prop :=
  match encoding with
  | some .base64 => b64Decode .start (b64Tokens body) = .ok value
  | some .quotedPrintable => value = qpDecode body
  | some (.unknown _) => False
  | _ => value = body

/-! ### Canonical form -/

/-- A part, as it would be given by somebody who writes a message. -/
structure MailPart where
  contentType : Option MailType := none
  encoding : Option ContentTransferEncoding := none
  contentId : Option (Bytes × Bytes) := none
  description : Option Bytes := none
  disposition : Option MailDisposition := none
  others : List (Bytes × Bytes) := []
  body : Bytes := []

def MailPart.headers (p : MailPart) : List MailHeader :=
  p.contentType.toList.map .contentType ++ (p.encoding.toList.map .contentTransferEncoding ++
  (p.contentId.toList.map .contentId ++ (p.description.toList.map .contentDescription ++
  (p.disposition.toList.map .contentDisposition ++ p.others.map fun v => .other v.1 v.2))))

/-- The text of a part. -/
def MailPart.text (p : MailPart) : Bytes :=
  p.headers.flatMap MailHeader.text ++ (CRLF ++ encodeBody p.encoding p.body)

/-- Headers of a part that can be written.  A header that is not one of those that have a meaning in parts may have any
other name. -/
def MailHeader.PartValid (c : Cfg) : MailHeader → Prop
  | .other name value => name ≠ [] ∧ (∀ b ∈ name, ftext b = true) ∧ name.map asciiLower ∉ partNames ∧
      ValidText c.feat.unrecognizedHeaders value
  | h => h.Writable c

/-- Parts that can be written. -/
def MailPart.Valid (c : Cfg) (p : MailPart) : Prop := ∀ h ∈ p.headers, h.PartValid c

/-- What the reader gets. -/
def MailPart.entity (p : MailPart) : RawEntity :=
  let t := (p.contentType.map MailType.value).getD plainText
  { mimeType := t.1
    subtype := t.2.1
    description := p.description
    id := p.contentId
    parameters := t.2.2
    disposition := p.disposition.map MailDisposition.value
    value := p.body
    additionalHeaders := p.others }

/-! ### Trees of parts -/

/-- A part that is a leaf, or a multipart part with a boundary, a preamble, at least one child, and an epilogue; the body
of the part is made of them. -/
inductive MailTree where
  | leaf (part : MailPart)
  | node (part : MailPart) (boundary : Bytes) (preamble : Option Bytes) (first : MailTree) (others : List MailTree)
      (epilogue : Bytes)

mutual
/-- The part with its body. -/
def MailTree.part : MailTree → MailPart
  | .leaf part => part
  | .node part boundary preamble first others epilogue =>
    { part with body := joinParts boundary preamble first.part.text (MailTree.texts others) epilogue }
/-- The texts of parts. -/
def MailTree.texts : List MailTree → List Bytes
  | [] => []
  | t :: ts => t.part.text :: MailTree.texts ts
end

/-- The text of a tree. -/
def MailTree.text (t : MailTree) : Bytes := t.part.text

/-- Trees that can be written: a node has a multipart type with the boundary as parameter, and no line of its children,
its preamble or its epilogue begins with the boundary. -/
inductive MailTree.Valid (c : Cfg) : MailTree → Prop
  | leaf {part} : part.Valid c → Valid c (.leaf part)
  | node {part type boundary preamble first others epilogue} : part.Valid c → part.contentType = some type →
      type.value.1 = .multipart → type.value.2.2 (b! "boundary") = some boundary →
      (∀ x, preamble = some x → NoBoundaryLine boundary x) →
      (∀ t ∈ first :: others, NoBoundaryLine boundary t.text) → NoBoundaryLine boundary epilogue →
      Valid c first → (∀ t ∈ others, Valid c t) → Valid c (.node part boundary preamble first others epilogue)

end EmailParser.Spec
