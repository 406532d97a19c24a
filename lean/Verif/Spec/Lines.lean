import Verif.Spec.Layout
import Verif.Model.Fields
/-
Header lines as RFC 5322 2.2 describes them, for the statements about headers that are not recognised.
-/
namespace EmailParser.Spec

/-- With the feature `mime`, the value of these headers may end before the line does. -/
def CutName (c : Cfg) (name : Bytes) : Prop :=
  c.feat.mime = true ∧ name.map asciiLower ∈ [b! "mime-version", b! "content-type",
    b! "content-transfer-encoding", b! "content-disposition", b! "keywords"]

/-- The headers with a date, mailboxes, addresses or message identifiers. -/
def structuredNames : List Bytes :=
  [b! "date", b! "from", b! "sender", b! "reply-to", b! "to", b! "cc", b! "bcc", b! "message-id",
    b! "in-reply-to", b! "references", b! "content-id"]

/-- The header, in lower case, from which a field of each kind is read. -/
def headerOf : Field → Option Bytes
  | .date _ => some (b! "date")
  | .from _ => some (b! "from")
  | .sender _ => some (b! "sender")
  | .replyTo _ => some (b! "reply-to")
  | .to _ => some (b! "to")
  | .cc _ => some (b! "cc")
  | .bcc _ => some (b! "bcc")
  | .messageId _ => some (b! "message-id")
  | .inReplyTo _ => some (b! "in-reply-to")
  | .references _ => some (b! "references")
  | .subject _ => some (b! "subject")
  | .comments _ => some (b! "comments")
  | .keywords _ => some (b! "keywords")
  | .mimeVersion _ _ => some (b! "mime-version")
  | .contentType _ _ _ => some (b! "content-type")
  | .contentTransferEncoding _ => some (b! "content-transfer-encoding")
  | .contentId _ => some (b! "content-id")
  | .contentDescription _ => some (b! "content-description")
  | .contentDisposition _ => some (b! "content-disposition")
  | .trace _ _ _ => none
  | .unknown _ _ => none

/-- The headers, in lower case, that are read as fields of their own with the given features. -/
def Recognized (f : Features) (name : Bytes) : Prop :=
  (f.date = true ∧ name = b! "date") ∨ (f.from = true ∧ name = b! "from") ∨
  (f.sender = true ∧ name = b! "sender") ∨ (f.replyTo = true ∧ name = b! "reply-to") ∨
  (f.to = true ∧ name = b! "to") ∨ (f.cc = true ∧ name = b! "cc") ∨ (f.bcc = true ∧ name = b! "bcc") ∨
  (f.messageId = true ∧ name = b! "message-id") ∨ (f.inReplyTo = true ∧ name = b! "in-reply-to") ∨
  (f.references = true ∧ name = b! "references") ∨ (f.subject = true ∧ name = b! "subject") ∨
  (f.comments = true ∧ name = b! "comments") ∨ (f.keywords = true ∧ name = b! "keywords") ∨
  (f.mime = true ∧ name ∈ [b! "mime-version", b! "content-type", b! "content-transfer-encoding",
    b! "content-id", b! "content-description", b! "content-disposition"])

/-- RFC 5322 2.2: a header line is a name (printable characters without colon), a colon, text that may be folded,
and a line end. -/
structure HeaderText (name x w l : Bytes) : Prop where
  text : l = name ++ b! ":" ++ w ++ CRLF
  name_ne : name ≠ []
  name_chars : ∀ b ∈ name, ftext b = true
  folding : Folding x w

end EmailParser.Spec
