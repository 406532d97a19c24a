import Verif.Spec.Fields
import Verif.Spec.Base64
import Verif.Spec.QuotedPrintable
import Verif.Model.Message
/-
What an e-mail is, given its header fields and its body (RFC 5322 3.6: how many times a field may
occur).  From the model it uses only the data types.
-/
namespace EmailParser.Spec

/-- RFC 5322 3.6: the fields that may occur once only, under the name reported in errors. -/
def onceName : Field → Option String
  | .date _ => some "Date"
  | .from _ => some "From"
  | .sender _ => some "Sender"
  | .replyTo _ => some "Reply-To"
  | .to _ => some "To"
  | .cc _ => some "Cc"
  | .bcc _ => some "Bcc"
  | .messageId _ => some "Message-ID"
  | .inReplyTo _ => some "In-Reply-To"
  | .references _ => some "References"
  | .subject _ => some "Subject"
  | .mimeVersion _ _ => some "Mime-Version"
  | .contentType _ _ _ => some "Content-Type"
  | .contentTransferEncoding _ => some "Content-Transfer-Encoding"
  | .contentId _ => some "Content-Id"
  | .contentDescription _ => some "Content-Description"
  | .contentDisposition _ => some "Content-Disposition"
  | .comments _ => none
  | .keywords _ => none
  | .trace _ _ _ => none
  | .unknown _ _ => none

/-- No once-only field occurs twice. -/
def NoDuplicate (fs : List Field) : Prop := (fs.filterMap onceName).Nodup

/-- The first repetition of a once-only field is one of this name. -/
def FirstDuplicate (fs : List Field) (name : String) : Prop :=
  ∃ before f after, fs = before ++ f :: after ∧ NoDuplicate before ∧
    onceName f = some name ∧ ∃ g ∈ before, onceName g = some name

/-! The values of the fields of each kind. -/

def dateOf : Field → Option DateTime | .date v => some v | _ => none
def fromOf : Field → Option (List Mailbox) | .from v => some v | _ => none
def senderOf : Field → Option Mailbox | .sender v => some v | _ => none
def replyToOf : Field → Option (List Address) | .replyTo v => some v | _ => none
def toOf : Field → Option (List Address) | .to v => some v | _ => none
def ccOf : Field → Option (List Address) | .cc v => some v | _ => none
def bccOf : Field → Option (List Address) | .bcc v => some v | _ => none
def messageIdOf : Field → Option (Bytes × Bytes) | .messageId v => some v | _ => none
def inReplyToOf : Field → Option (List (Bytes × Bytes)) | .inReplyTo v => some v | _ => none
def referencesOf : Field → Option (List (Bytes × Bytes)) | .references v => some v | _ => none
def subjectOf : Field → Option Bytes | .subject v => some v | _ => none
def mimeVersionOf : Field → Option (Nat × Nat) | .mimeVersion a b => some (a, b) | _ => none
def contentTypeOf : Field → Option (ContentType × Bytes × Params)
  | .contentType t s p => some (t, s, p) | _ => none
def encodingOf : Field → Option ContentTransferEncoding
  | .contentTransferEncoding v => some v | _ => none
def contentIdOf : Field → Option (Bytes × Bytes) | .contentId v => some v | _ => none
def contentDescriptionOf : Field → Option Bytes | .contentDescription v => some v | _ => none
def contentDispositionOf : Field → Option Disposition
  | .contentDisposition v => some v | _ => none
def commentsOf : Field → Option Bytes | .comments v => some v | _ => none
def keywordsOf : Field → List (List Bytes) | .keywords v => v | _ => []
def traceOf : Field → Option (Option (Option EmailAddress) ×
    List (List ReceivedToken × DateTime) × List TraceField)
  | .trace a b c => some (a, b, c) | _ => none
def unknownOf : Field → Option (Bytes × Bytes) | .unknown n v => some (n, v) | _ => none

/-- A required field that is absent. -/
def Missing (c : Cfg) (fs : List Field) (name : String) : Prop :=
  (name = "From" ∧ c.feat.from = true ∧ ∀ f ∈ fs, fromOf f = none) ∨
  (name = "Date" ∧ c.feat.date = true ∧ ∀ f ∈ fs, dateOf f = none) ∨
  (name = "Sender" ∧ c.feat.sender = true ∧ (∀ f ∈ fs, senderOf f = none) ∧
    ∀ f ∈ fs, ∀ authors, fromOf f = some authors → authors.length ≠ 1)

/-- The default content type (RFC 2045 5.2). -/
def plainText : ContentType × Bytes × Params :=
  (.text, b! "plain", fun name => if name = b! "charset" then some (b! "us-ascii") else none)

/-- RFC 2045 6: what a body is when decoded, or the error if it cannot be. -/
def decoding (encoding : Option ContentTransferEncoding) (body : Bytes) : Outcome Bytes :=
  match encoding with
  | some .base64 => b64Decode .start (b64Tokens body)
  | some .quotedPrintable => .ok (qpDecode body)
  | some (.unknown _) => .err (.unknown "Unknown format")
  | _ => .ok body

/-- The e-mail made of the given fields: a member is present iff a field of that kind is, and has its
value; repeatable fields are all kept, in order. -/
structure IsEmail (c : Cfg) (fs : List Field) (content : Option Bytes) (e : Email) : Prop where
  «from» : e.from = if c.feat.from then fs.findSome? fromOf else none
  date : e.date = if c.feat.date then fs.findSome? dateOf else none
  sender : e.sender = if c.feat.sender then
      (fs.findSome? senderOf).or ((fs.findSome? fromOf).bind List.head?)
    else none
  subject : e.subject = fs.findSome? subjectOf
  to : e.to = fs.findSome? toOf
  cc : e.cc = fs.findSome? ccOf
  bcc : e.bcc = fs.findSome? bccOf
  messageId : e.messageId = fs.findSome? messageIdOf
  inReplyTo : e.inReplyTo = fs.findSome? inReplyToOf
  references : e.references = fs.findSome? referencesOf
  replyTo : e.replyTo = fs.findSome? replyToOf
  comments : e.comments = fs.filterMap commentsOf
  keywords : e.keywords = fs.flatMap keywordsOf
  trace : e.trace = fs.filterMap traceOf
  unknownFields : e.unknownFields = fs.filterMap unknownOf
  body : e.body = if c.feat.mime then none else content
  noEntity : c.feat.mime = false → e.mimeEntity = none
  entity : c.feat.mime = true → ∃ raw, e.mimeEntity = some raw ∧
    (raw.mimeType, raw.subtype, raw.parameters) =
      (fs.findSome? contentTypeOf).getD plainText ∧
    raw.description = fs.findSome? contentDescriptionOf ∧
    raw.id = fs.findSome? contentIdOf ∧
    raw.disposition = fs.findSome? contentDispositionOf ∧
    raw.additionalHeaders = [] ∧
    (content = none → raw.value = []) ∧
    (∀ b, content = some b → decoding (fs.findSome? encodingOf) b = .ok raw.value)

/-- The order in which absent fields are reported. -/
def missingRank : String → Nat
  | "From" => 0
  | "Date" => 1
  | _ => 2

/-- What must be returned for a syntactically valid message. -/
inductive EmailResult (c : Cfg) (fs : List Field) (content : Option Bytes) : Outcome Email → Prop
  | duplicate {name} : FirstDuplicate fs name → EmailResult c fs content (.err (.duplicateHeader name))
  | missing {name} : NoDuplicate fs → Missing c fs name →
      (∀ name', Missing c fs name' → missingRank name ≤ missingRank name') →
      EmailResult c fs content (.err (.missingHeader name))
  | undecodable {b e} : NoDuplicate fs → (∀ name, ¬ Missing c fs name) → c.feat.mime = true →
      content = some b → decoding (fs.findSome? encodingOf) b = .err e →
      EmailResult c fs content (.err e)
  | email {e} : NoDuplicate fs → (∀ name, ¬ Missing c fs name) → IsEmail c fs content e →
      EmailResult c fs content (.ok e)

end EmailParser.Spec
