import Verif.Spec.Entity
import Verif.Spec.Lines
import Verif.Spec.Trace
import Verif.Model.Message
/-
Comparing the e-mails that are read from the same bytes with different Cargo features.
-/
namespace EmailParser.Spec

/-- The members of the two e-mails that exist with both sets of features are the same. -/
structure SameMembers (f f' : Features) (e e' : Email) : Prop where
  «from» : f.from = true → f'.from = true → e'.from = e.from
  sender : f.sender = true → f'.sender = true → e'.sender = e.sender
  date : f.date = true → f'.date = true → e'.date = e.date
  subject : f.subject = true → f'.subject = true → e'.subject = e.subject
  to : f.to = true → f'.to = true → e'.to = e.to
  cc : f.cc = true → f'.cc = true → e'.cc = e.cc
  bcc : f.bcc = true → f'.bcc = true → e'.bcc = e.bcc
  messageId : f.messageId = true → f'.messageId = true → e'.messageId = e.messageId
  inReplyTo : f.inReplyTo = true → f'.inReplyTo = true → e'.inReplyTo = e.inReplyTo
  references : f.references = true → f'.references = true → e'.references = e.references
  replyTo : f.replyTo = true → f'.replyTo = true → e'.replyTo = e.replyTo
  comments : f.comments = true → f'.comments = true → e'.comments = e.comments
  keywords : f.keywords = true → f'.keywords = true → e'.keywords = e.keywords
  trace : f.trace = true → f'.trace = true → e'.trace = e.trace
  body : f.mime = false → f'.mime = false → e'.body = e.body
  mimeEntity : f.mime = true → f'.mime = true → e'.mimeEntity = e.mimeEntity
  /-- The unknown fields of a name that is recognised with both sets of features or with none. -/
  unknownFields : ∀ n, (Recognized f n ↔ Recognized f' n) → (f.trace = f'.trace ∨ n ∉ traceNames) →
    e'.unknownFields.filter (·.1.map asciiLower == n) = e.unknownFields.filter (·.1.map asciiLower == n)

/-- Encoded words begin with these characters; here they occur only after an empty line. -/
def NoEncodedWords (i : Bytes) : Prop :=
  CRLF <+: i ∨ ∀ k, OccursAt (b! "=?") i k → ∃ j, j ≤ k ∧ OccursAt (CRLF ++ CRLF) i j

/-- The feature set `f` has no more headers than `f'`, and otherwise they are the same. -/
structure FewerHeaders (f f' : Features) : Prop where
  to : f.to = true → f'.to = true
  cc : f.cc = true → f'.cc = true
  bcc : f.bcc = true → f'.bcc = true
  date : f.date = true → f'.date = true
  «from» : f.from = true → f'.from = true
  sender : f.sender = true → f'.sender = true
  replyTo : f.replyTo = true → f'.replyTo = true
  messageId : f.messageId = true → f'.messageId = true
  inReplyTo : f.inReplyTo = true → f'.inReplyTo = true
  references : f.references = true → f'.references = true
  subject : f.subject = true → f'.subject = true
  comments : f.comments = true → f'.comments = true
  keywords : f.keywords = true → f'.keywords = true
  trace : f.trace = true → f'.trace = true
  mime : f.mime = f'.mime
  unrecognizedHeaders : f.unrecognizedHeaders = f'.unrecognizedHeaders
  compatibilityFixes : f.compatibilityFixes = f'.compatibilityFixes

end EmailParser.Spec
