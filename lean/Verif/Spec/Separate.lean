import Verif.Spec.Inert
import Verif.Spec.Email
/-
What two e-mails have in common if their header blocks differ in headers of some names only.
-/
namespace EmailParser.Spec

/-- The two e-mails agree in all members that do not come from headers of the given names (in lower case).  The sender is that of
`From` if it is not given.  The unknown fields are not compared. -/
structure AgreeBut (names : List Bytes) (e e' : Email) : Prop where
  body : e.body = e'.body
  trace : e.trace = e'.trace
  «from» : b! "from" ∉ names → e.from = e'.from
  sender : b! "sender" ∉ names → b! "from" ∉ names → e.sender = e'.sender
  date : b! "date" ∉ names → e.date = e'.date
  subject : b! "subject" ∉ names → e.subject = e'.subject
  to : b! "to" ∉ names → e.to = e'.to
  cc : b! "cc" ∉ names → e.cc = e'.cc
  bcc : b! "bcc" ∉ names → e.bcc = e'.bcc
  messageId : b! "message-id" ∉ names → e.messageId = e'.messageId
  inReplyTo : b! "in-reply-to" ∉ names → e.inReplyTo = e'.inReplyTo
  references : b! "references" ∉ names → e.references = e'.references
  replyTo : b! "reply-to" ∉ names → e.replyTo = e'.replyTo
  comments : b! "comments" ∉ names → e.comments = e'.comments
  keywords : b! "keywords" ∉ names → e.keywords = e'.keywords
  hasEntity : e.mimeEntity.isSome = e'.mimeEntity.isSome
  type : b! "content-type" ∉ names → e.mimeEntity.map (fun r => (r.mimeType, r.subtype, r.parameters)) =
    e'.mimeEntity.map fun r => (r.mimeType, r.subtype, r.parameters)
  description : b! "content-description" ∉ names → e.mimeEntity.map (·.description) = e'.mimeEntity.map (·.description)
  id : b! "content-id" ∉ names → e.mimeEntity.map (·.id) = e'.mimeEntity.map (·.id)
  disposition : b! "content-disposition" ∉ names → e.mimeEntity.map (·.disposition) = e'.mimeEntity.map (·.disposition)
  value : b! "content-transfer-encoding" ∉ names → e.mimeEntity.map (·.value) = e'.mimeEntity.map (·.value)
  additionalHeaders : e.mimeEntity.map (·.additionalHeaders) = e'.mimeEntity.map (·.additionalHeaders)

/-- The same for parts; their additional headers are not compared. -/
structure PartAgreeBut (names : List Bytes) (e e' : RawEntity) : Prop where
  type : b! "content-type" ∉ names → e.mimeType = e'.mimeType ∧ e.subtype = e'.subtype ∧ e.parameters = e'.parameters
  description : b! "content-description" ∉ names → e.description = e'.description
  id : b! "content-id" ∉ names → e.id = e'.id
  disposition : b! "content-disposition" ∉ names → e.disposition = e'.disposition
  value : b! "content-transfer-encoding" ∉ names → e.value = e'.value

end EmailParser.Spec
