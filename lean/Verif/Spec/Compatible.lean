import Verif.Spec.ExactCut
import Verif.Spec.Email
/-
What the feature `compatibility-fixes` adds to what is read from header lines.  Nothing here refers to the parsers.
-/
namespace EmailParser.Spec

/-- The same program, built with the feature `compatibility-fixes`. -/
def withFixes (c : Cfg) : Cfg := { c with feat := { c.feat with compatibilityFixes := true } }

/-- The headers with addresses or identifiers, in which empty atoms may occur after a dot. -/
def dottedHeaders : List Bytes :=
  [b! "from", b! "sender", b! "reply-to", b! "to", b! "cc", b! "bcc", b! "message-id", b! "in-reply-to", b! "references"]

/-- What a header line is without the feature and with it: the same, or first only the text of a header that has
addresses or identifiers, and then this header. -/
def Gains (f f' : Field) : Prop :=
  f' = f ∨ ∃ name v, f = .unknown name v ∧ headerOf f' = some (name.map asciiLower) ∧ name.map asciiLower ∈ dottedHeaders

/-- The same for the fields of several lines. -/
inductive AllGain : List Field → List Field → Prop
  | nil : AllGain [] []
  | cons {f f' fs fs'} : Gains f f' → AllGain fs fs' → AllGain (f :: fs) (f' :: fs')

/-- The second e-mail has everything that the first one has; headers with addresses or identifiers that were unknown
fields may have become members. -/
structure KeepsMembers (e e' : Email) : Prop where
  «from» : ∀ v, e.from = some v → e'.from = some v
  /-- The author counts as the sender only if there is no other. -/
  sender : ∀ v, e.sender = some v → e'.sender = some v ∨ (e.from.bind List.head? = some v ∧ e'.sender ≠ none)
  replyTo : ∀ v, e.replyTo = some v → e'.replyTo = some v
  to : ∀ v, e.to = some v → e'.to = some v
  cc : ∀ v, e.cc = some v → e'.cc = some v
  bcc : ∀ v, e.bcc = some v → e'.bcc = some v
  messageId : ∀ v, e.messageId = some v → e'.messageId = some v
  inReplyTo : ∀ v, e.inReplyTo = some v → e'.inReplyTo = some v
  references : ∀ v, e.references = some v → e'.references = some v
  date : e'.date = e.date
  subject : e'.subject = e.subject
  comments : e'.comments = e.comments
  keywords : e'.keywords = e.keywords
  trace : e'.trace = e.trace
  body : e'.body = e.body
  mimeEntity : e'.mimeEntity = e.mimeEntity
  fewer : e'.unknownFields.Sublist e.unknownFields
  others : e'.unknownFields.filter (fun u => decide (u.1.map asciiLower ∉ dottedHeaders)) =
    e.unknownFields.filter (fun u => decide (u.1.map asciiLower ∉ dottedHeaders))

end EmailParser.Spec
