import Verif.Spec.PrintMessage
/-
The canonical text of an e-mail: what has been read, written again in the simplest way.  Only for the fields
without MIME.
-/
namespace EmailParser.Spec

/-- The letter that says what the e-mail says. -/
def letterOf (e : Email) : Letter where
  trace := e.trace.map fun t => ⟨t.1, t.2.1, t.2.2⟩
  date := e.date
  «from» := e.from
  sender := e.sender
  replyTo := e.replyTo
  to := e.to
  cc := e.cc
  bcc := e.bcc
  messageId := e.messageId
  inReplyTo := e.inReplyTo
  references := e.references
  subject := e.subject
  comments := e.comments
  keywords := e.keywords
  others := e.unknownFields
  body := e.body

/-- The canonical text. -/
def canonical (e : Email) : Bytes := (letterOf e).text

/-- No unknown field has the name of a header that the program knows: none of them is a header that could not be
read or that was found at a wrong place. -/
def AllUnderstood (f : Features) (e : Email) : Prop :=
  ∀ v ∈ e.unknownFields, ¬ Recognized f (v.1.map asciiLower) ∧
    (f.trace = true → v.1.map asciiLower ≠ b! "return-path" ∧ v.1.map asciiLower ≠ b! "received" ∧
      ¬ b! "resent-" <+: v.1.map asciiLower)

end EmailParser.Spec
