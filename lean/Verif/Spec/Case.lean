import Verif.Model.Message
/-
The same value with all letters in lower case.
-/
namespace EmailParser.Spec

/-- Values in which letters can be put in lower case. -/
class Cased (α : Type) where
  lower : α → α

export Cased (lower)

instance : Cased UInt8 := ⟨asciiLower⟩
instance : Cased Unit := ⟨id⟩
instance : Cased Nat := ⟨id⟩
instance : Cased Bool := ⟨id⟩
instance {α : Type} [Cased α] : Cased (List α) := ⟨List.map lower⟩
instance {α : Type} [Cased α] : Cased (Option α) := ⟨Option.map lower⟩
instance {α β : Type} [Cased α] [Cased β] : Cased (α × β) := ⟨fun v => (lower v.1, lower v.2)⟩

/-- Dates have no letters: the names of days and months are read as numbers of a list. -/
instance : Cased DateTime := ⟨id⟩

instance : Cased EmailAddress := ⟨fun a => ⟨lower a.localPart, lower a.domain⟩⟩
instance : Cased Mailbox := ⟨fun m => ⟨lower m.name, lower m.address⟩⟩

instance : Cased Address := ⟨fun
  | .mailbox m => .mailbox (lower m)
  | .group name members => .group (lower name) (lower members)⟩

instance : Cased ReceivedToken := ⟨fun
  | .word v => .word (lower v)
  | .addr v => .addr (lower v)
  | .domain v => .domain (lower v)⟩

instance : Cased TraceField := ⟨fun
  | .date v => .date v
  | .from v => .from (lower v)
  | .sender v => .sender (lower v)
  | .to v => .to (lower v)
  | .cc v => .cc (lower v)
  | .bcc v => .bcc (lower v)
  | .messageId v => .messageId (lower v)⟩

/-- The MIME entity of an e-mail is left as it is: there is none without the `mime` feature. -/
instance : Cased Email := ⟨fun e =>
  { body := lower e.body
    «from» := lower e.from
    sender := lower e.sender
    subject := lower e.subject
    date := e.date
    to := lower e.to
    cc := lower e.cc
    bcc := lower e.bcc
    messageId := lower e.messageId
    inReplyTo := lower e.inReplyTo
    references := lower e.references
    replyTo := lower e.replyTo
    comments := lower e.comments
    keywords := lower e.keywords
    trace := lower e.trace
    mimeEntity := e.mimeEntity
    unknownFields := lower e.unknownFields }⟩

/-- An error is left as it is. -/
instance {α : Type} [Cased α] : Cased (Outcome α) := ⟨fun
  | .ok v => .ok (lower v)
  | .err e => .err e
  | .abort k => .abort k⟩

/-- The two values differ at most in the case of letters. -/
def SameButCase {α : Type} [Cased α] (a b : α) : Prop := lower a = lower b

end EmailParser.Spec
