import Verif.Model.BorrowMessage
import Verif.Spec.Borrow
/-
The contents of the values of Model/BorrowMessage.lean, the strings in them, and the reasons to copy a string.
-/
namespace EmailParser.Spec

/-- Values that contain strings: their contents, as the rest of the model describes them, and the list of their strings. -/
class HasStrings (α : Type) (β : outParam Type) where
  content : Memory → α → β
  strings : α → List CowStr

open HasStrings

instance : HasStrings CowStr Bytes := ⟨CowStr.content, fun s => [s]⟩
instance : HasStrings Unit Unit := ⟨fun _ => id, fun _ => []⟩
instance : HasStrings Nat Nat := ⟨fun _ => id, fun _ => []⟩
instance : HasStrings DateTime DateTime := ⟨fun _ => id, fun _ => []⟩

instance {α α' β β' : Type} [HasStrings α β] [HasStrings α' β'] : HasStrings (α × α') (β × β') where
  content m x := (content m x.1, content m x.2)
  strings x := strings x.1 ++ strings x.2

instance {α β : Type} [HasStrings α β] : HasStrings (Option α) (Option β) where
  content m := Option.map (content m)
  strings
    | some x => strings x
    | none => []

instance {α β : Type} [HasStrings α β] : HasStrings (List α) (List β) where
  content m := List.map (content m)
  strings l := l.flatMap strings

instance : HasStrings CowEmailAddress EmailAddress where
  content m a := ⟨content m a.localPart, content m a.domain⟩
  strings a := [a.localPart, a.domain]

instance : HasStrings CowMailbox Mailbox where
  content m a := ⟨content m a.name, content m a.address⟩
  strings a := strings a.name ++ strings a.address

instance : HasStrings CowAddress Address where
  content m
    | .mailbox a => .mailbox (content m a)
    | .group n l => .group (content m n) (content m l)
  strings
    | .mailbox a => strings a
    | .group n l => strings n ++ strings l

instance : HasStrings CowContentType ContentType := ⟨cowContentType, contentTypeStrings⟩
instance : HasStrings CowDispositionType DispositionType := ⟨cowDispositionType, dispositionTypeStrings⟩
instance : HasStrings CowTransferEncoding ContentTransferEncoding := ⟨cowTransferEncoding, transferEncodingStrings⟩
instance : HasStrings CowParams Params := ⟨cowParams, pairStrings⟩
instance : HasStrings CowDisposition Disposition := ⟨cowDisposition, dispositionStrings⟩

instance : HasStrings CowTraceField TraceField where
  content m
    | .date v => .date v
    | .from v => .from (content m v)
    | .sender v => .sender (content m v)
    | .to v => .to (content m v)
    | .cc v => .cc (content m v)
    | .bcc v => .bcc (content m v)
    | .messageId v => .messageId (content m v)
  strings
    | .date _ => []
    | .from v => strings v
    | .sender v => strings v
    | .to v => strings v
    | .cc v => strings v
    | .bcc v => strings v
    | .messageId v => strings v

instance : HasStrings CowReceivedToken ReceivedToken where
  content m
    | .word v => .word (content m v)
    | .addr v => .addr (content m v)
    | .domain v => .domain (content m v)
  strings
    | .word v => [v]
    | .addr v => strings v
    | .domain v => [v]

instance : HasStrings CowField Field where
  content m
    | .date v => .date v
    | .from v => .from (content m v)
    | .sender v => .sender (content m v)
    | .replyTo v => .replyTo (content m v)
    | .to v => .to (content m v)
    | .cc v => .cc (content m v)
    | .bcc v => .bcc (content m v)
    | .messageId v => .messageId (content m v)
    | .inReplyTo v => .inReplyTo (content m v)
    | .references v => .references (content m v)
    | .subject v => .subject (content m v)
    | .comments v => .comments (content m v)
    | .keywords v => .keywords (content m v)
    | .mimeVersion a b => .mimeVersion a b
    | .contentType t s p => .contentType (content m t) (content m s) (content m p)
    | .contentTransferEncoding v => .contentTransferEncoding (content m v)
    | .contentId v => .contentId (content m v)
    | .contentDescription v => .contentDescription (content m v)
    | .contentDisposition v => .contentDisposition (content m v)
    | .trace r l f => .trace (content m r) (content m l) (content m f)
    | .unknown n v => .unknown (content m n) (content m v)
  strings
    | .date _ => []
    | .from v => strings v
    | .sender v => strings v
    | .replyTo v => strings v
    | .to v => strings v
    | .cc v => strings v
    | .bcc v => strings v
    | .messageId v => strings v
    | .inReplyTo v => strings v
    | .references v => strings v
    | .subject v => strings v
    | .comments v => strings v
    | .keywords v => strings v
    | .mimeVersion _ _ => []
    | .contentType t s p => strings t ++ (strings s ++ strings p)
    | .contentTransferEncoding v => strings v
    | .contentId v => strings v
    | .contentDescription v => strings v
    | .contentDisposition v => strings v
    | .trace r l f => strings r ++ (strings l ++ strings f)
    | .unknown n v => strings n ++ strings v

instance : HasStrings CowRawEntity RawEntity where
  content m e :=
    { mimeType := content m e.mimeType, subtype := content m e.subtype, description := content m e.description,
      id := content m e.id, parameters := content m e.parameters, disposition := content m e.disposition,
      value := content m e.value, additionalHeaders := content m e.additionalHeaders }
  strings e := strings e.mimeType ++ strings e.subtype ++ strings e.description ++ strings e.id ++ strings e.parameters ++
    strings e.disposition ++ strings e.value ++ strings e.additionalHeaders

instance : HasStrings CowEntity Entity where
  content m
    | .multipart s l => .multipart (content m s) (content m l)
    | .text s v => .text (content m s) (content m v)
    | .unknown => .unknown
  strings
    | .multipart s l => strings s ++ strings l
    | .text s v => strings s ++ strings v
    | .unknown => []

instance : HasStrings CowEmail Email where
  content m e :=
    { body := content m e.body, «from» := content m e.from, sender := content m e.sender, subject := content m e.subject,
      date := e.date, to := content m e.to, cc := content m e.cc, bcc := content m e.bcc,
      messageId := content m e.messageId, inReplyTo := content m e.inReplyTo, references := content m e.references,
      replyTo := content m e.replyTo, comments := content m e.comments, keywords := content m e.keywords,
      trace := content m e.trace, mimeEntity := content m e.mimeEntity, unknownFields := content m e.unknownFields }
  strings e := strings e.body ++ strings e.from ++ strings e.sender ++ strings e.subject ++ strings e.to ++ strings e.cc ++
    strings e.bcc ++ strings e.messageId ++ strings e.inReplyTo ++ strings e.references ++ strings e.replyTo ++
    strings e.comments ++ strings e.keywords ++ strings e.trace ++ strings e.mimeEntity ++ strings e.unknownFields

/-- An outcome, with another value. -/
def mapOutcome {α β : Type} (f : α → β) : Outcome α → Outcome β
  | .ok v => .ok (f v)
  | .err e => .err e
  | .abort k => .abort k

/-- The literals are where they should be. -/
def LiteralsAt (m : Memory) (l : Literals) : Prop :=
  m.read l.plain 5 = b! "plain" ∧ m.read l.charset 7 = b! "charset" ∧ m.read l.usAscii 8 = b! "us-ascii"

/-- One of the literals. -/
def IsLiteral (l : Literals) (s : CowStr) : Prop :=
  s = .borrowed l.plain 5 ∨ s = .borrowed l.charset 7 ∨ s = .borrowed l.usAscii 8

/-- Why a string with the content `v` that was read from the text `w` may have been copied: the text is folded, has a
backslash, the beginning of an encoded word, something else than its characters in a domain literal, the string in other
letters (upper or lower case), or the number of a part of a MIME parameter. -/
def CopyReason (w v : Bytes) : Prop :=
  (∃ b, wsp b = true ∧ [13, 10, b] <:+: w) ∨ 92 ∈ w ∨ b! "=?" <:+: w ∨
  (∃ t, (91 :: t ++ [93]) <:+: w ∧ ∃ b ∈ t, dtext b = false) ∨
  (∃ u, u <:+: w ∧ u ≠ v ∧ u.map asciiLower = v) ∨
  ∃ d, Spec.digit d = true ∧ [42, d] <:+: w

end EmailParser.Spec
