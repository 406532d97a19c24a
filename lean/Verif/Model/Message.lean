import Verif.Model.Entity
/-
Model of src/parsing/message.rs and src/email.rs.
-/
namespace EmailParser

/-- `src/parsing/message.rs:26-39` (`check_line`). -/
def checkLine (input : Bytes) : Res Unit :=
  let maxIdx := min input.length 998
  match firstFailing isText 0 (input.take maxIdx) with
  | some i => do
    let rest ← getUncheckedFrom input i
    .ok (rest, ())
  | none => do
    let rest ← getUncheckedFrom input maxIdx
    .ok (rest, ())

/-- `src/parsing/message.rs:5-24` (`line`). -/
def line (input : Bytes) : Res Bytes :=
  let maxIdx := min input.length 998
  match firstFailing isText 0 (input.take maxIdx) with
  | some i => do
    let rest ← getUncheckedFrom input i
    let value ← getUncheckedTo input i
    .ok (rest, value)
  | none => do
    let rest ← getUncheckedFrom input maxIdx
    let value ← getUncheckedTo input maxIdx
    .ok (rest, value)

/-- `src/parsing/message.rs:52-70`: the loop of `body_lines`. -/
def bodyLinesLoop : Nat → Bytes → Outcome (List Bytes)
  | 0, _ => .abort .hang
  | fuel + 1, input => do
    let (newInput, newLine) ← line input
    match tag newInput (b! "\r\n")
        "TAG ERROR: In a body, a line must end with a CRLF sequence." with
    | .ok (newInput, ()) => do
      let lines ← bodyLinesLoop fuel newInput
      .ok (newLine :: lines)
    | .err e => if newInput.isEmpty then .ok [newLine] else .err e
    | .abort k => .abort k

/-- `src/parsing/message.rs:41-73` (`body_lines`; not called by the library). -/
def bodyLines (input : Bytes) : Outcome (List Bytes) :=
  if input.isEmpty then .ok []
  else do
    let (input, ()) ← tag input (b! "\r\n")
      "TAG ERROR: Headers must be followed by a CRLF sequence."
    bodyLinesLoop (input.length + 1) input

/-- `src/parsing/message.rs:86-102`: the loop of `body`. -/
def bodyLoop : Nat → Bytes → Outcome Unit
  | 0, _ => .abort .hang
  | fuel + 1, input => do
    let (newInput, ()) ← checkLine input
    match tag newInput (b! "\r\n")
        "TAG ERROR: In a body, a line must end with a CRLF sequence." with
    | .ok (newInput, ()) => bodyLoop fuel newInput
    | .err e => if newInput.isEmpty then .ok () else .err e
    | .abort k => .abort k

/-- `src/parsing/message.rs:75-108` (`body`). -/
def body (input : Bytes) : Outcome (Option Bytes) :=
  if input.isEmpty then .ok none
  else do
    let (newInput, ()) ← tag input (b! "\r\n")
      "TAG ERROR: Headers must be followed by a CRLF sequence."
    bodyLoop (newInput.length + 1) newInput
    let value ← getUncheckedFrom input 2
    .ok (some value)

/-- `src/parsing/message.rs:110-133` (`parse_message`, both versions). -/
def parseMessage (c : Cfg) (input : Bytes) : Outcome (List Field × Option Bytes) := do
  let (input, fields) ← fields c input
  if c.feat.mime then
    if input.isEmpty then .ok (fields, none)
    else do
      let (newInput, ()) ← tag input (b! "\r\n")
        "TAG ERROR: Headers must be followed by a CRLF sequence."
      .ok (fields, some newInput)
  else do
    let body ← body input
    .ok (fields, body)

/-- The variables of `src/email.rs:101-142`.  Those of disabled features do not exist; here they
are never assigned. -/
structure EmailAcc where
  «from» : Option (List Mailbox) := none
  sender : Option Mailbox := none
  subject : Option Bytes := none
  date : Option DateTime := none
  to : Option (List Address) := none
  cc : Option (List Address) := none
  bcc : Option (List Address) := none
  messageId : Option (Bytes × Bytes) := none
  inReplyTo : Option (List (Bytes × Bytes)) := none
  references : Option (List (Bytes × Bytes)) := none
  replyTo : Option (List Address) := none
  comments : List Bytes := []
  keywords : List (List Bytes) := []
  trace : List (Option (Option EmailAddress) × List (List ReceivedToken × DateTime) ×
    List TraceField) := []
  mimeVersion : Option (Nat × Nat) := none
  contentType : Option (ContentType × Bytes × Params) := none
  contentTransferEncoding : Option ContentTransferEncoding := none
  contentId : Option (Bytes × Bytes) := none
  contentDescription : Option Bytes := none
  contentDisposition : Option Disposition := none
  unknownFields : List (Bytes × Bytes) := []

/-- `if x.is_none() { x = Some(v) } else { return Err(Error::DuplicateHeader(name)) }`
(e.g. `src/email.rs:148-152`). -/
def setOnce {α : Type} (name : String) (old : Option α) (v : α) (set : Option α → EmailAcc) :
    Outcome EmailAcc :=
  match old with
  | none => .ok (set (some v))
  | some _ => .err (.duplicateHeader name)

/-- `src/email.rs:145-303`: the body of the loop over the fields. -/
def EmailAcc.add (a : EmailAcc) : Field → Outcome EmailAcc
  | .from v => setOnce "From" a.from v fun x => { a with «from» := x }
  | .sender v => setOnce "Sender" a.sender v fun x => { a with sender := x }
  | .subject v => setOnce "Subject" a.subject v fun x => { a with subject := x }
  | .date v => setOnce "Date" a.date v fun x => { a with date := x }
  | .to v => setOnce "To" a.to v fun x => { a with to := x }
  | .cc v => setOnce "Cc" a.cc v fun x => { a with cc := x }
  | .bcc v => setOnce "Bcc" a.bcc v fun x => { a with bcc := x }
  | .messageId v => setOnce "Message-ID" a.messageId v fun x => { a with messageId := x }
  | .inReplyTo v => setOnce "In-Reply-To" a.inReplyTo v fun x => { a with inReplyTo := x }
  | .references v => setOnce "References" a.references v fun x => { a with references := x }
  | .replyTo v => setOnce "Reply-To" a.replyTo v fun x => { a with replyTo := x }
  | .comments v => .ok { a with comments := a.comments ++ [v] }
  | .keywords v => .ok { a with keywords := a.keywords ++ v }
  | .trace returnPath received fields =>
    .ok { a with trace := a.trace ++ [(returnPath, received, fields)] }
  | .mimeVersion major minor =>
    setOnce "Mime-Version" a.mimeVersion (major, minor) fun x => { a with mimeVersion := x }
  | .contentType t st p =>
    setOnce "Content-Type" a.contentType (t, st, p) fun x => { a with contentType := x }
  | .contentTransferEncoding v =>
    setOnce "Content-Transfer-Encoding" a.contentTransferEncoding v
      fun x => { a with contentTransferEncoding := x }
  | .contentId v => setOnce "Content-Id" a.contentId v fun x => { a with contentId := x }
  | .contentDescription v =>
    setOnce "Content-Description" a.contentDescription v fun x => { a with contentDescription := x }
  | .contentDisposition v =>
    setOnce "Content-Disposition" a.contentDisposition v fun x => { a with contentDisposition := x }
  | .unknown name value => .ok { a with unknownFields := a.unknownFields ++ [(name, value)] }

/-- `src/email.rs:144-304`: the loop over the fields. -/
def EmailAcc.addAll (a : EmailAcc) : List Field → Outcome EmailAcc
  | [] => .ok a
  | f :: fs => do
    let a ← a.add f
    a.addAll fs

/-- `src/email.rs:28-94`.  A member whose feature is disabled does not exist; `from`, `sender`,
`date` are optional here only for that reason.  `body` exists without the feature `mime` and
`mimeEntity` with it. -/
structure Email where
  body : Option Bytes
  «from» : Option (List Mailbox)
  sender : Option Mailbox
  subject : Option Bytes
  date : Option DateTime
  to : Option (List Address)
  cc : Option (List Address)
  bcc : Option (List Address)
  messageId : Option (Bytes × Bytes)
  inReplyTo : Option (List (Bytes × Bytes))
  references : Option (List (Bytes × Bytes))
  replyTo : Option (List Address)
  comments : List Bytes
  keywords : List (List Bytes)
  trace : List (Option (Option EmailAddress) × List (List ReceivedToken × DateTime) ×
    List TraceField)
  mimeEntity : Option RawEntity
  unknownFields : List (Bytes × Bytes)

/-- `x.ok_or(Error::MissingHeader(name))?`, when the feature is enabled
(`src/email.rs:306-309`). -/
def required {α : Type} (feature : Bool) (name : String) (x : Option α) : Outcome (Option α) :=
  if feature then
    match x with
    | some v => .ok (some v)
    | none => .err (.missingHeader name)
  else .ok none

/-- `src/email.rs:311-321`: the sender, given explicitly or inferred from the only author.
`from[0]` panics if there is none, but the length has been checked. -/
def inferSender (feature : Bool) (sender : Option Mailbox) (fr : Option (List Mailbox)) :
    Outcome (Option Mailbox) :=
  if feature then
    match sender with
    | some sender => .ok (some sender)
    | none =>
      if (fr.getD []).length = 1 then
        match fr.getD [] with
        | m :: _ => .ok (some m)
        | [] => .abort .panic
      else .err (.missingHeader "Sender")
  else .ok none

/-- `src/email.rs:332-339`: the decoded body. -/
def decodeBody (encoding : ContentTransferEncoding) : Option Bytes → Outcome (Option Bytes)
  | some body => do
    let v ← decodeValue body encoding
    .ok (some v)
  | none => .ok none

/-- `src/email.rs:323-341` and `:370-380`: the MIME entity. -/
def EmailAcc.entity (c : Cfg) (a : EmailAcc) (body : Option Bytes) : Outcome (Option RawEntity) :=
  if c.feat.mime then do
    let (mimeType, subtype, parameters) := a.contentType.getD defaultType
    let value ← decodeBody (a.contentTransferEncoding.getD .sevenBit) body
    .ok (some
      { mimeType, subtype, description := a.contentDescription, id := a.contentId, parameters,
        disposition := a.contentDisposition, value := value.getD [], additionalHeaders := [] })
  else .ok none

/-- `src/email.rs:306-386`: the checks after the loop and the construction of the result. -/
def EmailAcc.finish (c : Cfg) (a : EmailAcc) (body : Option Bytes) : Outcome Email := do
  let fr ← required c.feat.from "From" a.from
  let date ← required c.feat.date "Date" a.date
  let sender ← inferSender c.feat.sender a.sender fr
  let mimeEntity ← a.entity c body
  .ok
    { body := if c.feat.mime then none else body
      «from» := fr
      sender
      subject := a.subject
      date
      to := a.to
      cc := a.cc
      bcc := a.bcc
      messageId := a.messageId
      inReplyTo := a.inReplyTo
      references := a.references
      replyTo := a.replyTo
      comments := a.comments
      keywords := a.keywords
      trace := a.trace
      mimeEntity
      unknownFields := a.unknownFields }

/-- `src/email.rs:97-387` (`Email::parse`; `TryFrom<&[u8]>`, lines 390-396, is the same). -/
def Email.parse (c : Cfg) (data : Bytes) : Outcome Email := do
  let (fields, body) ← parseMessage c data
  let a ← EmailAcc.addAll {} fields
  a.finish c body

end EmailParser
