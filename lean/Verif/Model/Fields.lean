import Verif.Model.MimeFields
/-
Model of src/parsing/fields.rs.
-/
namespace EmailParser

/-- `src/parsing/fields.rs:8-17`. -/
inductive TraceField where
  | date (v : DateTime)
  | «from» (v : List Mailbox)
  | sender (v : Mailbox)
  | to (v : List Address)
  | cc (v : List Address)
  | bcc (v : List Address)
  | messageId (v : Bytes × Bytes)
deriving DecidableEq, Repr

/-- `src/parsing/fields.rs:530-535`. -/
inductive ReceivedToken where
  | word (v : Bytes)
  | addr (v : EmailAddress)
  | domain (v : Bytes)
deriving DecidableEq, Repr

/-- `src/parsing/fields.rs:19-73`.  The variants exist only when the corresponding feature is
enabled; here they always exist, and the parser of a disabled variant is left out
(`fieldParsers`). -/
inductive Field where
  | date (v : DateTime)
  | «from» (v : List Mailbox)
  | sender (v : Mailbox)
  | replyTo (v : List Address)
  | to (v : List Address)
  | cc (v : List Address)
  | bcc (v : List Address)
  | messageId (v : Bytes × Bytes)
  | inReplyTo (v : List (Bytes × Bytes))
  | references (v : List (Bytes × Bytes))
  | subject (v : Bytes)
  | comments (v : Bytes)
  | keywords (v : List (List Bytes))
  | mimeVersion (major minor : Nat)
  | contentType (mimeType : ContentType) (subtype : Bytes) (parameters : Params)
  | contentTransferEncoding (v : ContentTransferEncoding)
  | contentId (v : Bytes × Bytes)
  | contentDescription (v : Bytes)
  | contentDisposition (v : Disposition)
  | trace (returnPath : Option (Option EmailAddress))
      (received : List (List ReceivedToken × DateTime)) (fields : List TraceField)
  | unknown (name value : Bytes)

/-- `src/parsing/fields.rs:279-285`: the value of a `Bcc` field, possibly without any address. -/
def bccValue (c : Cfg) (input : Bytes) : Res (List Address) :=
  match addressList c input with
  | .ok r => .ok r
  | .err _ =>
    match cfws c input with
    | .ok (input, _cfws) => .ok (input, [])
    | .err _ => .err (.unknown "Invalid bcc field")
    | .abort k => .abort k
  | .abort k => .abort k

/-- `src/parsing/fields.rs:319` and `:336`. -/
def messageIds (c : Cfg) (input : Bytes) : Res (List (Bytes × Bytes)) := many1 input (messageId c)

/-- `src/parsing/fields.rs:353-356` and `:373-376`: unstructured text, with encoded words if the
feature `mime` is enabled. -/
def textValue (c : Cfg) (input : Bytes) : Res Bytes :=
  if c.feat.mime then mimeUnstructured c input else unstructured input

/-- `src/parsing/fields.rs:394-401`; the loop is the one of `many`. -/
def keywordList (c : Cfg) (input : Bytes) : Res (List (List Bytes)) := do
  let (input, firstKeyword) ← phrase c input
  let (input, keywords) ← many input fun input => prefixed input (phrase c) (b! ",")
  .ok (input, firstKeyword :: keywords)

/-- `src/parsing/fields.rs:170-185` (`date`). -/
def dateField (c : Cfg) : Bytes → Res (DateTime) :=
  headerLine (b! "Date:") (b! "dATE:")
    "TAG NO CASE ERROR: Header name (Date) does not match."
    "TAG ERROR: A header (`Date` in this case) must end with a CRLF sequence."
    (dateTime c)

/-- `src/parsing/fields.rs:187-202` (`from`). -/
def fromField (c : Cfg) : Bytes → Res (List Mailbox) :=
  headerLine (b! "From:") (b! "fROM:")
    "TAG NO CASE ERROR: Header name (From) does not match."
    "TAG ERROR: A header (`From` in this case) must end with a CRLF sequence."
    (mailboxList c)

/-- `src/parsing/fields.rs:204-219` (`sender`). -/
def senderField (c : Cfg) : Bytes → Res (Mailbox) :=
  headerLine (b! "Sender:") (b! "sENDER:")
    "TAG NO CASE ERROR: Header name (Sender) does not match."
    "TAG ERROR: A header (`Sender` in this case) must end with a CRLF sequence."
    (mailbox c)

/-- `src/parsing/fields.rs:221-236` (`reply_to`). -/
def replyToField (c : Cfg) : Bytes → Res (List Address) :=
  headerLine (b! "Reply-To:") (b! "rEPLY-tO:")
    "TAG NO CASE ERROR: Header name (Reply-To) does not match."
    "TAG ERROR: A header (`Reply-To` in this case) must end with a CRLF sequence."
    (addressList c)

/-- `src/parsing/fields.rs:238-253` (`to`). -/
def toField (c : Cfg) : Bytes → Res (List Address) :=
  headerLine (b! "To:") (b! "tO:")
    "TAG NO CASE ERROR: Header name (To) does not match."
    "TAG ERROR: A header (`To` in this case) must end with a CRLF sequence."
    (addressList c)

/-- `src/parsing/fields.rs:255-270` (`cc`). -/
def ccField (c : Cfg) : Bytes → Res (List Address) :=
  headerLine (b! "Cc:") (b! "cC:")
    "TAG NO CASE ERROR: Header name (Cc) does not match."
    "TAG ERROR: A header (`Cc` in this case) must end with a CRLF sequence."
    (addressList c)

/-- `src/parsing/fields.rs:272-293` (`bcc`). -/
def bccField (c : Cfg) : Bytes → Res (List Address) :=
  headerLine (b! "Bcc:") (b! "bCC:")
    "TAG NO CASE ERROR: Header name (Bcc) does not match."
    "TAG ERROR: A header (`Bcc` in this case) must end with a CRLF sequence."
    (bccValue c)

/-- `src/parsing/fields.rs:295-310` (`message_id`). -/
def messageIdField (c : Cfg) : Bytes → Res (Bytes × Bytes) :=
  headerLine (b! "Message-ID:") (b! "mESSAGE-id:")
    "TAG NO CASE ERROR: Header name (Message-ID) does not match."
    "TAG ERROR: A header (`Message-ID` in this case) must end with a CRLF sequence."
    (messageId c)

/-- `src/parsing/fields.rs:312-327` (`in_reply_to`). -/
def inReplyToField (c : Cfg) : Bytes → Res (List (Bytes × Bytes)) :=
  headerLine (b! "In-Reply-To:") (b! "iN-rEPLY-tO:")
    "TAG NO CASE ERROR: Header name (Reply-To) does not match."
    "TAG ERROR: A header (`In-Reply-To` in this case) must end with a CRLF sequence."
    (messageIds c)

/-- `src/parsing/fields.rs:329-344` (`references`). -/
def referencesField (c : Cfg) : Bytes → Res (List (Bytes × Bytes)) :=
  headerLine (b! "References:") (b! "rEFERENCES:")
    "TAG NO CASE ERROR: Header name (References) does not match."
    "TAG ERROR: A header (`References` in this case) must end with a CRLF sequence."
    (messageIds c)

/-- `src/parsing/fields.rs:346-364` (`subject`). -/
def subjectField (c : Cfg) : Bytes → Res (Bytes) :=
  headerLine (b! "Subject:") (b! "sUBJECT:")
    "TAG NO CASE ERROR: Header name (Subject) does not match."
    "TAG ERROR: A header (`Subject` in this case) must end with a CRLF sequence."
    (textValue c)

/-- `src/parsing/fields.rs:366-384` (`comments`). -/
def commentsField (c : Cfg) : Bytes → Res (Bytes) :=
  headerLine (b! "Comments:") (b! "cOMMENTS:")
    "TAG NO CASE ERROR: Header name (Comments) does not match."
    "TAG ERROR: A header (`Comments` in this case) must end with a CRLF sequence."
    (textValue c)

/-- `src/parsing/fields.rs:386-410` (`keywords`). -/
def keywordsField (c : Cfg) : Bytes → Res (List (List Bytes)) :=
  headerLine (b! "Keywords:") (b! "kEYWORDS:")
    "TAG NO CASE ERROR: Header name (Keywords) does not match."
    "TAG ERROR: A header (`Keywords` in this case) must end with a CRLF sequence."
    (keywordList c)

/-- The shape shared by the `resent_*` parsers (e.g. `src/parsing/fields.rs:412-422`). -/
def resent {α : Type} (nameError : String) (field : Bytes → Res α) (input : Bytes) : Res α := do
  let (input, ()) ← tagNoCase input (b! "Resent-") (b! "rESENT-") nameError
  let (input, v) ← field input
  .ok (input, v)

/-- `src/parsing/fields.rs:412-422` (`resent_date`). -/
def resentDate (c : Cfg) : Bytes → Res (DateTime) :=
  resent "TAG NO CASE ERROR: Header name (Resent-Date) does not match." (dateField c)

/-- `src/parsing/fields.rs:424-434` (`resent_from`). -/
def resentFrom (c : Cfg) : Bytes → Res (List Mailbox) :=
  resent "TAG NO CASE ERROR: Header name (Resent-From) does not match." (fromField c)

/-- `src/parsing/fields.rs:436-446` (`resent_sender`). -/
def resentSender (c : Cfg) : Bytes → Res (Mailbox) :=
  resent "TAG NO CASE ERROR: Header name (Resent-Sender) does not match." (senderField c)

/-- `src/parsing/fields.rs:448-458` (`resent_to`). -/
def resentTo (c : Cfg) : Bytes → Res (List Address) :=
  resent "TAG NO CASE ERROR: Header name (Resent-To) does not match." (toField c)

/-- `src/parsing/fields.rs:460-470` (`resent_cc`). -/
def resentCc (c : Cfg) : Bytes → Res (List Address) :=
  resent "TAG NO CASE ERROR: Header name (Resent-Cc) does not match." (ccField c)

/-- `src/parsing/fields.rs:472-482` (`resent_bcc`). -/
def resentBcc (c : Cfg) : Bytes → Res (List Address) :=
  resent "TAG NO CASE ERROR: Header name (Resent-Bcc) does not match." (bccField c)

/-- `src/parsing/fields.rs:484-494` (`resent_message_id`). -/
def resentMessageId (c : Cfg) : Bytes → Res (Bytes × Bytes) :=
  resent "TAG NO CASE ERROR: Header name (Resent-Message-ID) does not match." (messageIdField c)

/-- `src/parsing/fields.rs:497-504` (`empty_path`). -/
def emptyPath (c : Cfg) (input : Bytes) : Res Unit := do
  let input ← skipCfws c input
  let (input, ()) ← tag input (b! "<") "TAG ERROR: An empty path must start with `<`."
  let input ← skipCfws c input
  let (input, ()) ← tag input (b! ">") "TAG ERROR: An empty path must end with `>`."
  let input ← skipCfws c input
  .ok (input, ())

/-- `src/parsing/fields.rs:512-520`: the value of a `Return-Path` field. -/
def returnPathValue (c : Cfg) (input : Bytes) : Res (Option EmailAddress) :=
  matchParsers input
    [ fun i => do
        let (i, v) ← angleAddr c i
        .ok (i, some v),
      fun i => do
        let (i, ()) ← emptyPath c i
        .ok (i, none) ]

/-- `src/parsing/fields.rs:496-528` (`return_path`). -/
def returnPath (c : Cfg) : Bytes → Res (Option EmailAddress) :=
  headerLine (b! "Return-Path:") (b! "rETURN-pATH:")
    "TAG NO CASE ERROR: Header name (Return-Path) does not match."
    "TAG ERROR: A header (`Return-Path` in this case) must end with a CRLF sequence."
    (returnPathValue c)

/-- `src/parsing/fields.rs:544-561`: one token of a `Received` field. -/
def receivedToken (c : Cfg) (input : Bytes) : Res ReceivedToken :=
  match word c input with
  | .ok (wordInput, word) =>
    match domain c input with
    | .ok (domainInput, domain) =>
      if domain.length > word.length then .ok (domainInput, .domain domain)
      else .ok (wordInput, .word word)
    | .err _ => .ok (wordInput, .word word)
    | .abort k => .abort k
  | .err _ =>
    match angleAddr c input with
    | .ok (input, addr) => .ok (input, .addr addr)
    | .err _ =>
      match addrSpec c input with
      | .ok (input, addr) => .ok (input, .addr addr)
      | .err _ =>
        match domain c input with
        | .ok (input, domain) => .ok (input, .domain domain)
        | .err _ => .err (.unknown "match error")
        | .abort k => .abort k
      | .abort k => .abort k
    | .abort k => .abort k
  | .abort k => .abort k

/-- `src/parsing/fields.rs:544-567`: the value of a `Received` field. -/
def receivedValue (c : Cfg) (input : Bytes) : Res (List ReceivedToken × DateTime) := do
  let (input, receivedTokens) ← many input (receivedToken c)
  let (input, ()) ← tag input (b! ";") "TAG ERROR: Received tokens must be followed by a `;`."
  let (input, dateTime) ← dateTime c input
  .ok (input, (receivedTokens, dateTime))

/-- `src/parsing/fields.rs:537-575` (`received`). -/
def received (c : Cfg) : Bytes → Res (List ReceivedToken × DateTime) :=
  headerLine (b! "Received:") (b! "rECEIVED:")
    "TAG NO CASE ERROR: Header name (Received) does not match."
    "TAG ERROR: A header (`Received` in this case) must end with a CRLF sequence."
    (receivedValue c)

/-- `src/parsing/fields.rs:577-587` (`trace`). -/
def trace (c : Cfg) (input : Bytes) :
    Res (Option (Option EmailAddress) × List (List ReceivedToken × DateTime)) := do
  let (input, returnPath) ← optional input (returnPath c)
  let (input, received) ← many1 input (received c)
  .ok (input, (returnPath, received))

/-- `src/parsing/fields.rs:596-599`: the value of an unrecognized field. -/
def unknownValue (c : Cfg) (input : Bytes) : Res Bytes :=
  if c.feat.unrecognizedHeaders then mimeUnstructured c input else unstructured input

/-- `src/parsing/fields.rs:589-608` (`unknown`). -/
def unknown (c : Cfg) (input : Bytes) : Res (Bytes × Bytes) := do
  let (input, name) ← takeWhile1 input isFtext
  let (input, ()) ← tag input (b! ":") "TAG ERROR: A header name must be followed by a `:`."
  let (input, value) ← unknownValue c input
  let (input, ()) ← tag input (b! "\r\n") "TAG ERROR: A header must end with a CRLF sequence."
  .ok (input, (name, value))

/-- `Result::map` on the value of a parser (`|i| p(i).map(|(i, v)| (i, f(v)))`). -/
def mapValue {α β : Type} (f : α → β) (parser : Bytes → Res α) (input : Bytes) : Res β := do
  let (i, v) ← parser input
  .ok (i, f v)

/-- `src/parsing/fields.rs:85-93`. -/
def traceFieldParsers (c : Cfg) : List (Bytes → Res TraceField) :=
  [ mapValue .date (resentDate c),
    mapValue .from (resentFrom c),
    mapValue .sender (resentSender c),
    mapValue .to (resentTo c),
    mapValue .cc (resentCc c),
    mapValue .bcc (resentBcc c),
    mapValue .messageId (resentMessageId c) ]

/-- `#[cfg(feature = …)]` on an element of an array. -/
def enabled {α : Type} (feature : Bool) (x : α) : List α := if feature then [x] else []

/-- `src/parsing/fields.rs:110-161`: the alternatives for a header field, in the order of the
code. -/
@[irreducible] def fieldParsers (c : Cfg) : List (Bytes → Res Field) :=
  enabled c.feat.date (mapValue .date (dateField c)) ++
  enabled c.feat.from (mapValue .from (fromField c)) ++
  enabled c.feat.sender (mapValue .sender (senderField c)) ++
  enabled c.feat.replyTo (mapValue .replyTo (replyToField c)) ++
  enabled c.feat.to (mapValue .to (toField c)) ++
  enabled c.feat.cc (mapValue .cc (ccField c)) ++
  enabled c.feat.bcc (mapValue .bcc (bccField c)) ++
  enabled c.feat.messageId (mapValue .messageId (messageIdField c)) ++
  enabled c.feat.inReplyTo (mapValue .inReplyTo (inReplyToField c)) ++
  enabled c.feat.references (mapValue .references (referencesField c)) ++
  enabled c.feat.subject (mapValue .subject (subjectField c)) ++
  enabled c.feat.comments (mapValue .comments (commentsField c)) ++
  enabled c.feat.mime (mapValue (fun (mj, mn) => .mimeVersion mj mn) (mimeVersion c)) ++
  enabled c.feat.mime (mapValue (fun (t, st, p) => .contentType t st p) (contentType c)) ++
  enabled c.feat.mime (mapValue .contentTransferEncoding (contentTransferEncoding c)) ++
  enabled c.feat.mime (mapValue .contentId (contentId c)) ++
  enabled c.feat.mime (mapValue .contentDescription (contentDescription c)) ++
  enabled c.feat.mime (mapValue .contentDisposition (contentDisposition c)) ++
  enabled c.feat.keywords (mapValue .keywords (keywordsField c)) ++
  [mapValue (fun (name, value) => .unknown name value) (unknown c)]

/-- `src/parsing/fields.rs:79-105`: one trace block. -/
def traceBlock (c : Cfg) (input : Bytes) : Res Field := do
  let (input, trace) ← trace c input
  let (input, traceFields) ← many input fun input => matchParsers input (traceFieldParsers c)
  .ok (input, .trace trace.1 trace.2 traceFields)

/-- `src/parsing/fields.rs:108-161`: one header field outside of trace blocks. -/
def field (c : Cfg) (input : Bytes) : Res Field := matchParsers input (fieldParsers c)

/-- `src/parsing/fields.rs:78-106`: the trace blocks. -/
def traces (c : Cfg) (input : Bytes) : Res (List Field) :=
  if c.feat.trace then many input (traceBlock c) else .ok (input, [])

/-- `src/parsing/fields.rs:75-168` (`fields`).  The `while let` loops are those of `many`; the
body of the first loop cannot leave the loop early after `trace` has succeeded, as the inner loop
ends with `Ok`. -/
def fields (c : Cfg) (input : Bytes) : Res (List Field) := do
  let (input, traces) ← traces c input
  let (input, fields) ← many input (field c)
  .ok (input, traces ++ fields)

end EmailParser
