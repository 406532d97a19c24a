import Verif.Spec.Mime
import Verif.Model.Fields
/-
The grammar of the header fields (RFC 5322 3.6) and of a message (3.5).  From the model it uses only
the data types of the results.
-/
namespace EmailParser.Spec
open Gram

/-- 3.6.3: `bcc = "Bcc:" [address-list / CFWS] CRLF`; the code does not accept the empty text. -/
def Bcc (c : Cfg) : Gram (List Address) :=
  Gram.or (AddressList c) (do Cfws; pure [])

/-- 3.6.4: `1*msg-id`. -/
def MessageIds (lax : Bool) : Gram (List (Bytes × Bytes)) := plus (MessageId lax)

/-- 3.6.5: unstructured text; with the feature `mime` it may contain encoded words. -/
def TextValue (mime : Bool) (c : Cfg) : Gram Bytes :=
  if mime then MimeUnstructured c else Unstructured

/-- 3.6.5: `phrase *("," phrase)`. -/
def Keywords (c : Cfg) : Gram (List (List Bytes)) := CommaList (Phrase c)

/-- 3.6.7: `path = angle-addr / ([CFWS] "<" [CFWS] ">" [CFWS])`. -/
def Path (lax : Bool) : Gram (Option EmailAddress) :=
  Gram.or (map some (AngleAddr lax))
    (do
      OptCfws
      lit (b! "<")
      OptCfws
      lit (b! ">")
      OptCfws
      pure none)

/-- 3.6.7: `received-token = word / angle-addr / addr-spec / domain`. -/
def ReceivedTokenG (lax : Bool) : Gram ReceivedToken := fun w v =>
  match v with
  | .word x => Word w x
  | .addr a => AngleAddr lax w a ∨ AddrSpec lax w a
  | .domain d => Domain lax w d

/-- 3.6.7: `received = "Received:" *received-token ";" date-time CRLF`. -/
def ReceivedG (lax : Bool) : Gram (List ReceivedToken × DateTime) := do
  let tokens ← star (ReceivedTokenG lax)
  lit (b! ";")
  let date ← DateTimeG
  pure (tokens, date)

/-- 3.6.6: the resent fields. -/
def ResentG (c : Cfg) : Gram TraceField := fun w f =>
  (do
    litNoCase (b! "Resent-")
    fun w f =>
      match f with
      | .date v => HeaderLine (b! "Date:") DateTimeG w v
      | .from v => HeaderLine (b! "From:") (MailboxList c) w v
      | .sender v => HeaderLine (b! "Sender:") (MailboxG c) w v
      | .to v => HeaderLine (b! "To:") (AddressList c) w v
      | .cc v => HeaderLine (b! "Cc:") (AddressList c) w v
      | .bcc v => HeaderLine (b! "Bcc:") (Bcc c) w v
      | .messageId v => HeaderLine (b! "Message-ID:") (MessageId c.feat.compatibilityFixes) w v
    : Gram TraceField) w f

/-- 3.6.7: `trace = [return] 1*received`, followed by resent fields. -/
def TraceBlock (c : Cfg) : Gram Field := do
  let returnPath ← opt (HeaderLine (b! "Return-Path:") (Path c.feat.compatibilityFixes))
  let received ← plus (HeaderLine (b! "Received:") (ReceivedG c.feat.compatibilityFixes))
  let fields ← star (ResentG c)
  pure (.trace returnPath received fields)

/-- 3.6.8: `optional-field = field-name ":" unstructured CRLF`. -/
def OptionalField (c : Cfg) : Gram (Bytes × Bytes) := do
  let name ← chars1 ftext
  lit (b! ":")
  let value ← TextValue c.feat.unrecognizedHeaders c
  lit CRLF
  pure (name, value)

/-- 3.6: a field outside of the trace block; only enabled features give typed fields. -/
def FieldG (c : Cfg) : Gram Field := fun w f =>
  match f with
  | .date v => c.feat.date = true ∧ HeaderLine (b! "Date:") DateTimeG w v
  | .from v => c.feat.from = true ∧ HeaderLine (b! "From:") (MailboxList c) w v
  | .sender v => c.feat.sender = true ∧ HeaderLine (b! "Sender:") (MailboxG c) w v
  | .replyTo v => c.feat.replyTo = true ∧ HeaderLine (b! "Reply-To:") (AddressList c) w v
  | .to v => c.feat.to = true ∧ HeaderLine (b! "To:") (AddressList c) w v
  | .cc v => c.feat.cc = true ∧ HeaderLine (b! "Cc:") (AddressList c) w v
  | .bcc v => c.feat.bcc = true ∧ HeaderLine (b! "Bcc:") (Bcc c) w v
  | .messageId v => c.feat.messageId = true ∧
      HeaderLine (b! "Message-ID:") (MessageId c.feat.compatibilityFixes) w v
  | .inReplyTo v => c.feat.inReplyTo = true ∧
      HeaderLine (b! "In-Reply-To:") (MessageIds c.feat.compatibilityFixes) w v
  | .references v => c.feat.references = true ∧
      HeaderLine (b! "References:") (MessageIds c.feat.compatibilityFixes) w v
  | .subject v => c.feat.subject = true ∧ HeaderLine (b! "Subject:") (TextValue c.feat.mime c) w v
  | .comments v => c.feat.comments = true ∧
      HeaderLine (b! "Comments:") (TextValue c.feat.mime c) w v
  | .keywords v => c.feat.keywords = true ∧ HeaderLine (b! "Keywords:") (Keywords c) w v
  | .mimeVersion major minor => c.feat.mime = true ∧
      HeaderLine (b! "MIME-Version:") MimeVersion w (major, minor)
  | .contentType type subtype params => c.feat.mime = true ∧
      HeaderLine (b! "Content-Type:") (ContentTypeG c) w (type, subtype, params)
  | .contentTransferEncoding v => c.feat.mime = true ∧
      HeaderLine (b! "Content-Transfer-Encoding:") TransferEncodingG w v
  | .contentId v => c.feat.mime = true ∧
      HeaderLine (b! "Content-ID:") (MessageId c.feat.compatibilityFixes) w v
  | .contentDescription v => c.feat.mime = true ∧
      HeaderLine (b! "Content-Description:") (MimeUnstructured c) w v
  | .contentDisposition v => c.feat.mime = true ∧
      HeaderLine (b! "Content-Disposition:") (DispositionG c) w v
  | .trace _ _ _ => False
  | .unknown name value => OptionalField c w (name, value)

/-- The trace blocks at the beginning of the header block. -/
def TraceBlocks (c : Cfg) : Gram (List Field) :=
  if c.feat.trace then star (TraceBlock c) else pure []

/-- 3.6: the header block. -/
def HeaderBlock (c : Cfg) : Gram (List Field) := do
  let traces ← TraceBlocks c
  let fields ← star (FieldG c)
  pure (traces ++ fields)

/-- 3.5: one line of a body without MIME: at most 998 characters, no NUL, CR, LF or 8-bit
character. -/
def BodyLine (w : Bytes) : Prop := w.length ≤ 998 ∧ ∀ c ∈ w, text c = true

/-- Lines separated by CRLF. -/
def joinLines : List Bytes → Bytes
  | [] => []
  | [l] => l
  | l :: ls => l ++ CRLF ++ joinLines ls

/-- 3.5: `body = *(*998text CRLF) *998text`. -/
def Body (w : Bytes) : Prop := ∃ lines, lines ≠ [] ∧ w = joinLines lines ∧ ∀ l ∈ lines, BodyLine l

/-- 3.5: `message = fields [CRLF body]`; with the feature `mime` the body is arbitrary. -/
def Message (c : Cfg) : Gram (List Field × Option Bytes) := do
  let fields ← HeaderBlock c
  Gram.or (pure (fields, none))
    (do
      lit CRLF
      fun w v => v = (fields, some w) ∧ (c.feat.mime = false → Body w))

end EmailParser.Spec
