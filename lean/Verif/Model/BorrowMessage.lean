import Verif.Model.Borrow
import Verif.Model.Message
/-
The parsers of addresses, headers and e-mails with the ownership of all strings: the continuation of Model/Borrow.lean.

Parsers without strings (dates, versions, comments) are those of the rest of the model.  The strings of an error are not
followed: they are all `&'static str`.
-/
namespace EmailParser

/-! ### src/address.rs and src/parsing/address.rs -/

/-- `src/address.rs:12-16` (`EmailAddress`). -/
structure CowEmailAddress where
  localPart : CowStr
  domain : CowStr
deriving DecidableEq, Repr

/-- `src/address.rs:3-10` (`Mailbox`). -/
structure CowMailbox where
  name : Option (List CowStr)
  address : CowEmailAddress
deriving DecidableEq, Repr

/-- `src/address.rs:18-22` (`Address`). -/
inductive CowAddress where
  | mailbox (m : CowMailbox)
  | group (name : List CowStr) (members : List CowMailbox)
deriving DecidableEq, Repr

/-- `src/parsing/address.rs:44-53` (`addr_spec`): the structure that is built. -/
def cowEmailAddress (c : Cfg) (p : Place) (input : Bytes) : Res CowEmailAddress := do
  let (input, (localPart, domain)) ← cowAddrSpec c p input
  .ok (input, { localPart, domain })

/-- `src/parsing/address.rs:55-66` (`angle_addr`). -/
def cowAngleAddr (c : Cfg) (p : Place) (input : Bytes) : Res CowEmailAddress := do
  let input ← skipCfws c input
  let (input, ()) ← tag input (b! "<") "TAG ERROR: A angle_addr must start with a `<`."
  let (input, addrSpec) ← cowEmailAddress c p input
  let (input, ()) ← tag input (b! ">") "TAG ERROR: A angle_addr must end with a `>`."
  let input ← skipCfws c input
  .ok (input, addrSpec)

/-- `src/parsing/address.rs:68-79` (`name_addr`). -/
def cowNameAddr (c : Cfg) (p : Place) (input : Bytes) : Res CowMailbox := do
  let (input, displayName) ← optional input (cowPhrase c p)
  let (input, angleAddr) ← cowAngleAddr c p input
  .ok (input, { name := displayName, address := angleAddr })

/-- `src/parsing/address.rs:117-135` (`mailbox`). -/
def cowMailbox (c : Cfg) (p : Place) (input : Bytes) : Res CowMailbox :=
  matchParsers input
    [ cowNameAddr c p,
      fun input => do
        let (i, m) ← cowEmailAddress c p input
        .ok (i, { name := none, address := m }) ]

/-- `src/parsing/address.rs:137-148` (`mailbox_list`). -/
def cowMailboxList (c : Cfg) (p : Place) (input : Bytes) : Res (List CowMailbox) := do
  let (input, firstMailbox) ← cowMailbox c p input
  let (input, mailboxes) ← many input fun input => prefixed input (cowMailbox c p) (b! ",")
  .ok (input, firstMailbox :: mailboxes)

/-- `src/parsing/address.rs:158-166`: the members of a group. -/
def cowGroupList (c : Cfg) (p : Place) (input : Bytes) : Res (List CowMailbox) :=
  match cowMailboxList c p input with
  | .ok (newInput, mailboxList) => .ok (newInput, mailboxList)
  | .err _ =>
    match cfws c input with
    | .ok (newInput, _cfws) => .ok (newInput, [])
    | .err _ => .ok (input, [])
    | .abort k => .abort k
  | .abort k => .abort k

/-- `src/parsing/address.rs:150-175` (`group`). -/
def cowGroup (c : Cfg) (p : Place) (input : Bytes) : Res (List CowStr × List CowMailbox) := do
  let (input, displayName) ← cowPhrase c p input
  let (input, ()) ← tag input (b! ":")
    "TAG ERROR: A group display name must be followed by a `:`."
  let (input, groupList) ← cowGroupList c p input
  let (input, ()) ← tag input (b! ";")
    "TAG ERROR: A group mailbox list must be closed by a `;`."
  let input ← skipCfws c input
  .ok (input, (displayName, groupList))

/-- `src/parsing/address.rs:177-185` (`address`). -/
def cowAddress (c : Cfg) (p : Place) (input : Bytes) : Res CowAddress :=
  match cowMailbox c p input with
  | .ok (input, mailbox) => .ok (input, .mailbox mailbox)
  | .err _ =>
    match cowGroup c p input with
    | .ok (input, (name, members)) => .ok (input, .group name members)
    | .err _ => .err (.unknown "Invalid address: not a mailbox nor a group")
    | .abort k => .abort k
  | .abort k => .abort k

/-- `src/parsing/address.rs:187-198` (`address_list`). -/
def cowAddressList (c : Cfg) (p : Place) (input : Bytes) : Res (List CowAddress) := do
  let (input, firstAddress) ← cowAddress c p input
  let (input, addresses) ← many input fun input => prefixed input (cowAddress c p) (b! ",")
  .ok (input, firstAddress :: addresses)

/-! ### src/parsing/mime -/

/-- `src/parsing/common.rs:4-15` (`lowercase`): the value is copied only if it has a letter in upper case.  The code tests
for upper case in the sense of Unicode; the values it is used for (tokens) are ASCII. -/
def cowLowercase (m : Memory) (value : CowStr) : CowStr :=
  if (value.content m).any (fun b => 65 ≤ b && b ≤ 90) then .owned (lowercase (value.content m)) else value

/-- `src/parsing/mime/mime_fields.rs:17-22` (`token`), with `Cow::Borrowed` around its result. -/
def cowToken (p : Place) (input : Bytes) : Res CowStr := do
  let (rest, value) ← token input
  .ok (rest, p.slice input value)

/-- `src/parsing/mime/mime_fields.rs:78-118`: parameter name with optional index and optional encoding mark; the name is
`Cow::Borrowed`. -/
def cowExtendedName (p : Place) (input : Bytes) : Res (CowStr × Option Nat × Bool) := do
  let (rest, (name, index, encoded)) ← extendedName input
  .ok (rest, (p.slice input name, index, encoded))

/-- `src/parsing/mime/mime_fields.rs:133-142` and `:295-304`: a token or a quoted string. -/
def cowParameterValue (c : Cfg) (p : Place) (input : Bytes) : Res CowStr :=
  matchParsers input [cowToken p, cowQuotedString c p]

/-- An element of `parameters_vec` (`src/parsing/mime/percent_encoding.rs:99`). -/
structure CowRawParam where
  name : CowStr
  index : Option Nat
  encoded : Bool
  value : CowStr
deriving DecidableEq, Repr

/-- `src/parsing/mime/mime_fields.rs:67-145` (`parameter`). -/
def cowParameter (c : Cfg) (p : Place) (input : Bytes) : Res CowRawParam := do
  let input ← skipCfws c input
  let (input, ()) ← tag input (b! ";") "TAG ERROR: A MIME parameter must start with `;`."
  let input ← skipCfws c input
  let (input, (name, index, encoded)) ← matchParsers input
    [ cowExtendedName p,
      fun input => do
        let (input, name) ← cowToken p input
        .ok (input, (name, none, false)) ]
  let (input, ()) ← tag input (b! "=")
    "TAG ERROR: A MIME parameter name must be followed by a `=`."
  let (input, value) ← cowParameterValue c p input
  .ok (input, { name := cowLowercase p.memory name, index, encoded, value })

/-- A `HashMap<Cow<str>, Cow<str>>`, as the list of its entries in some order. -/
def CowParams := List (CowStr × CowStr)

instance : DecidableEq CowParams := inferInstanceAs (DecidableEq (List (CowStr × CowStr)))
instance : Repr CowParams := inferInstanceAs (Repr (List (CowStr × CowStr)))

/-- `HashMap::insert`: if there is an equal key, that key stays and gets the new value. -/
def cowInsert (m : Memory) (name value : CowStr) : CowParams → CowParams
  | [] => [(name, value)]
  | (n, v) :: rest =>
    if n.content m = name.content m then (n, value) :: rest
    else (n, v) :: cowInsert m name value rest

/-- The segments of a parameter (`src/parsing/mime/percent_encoding.rs:102`). -/
abbrev CowSegments := Nat → Option (Bool × CowStr)

/-- `HashMap::insert` on the segments of a parameter. -/
def CowSegments.insert (s : CowSegments) (index : Nat) (v : Bool × CowStr) : CowSegments :=
  fun i => if i = index then some v else s i

/-- `HashMap::remove` on the segments of a parameter. -/
def CowSegments.erase (s : CowSegments) (index : Nat) : CowSegments :=
  fun i => if i = index then none else s i

/-- `src/parsing/mime/percent_encoding.rs:105-111`: insert in `complex_parameters`.  The keys of this map are only compared
and copied, so their contents are kept. -/
def cowComplexInsert (name : Bytes) (index : Nat) (v : Bool × CowStr) :
    List (Bytes × CowSegments) → List (Bytes × CowSegments)
  | [] => [(name, CowSegments.insert (fun _ => none) index v)]
  | (n, s) :: rest =>
    if n = name then (n, s.insert index v) :: rest
    else (n, s) :: cowComplexInsert name index v rest

/-- `src/parsing/mime/percent_encoding.rs:103-115`: the first loop. -/
def cowPartition (m : Memory) : List CowRawParam → CowParams × List (Bytes × CowSegments) →
    CowParams × List (Bytes × CowSegments)
  | [], acc => acc
  | p :: ps, (parameters, complex) =>
    match p.index with
    | some index =>
      cowPartition m ps (parameters, cowComplexInsert (p.name.content m) index (p.encoded, p.value) complex)
    | none => cowPartition m ps (cowInsert m p.name p.value parameters, complex)

/-- `src/parsing/mime/percent_encoding.rs:118-163`: the initial segment.  In both arms an encoded value becomes
`Cow::Owned`. -/
def cowFirstSegment (c : Cfg) (m : Memory) (encoded : Bool) (value : CowStr) : Outcome (CowStr × Option Bytes) :=
  if encoded then do
    let (value, charset) ← firstSegment c true (value.content m)
    .ok (.owned value, charset)
  else .ok (value, none)

/-- `src/parsing/mime/percent_encoding.rs:167-177`: what a following segment contributes. -/
def cowSegmentPiece (c : Cfg) (m : Memory) (charset : Option Bytes) (encoded : Bool) (newValue : CowStr) : Outcome CowStr :=
  match encoded, charset with
  | true, some charset => do
    let text ← decodeParameter c (newValue.content m) charset
    .ok (.owned text)
  | _, _ => .ok newValue

/-- `src/parsing/mime/percent_encoding.rs:165-179`: the following segments; `value` is the variable of the same name. -/
def cowSegmentsLoop (c : Cfg) (m : Memory) (charset : Option Bytes) : Nat → CowSegments → Nat → CowStr → Outcome CowStr
  | 0, _, _, _ => .abort .hang
  | fuel + 1, values, idx, value =>
    match values idx with
    | none => .ok value
    | some (encoded, newValue) => do
      let piece ← cowSegmentPiece c m charset encoded newValue
      let next ← incrementIndex c idx
      cowSegmentsLoop c m charset fuel (values.erase idx) next (addString m value piece)

/-- `src/parsing/mime/percent_encoding.rs:117-182`: one iteration of the second loop.  The key is
`Cow::Owned(name.clone().into_owned())` (line 181). -/
def cowCollectOne (c : Cfg) (m : Memory) (parameters : CowParams) (entry : Bytes × CowSegments) : Outcome CowParams :=
  match entry.2 0 with
  | none => .ok parameters
  | some (encoded, value) => do
    let (value, charset) ← cowFirstSegment c m encoded value
    let value ← cowSegmentsLoop c m charset 257 (entry.2.erase 0) 1 value
    .ok (cowInsert m (.owned entry.1) value parameters)

/-- `src/parsing/mime/percent_encoding.rs:116-183`: the second loop. -/
def cowCollectAll (c : Cfg) (m : Memory) (parameters : CowParams) : List (Bytes × CowSegments) → Outcome CowParams
  | [] => .ok parameters
  | entry :: entries => do
    let parameters ← cowCollectOne c m parameters entry
    cowCollectAll c m parameters entries

/-- The contents of the segments. -/
def CowSegments.content (m : Memory) (s : CowSegments) : Segments := fun i => (s i).map fun (e, v) => (e, v.content m)

/-- The order in which the second loop visits the entries of `complex_parameters`: the one of `Cfg.mapOrder`, which
depends on the contents only. -/
def cowOrder (c : Cfg) (m : Memory) (complex : List (Bytes × CowSegments)) : List (Bytes × CowSegments) :=
  (c.mapOrder (complex.map fun (n, s) => (n, s.content m))).filterMap fun (n, _) => (complex.lookup n).map fun s => (n, s)

/-- `src/parsing/mime/percent_encoding.rs:98-185` (`collect_parameters`). -/
def cowCollectParameters (c : Cfg) (m : Memory) (parametersVec : List CowRawParam) : Outcome CowParams :=
  let (parameters, complex) := cowPartition m parametersVec ([], [])
  cowCollectAll c m parameters (cowOrder c m complex)

/-- The recurring catch-all alternative: a token, lowercased (`src/parsing/mime/mime_fields.rs:217-223`, `:268-274`,
`:393-398`). -/
def cowOtherToken {α : Type} (p : Place) (mk : CowStr → α) (input : Bytes) : Res α := do
  let (input, name) ← cowToken p input
  .ok (input, mk (cowLowercase p.memory name))

/-- `src/parsing/mime/mime_fields.rs:156-225`: the type before the slash. -/
def cowMimeType (p : Place) (input : Bytes) : Res CowContentType :=
  matchParsers input
    [ keyword (b! "text") (b! "TEXT")
        "TAG NO CASE ERROR: In a content type header, `text` type does not match." .text,
      keyword (b! "multipart") (b! "MULTIPART")
        "TAG NO CASE ERROR: In a content type header, `multipart` type does not match." .multipart,
      keyword (b! "application") (b! "APPLICATION")
        "TAG NO CASE ERROR: In a content type header, `application` type does not match."
        .application,
      keyword (b! "image") (b! "IMAGE")
        "TAG NO CASE ERROR: In a content type header, `image` type does not match." .image,
      keyword (b! "video") (b! "VIDEO")
        "TAG NO CASE ERROR: In a content type header, `video` type does not match." .video,
      keyword (b! "audio") (b! "AUDIO")
        "TAG NO CASE ERROR: In a content type header, `audio` type does not match." .audio,
      keyword (b! "message") (b! "MESSAGE")
        "TAG NO CASE ERROR: In a content type header, `message` type does not match." .message,
      cowOtherToken p .unknown ]

/-- `src/parsing/mime/mime_fields.rs:154-237`: the value of a `Content-Type` field. -/
def cowContentTypeValue (c : Cfg) (p : Place) (input : Bytes) : Res (CowContentType × CowStr × CowParams) := do
  let input ← skipCfws c input
  let (input, mimeType) ← cowMimeType p input
  let (input, ()) ← tag input (b! "/")
    "TAG ERROR: A MIME content type must have a `/` separating the type and the subtype."
  let (input, subtype) ← cowToken p input
  let (input, parametersVec) ← many input (cowParameter c p)
  let parameters ← cowCollectParameters c p.memory parametersVec
  let (input, ()) ← ignoreInlineCfws c input
  .ok (input, (mimeType, cowLowercase p.memory subtype, parameters))

/-- `src/parsing/mime/mime_fields.rs:147-245` (`content_type`). -/
def cowContentType (c : Cfg) (p : Place) : Bytes → Res (CowContentType × CowStr × CowParams) :=
  headerLine (b! "Content-Type:") (b! "cONTENT-tYPE:")
    "TAG NO CASE ERROR: Header name (Content-Type) does not match."
    "TAG ERROR: A header (`Content-Type` in this case) must end with a CRLF sequence."
    (cowContentTypeValue c p)

/-- `src/parsing/mime/mime_fields.rs:288-307` (`filename_parameter`). -/
def cowFilenameParameter (c : Cfg) (p : Place) (input : Bytes) : Res CowStr := do
  let input ← skipCfws c input
  let (input, ()) ← tag input (b! ";")
    "TAG ERROR: In a Content-Disposition header, a filename parameter must start with a `;`."
  let input ← skipCfws c input
  let (input, ()) ← tagNoCase input (b! "filename") (b! "FILENAME")
    "TAG NO CASE ERROR: In a Content-Disposition header, the name of the parameter does not match a filename parameter."
  let (input, ()) ← tag input (b! "=")
    "TAG ERROR: In a Content-Disposition header, a filename parameter value must be preceded by a `=`."
  cowParameterValue c p input

/-- `src/parsing/mime/mime_fields.rs:258-276`: the disposition type. -/
def cowDispositionType (p : Place) (input : Bytes) : Res CowDispositionType :=
  matchParsers input
    [ keyword (b! "inline") (b! "INLINE")
        "TAG NO CASE ERROR: In a content disposition header, `inline` disposition does not match."
        .inline,
      keyword (b! "attachment") (b! "ATTACHMENT")
        "TAG NO CASE ERROR: In a content disposition header, `attachment` disposition does not match."
        .attachment,
      cowOtherToken p .unknown ]

/-- One parameter of a `Content-Disposition` header (`src/parsing/mime/mime_fields.rs:326-347`). -/
inductive CowDispositionItem where
  | filename (value : CowStr)
  | creationDate (value : DateTime)
  | modificationDate (value : DateTime)
  | readDate (value : DateTime)
  | parameter (value : CowRawParam)
deriving DecidableEq, Repr

/-- `src/parsing/mime/mime_fields.rs:326-347`: which of the five kinds of parameters comes next. -/
def cowDispositionItem (c : Cfg) (p : Place) (input : Bytes) : Res CowDispositionItem :=
  matchParsers input
    [ fun input => do
        let (i, v) ← cowFilenameParameter c p input
        .ok (i, .filename v),
      fun input => do
        let (i, v) ← dateParameter c input (b! "creation-date") (b! "CREATION-DATE")
        .ok (i, .creationDate v),
      fun input => do
        let (i, v) ← dateParameter c input (b! "modification-date") (b! "MODIFICATION-DATE")
        .ok (i, .modificationDate v),
      fun input => do
        let (i, v) ← dateParameter c input (b! "read-date") (b! "READ-DATE")
        .ok (i, .readDate v),
      fun input => do
        let (i, v) ← cowParameter c p input
        .ok (i, .parameter v) ]

/-- `src/parsing/mime/mime_fields.rs:326-347`: the assignments of one iteration. -/
def CowDisposition.add (d : CowDisposition) : CowDispositionItem → CowDisposition
  | .filename v => { d with filename := some v }
  | .creationDate v => { d with creationDate := some v }
  | .modificationDate v => { d with modificationDate := some v }
  | .readDate v => { d with readDate := some v }
  | .parameter _ => d

/-- `parameters_vec.push(…)` (`src/parsing/mime/mime_fields.rs:343`). -/
def CowDispositionItem.rawParam? : CowDispositionItem → Option CowRawParam
  | .parameter p => some p
  | _ => none

/-- `src/parsing/mime/mime_fields.rs:256-351`: the value of a `Content-Disposition` field. -/
def cowContentDispositionValue (c : Cfg) (p : Place) (input : Bytes) : Res CowDisposition := do
  let input ← skipCfws c input
  let (input, dispositionType) ← cowDispositionType p input
  let (input, items) ← many input (cowDispositionItem c p)
  let disposition : CowDisposition := items.foldl CowDisposition.add
    { dispositionType, filename := none, creationDate := none, modificationDate := none,
      readDate := none, unstructured := [] }
  let unstructured ← cowCollectParameters c p.memory (items.filterMap CowDispositionItem.rawParam?)
  let (input, ()) ← ignoreInlineCfws c input
  .ok (input, { disposition with unstructured := unstructured })

/-- `src/parsing/mime/mime_fields.rs:247-359` (`content_disposition`). -/
def cowContentDisposition (c : Cfg) (p : Place) : Bytes → Res CowDisposition :=
  headerLine (b! "Content-Disposition:") (b! "cONTENT-dISPOSITION:")
    "TAG NO CASE ERROR: Header name (Content-Disposition) does not match."
    "TAG ERROR: A header (`Content-Disposition` in this case) must end with a CRLF sequence."
    (cowContentDispositionValue c p)

/-- `src/parsing/mime/mime_fields.rs:370-400`: the encoding. -/
def cowEncoding (p : Place) (input : Bytes) : Res CowTransferEncoding :=
  matchParsers input
    [ keyword (b! "7bit") (b! "7BIT")
        "TAG NO CASE ERROR: In a content transfer encoding header, `7bit` encoding does not match."
        .sevenBit,
      keyword (b! "quoted-printable") (b! "QUOTED-PRINTABLE")
        "TAG NO CASE ERROR: In a content transfer encoding header, `quoted-printable` encoding does not match."
        .quotedPrintable,
      keyword (b! "base64") (b! "BASE64")
        "TAG NO CASE ERROR: In a content transfer encoding header, `base64` encoding does not match."
        .base64,
      keyword (b! "8bit") (b! "8BIT")
        "TAG NO CASE ERROR: In a content transfer encoding header, `8bit` encoding does not match."
        .heightBit,
      keyword (b! "binary") (b! "BINARY")
        "TAG NO CASE ERROR: In a content transfer encoding header, `binary` encoding does not match."
        .binary,
      cowOtherToken p .unknown ]

/-- `src/parsing/mime/mime_fields.rs:368-402`: the value of a `Content-Transfer-Encoding` field. -/
def cowEncodingValue (c : Cfg) (p : Place) (input : Bytes) : Res CowTransferEncoding := do
  let input ← skipCfws c input
  let (input, encoding) ← cowEncoding p input
  let (input, ()) ← ignoreInlineCfws c input
  .ok (input, encoding)

/-- `src/parsing/mime/mime_fields.rs:361-406` (`content_transfer_encoding`). -/
def cowTransferEncoding (c : Cfg) (p : Place) : Bytes → Res CowTransferEncoding :=
  headerLine (b! "Content-Transfer-Encoding:") (b! "cONTENT-tRANSFER-eNCODING:")
    "TAG NO CASE ERROR: Header name (Content-Transfer-Encoding) does not match."
    "TAG ERROR: A header (`Content-Transfer-Encoding` in this case) must end with a CRLF sequence."
    (cowEncodingValue c p)

/-- `src/parsing/mime/mime_fields.rs:408-423` (`content_id`). -/
def cowContentId (c : Cfg) (p : Place) : Bytes → Res (CowStr × CowStr) :=
  headerLine (b! "Content-ID:") (b! "cONTENT-id:")
    "TAG NO CASE ERROR: Header name (Content-ID) does not match."
    "TAG ERROR: A header (`Content-ID` in this case) must end with a CRLF sequence."
    (cowMessageId c p)

/-- `src/parsing/mime/mime_fields.rs:425-440` (`content_description`). -/
def cowContentDescription (c : Cfg) (p : Place) : Bytes → Res CowStr :=
  headerLine (b! "Content-Description:") (b! "cONTENT-dESCRIPTION:")
    "TAG NO CASE ERROR: Header name (Content-Description) does not match."
    "TAG ERROR: A header (`Content-Description` in this case) must end with a CRLF sequence."
    (cowMimeUnstructured c p)

/-! ### src/parsing/fields.rs -/

/-- `src/parsing/fields.rs:8-17` (`TraceField`). -/
inductive CowTraceField where
  | date (v : DateTime)
  | «from» (v : List CowMailbox)
  | sender (v : CowMailbox)
  | to (v : List CowAddress)
  | cc (v : List CowAddress)
  | bcc (v : List CowAddress)
  | messageId (v : CowStr × CowStr)
deriving DecidableEq, Repr

/-- `src/parsing/fields.rs:530-535` (`ReceivedToken`). -/
inductive CowReceivedToken where
  | word (v : CowStr)
  | addr (v : CowEmailAddress)
  | domain (v : CowStr)
deriving DecidableEq, Repr

/-- `src/parsing/fields.rs:19-73` (`Field`), with all variants, as in Model/Fields.lean. -/
inductive CowField where
  | date (v : DateTime)
  | «from» (v : List CowMailbox)
  | sender (v : CowMailbox)
  | replyTo (v : List CowAddress)
  | to (v : List CowAddress)
  | cc (v : List CowAddress)
  | bcc (v : List CowAddress)
  | messageId (v : CowStr × CowStr)
  | inReplyTo (v : List (CowStr × CowStr))
  | references (v : List (CowStr × CowStr))
  | subject (v : CowStr)
  | comments (v : CowStr)
  | keywords (v : List (List CowStr))
  | mimeVersion (major minor : Nat)
  | contentType (mimeType : CowContentType) (subtype : CowStr) (parameters : CowParams)
  | contentTransferEncoding (v : CowTransferEncoding)
  | contentId (v : CowStr × CowStr)
  | contentDescription (v : CowStr)
  | contentDisposition (v : CowDisposition)
  | trace (returnPath : Option (Option CowEmailAddress))
      (received : List (List CowReceivedToken × DateTime)) (fields : List CowTraceField)
  | unknown (name value : CowStr)

/-- `src/parsing/fields.rs:279-285`: the value of a `Bcc` field, possibly without any address. -/
def cowBccValue (c : Cfg) (p : Place) (input : Bytes) : Res (List CowAddress) :=
  match cowAddressList c p input with
  | .ok r => .ok r
  | .err _ =>
    match cfws c input with
    | .ok (input, _cfws) => .ok (input, [])
    | .err _ => .err (.unknown "Invalid bcc field")
    | .abort k => .abort k
  | .abort k => .abort k

/-- `src/parsing/fields.rs:319` and `:336`. -/
def cowMessageIds (c : Cfg) (p : Place) (input : Bytes) : Res (List (CowStr × CowStr)) := many1 input (cowMessageId c p)

/-- `src/parsing/fields.rs:353-356` and `:373-376`: unstructured text, with encoded words if the
feature `mime` is enabled. -/
def cowTextValue (c : Cfg) (p : Place) (input : Bytes) : Res CowStr :=
  if c.feat.mime then cowMimeUnstructured c p input else cowUnstructured p input

/-- `src/parsing/fields.rs:394-401`. -/
def cowKeywordList (c : Cfg) (p : Place) (input : Bytes) : Res (List (List CowStr)) := do
  let (input, firstKeyword) ← cowPhrase c p input
  let (input, keywords) ← many input fun input => prefixed input (cowPhrase c p) (b! ",")
  .ok (input, firstKeyword :: keywords)

/-- `src/parsing/fields.rs:187-202` (`from`). -/
def cowFromField (c : Cfg) (p : Place) : Bytes → Res (List CowMailbox) :=
  headerLine (b! "From:") (b! "fROM:")
    "TAG NO CASE ERROR: Header name (From) does not match."
    "TAG ERROR: A header (`From` in this case) must end with a CRLF sequence."
    (cowMailboxList c p)

/-- `src/parsing/fields.rs:204-219` (`sender`). -/
def cowSenderField (c : Cfg) (p : Place) : Bytes → Res (CowMailbox) :=
  headerLine (b! "Sender:") (b! "sENDER:")
    "TAG NO CASE ERROR: Header name (Sender) does not match."
    "TAG ERROR: A header (`Sender` in this case) must end with a CRLF sequence."
    (cowMailbox c p)

/-- `src/parsing/fields.rs:221-236` (`reply_to`). -/
def cowReplyToField (c : Cfg) (p : Place) : Bytes → Res (List CowAddress) :=
  headerLine (b! "Reply-To:") (b! "rEPLY-tO:")
    "TAG NO CASE ERROR: Header name (Reply-To) does not match."
    "TAG ERROR: A header (`Reply-To` in this case) must end with a CRLF sequence."
    (cowAddressList c p)

/-- `src/parsing/fields.rs:238-253` (`to`). -/
def cowToField (c : Cfg) (p : Place) : Bytes → Res (List CowAddress) :=
  headerLine (b! "To:") (b! "tO:")
    "TAG NO CASE ERROR: Header name (To) does not match."
    "TAG ERROR: A header (`To` in this case) must end with a CRLF sequence."
    (cowAddressList c p)

/-- `src/parsing/fields.rs:255-270` (`cc`). -/
def cowCcField (c : Cfg) (p : Place) : Bytes → Res (List CowAddress) :=
  headerLine (b! "Cc:") (b! "cC:")
    "TAG NO CASE ERROR: Header name (Cc) does not match."
    "TAG ERROR: A header (`Cc` in this case) must end with a CRLF sequence."
    (cowAddressList c p)

/-- `src/parsing/fields.rs:272-293` (`bcc`). -/
def cowBccField (c : Cfg) (p : Place) : Bytes → Res (List CowAddress) :=
  headerLine (b! "Bcc:") (b! "bCC:")
    "TAG NO CASE ERROR: Header name (Bcc) does not match."
    "TAG ERROR: A header (`Bcc` in this case) must end with a CRLF sequence."
    (cowBccValue c p)

/-- `src/parsing/fields.rs:295-310` (`message_id`). -/
def cowMessageIdField (c : Cfg) (p : Place) : Bytes → Res (CowStr × CowStr) :=
  headerLine (b! "Message-ID:") (b! "mESSAGE-id:")
    "TAG NO CASE ERROR: Header name (Message-ID) does not match."
    "TAG ERROR: A header (`Message-ID` in this case) must end with a CRLF sequence."
    (cowMessageId c p)

/-- `src/parsing/fields.rs:312-327` (`in_reply_to`). -/
def cowInReplyToField (c : Cfg) (p : Place) : Bytes → Res (List (CowStr × CowStr)) :=
  headerLine (b! "In-Reply-To:") (b! "iN-rEPLY-tO:")
    "TAG NO CASE ERROR: Header name (Reply-To) does not match."
    "TAG ERROR: A header (`In-Reply-To` in this case) must end with a CRLF sequence."
    (cowMessageIds c p)

/-- `src/parsing/fields.rs:329-344` (`references`). -/
def cowReferencesField (c : Cfg) (p : Place) : Bytes → Res (List (CowStr × CowStr)) :=
  headerLine (b! "References:") (b! "rEFERENCES:")
    "TAG NO CASE ERROR: Header name (References) does not match."
    "TAG ERROR: A header (`References` in this case) must end with a CRLF sequence."
    (cowMessageIds c p)

/-- `src/parsing/fields.rs:346-364` (`subject`). -/
def cowSubjectField (c : Cfg) (p : Place) : Bytes → Res (CowStr) :=
  headerLine (b! "Subject:") (b! "sUBJECT:")
    "TAG NO CASE ERROR: Header name (Subject) does not match."
    "TAG ERROR: A header (`Subject` in this case) must end with a CRLF sequence."
    (cowTextValue c p)

/-- `src/parsing/fields.rs:366-384` (`comments`). -/
def cowCommentsField (c : Cfg) (p : Place) : Bytes → Res (CowStr) :=
  headerLine (b! "Comments:") (b! "cOMMENTS:")
    "TAG NO CASE ERROR: Header name (Comments) does not match."
    "TAG ERROR: A header (`Comments` in this case) must end with a CRLF sequence."
    (cowTextValue c p)

/-- `src/parsing/fields.rs:386-410` (`keywords`). -/
def cowKeywordsField (c : Cfg) (p : Place) : Bytes → Res (List (List CowStr)) :=
  headerLine (b! "Keywords:") (b! "kEYWORDS:")
    "TAG NO CASE ERROR: Header name (Keywords) does not match."
    "TAG ERROR: A header (`Keywords` in this case) must end with a CRLF sequence."
    (cowKeywordList c p)

/-- `src/parsing/fields.rs:424-434` (`resent_from`). -/
def cowResentFrom (c : Cfg) (p : Place) : Bytes → Res (List CowMailbox) :=
  resent "TAG NO CASE ERROR: Header name (Resent-From) does not match." (cowFromField c p)

/-- `src/parsing/fields.rs:436-446` (`resent_sender`). -/
def cowResentSender (c : Cfg) (p : Place) : Bytes → Res (CowMailbox) :=
  resent "TAG NO CASE ERROR: Header name (Resent-Sender) does not match." (cowSenderField c p)

/-- `src/parsing/fields.rs:448-458` (`resent_to`). -/
def cowResentTo (c : Cfg) (p : Place) : Bytes → Res (List CowAddress) :=
  resent "TAG NO CASE ERROR: Header name (Resent-To) does not match." (cowToField c p)

/-- `src/parsing/fields.rs:460-470` (`resent_cc`). -/
def cowResentCc (c : Cfg) (p : Place) : Bytes → Res (List CowAddress) :=
  resent "TAG NO CASE ERROR: Header name (Resent-Cc) does not match." (cowCcField c p)

/-- `src/parsing/fields.rs:472-482` (`resent_bcc`). -/
def cowResentBcc (c : Cfg) (p : Place) : Bytes → Res (List CowAddress) :=
  resent "TAG NO CASE ERROR: Header name (Resent-Bcc) does not match." (cowBccField c p)

/-- `src/parsing/fields.rs:484-494` (`resent_message_id`). -/
def cowResentMessageId (c : Cfg) (p : Place) : Bytes → Res (CowStr × CowStr) :=
  resent "TAG NO CASE ERROR: Header name (Resent-Message-ID) does not match." (cowMessageIdField c p)

/-- `src/parsing/fields.rs:512-520`: the value of a `Return-Path` field. -/
def cowReturnPathValue (c : Cfg) (p : Place) (input : Bytes) : Res (Option CowEmailAddress) :=
  matchParsers input
    [ fun i => do
        let (i, v) ← cowAngleAddr c p i
        .ok (i, some v),
      fun i => do
        let (i, ()) ← emptyPath c i
        .ok (i, none) ]

/-- `src/parsing/fields.rs:496-528` (`return_path`). -/
def cowReturnPath (c : Cfg) (p : Place) : Bytes → Res (Option CowEmailAddress) :=
  headerLine (b! "Return-Path:") (b! "rETURN-pATH:")
    "TAG NO CASE ERROR: Header name (Return-Path) does not match."
    "TAG ERROR: A header (`Return-Path` in this case) must end with a CRLF sequence."
    (cowReturnPathValue c p)

/-- `src/parsing/fields.rs:544-561`: one token of a `Received` field; the lengths compared are those of the contents. -/
def cowReceivedToken (c : Cfg) (p : Place) (input : Bytes) : Res CowReceivedToken :=
  match cowWord c p input with
  | .ok (wordInput, word) =>
    match cowDomain c p input with
    | .ok (domainInput, domain) =>
      if (domain.content p.memory).length > (word.content p.memory).length then .ok (domainInput, .domain domain)
      else .ok (wordInput, .word word)
    | .err _ => .ok (wordInput, .word word)
    | .abort k => .abort k
  | .err _ =>
    match cowAngleAddr c p input with
    | .ok (input, addr) => .ok (input, .addr addr)
    | .err _ =>
      match cowEmailAddress c p input with
      | .ok (input, addr) => .ok (input, .addr addr)
      | .err _ =>
        match cowDomain c p input with
        | .ok (input, domain) => .ok (input, .domain domain)
        | .err _ => .err (.unknown "match error")
        | .abort k => .abort k
      | .abort k => .abort k
    | .abort k => .abort k
  | .abort k => .abort k

/-- `src/parsing/fields.rs:544-567`: the value of a `Received` field. -/
def cowReceivedValue (c : Cfg) (p : Place) (input : Bytes) : Res (List CowReceivedToken × DateTime) := do
  let (input, receivedTokens) ← many input (cowReceivedToken c p)
  let (input, ()) ← tag input (b! ";") "TAG ERROR: Received tokens must be followed by a `;`."
  let (input, dateTime) ← dateTime c input
  .ok (input, (receivedTokens, dateTime))

/-- `src/parsing/fields.rs:537-575` (`received`). -/
def cowReceived (c : Cfg) (p : Place) : Bytes → Res (List CowReceivedToken × DateTime) :=
  headerLine (b! "Received:") (b! "rECEIVED:")
    "TAG NO CASE ERROR: Header name (Received) does not match."
    "TAG ERROR: A header (`Received` in this case) must end with a CRLF sequence."
    (cowReceivedValue c p)

/-- `src/parsing/fields.rs:577-587` (`trace`). -/
def cowTrace (c : Cfg) (p : Place) (input : Bytes) :
    Res (Option (Option CowEmailAddress) × List (List CowReceivedToken × DateTime)) := do
  let (input, returnPath) ← optional input (cowReturnPath c p)
  let (input, received) ← many1 input (cowReceived c p)
  .ok (input, (returnPath, received))

/-- `src/parsing/fields.rs:596-599`: the value of an unrecognized field. -/
def cowUnknownValue (c : Cfg) (p : Place) (input : Bytes) : Res CowStr :=
  if c.feat.unrecognizedHeaders then cowMimeUnstructured c p input else cowUnstructured p input

/-- `src/parsing/fields.rs:589-608` (`unknown`): the name is a `&str`. -/
def cowUnknown (c : Cfg) (p : Place) (input : Bytes) : Res (CowStr × CowStr) := do
  let (rest, name) ← takeWhile1 input isFtext
  let (rest, ()) ← tag rest (b! ":") "TAG ERROR: A header name must be followed by a `:`."
  let (rest, value) ← cowUnknownValue c p rest
  let (rest, ()) ← tag rest (b! "\r\n") "TAG ERROR: A header must end with a CRLF sequence."
  .ok (rest, (p.slice input name, value))

/-- `src/parsing/fields.rs:85-93`. -/
def cowTraceFieldParsers (c : Cfg) (p : Place) : List (Bytes → Res CowTraceField) :=
  [ mapValue .date (resentDate c),
    mapValue .from (cowResentFrom c p),
    mapValue .sender (cowResentSender c p),
    mapValue .to (cowResentTo c p),
    mapValue .cc (cowResentCc c p),
    mapValue .bcc (cowResentBcc c p),
    mapValue .messageId (cowResentMessageId c p) ]

/-- `src/parsing/fields.rs:110-161`: the alternatives for a header field, in the order of the
code. -/
@[irreducible] def cowFieldParsers (c : Cfg) (p : Place) : List (Bytes → Res CowField) :=
  enabled c.feat.date (mapValue .date (dateField c)) ++
  enabled c.feat.from (mapValue .from (cowFromField c p)) ++
  enabled c.feat.sender (mapValue .sender (cowSenderField c p)) ++
  enabled c.feat.replyTo (mapValue .replyTo (cowReplyToField c p)) ++
  enabled c.feat.to (mapValue .to (cowToField c p)) ++
  enabled c.feat.cc (mapValue .cc (cowCcField c p)) ++
  enabled c.feat.bcc (mapValue .bcc (cowBccField c p)) ++
  enabled c.feat.messageId (mapValue .messageId (cowMessageIdField c p)) ++
  enabled c.feat.inReplyTo (mapValue .inReplyTo (cowInReplyToField c p)) ++
  enabled c.feat.references (mapValue .references (cowReferencesField c p)) ++
  enabled c.feat.subject (mapValue .subject (cowSubjectField c p)) ++
  enabled c.feat.comments (mapValue .comments (cowCommentsField c p)) ++
  enabled c.feat.mime (mapValue (fun (mj, mn) => .mimeVersion mj mn) (mimeVersion c)) ++
  enabled c.feat.mime (mapValue (fun (t, st, p) => .contentType t st p) (cowContentType c p)) ++
  enabled c.feat.mime (mapValue .contentTransferEncoding (cowTransferEncoding c p)) ++
  enabled c.feat.mime (mapValue .contentId (cowContentId c p)) ++
  enabled c.feat.mime (mapValue .contentDescription (cowContentDescription c p)) ++
  enabled c.feat.mime (mapValue .contentDisposition (cowContentDisposition c p)) ++
  enabled c.feat.keywords (mapValue .keywords (cowKeywordsField c p)) ++
  [mapValue (fun (name, value) => .unknown name value) (cowUnknown c p)]

/-- `src/parsing/fields.rs:79-105`: one trace block. -/
def cowTraceBlock (c : Cfg) (p : Place) (input : Bytes) : Res CowField := do
  let (input, trace) ← cowTrace c p input
  let (input, traceFields) ← many input fun input => matchParsers input (cowTraceFieldParsers c p)
  .ok (input, .trace trace.1 trace.2 traceFields)

/-- `src/parsing/fields.rs:108-161`: one header field outside of trace blocks. -/
def cowField (c : Cfg) (p : Place) (input : Bytes) : Res CowField := matchParsers input (cowFieldParsers c p)

/-- `src/parsing/fields.rs:78-106`: the trace blocks. -/
def cowTraces (c : Cfg) (p : Place) (input : Bytes) : Res (List CowField) :=
  if c.feat.trace then many input (cowTraceBlock c p) else .ok (input, [])

/-- `src/parsing/fields.rs:75-168` (`fields`); the loops are as in Model/Fields.lean. -/
def cowFields (c : Cfg) (p : Place) (input : Bytes) : Res (List CowField) := do
  let (input, traces) ← cowTraces c p input
  let (input, fields) ← many input (cowField c p)
  .ok (input, traces ++ fields)

/-! ### src/parsing/mime/entity.rs -/

/-- Where the string literals are that stand for missing headers (`src/email.rs:325-331`,
`src/parsing/mime/entity.rs:191-197`); the address of `b""` (`src/email.rs:380`) is `Place.empty`. -/
structure Literals where
  plain : Nat
  charset : Nat
  usAscii : Nat

/-- `src/parsing/mime/entity.rs:191-197` and `src/email.rs:325-331`: the default type. -/
def Literals.defaultType (l : Literals) : CowContentType × CowStr × CowParams :=
  (.text, .borrowed l.plain 5, [(.borrowed l.charset 7, .borrowed l.usAscii 8)])

/-- `src/mime.rs:5-21` (`RawEntity`); `value` is a `Cow<[u8]>`. -/
structure CowRawEntity where
  mimeType : CowContentType
  subtype : CowStr
  description : Option CowStr
  id : Option (CowStr × CowStr)
  parameters : CowParams
  disposition : Option CowDisposition
  value : CowStr
  additionalHeaders : List (CowStr × CowStr)
deriving DecidableEq, Repr

/-- One header of a MIME entity (`src/parsing/mime/entity.rs:159-183`). -/
inductive CowEntityHeader where
  | encoding (v : CowTransferEncoding)
  | type (v : CowContentType × CowStr × CowParams)
  | id (v : CowStr × CowStr)
  | description (v : CowStr)
  | disposition (v : CowDisposition)
  | other (name value : CowStr)

/-- `src/parsing/mime/entity.rs:159-186`: the alternatives, in order. -/
def cowEntityHeader (c : Cfg) (p : Place) (input : Bytes) : Res CowEntityHeader :=
  matchParsers input
    [ mapValue .encoding (cowTransferEncoding c p),
      mapValue .type (cowContentType c p),
      mapValue .id (cowContentId c p),
      mapValue .description (cowContentDescription c p),
      mapValue .disposition (cowContentDisposition c p),
      mapValue (fun (name, value) => .other name value) (cowUnknown c p) ]

/-- The variables of `src/parsing/mime/entity.rs:151-156`. -/
structure CowEntityHeaders where
  encoding : Option CowTransferEncoding := none
  mimeType : Option (CowContentType × CowStr × CowParams) := none
  id : Option (CowStr × CowStr) := none
  description : Option CowStr := none
  disposition : Option CowDisposition := none
  additionalHeaders : List (CowStr × CowStr) := []

/-- `src/parsing/mime/entity.rs:159-184`: the assignments of one iteration. -/
def CowEntityHeaders.add (h : CowEntityHeaders) : CowEntityHeader → CowEntityHeaders
  | .encoding v => { h with encoding := some v }
  | .type v => { h with mimeType := some v }
  | .id v => { h with id := some v }
  | .description v => { h with description := some v }
  | .disposition v => { h with disposition := some v }
  | .other name value => { h with additionalHeaders := h.additionalHeaders ++ [(name, value)] }

/-- `src/parsing/mime/entity.rs:189-197`: the defaults for missing headers. -/
def CowEntityHeaders.withDefaults (l : Literals) (h : CowEntityHeaders) : CowHeaderPart where
  encoding := h.encoding.getD .sevenBit
  mimeType := (h.mimeType.getD l.defaultType).1
  subtype := (h.mimeType.getD l.defaultType).2.1
  parameters := (h.mimeType.getD l.defaultType).2.2
  additionalHeaders := h.additionalHeaders
  id := h.id
  description := h.description
  disposition := h.disposition

/-- `src/parsing/mime/entity.rs:133-234` (`header_part`). -/
def cowHeaderPart (c : Cfg) (p : Place) (l : Literals) (input : Bytes) : Outcome (Nat × CowHeaderPart) := do
  let (input, headers) ← many input (cowEntityHeader c p)
  let headers := (headers.foldl CowEntityHeaders.add {}).withDefaults l
  if input.isEmpty then .ok (input.length, headers)
  else do
    let (input, ()) ← tag input (b! "\r\n")
      "TAG ERROR: A MIME entity header part must be followed by a CRLF sequence."
    .ok (input.length, headers)

/-- `src/parsing/mime/entity.rs:236-254` (`decode_value`). -/
def cowDecodeValue (m : Memory) (value : CowStr) : CowTransferEncoding → Outcome CowStr
  | .base64 => do
    let v ← decodeBase64 (value.content m)
    .ok (.owned v)
  | .sevenBit => .ok value
  | .heightBit => .ok value
  | .quotedPrintable => do
    let v ← decodeQp (value.content m)
    .ok (.owned v)
  | .unknown _ => .err (.unknown "Unknown format")
  | .binary => .ok value

/-- The construction of `src/parsing/mime/entity.rs:29-40`. -/
def CowHeaderPart.entity (m : Memory) (h : CowHeaderPart) (body : CowStr) : Outcome CowRawEntity := do
  let value ← cowDecodeValue m body h.encoding
  .ok { mimeType := h.mimeType, subtype := h.subtype, description := h.description, id := h.id,
        parameters := h.parameters, disposition := h.disposition, value,
        additionalHeaders := h.additionalHeaders }

/-- `src/parsing/mime/entity.rs:7-41` (`raw_entity`) for a borrowed input, at the place `p`. -/
def cowRawEntity (c : Cfg) (p : Place) (l : Literals) (input : Bytes) : Outcome CowRawEntity := do
  let (len, h) ← cowHeaderPart c p l input
  let body ← entityBody input len
  h.entity p.memory (p.slice body body)

/-- `src/parsing/mime/entity.rs:7-41` (`raw_entity`) for an owned input: `header_part_owned` (lines 94-131) copies all
strings of the headers, and what remains of the input after `drain` is owned.  `p` is the place of the buffer while it is
read. -/
def cowRawEntityOwned (c : Cfg) (p : Place) (l : Literals) (input : Bytes) : Outcome CowRawEntity := do
  let (len, h) ← cowHeaderPart c p l input
  let body ← entityBody input len
  (h.intoOwned p.memory).entity p.memory (.owned body)

/-! ### src/parsing/mime/multipart.rs -/

/-- The place of the slice of length `len` at `addr`. -/
def Place.part (p : Place) (addr len : Nat) : Place := { p with stop := addr + len }

/-- `src/parsing/mime/multipart.rs:30-44` (`before_boundary`): the address and the bytes of the slice. -/
def cowBeforeBoundary (p : Place) (boundary input : Bytes) : Res (Nat × Bytes) := do
  let (rest, part) ← beforeBoundary boundary input
  .ok (rest, (p.addr input, part))

/-- `src/parsing/mime/multipart.rs:84-87`: the parts. -/
def cowMultipartParts (p : Place) (input boundary : Bytes) : Outcome (List (Nat × Bytes)) := do
  let (input, parts) ← many input (cowBeforeBoundary p boundary)
  let (_epilogue, lastPart) ← beforeClosingBoundary boundary input
  -- `parts.push(last_part); parts.remove(0)`
  match parts ++ [(p.addr input, lastPart)] with
  | _prelude :: parts => .ok parts
  | [] => .abort .panic

/-- `src/parsing/mime/multipart.rs:89-92`: parse the parts; each is `Cow::Borrowed`. -/
def cowRawEntities (c : Cfg) (p : Place) (l : Literals) : List (Nat × Bytes) → Outcome (List CowRawEntity)
  | [] => .ok []
  | (addr, part) :: parts => do
    let e ← cowRawEntity c (p.part addr part.length) l part
    let es ← cowRawEntities c p l parts
    .ok (e :: es)

/-- `HashMap::get`. -/
def CowParams.get (m : Memory) (name : Bytes) : CowParams → Option CowStr
  | [] => none
  | (n, v) :: rest => if n.content m = name then some v else CowParams.get m name rest

/-- `src/parsing/mime/multipart.rs:77-95` (`parse_multipart`), for a buffer at the place `p`. -/
def cowParseMultipart (c : Cfg) (p : Place) (l : Literals) (input : Bytes) (parameters : CowParams) :
    Outcome (List CowRawEntity) :=
  match parameters.get p.memory (b! "boundary") with
  | none => .err (.unknown "Missing boundary parameter")
  | some boundary => do
    let parts ← cowMultipartParts p input (boundary.content p.memory)
    cowRawEntities c p l parts

/-- `src/mime.rs:32-50` (`Entity`); the subtype is a reference to the one of the raw entity. -/
inductive CowEntity where
  | multipart (subtype : CowStr) (content : List CowRawEntity)
  | text (subtype value : CowStr)
  | unknown
deriving DecidableEq, Repr

/-- `src/parsing/mime/entity.rs:59-80`: the text of an entity.  For UTF-8 and US-ASCII it is a slice of the value, otherwise
it is a new string. -/
def cowDecodeText (c : Cfg) (p : Place) (charset value : Bytes) : Option (Outcome CowStr) :=
  match decodeCharset c charset value with
  | none => none
  | some text => some do
    let text ← text
    .ok (if charset == b! "utf-8" || charset == b! "us-ascii" then p.slice value value else .owned text)

/-- `src/parsing/mime/entity.rs:43-92` (`entity`).  `p` is the place of the bytes `value` of the entity: in the input if
they are borrowed, in the entity otherwise. -/
def CowRawEntity.parse (c : Cfg) (p : Place) (l : Literals) (raw : CowRawEntity) (value : Bytes) : Outcome CowEntity :=
  if raw.mimeType = .multipart then do
    let content ← cowParseMultipart c p l value raw.parameters
    .ok (.multipart raw.subtype content)
  else if raw.mimeType = .text then
    match raw.parameters.get p.memory (b! "charset") with
    | some charset =>
      match cowDecodeText c p (c.toLowercase (charset.content p.memory)) value with
      | some text => do
        let value ← text
        .ok (.text raw.subtype value)
      | none => .ok .unknown
    | none => .ok .unknown
  else .ok .unknown

/-! ### src/parsing/message.rs and src/email.rs -/

/-- `src/parsing/message.rs:110-133` (`parse_message`): the body is a slice of the input (`:105` and `:129`). -/
def cowParseMessage (c : Cfg) (p : Place) (input : Bytes) : Outcome (List CowField × Option CowStr) := do
  let (input, fields) ← cowFields c p input
  if c.feat.mime then
    if input.isEmpty then .ok (fields, none)
    else do
      let (newInput, ()) ← tag input (b! "\r\n")
        "TAG ERROR: Headers must be followed by a CRLF sequence."
      .ok (fields, some (p.slice newInput newInput))
  else do
    let body ← body input
    .ok (fields, body.map fun body => p.slice body body)

/-- The variables of `src/email.rs:101-142`. -/
structure CowEmailAcc where
  «from» : Option (List CowMailbox) := none
  sender : Option CowMailbox := none
  subject : Option CowStr := none
  date : Option DateTime := none
  to : Option (List CowAddress) := none
  cc : Option (List CowAddress) := none
  bcc : Option (List CowAddress) := none
  messageId : Option (CowStr × CowStr) := none
  inReplyTo : Option (List (CowStr × CowStr)) := none
  references : Option (List (CowStr × CowStr)) := none
  replyTo : Option (List CowAddress) := none
  comments : List CowStr := []
  keywords : List (List CowStr) := []
  trace : List (Option (Option CowEmailAddress) × List (List CowReceivedToken × DateTime) ×
    List CowTraceField) := []
  mimeVersion : Option (Nat × Nat) := none
  contentType : Option (CowContentType × CowStr × CowParams) := none
  contentTransferEncoding : Option CowTransferEncoding := none
  contentId : Option (CowStr × CowStr) := none
  contentDescription : Option CowStr := none
  contentDisposition : Option CowDisposition := none
  unknownFields : List (CowStr × CowStr) := []

/-- `if x.is_none() { x = Some(v) } else { return Err(Error::DuplicateHeader(name)) }` (e.g. `src/email.rs:148-152`). -/
def cowSetOnce {α : Type} (name : String) (old : Option α) (v : α) (set : Option α → CowEmailAcc) :
    Outcome CowEmailAcc :=
  match old with
  | none => .ok (set (some v))
  | some _ => .err (.duplicateHeader name)

/-- `src/email.rs:145-303`: the body of the loop over the fields. -/
def CowEmailAcc.add (a : CowEmailAcc) : CowField → Outcome CowEmailAcc
  | .from v => cowSetOnce "From" a.from v fun x => { a with «from» := x }
  | .sender v => cowSetOnce "Sender" a.sender v fun x => { a with sender := x }
  | .subject v => cowSetOnce "Subject" a.subject v fun x => { a with subject := x }
  | .date v => cowSetOnce "Date" a.date v fun x => { a with date := x }
  | .to v => cowSetOnce "To" a.to v fun x => { a with to := x }
  | .cc v => cowSetOnce "Cc" a.cc v fun x => { a with cc := x }
  | .bcc v => cowSetOnce "Bcc" a.bcc v fun x => { a with bcc := x }
  | .messageId v => cowSetOnce "Message-ID" a.messageId v fun x => { a with messageId := x }
  | .inReplyTo v => cowSetOnce "In-Reply-To" a.inReplyTo v fun x => { a with inReplyTo := x }
  | .references v => cowSetOnce "References" a.references v fun x => { a with references := x }
  | .replyTo v => cowSetOnce "Reply-To" a.replyTo v fun x => { a with replyTo := x }
  | .comments v => .ok { a with comments := a.comments ++ [v] }
  | .keywords v => .ok { a with keywords := a.keywords ++ v }
  | .trace returnPath received fields =>
    .ok { a with trace := a.trace ++ [(returnPath, received, fields)] }
  | .mimeVersion major minor =>
    cowSetOnce "Mime-Version" a.mimeVersion (major, minor) fun x => { a with mimeVersion := x }
  | .contentType t st p =>
    cowSetOnce "Content-Type" a.contentType (t, st, p) fun x => { a with contentType := x }
  | .contentTransferEncoding v =>
    cowSetOnce "Content-Transfer-Encoding" a.contentTransferEncoding v
      fun x => { a with contentTransferEncoding := x }
  | .contentId v => cowSetOnce "Content-Id" a.contentId v fun x => { a with contentId := x }
  | .contentDescription v =>
    cowSetOnce "Content-Description" a.contentDescription v fun x => { a with contentDescription := x }
  | .contentDisposition v =>
    cowSetOnce "Content-Disposition" a.contentDisposition v fun x => { a with contentDisposition := x }
  | .unknown name value => .ok { a with unknownFields := a.unknownFields ++ [(name, value)] }

/-- `src/email.rs:144-304`: the loop over the fields. -/
def CowEmailAcc.addAll (a : CowEmailAcc) : List CowField → Outcome CowEmailAcc
  | [] => .ok a
  | f :: fs => do
    let a ← a.add f
    a.addAll fs

/-- `src/email.rs:28-94` (`Email`). -/
structure CowEmail where
  body : Option CowStr
  «from» : Option (List CowMailbox)
  sender : Option CowMailbox
  subject : Option CowStr
  date : Option DateTime
  to : Option (List CowAddress)
  cc : Option (List CowAddress)
  bcc : Option (List CowAddress)
  messageId : Option (CowStr × CowStr)
  inReplyTo : Option (List (CowStr × CowStr))
  references : Option (List (CowStr × CowStr))
  replyTo : Option (List CowAddress)
  comments : List CowStr
  keywords : List (List CowStr)
  trace : List (Option (Option CowEmailAddress) × List (List CowReceivedToken × DateTime) ×
    List CowTraceField)
  mimeEntity : Option CowRawEntity
  unknownFields : List (CowStr × CowStr)

/-- `src/email.rs:311-321`: the sender; `clone` of a borrowed string is the same reference. -/
def cowInferSender (feature : Bool) (sender : Option CowMailbox) (fr : Option (List CowMailbox)) :
    Outcome (Option CowMailbox) :=
  if feature then
    match sender with
    | some sender => .ok (some sender)
    | none =>
      if (fr.getD []).length = 1 then
        match fr.getD [] with
        | m :: _ => .ok (some m)
        | [] => .abort .panic
      else .err (.missingHeader "Sender")
  else .ok none

/-- `src/email.rs:332-339`: the decoded body. -/
def cowDecodeBody (m : Memory) (encoding : CowTransferEncoding) : Option CowStr → Outcome (Option CowStr)
  | some body => do
    let v ← cowDecodeValue m body encoding
    .ok (some v)
  | none => .ok none

/-- `src/email.rs:323-341` and `:370-380`: the MIME entity. -/
def CowEmailAcc.entity (c : Cfg) (p : Place) (l : Literals) (a : CowEmailAcc) (body : Option CowStr) :
    Outcome (Option CowRawEntity) :=
  if c.feat.mime then do
    let (mimeType, subtype, parameters) := a.contentType.getD l.defaultType
    let value ← cowDecodeBody p.memory (a.contentTransferEncoding.getD .sevenBit) body
    .ok (some
      { mimeType, subtype, description := a.contentDescription, id := a.contentId, parameters,
        disposition := a.contentDisposition, value := value.getD (emptyString p.empty), additionalHeaders := [] })
  else .ok none

/-- `src/email.rs:306-386`: the checks after the loop and the construction of the result. -/
def CowEmailAcc.finish (c : Cfg) (p : Place) (l : Literals) (a : CowEmailAcc) (body : Option CowStr) : Outcome CowEmail := do
  let fr ← required c.feat.from "From" a.from
  let date ← required c.feat.date "Date" a.date
  let sender ← cowInferSender c.feat.sender a.sender fr
  let mimeEntity ← a.entity c p l body
  .ok
    { body := if c.feat.mime then none else body
      «from» := fr
      sender
      subject := a.subject
      date
      to := a.to
      cc := a.cc
      bcc := a.bcc
      messageId := a.messageId
      inReplyTo := a.inReplyTo
      references := a.references
      replyTo := a.replyTo
      comments := a.comments
      keywords := a.keywords
      trace := a.trace
      mimeEntity
      unknownFields := a.unknownFields }

/-- `src/email.rs:97-387` (`Email::parse`), for a message at the place `p`. -/
def CowEmail.parse (c : Cfg) (p : Place) (l : Literals) (data : Bytes) : Outcome CowEmail := do
  let (fields, body) ← cowParseMessage c p data
  let a ← CowEmailAcc.addAll {} fields
  a.finish c p l body

end EmailParser
