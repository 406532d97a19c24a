import Verif.Model.Address
import Verif.Model.Time
import Verif.Model.Percent
/-
Model of src/mime.rs and src/parsing/mime/mime_fields.rs.
-/
namespace EmailParser

/-- `src/mime.rs:52-62`. -/
inductive ContentType where
  | text | image | audio | video | application | message | multipart
  | unknown (name : Bytes)
deriving DecidableEq, Repr

/-- `src/mime.rs:152-165` (`is_composite_type`). -/
def ContentType.isCompositeType : ContentType → Bool
  | .message => true
  | .multipart => true
  | _ => false

/-- `src/mime.rs:87-98`. -/
inductive DispositionType where
  | inline | attachment
  | unknown (name : Bytes)
deriving DecidableEq, Repr

/-- `src/mime.rs:121-129`. -/
structure Disposition where
  dispositionType : DispositionType
  filename : Option Bytes
  creationDate : Option DateTime
  modificationDate : Option DateTime
  readDate : Option DateTime
  unstructured : Params

/-- `src/mime.rs:167-175`. -/
inductive ContentTransferEncoding where
  | sevenBit | heightBit | binary | quotedPrintable | base64
  | unknown (name : Bytes)
deriving DecidableEq, Repr

/-- `src/mime.rs:5-21`. -/
structure RawEntity where
  mimeType : ContentType
  subtype : Bytes
  description : Option Bytes
  id : Option (Bytes × Bytes)
  parameters : Params
  disposition : Option Disposition
  value : Bytes
  additionalHeaders : List (Bytes × Bytes)

/-- `src/mime.rs:32-50`. -/
inductive Entity where
  | multipart (subtype : Bytes) (content : List RawEntity)
  | text (subtype value : Bytes)
  | unknown

/-- `src/parsing/mime/mime_fields.rs:6-15` (`ignore_inline_cfws`). -/
def ignoreInlineCfws (c : Cfg) (input : Bytes) : Res Unit := do
  let (i, _) ← triplet input
    (fun input => takeWhile input isWsp)
    (fun input => optional input (comment c.stack))
    (fun input => takeWhile input isWsp)
  .ok (i, ())

/-- `src/parsing/mime/mime_fields.rs:19-21`: the characters of a token. -/
def isTokenChar (c : UInt8) : Bool := c > 0x1F && c < 0x7F && !isWsp c && !tspecial c

/-- `src/parsing/mime/mime_fields.rs:17-22` (`token`). -/
def token (input : Bytes) : Res Bytes := takeWhile1 input isTokenChar

/-- `src/parsing/mime/mime_fields.rs:36-44`: the loop of `u8_number`. -/
def u8NumberLoop : Nat → Bytes → Nat → Res Nat
  | 0, _, _ => .abort .hang
  | fuel + 1, input, number =>
    match digit input with
    | .ok (newInput, newDigit) =>
      if number * 10 < 256 then
        if number * 10 + newDigit < 256 then u8NumberLoop fuel newInput (number * 10 + newDigit)
        else .err (.unknown "Overflow while reading u8.")
      else .err (.unknown "Overflow while reading u8.")
    | .err _ => .ok (input, number)
    | .abort k => .abort k

/-- `src/parsing/mime/mime_fields.rs:33-47` (`u8_number`). -/
def u8Number (input : Bytes) : Res Nat := do
  let (input, number) ← digit input
  u8NumberLoop (input.length + 1) input number

/-- `src/parsing/mime/mime_fields.rs:31-57`: the value of a `MIME-Version` field. -/
def mimeVersionValue (c : Cfg) (input : Bytes) : Res (Nat × Nat) := do
  let input ← skipCfws c input
  let (input, d1) ← u8Number input
  let (input, ()) ← tag input (b! ".")
    "TAG ERROR: A MIME version's major version number must be followed by a `.`."
  let (input, d2) ← u8Number input
  let (input, ()) ← ignoreInlineCfws c input
  .ok (input, (d1, d2))

/-- `src/parsing/mime/mime_fields.rs:24-65` (`mime_version`). -/
def mimeVersion (c : Cfg) : Bytes → Res (Nat × Nat) :=
  headerLine (b! "MIME-Version:") (b! "mime-vERSION:")
    "TAG NO CASE ERROR: Header name (Mime-Version) does not match."
    "TAG ERROR: A header (`MIME-Version` in this case) must end with a CRLF sequence."
    (mimeVersionValue c)

/-- `src/parsing/mime/mime_fields.rs:96-104`: the value of the index. -/
def parameterIndex : Option (Unit × Bytes) → Outcome (Option Nat)
  | some ((), index) =>
    match parseUnsigned 256 index with
    | some index => .ok (some index)
    | none => .err (.unknown "Invalid index")
  | none => .ok none

/-- `src/parsing/mime/mime_fields.rs:106-111`: the optional encoding mark. -/
def encodedMark (input : Bytes) : Res Bool :=
  if input[0]? == some 42 then do
    let input ← sliceFrom input 1
    .ok (input, true)
  else .ok (input, false)

/-- `src/parsing/mime/mime_fields.rs:78-118`: parameter name with optional index and optional
encoding mark. -/
def extendedName (input : Bytes) : Res (Bytes × Option Nat × Bool) := do
  let (input, name) ← takeWhile1 input fun c => isTokenChar c && c != 42
  let (input, index) ← optional input fun input =>
    pair input
      (fun input => tag input (b! "*")
        "TAG ERROR: An indexed MIME parameter name must contain a `*`.")
      (fun input => takeWhile1 input isDigit)
  let index ← parameterIndex index
  let (input, encoded) ← encodedMark input
  if input[0]? == some 61 then .ok (input, (name, index, encoded))
  else .err (.unknown "It wont work with this method")

/-- `src/parsing/mime/mime_fields.rs:133-142` and `:295-304`: a token or a quoted string. -/
def parameterValue (c : Cfg) (input : Bytes) : Res Bytes :=
  matchParsers input
    [ fun input => do
        let (input, value) ← token input
        .ok (input, value),
      quotedString c ]

/-- `src/parsing/mime/mime_fields.rs:67-145` (`parameter`). -/
def parameter (c : Cfg) (input : Bytes) : Res RawParam := do
  let input ← skipCfws c input
  let (input, ()) ← tag input (b! ";") "TAG ERROR: A MIME parameter must start with `;`."
  let input ← skipCfws c input
  let (input, (name, index, encoded)) ← matchParsers input
    [ extendedName,
      fun input => do
        let (input, name) ← token input
        .ok (input, (name, none, false)) ]
  let (input, ()) ← tag input (b! "=")
    "TAG ERROR: A MIME parameter name must be followed by a `=`."
  let (input, value) ← parameterValue c input
  .ok (input, { name := lowercase name, index, encoded, value })

/-- The recurring `tag_no_case(input, …).map(|(i, ())| (i, value))`
(e.g. `src/parsing/mime/mime_fields.rs:160-166`). -/
def keyword {α : Type} (expected expected2 : Bytes) (errorMessage : String) (value : α)
    (input : Bytes) : Res α := do
  let (i, ()) ← tagNoCase input expected expected2 errorMessage
  .ok (i, value)

/-- The recurring catch-all alternative: a token, lowercased
(`src/parsing/mime/mime_fields.rs:217-223`, `:268-274`, `:393-398`). -/
def otherToken {α : Type} (mk : Bytes → α) (input : Bytes) : Res α := do
  let (input, name) ← token input
  .ok (input, mk (lowercase name))

/-- `src/parsing/mime/mime_fields.rs:156-225`: the type before the slash. -/
def mimeType (input : Bytes) : Res ContentType :=
  matchParsers input
    [ keyword (b! "text") (b! "TEXT")
        "TAG NO CASE ERROR: In a content type header, `text` type does not match." .text,
      keyword (b! "multipart") (b! "MULTIPART")
        "TAG NO CASE ERROR: In a content type header, `multipart` type does not match." .multipart,
      keyword (b! "application") (b! "APPLICATION")
        "TAG NO CASE ERROR: In a content type header, `application` type does not match."
        .application,
      keyword (b! "image") (b! "IMAGE")
        "TAG NO CASE ERROR: In a content type header, `image` type does not match." .image,
      keyword (b! "video") (b! "VIDEO")
        "TAG NO CASE ERROR: In a content type header, `video` type does not match." .video,
      keyword (b! "audio") (b! "AUDIO")
        "TAG NO CASE ERROR: In a content type header, `audio` type does not match." .audio,
      keyword (b! "message") (b! "MESSAGE")
        "TAG NO CASE ERROR: In a content type header, `message` type does not match." .message,
      otherToken .unknown ]

/-- `src/parsing/mime/mime_fields.rs:154-237`: the value of a `Content-Type` field. -/
def contentTypeValue (c : Cfg) (input : Bytes) : Res (ContentType × Bytes × Params) := do
  let input ← skipCfws c input
  let (input, mimeType) ← mimeType input
  let (input, ()) ← tag input (b! "/")
    "TAG ERROR: A MIME content type must have a `/` separating the type and the subtype."
  let (input, subtype) ← token input
  let (input, parametersVec) ← many input (parameter c)
  let parameters ← collectParameters c parametersVec
  let (input, ()) ← ignoreInlineCfws c input
  .ok (input, (mimeType, lowercase subtype, parameters))

/-- `src/parsing/mime/mime_fields.rs:147-245` (`content_type`). -/
def contentType (c : Cfg) : Bytes → Res (ContentType × Bytes × Params) :=
  headerLine (b! "Content-Type:") (b! "cONTENT-tYPE:")
    "TAG NO CASE ERROR: Header name (Content-Type) does not match."
    "TAG ERROR: A header (`Content-Type` in this case) must end with a CRLF sequence."
    (contentTypeValue c)

/-- `src/parsing/mime/mime_fields.rs:288-307` (`filename_parameter`). -/
def filenameParameter (c : Cfg) (input : Bytes) : Res Bytes := do
  let input ← skipCfws c input
  let (input, ()) ← tag input (b! ";")
    "TAG ERROR: In a Content-Disposition header, a filename parameter must start with a `;`."
  let input ← skipCfws c input
  let (input, ()) ← tagNoCase input (b! "filename") (b! "FILENAME")
    "TAG NO CASE ERROR: In a Content-Disposition header, the name of the parameter does not match a filename parameter."
  let (input, ()) ← tag input (b! "=")
    "TAG ERROR: In a Content-Disposition header, a filename parameter value must be preceded by a `=`."
  parameterValue c input

/-- `src/parsing/mime/mime_fields.rs:309-324` (`date_parameter`). -/
def dateParameter (c : Cfg) (input name nameUppercase : Bytes) : Res DateTime := do
  let input ← skipCfws c input
  let (input, ()) ← tag input (b! ";")
    "TAG ERROR: In a Content-Disposition header, a date parameter must start with a `;`."
  let input ← skipCfws c input
  let (input, ()) ← tagNoCase input name nameUppercase
    "TAG NO CASE ERROR: In a Content-Disposition header, the name of the parameter does not match a date parameter."
  let (input, ()) ← tag input (b! "=\"")
    "TAG ERROR: In a Content-Disposition header, a date parameter value must be preceded by `=\"`."
  let (input, value) ← dateTime c input
  let (input, ()) ← tag input (b! "\"")
    "TAG ERROR: In a Content-Disposition header, a date parameter value must be closed by a `\"`."
  .ok (input, value)

/-- `src/parsing/mime/mime_fields.rs:258-276`: the disposition type. -/
def dispositionType (input : Bytes) : Res DispositionType :=
  matchParsers input
    [ keyword (b! "inline") (b! "INLINE")
        "TAG NO CASE ERROR: In a content disposition header, `inline` disposition does not match."
        .inline,
      keyword (b! "attachment") (b! "ATTACHMENT")
        "TAG NO CASE ERROR: In a content disposition header, `attachment` disposition does not match."
        .attachment,
      otherToken .unknown ]

/-- One parameter of a `Content-Disposition` header
(`src/parsing/mime/mime_fields.rs:326-347`). -/
inductive DispositionItem where
  | filename (value : Bytes)
  | creationDate (value : DateTime)
  | modificationDate (value : DateTime)
  | readDate (value : DateTime)
  | parameter (value : RawParam)
deriving DecidableEq, Repr

/-- `src/parsing/mime/mime_fields.rs:326-347`: which of the five kinds of parameters comes next. -/
def dispositionItem (c : Cfg) (input : Bytes) : Res DispositionItem :=
  matchParsers input
    [ fun input => do
        let (i, v) ← filenameParameter c input
        .ok (i, .filename v),
      fun input => do
        let (i, v) ← dateParameter c input (b! "creation-date") (b! "CREATION-DATE")
        .ok (i, .creationDate v),
      fun input => do
        let (i, v) ← dateParameter c input (b! "modification-date") (b! "MODIFICATION-DATE")
        .ok (i, .modificationDate v),
      fun input => do
        let (i, v) ← dateParameter c input (b! "read-date") (b! "READ-DATE")
        .ok (i, .readDate v),
      fun input => do
        let (i, v) ← parameter c input
        .ok (i, .parameter v) ]

/-- `src/parsing/mime/mime_fields.rs:326-347`: the assignments of one iteration; the last
occurrence of a parameter wins. -/
def Disposition.add (d : Disposition) : DispositionItem → Disposition
  | .filename v => { d with filename := some v }
  | .creationDate v => { d with creationDate := some v }
  | .modificationDate v => { d with modificationDate := some v }
  | .readDate v => { d with readDate := some v }
  | .parameter _ => d

/-- `parameters_vec.push(…)` (`src/parsing/mime/mime_fields.rs:343`). -/
def DispositionItem.rawParam? : DispositionItem → Option RawParam
  | .parameter p => some p
  | _ => none

/-- `src/parsing/mime/mime_fields.rs:256-351`: the value of a `Content-Disposition` field.  The
loop is written as `many` followed by a fold of the assignments. -/
def contentDispositionValue (c : Cfg) (input : Bytes) : Res Disposition := do
  let input ← skipCfws c input
  let (input, dispositionType) ← dispositionType input
  let (input, items) ← many input (dispositionItem c)
  let disposition : Disposition := items.foldl Disposition.add
    { dispositionType, filename := none, creationDate := none, modificationDate := none,
      readDate := none, unstructured := Params.empty }
  let unstructured ← collectParameters c (items.filterMap DispositionItem.rawParam?)
  let (input, ()) ← ignoreInlineCfws c input
  .ok (input, { disposition with unstructured })

/-- `src/parsing/mime/mime_fields.rs:247-359` (`content_disposition`). -/
def contentDisposition (c : Cfg) : Bytes → Res Disposition :=
  headerLine (b! "Content-Disposition:") (b! "cONTENT-dISPOSITION:")
    "TAG NO CASE ERROR: Header name (Content-Disposition) does not match."
    "TAG ERROR: A header (`Content-Disposition` in this case) must end with a CRLF sequence."
    (contentDispositionValue c)

/-- `src/parsing/mime/mime_fields.rs:370-400`: the encoding. -/
def transferEncoding (input : Bytes) : Res ContentTransferEncoding :=
  matchParsers input
    [ keyword (b! "7bit") (b! "7BIT")
        "TAG NO CASE ERROR: In a content transfer encoding header, `7bit` encoding does not match."
        .sevenBit,
      keyword (b! "quoted-printable") (b! "QUOTED-PRINTABLE")
        "TAG NO CASE ERROR: In a content transfer encoding header, `quoted-printable` encoding does not match."
        .quotedPrintable,
      keyword (b! "base64") (b! "BASE64")
        "TAG NO CASE ERROR: In a content transfer encoding header, `base64` encoding does not match."
        .base64,
      keyword (b! "8bit") (b! "8BIT")
        "TAG NO CASE ERROR: In a content transfer encoding header, `8bit` encoding does not match."
        .heightBit,
      keyword (b! "binary") (b! "BINARY")
        "TAG NO CASE ERROR: In a content transfer encoding header, `binary` encoding does not match."
        .binary,
      otherToken .unknown ]

/-- `src/parsing/mime/mime_fields.rs:368-402`: the value of a `Content-Transfer-Encoding` field. -/
def transferEncodingValue (c : Cfg) (input : Bytes) : Res ContentTransferEncoding := do
  let input ← skipCfws c input
  let (input, encoding) ← transferEncoding input
  let (input, ()) ← ignoreInlineCfws c input
  .ok (input, encoding)

/-- `src/parsing/mime/mime_fields.rs:361-406` (`content_transfer_encoding`). -/
def contentTransferEncoding (c : Cfg) : Bytes → Res ContentTransferEncoding :=
  headerLine (b! "Content-Transfer-Encoding:") (b! "cONTENT-tRANSFER-eNCODING:")
    "TAG NO CASE ERROR: Header name (Content-Transfer-Encoding) does not match."
    "TAG ERROR: A header (`Content-Transfer-Encoding` in this case) must end with a CRLF sequence."
    (transferEncodingValue c)

/-- `src/parsing/mime/mime_fields.rs:408-423` (`content_id`). -/
def contentId (c : Cfg) : Bytes → Res (Bytes × Bytes) :=
  headerLine (b! "Content-ID:") (b! "cONTENT-id:")
    "TAG NO CASE ERROR: Header name (Content-ID) does not match."
    "TAG ERROR: A header (`Content-ID` in this case) must end with a CRLF sequence."
    (messageId c)

/-- `src/parsing/mime/mime_fields.rs:425-440` (`content_description`). -/
def contentDescription (c : Cfg) : Bytes → Res Bytes :=
  headerLine (b! "Content-Description:") (b! "cONTENT-dESCRIPTION:")
    "TAG NO CASE ERROR: Header name (Content-Description) does not match."
    "TAG ERROR: A header (`Content-Description` in this case) must end with a CRLF sequence."
    (mimeUnstructured c)

end EmailParser
