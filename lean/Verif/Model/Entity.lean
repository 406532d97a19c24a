import Verif.Model.Fields
/-
Model of src/parsing/mime/entity.rs and src/parsing/mime/multipart.rs.
-/
namespace EmailParser

/-- One header of a MIME entity (`src/parsing/mime/entity.rs:159-183`). -/
inductive EntityHeader where
  | encoding (v : ContentTransferEncoding)
  | type (v : ContentType × Bytes × Params)
  | id (v : Bytes × Bytes)
  | description (v : Bytes)
  | disposition (v : Disposition)
  | other (name value : Bytes)

/-- `src/parsing/mime/entity.rs:159-186`: the alternatives, in order. -/
def entityHeader (c : Cfg) (input : Bytes) : Res EntityHeader :=
  matchParsers input
    [ mapValue .encoding (contentTransferEncoding c),
      mapValue .type (contentType c),
      mapValue .id (contentId c),
      mapValue .description (contentDescription c),
      mapValue .disposition (contentDisposition c),
      mapValue (fun (name, value) => .other name value) (unknown c) ]

/-- The variables of `src/parsing/mime/entity.rs:151-156`. -/
structure EntityHeaders where
  encoding : Option ContentTransferEncoding := none
  mimeType : Option (ContentType × Bytes × Params) := none
  id : Option (Bytes × Bytes) := none
  description : Option Bytes := none
  disposition : Option Disposition := none
  additionalHeaders : List (Bytes × Bytes) := []

/-- `src/parsing/mime/entity.rs:159-184`: the assignments of one iteration (a repeated header
overwrites the previous one). -/
def EntityHeaders.add (h : EntityHeaders) : EntityHeader → EntityHeaders
  | .encoding v => { h with encoding := some v }
  | .type v => { h with mimeType := some v }
  | .id v => { h with id := some v }
  | .description v => { h with description := some v }
  | .disposition v => { h with disposition := some v }
  | .other name value => { h with additionalHeaders := h.additionalHeaders ++ [(name, value)] }

/-- `src/parsing/mime/entity.rs:191-197` and `src/email.rs:325-331`: the default type. -/
def defaultType : ContentType × Bytes × Params :=
  (.text, b! "plain", Params.empty.insert (b! "charset") (b! "us-ascii"))

/-- `src/parsing/mime/entity.rs:133-234` (`header_part`): returns the length of the remaining input
(the body), and the headers.  The loop is written as `many` followed by a fold. -/
def headerPart (c : Cfg) (input : Bytes) : Outcome (Nat × EntityHeaders) := do
  let (input, headers) ← many input (entityHeader c)
  let headers := headers.foldl EntityHeaders.add {}
  if input.isEmpty then .ok (input.length, headers)
  else do
    let (input, ()) ← tag input (b! "\r\n")
      "TAG ERROR: A MIME entity header part must be followed by a CRLF sequence."
    .ok (input.length, headers)

/-- `src/parsing/mime/entity.rs:236-254` (`decode_value`). -/
def decodeValue (value : Bytes) (encoding : ContentTransferEncoding) : Outcome Bytes :=
  match encoding with
  | .base64 => decodeBase64 value
  | .sevenBit => .ok value
  | .heightBit => .ok value
  | .quotedPrintable => decodeQp value
  | .unknown _ => .err (.unknown "Unknown format")
  | .binary => .ok value

/-- `&input[input.len() - len..]` (`src/parsing/mime/entity.rs:20`). -/
def entityBody (input : Bytes) (len : Nat) : Outcome Bytes :=
  if len ≤ input.length then sliceFrom input (input.length - len) else .abort .panic

/-- `src/parsing/mime/entity.rs:7-41` (`raw_entity`), for a borrowed input.  For an owned input the
code calls `header_part` through `header_part_owned` (lines 94-131), which copies the strings, and
drops the same prefix with `drain`; the copies have the same contents (`C50_headers`). -/
def rawEntity (c : Cfg) (input : Bytes) : Outcome RawEntity := do
  let (len, h) ← headerPart c input
  let body ← entityBody input len
  let value ← decodeValue body (h.encoding.getD .sevenBit)
  let (mimeType, subtype, parameters) := h.mimeType.getD defaultType
  .ok { mimeType, subtype, description := h.description, id := h.id, parameters,
        disposition := h.disposition, value, additionalHeaders := h.additionalHeaders }

/-- `for idx in 0..input.len() { if condition { return Ok(idx) } }`
(`src/parsing/mime/multipart.rs:17-25` and `:48-56`): the first index satisfying the condition;
`n` is the number of indices left. -/
def findIndex (condition : Nat → Bool) : Nat → Nat → Option Nat
  | _, 0 => none
  | idx, n + 1 => if condition idx then some idx else findIndex condition (idx + 1) n

/-- `src/parsing/mime/multipart.rs:5-28` (`before_boundary_idx`). -/
def beforeBoundaryIdx (input boundary : Bytes) : Outcome (Nat × Nat) :=
  let fullBoundaryLen := 2 + 2 + boundary.length + 2
  if fullBoundaryLen - 2 ≤ input.length
      && getRange input 0 2 == some (b! "--")
      && getRange input 2 (2 + boundary.length) == some boundary
      && getRange input (2 + boundary.length) (fullBoundaryLen - 2) == some (b! "\r\n") then
    .ok (0, fullBoundaryLen - 2)
  else
    match findIndex (fun idx =>
        getRange input idx (idx + 4) == some (b! "\r\n--")
          && getRange input (idx + 4) (idx + 4 + boundary.length) == some boundary
          && getRange input (idx + 4 + boundary.length) (idx + fullBoundaryLen)
              == some (b! "\r\n")) 0 input.length with
    | some idx => .ok (idx, fullBoundaryLen)
    | none => .err (.unknown "boundary not found")

/-- `src/parsing/mime/multipart.rs:30-44` (`before_boundary`). -/
def beforeBoundary (boundary input : Bytes) : Res Bytes := do
  let (before, len) ← beforeBoundaryIdx input boundary
  let rest ← getUncheckedFrom input (before + len)
  let part ← getUncheckedTo input before
  .ok (rest, part)

/-- `src/parsing/mime/multipart.rs:46-59` (`before_closing_boundary_idx`). -/
def beforeClosingBoundaryIdx (input boundary : Bytes) : Outcome (Nat × Nat) :=
  let fullBoundaryLen := 2 + 2 + boundary.length + 2 + 2
  match findIndex (fun idx =>
      getRange input idx (idx + 4) == some (b! "\r\n--")
        && getRange input (idx + 4) (idx + 4 + boundary.length) == some boundary
        && getRange input (idx + 4 + boundary.length) (idx + fullBoundaryLen)
            == some (b! "--\r\n")) 0 input.length with
  | some idx => .ok (idx, fullBoundaryLen)
  | none => .err (.unknown "closing boundary not found")

/-- `src/parsing/mime/multipart.rs:61-75` (`before_closing_boundary`). -/
def beforeClosingBoundary (boundary input : Bytes) : Res Bytes := do
  let (before, len) ← beforeClosingBoundaryIdx input boundary
  let rest ← getUncheckedFrom input (before + len)
  let part ← getUncheckedTo input before
  .ok (rest, part)

/-- `src/parsing/mime/multipart.rs:89-92`: parse the parts, stopping at the first error. -/
def rawEntities (c : Cfg) : List Bytes → Outcome (List RawEntity)
  | [] => .ok []
  | part :: parts => do
    let e ← rawEntity c part
    let es ← rawEntities c parts
    .ok (e :: es)

/-- `src/parsing/mime/multipart.rs:84-87`: the byte ranges of the parts. -/
def multipartParts (input boundary : Bytes) : Outcome (List Bytes) := do
  let (input, parts) ← many input (beforeBoundary boundary)
  let (_epilogue, lastPart) ← beforeClosingBoundary boundary input
  -- `parts.push(last_part); parts.remove(0)`
  match parts ++ [lastPart] with
  | _prelude :: parts => .ok parts
  | [] => .abort .panic

/-- `src/parsing/mime/multipart.rs:77-95` (`parse_multipart`). -/
def parseMultipart (c : Cfg) (input : Bytes) (parameters : Params) : Outcome (List RawEntity) :=
  match parameters (b! "boundary") with
  | none => .err (.unknown "Missing boundary parameter")
  | some boundary => do
    let parts ← multipartParts input boundary
    rawEntities c parts

/-- `src/parsing/mime/entity.rs:43-92` (`entity`), called by `RawEntity::parse`
(`src/mime.rs:27-29`). -/
def RawEntity.parse (c : Cfg) (raw : RawEntity) : Outcome Entity :=
  if raw.mimeType = .multipart then do
    let content ← parseMultipart c raw.value raw.parameters
    .ok (.multipart raw.subtype content)
  else if raw.mimeType = .text then
    match raw.parameters (b! "charset") with
    | some charset =>
      match decodeCharset c (c.toLowercase charset) raw.value with
      | some text => do
        let value ← text
        .ok (.text raw.subtype value)
      | none => .ok .unknown
    | none => .ok .unknown
  else .ok .unknown

end EmailParser
