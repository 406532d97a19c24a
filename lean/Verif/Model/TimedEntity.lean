import Verif.Model.TimedCodecs
import Verif.Model.Entity
/-
The functions of `Model/Entity.lean` (src/parsing/mime/entity.rs and src/parsing/mime/multipart.rs), with
a count of steps, as in `Model/Timed.lean`.

What counts as a step, besides those of the parsers (`Model/Timed.lean`) and of the decoders
(`Model/TimedCodecs.lean`): every iteration of the search for a delimiter; every comparison of a range of the
input with an expected text, and every byte of the text if the range exists (whether or not the bytes differ
early); every header and every part.  Not counted: the conversion from charsets, the collection of the
parameters of a header, and copying.
-/
namespace EmailParser
namespace Timed

/-- `src/parsing/mime/entity.rs:159-186`: the alternatives, in order. -/
def entityHeader (c : Cfg) (input : Bytes) : TRes EntityHeader :=
  matchParsers input
    [ mapValue .encoding (contentTransferEncoding c),
      mapValue .type (contentType c),
      mapValue .id (contentId c),
      mapValue .description (contentDescription c),
      mapValue .disposition (contentDisposition c),
      mapValue (fun (name, value) => .other name value) (unknown c) ]

/-- `src/parsing/mime/entity.rs:133-234` (`header_part`). -/
def headerPart (c : Cfg) (input : Bytes) : Timed (Nat × EntityHeaders) := do
  let (input, headers) ← many input (entityHeader c)
  tick headers.length
  let headers := headers.foldl EntityHeaders.add {}
  if input.isEmpty then .ok (input.length, headers)
  else do
    let (input, ()) ← tag input (b! "\r\n")
      "TAG ERROR: A MIME entity header part must be followed by a CRLF sequence."
    .ok (input.length, headers)

/-- `src/parsing/mime/entity.rs:236-254` (`decode_value`). -/
def decodeValue (value : Bytes) (encoding : ContentTransferEncoding) : Timed Bytes :=
  match encoding with
  | .base64 => decodeBase64 value
  | .sevenBit => .ok value
  | .heightBit => .ok value
  | .quotedPrintable => decodeQp value
  | .unknown _ => .err (.unknown "Unknown format")
  | .binary => .ok value

/-- `src/parsing/mime/entity.rs:7-41` (`raw_entity`), for a borrowed input. -/
def rawEntity (c : Cfg) (input : Bytes) : Timed RawEntity := do
  let (len, h) ← headerPart c input
  let body ← Timed.lift (entityBody input len)
  let value ← decodeValue body (h.encoding.getD .sevenBit)
  let (mimeType, subtype, parameters) := h.mimeType.getD defaultType
  .ok { mimeType, subtype, description := h.description, id := h.id, parameters,
        disposition := h.disposition, value, additionalHeaders := h.additionalHeaders }

/-- `input.get(a..b) == Some(expected)`. -/
def sameRange (input : Bytes) (a b : Nat) (expected : Bytes) : Timed Bool := do
  tick 1
  match getRange input a b with
  | some range => do
    tick expected.length
    .ok (range == expected)
  | none => .ok false

/-- `x && y`. -/
def both (x y : Timed Bool) : Timed Bool := do
  let a ← x
  if a then y else .ok false

/-- `for idx in 0..input.len() { if condition { return Ok(idx) } }`
(`src/parsing/mime/multipart.rs:17-25` and `:48-56`). -/
def findIndex (condition : Nat → Timed Bool) : Nat → Nat → Timed (Option Nat)
  | _, 0 => .ok none
  | idx, n + 1 => do
    tick 1
    let found ← condition idx
    if found then .ok (some idx) else findIndex condition (idx + 1) n

/-- `src/parsing/mime/multipart.rs:9-12`: whether the input begins with the boundary. -/
def atBoundary (input boundary : Bytes) : Timed Bool :=
  let fullBoundaryLen := 2 + 2 + boundary.length + 2
  if fullBoundaryLen - 2 ≤ input.length then
    both (sameRange input 0 2 (b! "--")) <|
    both (sameRange input 2 (2 + boundary.length) boundary)
      (sameRange input (2 + boundary.length) (fullBoundaryLen - 2) (b! "\r\n"))
  else .ok false

/-- `src/parsing/mime/multipart.rs:5-28` (`before_boundary_idx`). -/
def beforeBoundaryIdx (input boundary : Bytes) : Timed (Nat × Nat) := do
  let fullBoundaryLen := 2 + 2 + boundary.length + 2
  let start ← atBoundary input boundary
  if start then .ok (0, fullBoundaryLen - 2)
  else do
    let found ← findIndex (fun idx =>
      both (sameRange input idx (idx + 4) (b! "\r\n--")) <|
      both (sameRange input (idx + 4) (idx + 4 + boundary.length) boundary)
        (sameRange input (idx + 4 + boundary.length) (idx + fullBoundaryLen) (b! "\r\n"))) 0 input.length
    match found with
    | some idx => .ok (idx, fullBoundaryLen)
    | none => .err (.unknown "boundary not found")

/-- `src/parsing/mime/multipart.rs:30-44` (`before_boundary`). -/
def beforeBoundary (boundary input : Bytes) : TRes Bytes := do
  let (before, len) ← beforeBoundaryIdx input boundary
  let rest ← Timed.lift (getUncheckedFrom input (before + len))
  let part ← Timed.lift (getUncheckedTo input before)
  .ok (rest, part)

/-- `src/parsing/mime/multipart.rs:46-59` (`before_closing_boundary_idx`). -/
def beforeClosingBoundaryIdx (input boundary : Bytes) : Timed (Nat × Nat) := do
  let fullBoundaryLen := 2 + 2 + boundary.length + 2 + 2
  let found ← findIndex (fun idx =>
      both (sameRange input idx (idx + 4) (b! "\r\n--")) <|
      both (sameRange input (idx + 4) (idx + 4 + boundary.length) boundary)
        (sameRange input (idx + 4 + boundary.length) (idx + fullBoundaryLen) (b! "--\r\n"))) 0 input.length
  match found with
  | some idx => .ok (idx, fullBoundaryLen)
  | none => .err (.unknown "closing boundary not found")

/-- `src/parsing/mime/multipart.rs:61-75` (`before_closing_boundary`). -/
def beforeClosingBoundary (boundary input : Bytes) : TRes Bytes := do
  let (before, len) ← beforeClosingBoundaryIdx input boundary
  let rest ← Timed.lift (getUncheckedFrom input (before + len))
  let part ← Timed.lift (getUncheckedTo input before)
  .ok (rest, part)

/-- `src/parsing/mime/multipart.rs:89-92`: parse the parts, stopping at the first error. -/
def rawEntities (c : Cfg) : List Bytes → Timed (List RawEntity)
  | [] => .ok []
  | part :: parts => do
    tick 1
    let e ← rawEntity c part
    let es ← rawEntities c parts
    .ok (e :: es)

/-- `src/parsing/mime/multipart.rs:84-87`: the byte ranges of the parts; `parts.remove(0)` moves all of
them. -/
def multipartParts (input boundary : Bytes) : Timed (List Bytes) := do
  let (input, parts) ← many input (beforeBoundary boundary)
  let (_epilogue, lastPart) ← beforeClosingBoundary boundary input
  tick parts.length
  match parts ++ [lastPart] with
  | _prelude :: parts => .ok parts
  | [] => .abort .panic

/-- `src/parsing/mime/multipart.rs:77-95` (`parse_multipart`). -/
def parseMultipart (c : Cfg) (input : Bytes) (parameters : Params) : Timed (List RawEntity) :=
  match parameters (b! "boundary") with
  | none => .err (.unknown "Missing boundary parameter")
  | some boundary => do
    let parts ← multipartParts input boundary
    rawEntities c parts

/-- `src/parsing/mime/entity.rs:43-92` (`entity`), called by `RawEntity::parse`
(`src/mime.rs:27-29`). -/
def entity (c : Cfg) (raw : RawEntity) : Timed Entity :=
  if raw.mimeType = .multipart then do
    let content ← parseMultipart c raw.value raw.parameters
    .ok (.multipart raw.subtype content)
  else if raw.mimeType = .text then
    match raw.parameters (b! "charset") with
    | some charset =>
      match decodeCharset c (c.toLowercase charset) raw.value with
      | some text => do
        let value ← Timed.lift text
        .ok (.text raw.subtype value)
      | none => .ok .unknown
    | none => .ok .unknown
  else .ok .unknown

end Timed
end EmailParser
