import Verif.Model.Base64
import Verif.Model.QuotedPrintable
import Verif.Model.Whitespaces
/-
Model of src/parsing/mime/encoded_headers.rs, and of the charset tables that occur three times in
the code.
-/
namespace EmailParser

/-- The charset names handed to the crate `textcode`
(`src/parsing/mime/encoded_headers.rs:94-110`, `src/parsing/mime/percent_encoding.rs:75-91`,
`src/parsing/mime/entity.rs:64-80`; the three tables are identical). -/
def textcodeTable : List (Bytes × Textcode) :=
  [ (b! "iso-8859-1", .iso8859_1), (b! "iso-8859-2", .iso8859_2), (b! "iso-8859-3", .iso8859_3),
    (b! "iso-8859-4", .iso8859_4), (b! "iso-8859-5", .iso8859_5), (b! "iso-8859-6", .iso8859_6),
    (b! "iso-8859-7", .iso8859_7), (b! "iso-8859-8", .iso8859_8), (b! "iso-8859-9", .iso8859_9),
    (b! "iso-8859-10", .iso8859_10), (b! "iso-8859-11", .iso8859_11),
    (b! "iso-8859-13", .iso8859_13), (b! "iso-8859-14", .iso8859_14),
    (b! "iso-8859-15", .iso8859_15), (b! "iso-8859-16", .iso8859_16),
    (b! "iso-6937", .iso6937), (b! "gb2312", .gb2312) ]

/-- The `match charset.as_ref() { … }` at the places listed at `textcodeTable`; `none` is the
catch-all arm, which differs from place to place. -/
def decodeCharset (c : Cfg) (charset value : Bytes) : Option (Outcome Bytes) :=
  if charset == b! "utf-8" || charset == b! "us-ascii" then
    some (if utf8Valid value then .ok value else .err (.unknown "Invalid text encoding"))
  else
    match textcodeTable.lookup charset with
    | some t => some (.ok (c.textcode t value))
    | none => none

/-- `src/parsing/common.rs:4-15` (`lowercase`).  The code lowers ASCII letters if some character is
uppercase in the sense of Unicode and returns the value unchanged otherwise; as `A`-`Z` are
uppercase in that sense, the content is the ASCII-lowercased content in both cases. -/
def lowercase (value : Bytes) : Bytes := value.map asciiLower

/-- `src/parsing/mime/encoded_headers.rs:8-26` (`especials`). -/
def especials (c : UInt8) : Bool :=
  c == 40 /- ( -/ || c == 41 /- ) -/ || c == 60 /- < -/ || c == 62 /- > -/ || c == 64 /- @ -/
    || c == 44 /- , -/ || c == 59 /- ; -/ || c == 58 /- : -/ || c == 92 /- \ -/ || c == 34 /- " -/
    || c == 47 /- / -/ || c == 91 /- [ -/ || c == 93 /- ] -/ || c == 63 /- ? -/ || c == 46 /- . -/
    || c == 61 /- = -/

/-- `src/parsing/mime/encoded_headers.rs:28-34` (`charset`). -/
def charset (input : Bytes) : Res Bytes := do
  let (input, charset) ←
    takeWhile1 input fun c => c > 0x20 && c < 0x7F && !especials c && c != 42
  .ok (input, lowercase charset)

/-- `src/parsing/mime/encoded_headers.rs:36-40` (`encoding`). -/
def encoding (input : Bytes) : Res Bytes := do
  let (input, encoding) ← takeWhile1 input fun c => c > 0x20 && c < 0x7F && !especials c
  .ok (input, lowercase encoding)

/-- `src/parsing/mime/encoded_headers.rs:42-44` (`encoded_text`). -/
def encodedText (input : Bytes) : Res Bytes :=
  takeWhile1 input fun c => c > 0x20 && c ≤ 0x7E && c != 63

/-- `src/parsing/mime/encoded_headers.rs:83-112`: decoding the contents of an encoded word. -/
def decodeWord (c : Cfg) (charset encoding data : Bytes) : Outcome Bytes := do
  let value ← decodeTransfer encoding data
  match decodeCharset c charset value with
  | some text => text
  | none => .err (.unknown "Unknown charset")
where
  /-- `src/parsing/mime/encoded_headers.rs:83-87` -/
  decodeTransfer (encoding data : Bytes) : Outcome Bytes :=
    if encoding == b! "b" then decodeBase64 data
    else if encoding == b! "q" then decodeHeaderQp data
    else .err (.unknown "Unknown encoding")

/-- `src/parsing/mime/encoded_headers.rs:46-115` (`encoded_word`). -/
def encodedWord (c : Cfg) (input : Bytes) : Res Bytes := do
  let (input, ()) ← tag input (b! "=?") "TAG ERROR: An encoded word must start with `=?`."
  let (input, charset) ← charset input
  let (input, _language) ← optional input fun input =>
    pair input
      (fun input => tag input (b! "*")
        "TAG ERROR: In an encoded word with encoding, a charset must be followed by a `*`.")
      encoding
  let (input, ()) ← tag input (b! "?")
    "TAG ERROR: In an encoded word, a language must be followed by a `?`."
  let (input, encoding) ← encoding input
  let (input, ()) ← tag input (b! "?")
    "TAG ERROR: In an encoded word, a encoding must be followed by a `?`."
  let (input, data) ← encodedText input
  let (input, ()) ← tag input (b! "?=") "TAG ERROR: An encoded word must end with `?=`."
  let text ← decodeWord c charset encoding data
  .ok (input, text)

end EmailParser
