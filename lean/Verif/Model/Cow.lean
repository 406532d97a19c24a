import Verif.Model.MimeFields
/-
Model of src/string.rs: `Cow<str>` values with their ownership, and of the `into_owned` functions of
src/mime.rs.

The rest of the model keeps only the contents of strings; the theorems about this file justify that.
-/
namespace EmailParser

/-- The bytes stored at each address.  Only the addresses of live allocations are meaningful. -/
abbrev Memory := Nat → UInt8

/-- The `len` bytes starting at an address. -/
def Memory.read (m : Memory) (addr len : Nat) : Bytes := (List.range len).map fun i => m (addr + i)

/-- `Cow<str>`: a reference (address and length) or an owned `String`. -/
inductive CowStr where
  | borrowed (addr len : Nat)
  | owned (content : Bytes)
deriving DecidableEq, Repr

/-- The text of a `Cow<str>` (`Deref for Cow<str>`). -/
def CowStr.content (m : Memory) : CowStr → Bytes
  | .borrowed addr len => m.read addr len
  | .owned content => content

/-- `src/string.rs:3-6` (`empty_string`); the address of the literal `""` is arbitrary. -/
def emptyString (addr : Nat) : CowStr := .borrowed addr 0

/-- `src/string.rs:8-11` (`from_slice`), for the slice of length `len` at `addr`. -/
def fromSlice (addr len : Nat) : CowStr := .borrowed addr len

/-- `src/string.rs:13-42` (`add_string`): the new value of `s1`. -/
def addString (m : Memory) (s1 s2 : CowStr) : CowStr :=
  match s1 with
  | .borrowed addr1 len1 =>
    match s2 with
    | .borrowed addr2 len2 =>
      if len2 = 0 then s1
      else if len1 = 0 then .borrowed addr2 len2
      else if addr1 + len1 = addr2 then .borrowed addr1 (len1 + len2)
      else .owned (s1.content m ++ s2.content m)
    | .owned _ => .owned (s1.content m ++ s2.content m)
  | .owned string => .owned (string ++ s2.content m)

/-- `src/string.rs:44-70` (`add_str`): the new value of `s1`; `s2` is the reference
`(addr2, len2)`. -/
def addStr (m : Memory) (s1 : CowStr) (addr2 len2 : Nat) : CowStr :=
  match s1 with
  | .borrowed addr1 len1 =>
    if len2 = 0 then s1
    else if len1 = 0 then .borrowed addr2 len2
    else if addr1 + len1 = addr2 then .borrowed addr1 (len1 + len2)
    else .owned (s1.content m ++ m.read addr2 len2)
  | .owned string => .owned (string ++ m.read addr2 len2)

/-- `Cow::into_owned` of the standard library, rewrapped in `Cow::Owned`. -/
def CowStr.intoOwned (m : Memory) (s : CowStr) : CowStr := .owned (s.content m)

/-- `ContentType` (`src/mime.rs:52-62`) with the ownership of its string. -/
inductive CowContentType where
  | text | image | audio | video | application | message | multipart
  | unknown (name : CowStr)
deriving DecidableEq, Repr

/-- `src/mime.rs:68-82` (`ContentType::into_owned`). -/
def CowContentType.intoOwned (m : Memory) : CowContentType → CowContentType
  | .text => .text
  | .image => .image
  | .audio => .audio
  | .video => .video
  | .application => .application
  | .message => .message
  | .multipart => .multipart
  | .unknown (.owned value) => .unknown (.owned value)
  | .unknown (.borrowed addr len) => .unknown (.owned (m.read addr len))

/-- `DispositionType` (`src/mime.rs:87-98`) with the ownership of its string. -/
inductive CowDispositionType where
  | inline | attachment
  | unknown (name : CowStr)
deriving DecidableEq, Repr

/-- `src/mime.rs:104-115` (`DispositionType::into_owned`). -/
def CowDispositionType.intoOwned (m : Memory) : CowDispositionType → CowDispositionType
  | .inline => .inline
  | .attachment => .attachment
  | .unknown (.owned value) => .unknown (.owned value)
  | .unknown (.borrowed addr len) => .unknown (.owned (m.read addr len))

/-- `ContentTransferEncoding` (`src/mime.rs:167-175`) with the ownership of its string. -/
inductive CowTransferEncoding where
  | sevenBit | heightBit | binary | quotedPrintable | base64
  | unknown (name : CowStr)
deriving DecidableEq, Repr

/-- `src/mime.rs:181-195` (`ContentTransferEncoding::into_owned`). -/
def CowTransferEncoding.intoOwned (m : Memory) : CowTransferEncoding → CowTransferEncoding
  | .sevenBit => .sevenBit
  | .heightBit => .heightBit
  | .binary => .binary
  | .quotedPrintable => .quotedPrintable
  | .base64 => .base64
  | .unknown (.owned value) => .unknown (.owned value)
  | .unknown (.borrowed addr len) => .unknown (.owned (m.read addr len))

/-- `.into_iter().map(|(n, v)| (Cow::Owned(n.into_owned()), Cow::Owned(v.into_owned()))).collect()`
(`src/mime.rs:142-147`, `src/parsing/mime/entity.rs:120-125`), for the entries of a `HashMap` in some order, or of a
`Vec`. -/
def intoOwnedPairs (m : Memory) (entries : List (CowStr × CowStr)) : List (CowStr × CowStr) :=
  entries.map fun (n, v) => (n.intoOwned m, v.intoOwned m)

/-- `Disposition` (`src/mime.rs:121-129`) with the ownership of its strings; `unstructured` is the
list of entries of the `HashMap` in some order. -/
structure CowDisposition where
  dispositionType : CowDispositionType
  filename : Option CowStr
  creationDate : Option DateTime
  modificationDate : Option DateTime
  readDate : Option DateTime
  unstructured : List (CowStr × CowStr)
deriving DecidableEq, Repr

/-- `src/mime.rs:134-149` (`Disposition::into_owned`). -/
def CowDisposition.intoOwned (m : Memory) (d : CowDisposition) : CowDisposition where
  dispositionType := d.dispositionType.intoOwned m
  filename := d.filename.map (CowStr.intoOwned m)
  creationDate := d.creationDate
  modificationDate := d.modificationDate
  readDate := d.readDate
  unstructured := intoOwnedPairs m d.unstructured

/-- The result of `header_part` (`src/parsing/mime/entity.rs:133-150`) with the ownership of its strings. -/
structure CowHeaderPart where
  encoding : CowTransferEncoding
  mimeType : CowContentType
  subtype : CowStr
  parameters : List (CowStr × CowStr)
  additionalHeaders : List (CowStr × CowStr)
  id : Option (CowStr × CowStr)
  description : Option CowStr
  disposition : Option CowDisposition
deriving DecidableEq, Repr

/-- `src/parsing/mime/entity.rs:114-130` (`header_part_owned`, after the call of `header_part`). -/
def CowHeaderPart.intoOwned (m : Memory) (h : CowHeaderPart) : CowHeaderPart where
  encoding := h.encoding.intoOwned m
  mimeType := h.mimeType.intoOwned m
  subtype := h.subtype.intoOwned m
  parameters := intoOwnedPairs m h.parameters
  additionalHeaders := intoOwnedPairs m h.additionalHeaders
  id := h.id.map fun (f, l) => (f.intoOwned m, l.intoOwned m)
  description := h.description.map (CowStr.intoOwned m)
  disposition := h.disposition.map (CowDisposition.intoOwned m)

end EmailParser
