import Verif.Model.Cow
import Verif.Model.Entity
/-
What ownership must not change: the contents of values, and where borrowed strings may point.
-/
namespace EmailParser.Spec

/-- The string points into the bytes `lo, …, hi - 1`, or is not borrowed, or is empty. -/
def Within (lo hi : Nat) : CowStr → Prop
  | .borrowed addr len => len = 0 ∨ (lo ≤ addr ∧ addr + len ≤ hi)
  | .owned _ => True

instance (lo hi : Nat) : DecidablePred (Within lo hi)
  | .borrowed _ _ => inferInstanceAs (Decidable (_ ∨ _))
  | .owned _ => isTrue trivial

/-- The string is owned, so it does not refer to other memory. -/
def Owned : CowStr → Prop
  | .borrowed _ _ => False
  | .owned _ => True

/-- The contents of values, as the rest of the model describes them. -/
def cowContentType (m : Memory) : CowContentType → ContentType
  | .text => .text
  | .image => .image
  | .audio => .audio
  | .video => .video
  | .application => .application
  | .message => .message
  | .multipart => .multipart
  | .unknown name => .unknown (name.content m)

def cowDispositionType (m : Memory) : CowDispositionType → DispositionType
  | .inline => .inline
  | .attachment => .attachment
  | .unknown name => .unknown (name.content m)

def cowTransferEncoding (m : Memory) : CowTransferEncoding → ContentTransferEncoding
  | .sevenBit => .sevenBit
  | .heightBit => .heightBit
  | .binary => .binary
  | .quotedPrintable => .quotedPrintable
  | .base64 => .base64
  | .unknown name => .unknown (name.content m)

def cowPairs (m : Memory) (entries : List (CowStr × CowStr)) : List (Bytes × Bytes) :=
  entries.map fun (n, v) => (n.content m, v.content m)

/-- `HashMap::get`, for a map with the given entries. -/
def cowParams (m : Memory) (entries : List (CowStr × CowStr)) : Params := fun n => (cowPairs m entries).lookup n

def cowDisposition (m : Memory) (d : CowDisposition) : Disposition where
  dispositionType := cowDispositionType m d.dispositionType
  filename := d.filename.map (CowStr.content m)
  creationDate := d.creationDate
  modificationDate := d.modificationDate
  readDate := d.readDate
  unstructured := cowParams m d.unstructured

def cowHeaders (m : Memory) (h : CowHeaderPart) : EntityHeaders where
  encoding := some (cowTransferEncoding m h.encoding)
  mimeType := some (cowContentType m h.mimeType, h.subtype.content m, cowParams m h.parameters)
  id := h.id.map fun (f, l) => (f.content m, l.content m)
  description := h.description.map (CowStr.content m)
  disposition := h.disposition.map (cowDisposition m)
  additionalHeaders := cowPairs m h.additionalHeaders

/-- The strings of a value. -/
def contentTypeStrings : CowContentType → List CowStr
  | .unknown name => [name]
  | _ => []

def dispositionTypeStrings : CowDispositionType → List CowStr
  | .unknown name => [name]
  | _ => []

def transferEncodingStrings : CowTransferEncoding → List CowStr
  | .unknown name => [name]
  | _ => []

def pairStrings (entries : List (CowStr × CowStr)) : List CowStr := entries.flatMap fun (n, v) => [n, v]

def dispositionStrings (d : CowDisposition) : List CowStr :=
  dispositionTypeStrings d.dispositionType ++ d.filename.toList ++ pairStrings d.unstructured

def headerStrings (h : CowHeaderPart) : List CowStr :=
  transferEncodingStrings h.encoding ++ contentTypeStrings h.mimeType ++ [h.subtype] ++ pairStrings h.parameters ++
    pairStrings h.additionalHeaders ++ pairStrings h.id.toList ++ h.description.toList ++
    (h.disposition.map dispositionStrings).getD []

end EmailParser.Spec
