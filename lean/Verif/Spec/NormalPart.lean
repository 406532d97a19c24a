import Verif.Spec.NormalMime
import Verif.Spec.Part
/-
Parts of multipart messages whose texts and parameters may contain any characters, and the canonical text of a part that
has been read.  Nothing here refers to the parsers.
-/
namespace EmailParser.Spec

/-- The text of a part. -/
def MailPart.unicode (f : Features) (p : MailPart) : Bytes :=
  p.headers.flatMap (MailHeader.unicode f) ++ (CRLF ++ encodeBody p.encoding p.body)

/-- Headers of a part that can be written.  A header that is not one of those that have a meaning in parts may have any
other name. -/
def MailHeader.PartEncodable (c : Cfg) : MailHeader → Prop
  | .other name value => name ≠ [] ∧ (∀ b ∈ name, ftext b = true) ∧ name.map asciiLower ∉ partNames ∧
      UnicodeText c.feat.unrecognizedHeaders value
  | h => h.Encodable c

/-- Parts that can be written. -/
def MailPart.Encodable (c : Cfg) (p : MailPart) : Prop := ∀ h ∈ p.headers, h.PartEncodable c

/-- The names of all parameters of a part. -/
def Listing.OfPart (l : Listing) (r : RawEntity) : Prop :=
  Listed l.type r.parameters ∧ ∀ d, r.disposition = some d → Listed l.disposition d.unstructured

/-- The part that says what has been read.  The body is not encoded. -/
def partOf (l : Listing) (r : RawEntity) : MailPart where
  contentType := some (typeAt l r)
  contentId := r.id
  description := r.description
  disposition := r.disposition.map (dispositionAt l)
  others := r.additionalHeaders
  body := r.value

/-- No additional header has the name of a header that has a meaning. -/
def PartUnderstood (r : RawEntity) : Prop := ∀ v ∈ r.additionalHeaders, v.1.map asciiLower ∉ partNames

/-- The message with the given parts as its body. -/
def Letter.withParts (f : Features) (m : Letter) (boundary : Bytes) (first : MailPart) (others : List MailPart) : Letter :=
  { m with
    contentType := some ⟨b! "multipart", b! "mixed", [(b! "boundary", boundary)]⟩
    body := some (joinParts boundary none (first.unicode f) (others.map (MailPart.unicode f)) []) }

end EmailParser.Spec
