import Verif.Spec.Fields
import Verif.Model.Entity
/-
MIME entities and multipart bodies (RFC 2045, RFC 2046 5.1).  From the model it uses only the data
types of the results.
-/
namespace EmailParser.Spec
open Gram

/-- One header of a MIME part; other headers are kept as text. -/
def EntityHeaderG (c : Cfg) : Gram EntityHeader := fun w h =>
  match h with
  | .encoding v => HeaderLine (b! "Content-Transfer-Encoding:") TransferEncodingG w v
  | .type v => HeaderLine (b! "Content-Type:") (ContentTypeG c) w v
  | .id v => HeaderLine (b! "Content-ID:") (MessageId c.feat.compatibilityFixes) w v
  | .description v => HeaderLine (b! "Content-Description:") (MimeUnstructured c) w v
  | .disposition v => HeaderLine (b! "Content-Disposition:") (DispositionG c) w v
  | .other name value => OptionalField c w (name, value)

/-- RFC 2046 5.1: a body part is headers, then an empty line and a body, or nothing. -/
def PartText (c : Cfg) (w : Bytes) (headers : List EntityHeader) (body : Bytes) : Prop :=
  ∃ head, star (EntityHeaderG c) head headers ∧
    ((w = head ∧ body = []) ∨ w = head ++ CRLF ++ body)

/-- The line that begins a part: `--boundary`, without the preceding line break. -/
def dashBoundary (b : Bytes) : Bytes := [45, 45] ++ b

/-- RFC 2046 5.1: a delimiter between parts, with its line breaks. -/
def delimiter (b : Bytes) : Bytes := CRLF ++ dashBoundary b ++ CRLF

/-- RFC 2046 5.1: the delimiter after the last part; the code requires the line break after it. -/
def closeDelimiter (b : Bytes) : Bytes := CRLF ++ dashBoundary b ++ [45, 45] ++ CRLF

/-- `w` occurs in `i` at position `k`. -/
def OccursAt (w i : Bytes) (k : Nat) : Prop := w <+: i.drop k

/-- `w` occurs in `i`. -/
def Occurs (w i : Bytes) : Prop := ∃ k, OccursAt w i k

/-- `p` is what precedes the first occurrence of `w` in `i`, and `rest` what follows it. -/
def FirstOccurrence (w i p rest : Bytes) : Prop :=
  i = p ++ w ++ rest ∧ ∀ k, k < p.length → ¬ OccursAt w i k

/-- `i` is cut at each delimiter into `pieces` followed by `rest`.  A boundary line without
preceding line break is a delimiter at the very beginning of what remains. -/
inductive Cut (b : Bytes) : Bytes → List Bytes → Bytes → Prop
  | stop {rest} : ¬ (dashBoundary b ++ CRLF <+: rest) → ¬ Occurs (delimiter b) rest →
      Cut b rest [] rest
  | start {i ps rest} : Cut b i ps rest → Cut b (dashBoundary b ++ CRLF ++ i) ([] :: ps) rest
  | next {i p i' ps rest} : ¬ (dashBoundary b ++ CRLF <+: i) →
      FirstOccurrence (delimiter b) i p i' → Cut b i' ps rest → Cut b i (p :: ps) rest

/-- The body `i` is a preamble, parts and an epilogue, separated by the delimiters. -/
def MultipartText (b i : Bytes) (parts : List Bytes) : Prop :=
  ∃ preamble pieces rest last epilogue, Cut b i pieces rest ∧
    FirstOccurrence (closeDelimiter b) rest last epilogue ∧
    pieces ++ [last] = preamble :: parts

/-- No line of `t` starts with `--boundary`. -/
def NoBoundaryLine (b t : Bytes) : Prop := ¬ (CRLF ++ dashBoundary b <:+: CRLF ++ t)

/-- The parts after the first delimiter, and the epilogue. -/
def joinRest (b part : Bytes) : List Bytes → Bytes → Bytes
  | [], epilogue => part ++ (closeDelimiter b ++ epilogue)
  | next :: parts, epilogue => part ++ (delimiter b ++ joinRest b next parts epilogue)

/-- RFC 2046 5.1: a multipart body made of a preamble, a first part, further parts and an
epilogue.  Without preamble the body starts with the boundary line. -/
def joinParts (b : Bytes) (preamble : Option Bytes) (part : Bytes) (parts : List Bytes)
    (epilogue : Bytes) : Bytes :=
  match preamble with
  | none => dashBoundary b ++ CRLF ++ joinRest b part parts epilogue
  | some p => p ++ (delimiter b ++ joinRest b part parts epilogue)

end EmailParser.Spec
