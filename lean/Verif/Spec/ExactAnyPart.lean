import Verif.Spec.ExactAll
import Verif.Spec.ExactParts
/-
Any MIME part at all, and any multipart body: what must be returned.  Nothing here refers to the parsers.
-/
namespace EmailParser.Spec

/-- What the header lines of a part mean, one by one. -/
inductive EachPart (c : Cfg) : List Bytes → List EntityHeader → Prop
  | nil : EachPart c [] []
  | cons {l h ls hs} : MeansPart c l h → EachPart c ls hs → EachPart c (l :: ls) (h :: hs)

/-- What must be returned for a part, `head` being its text before the first empty line and `tail` the rest. -/
inductive ReturnedPart (c : Cfg) (head tail : Bytes) : Outcome RawEntity → Prop
  /-- All is read and the body can be decoded. -/
  | read {ls hs body v} : MadeOf head ls → EachPart c ls hs → PartEnd tail body →
      decoding (partEncoding hs) body = .ok v → ReturnedPart c head tail (.ok (partValue hs v))
  /-- All is read, the body cannot be decoded. -/
  | undecodable {ls hs body e} : MadeOf head ls → EachPart c ls hs → PartEnd tail body →
      decoding (partEncoding hs) body = .err e → ReturnedPart c head tail (.err e)
  /-- Some line is read in part only. -/
  | cut {ls} : MadeOf head ls → (∀ hs, ¬ EachPart c ls hs) →
      ReturnedPart c head tail (.err (.explicit "TAG ERROR: A MIME entity header part must be followed by a CRLF sequence."))
  /-- Something else than header lines. -/
  | other : (∀ ls, ¬ MadeOf head ls) →
      ReturnedPart c head tail (.err (.explicit "TAG ERROR: A MIME entity header part must be followed by a CRLF sequence."))

/-- What must be returned for a list of parts: all of them, or the error of the first that has one. -/
inductive ReturnedParts (c : Cfg) : List Bytes → Outcome (List RawEntity) → Prop
  | nil : ReturnedParts c [] (.ok [])
  | cons {p head tail e ps es} : Split p head tail → ReturnedPart c head tail (.ok e) → ReturnedParts c ps (.ok es) →
      ReturnedParts c (p :: ps) (.ok (e :: es))
  | later {p head tail e ps x} : Split p head tail → ReturnedPart c head tail (.ok e) → ReturnedParts c ps (.err x) →
      ReturnedParts c (p :: ps) (.err x)
  | first {p head tail ps x} : Split p head tail → ReturnedPart c head tail (.err x) → ReturnedParts c (p :: ps) (.err x)

/-- What must be returned for a multipart entity. -/
inductive ReturnedMultipart (c : Cfg) (raw : RawEntity) : Outcome Entity → Prop
  | parts {b ps es} : raw.parameters (b! "boundary") = some b → MultipartText b raw.value ps → ReturnedParts c ps (.ok es) →
      ReturnedMultipart c raw (.ok (.multipart raw.subtype es))
  | part {b ps x} : raw.parameters (b! "boundary") = some b → MultipartText b raw.value ps → ReturnedParts c ps (.err x) →
      ReturnedMultipart c raw (.err x)
  | text {b} : raw.parameters (b! "boundary") = some b → (∀ ps, ¬ MultipartText b raw.value ps) →
      ReturnedMultipart c raw (.err (.unknown "closing boundary not found"))
  | boundary : raw.parameters (b! "boundary") = none →
      ReturnedMultipart c raw (.err (.unknown "Missing boundary parameter"))

/-- A part whose header block has no white line and is within the limits of the program. -/
def PlainPart (c : Cfg) (p : Bytes) : Prop := ∀ head tail, Split p head tail → ¬ WhiteLine head ∧ Fits c head

end EmailParser.Spec
