import Verif.Spec.Normal
import Verif.Spec.Unicode
/-
The canonical text of an e-mail, with MIME: what has been read, written again in a simple way.  Nothing here refers to
the parsers.
-/
namespace EmailParser.Spec

/-- The name of a type. -/
def typeName : ContentType → Bytes
  | .text => b! "text"
  | .image => b! "image"
  | .audio => b! "audio"
  | .video => b! "video"
  | .application => b! "application"
  | .message => b! "message"
  | .multipart => b! "multipart"
  | .unknown name => name

/-- The name of a disposition. -/
def dispositionName : DispositionType → Bytes
  | .inline => b! "inline"
  | .attachment => b! "attachment"
  | .unknown name => name

/-- The parameters with the given names.  (The parameters of an e-mail are a map, whose order is not known.) -/
def paramsAt (names : List Bytes) (p : Params) : List (Bytes × Bytes) := names.filterMap fun n => (p n).map (n, ·)

/-- All parameters have one of the names. -/
def Listed (names : List Bytes) (p : Params) : Prop := ∀ n, p n ≠ none → n ∈ names

/-- The names of the parameters of an e-mail: of its content type, and of its disposition. -/
structure Listing where
  type : List Bytes
  disposition : List Bytes

/-- It is complete. -/
def Listing.Of (l : Listing) (e : Email) : Prop :=
  ∀ r, e.mimeEntity = some r → Listed l.type r.parameters ∧ ∀ d, r.disposition = some d → Listed l.disposition d.unstructured

def typeAt (l : Listing) (r : RawEntity) : MailType := ⟨typeName r.mimeType, r.subtype, paramsAt l.type r.parameters⟩

def dispositionAt (l : Listing) (d : Disposition) : MailDisposition :=
  ⟨dispositionName d.dispositionType, d.filename, d.creationDate, d.modificationDate, d.readDate,
    paramsAt l.disposition d.unstructured⟩

/-- The letter that says what the e-mail says.  The body is not encoded. -/
def mimeLetterOf (l : Listing) (e : Email) : Letter :=
  { letterOf e with
    contentType := e.mimeEntity.map (typeAt l)
    contentId := e.mimeEntity.bind (·.id)
    description := e.mimeEntity.bind (·.description)
    disposition := (e.mimeEntity.bind (·.disposition)).map (dispositionAt l)
    body := (e.mimeEntity.map (·.value)).or e.body }

/-- The canonical text. -/
def mimeCanonical (f : Features) (l : Listing) (e : Email) : Bytes := (mimeLetterOf l e).unicode f

end EmailParser.Spec
