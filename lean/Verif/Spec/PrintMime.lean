import Verif.Spec.Print
import Verif.Spec.Mime
/-
How MIME headers with parameters are written.  Nothing here refers to the parsers.
-/
namespace EmailParser.Spec

/-- A parameter of a MIME header as it is written: white space and comments before and after the
semicolon, the name, the number of the segment (RFC 2231), the mark of encoded segments, and the
value, between quotation marks or not. -/
structure WrittenParam where
  before : Bytes
  after : Bytes
  name : Bytes
  index : Option Nat
  encoded : Bool
  quoted : Bool
  value : Bytes

/-- The end of the name: number and mark. -/
def printSection (index : Option Nat) (encoded : Bool) : Bytes :=
  (match index with
    | some k => b! "*" ++ printNat k
    | none => []) ++
  (if encoded then b! "*" else [])

/-- The text of a value. -/
def printValue (quoted : Bool) (value : Bytes) : Bytes := if quoted then quote value else value

/-- From the semicolon on. -/
def WrittenParam.tail (p : WrittenParam) : Bytes :=
  b! ";" ++ (p.after ++ (p.name ++ (printSection p.index p.encoded ++ (b! "=" ++
    printValue p.quoted p.value))))

/-- The text of a parameter. -/
def WrittenParam.text (p : WrittenParam) : Bytes := p.before ++ p.tail

/-- What the text of a parameter says. -/
def WrittenParam.raw (p : WrittenParam) : RawParam :=
  { name := p.name.map asciiLower, index := p.index, encoded := p.encoded, value := p.value }

/-- What can be written as value: between quotation marks any printable text, else a token. -/
def ValidValue (quoted : Bool) (value : Bytes) : Prop :=
  if quoted then Printable value else value ≠ [] ∧ ∀ b ∈ value, tokenChar b = true

/-- A parameter that can be written: the name is a token without `*`, or one in which the `*` cannot be taken for the
beginning of a number or for a mark; the number is below 256. -/
structure WrittenParam.Valid (c : Cfg) (p : WrittenParam) : Prop where
  before : Gap c p.before ()
  after : Gap c p.after ()
  nonempty : p.name ≠ []
  token : ∀ b ∈ p.name, tokenChar b = true
  stars : 42 ∉ p.name ∨ (p.index = none ∧ p.encoded = false ∧ ∀ v, ¬ ExtendedName p.name v)
  index : ∀ k, p.index = some k → k < 256
  value : ValidValue p.quoted p.value

/-- A parameter in the usual form: a space after the semicolon, the value between quotation marks. -/
def plainWritten (p : Bytes × Bytes) : WrittenParam :=
  { before := [], after := b! " ", name := p.1, index := none, encoded := false, quoted := true,
    value := p.2 }

/-- The writer of RFC 2231: the pieces of a text as encoded segments of the parameter `name`. -/
def writtenSegments (keep : UInt8 → Bool) (name : Bytes) (pieces : List Bytes) (k : Nat) :
    List WrittenParam :=
  (pieces.zipIdx k).map fun x =>
    { before := [], after := b! " ", name, index := some x.2, encoded := true, quoted := false,
      value := (if x.2 = 0 then b! "utf-8''" else []) ++ pctEncode keep x.1 }

/-- A content type as it is written: `type/subtype; name="value"; …`. -/
def printContentType (type subtype : Bytes) (params : List (Bytes × Bytes)) : Bytes :=
  b! " " ++ type ++ b! "/" ++ subtype ++ params.flatMap fun p => (plainWritten p).text

/-- A name of a table of keywords, in any case; or a token no keyword is the beginning of. -/
def WrittenName {α : Type} (table : List (Bytes × α)) (other : Bytes → α) (w : Bytes) (v : α) : Prop :=
  (∃ s, (s, v) ∈ table ∧ w.map asciiLower = s) ∨
  (w ≠ [] ∧ (∀ b ∈ w, tokenChar b = true) ∧ (∀ e ∈ table, ¬ (e.1 <+: w.map asciiLower)) ∧
    v = other (w.map asciiLower))

/-- RFC 2183 2.4-2.6: the parameters of a disposition that are dates. -/
inductive DateKind where
  | creation | modification | read

/-- The names of these parameters. -/
def DateKind.name : DateKind → Bytes
  | .creation => b! "creation-date"
  | .modification => b! "modification-date"
  | .read => b! "read-date"

/-- What such a parameter says. -/
def DateKind.item (d : DateTime) : DateKind → DispositionItem
  | .creation => .creationDate d
  | .modification => .modificationDate d
  | .read => .readDate d

/-- A parameter of a disposition as it is written: a file name, a date or another parameter. -/
inductive WrittenItem where
  | filename (before after name : Bytes) (quoted : Bool) (value : Bytes)
  | date (kind : DateKind) (before after name : Bytes) (seconds : Bool) (value : DateTime)
  | other (p : WrittenParam)

/-- White space and comments before the semicolon. -/
def WrittenItem.before : WrittenItem → Bytes
  | .filename before .. => before
  | .date _ before .. => before
  | .other p => p.before

/-- From the semicolon on. -/
def WrittenItem.tail : WrittenItem → Bytes
  | .filename _ after name quoted value =>
    b! ";" ++ (after ++ (name ++ (b! "=" ++ printValue quoted value)))
  | .date _ _ after name seconds value =>
    b! ";" ++ (after ++ (name ++ (b! "=\"" ++ (printDate seconds value ++ b! "\""))))
  | .other p => p.tail

/-- The text of a parameter. -/
def WrittenItem.text (x : WrittenItem) : Bytes := x.before ++ x.tail

/-- What the text says. -/
def WrittenItem.item : WrittenItem → DispositionItem
  | .filename _ _ _ _ value => .filename value
  | .date kind _ _ _ _ value => kind.item value
  | .other p => .parameter p.raw

/-- The names of file names and dates are written in any case; no other parameter has such a name,
unless it is a segment or encoded. -/
def WrittenItem.Valid (c : Cfg) : WrittenItem → Prop
  | .filename before after name quoted value => Gap c before () ∧ Gap c after () ∧
      name.map asciiLower = b! "filename" ∧ ValidValue quoted value
  | .date kind before after name seconds value => Gap c before () ∧ Gap c after () ∧
      name.map asciiLower = kind.name ∧ InRange value ∧ (seconds = true ∨ value.time.time.second = 0)
  | .other p => p.Valid c ∧ (p.index = none → p.encoded = false →
      p.name.map asciiLower ≠ b! "filename" ∧ ∀ kind : DateKind, p.name.map asciiLower ≠ kind.name)

/-- The other parameters. -/
def otherParams (xs : List WrittenItem) : List RawParam :=
  xs.filterMap fun | .other p => some p.raw | _ => none

/-- The file name given by a parameter. -/
def itemFilename : DispositionItem → Option Bytes
  | .filename v => some v
  | _ => none

/-- The date of creation given by a parameter. -/
def itemCreation : DispositionItem → Option DateTime
  | .creationDate d => some d
  | _ => none

/-- The date of modification given by a parameter. -/
def itemModification : DispositionItem → Option DateTime
  | .modificationDate d => some d
  | _ => none

/-- The date of reading given by a parameter. -/
def itemRead : DispositionItem → Option DateTime
  | .readDate d => some d
  | _ => none

/-- What a list of parameters says about a disposition; the last occurrence counts. -/
def dispositionOf (type : DispositionType) (items : List DispositionItem) (params : Params) :
    Disposition where
  dispositionType := type
  filename := (items.filterMap itemFilename).getLast?
  creationDate := (items.filterMap itemCreation).getLast?
  modificationDate := (items.filterMap itemModification).getLast?
  readDate := (items.filterMap itemRead).getLast?
  unstructured := params

/-- A disposition in the usual form: `type; filename="…"; creation-date="…"; …; name="value"`. -/
def writtenDisposition (filename : Option Bytes) (creation modification read : Option DateTime)
    (params : List (Bytes × Bytes)) : List WrittenItem :=
  (filename.map fun x => WrittenItem.filename [] (b! " ") (b! "filename") true x).toList ++
  (creation.map fun d => WrittenItem.date .creation [] (b! " ") (b! "creation-date") true d).toList ++
  (modification.map fun d =>
    WrittenItem.date .modification [] (b! " ") (b! "modification-date") true d).toList ++
  (read.map fun d => WrittenItem.date .read [] (b! " ") (b! "read-date") true d).toList ++
  params.map fun p => WrittenItem.other (plainWritten p)

/-- The text of a disposition. -/
def printDisposition (type : Bytes) (filename : Option Bytes)
    (creation modification read : Option DateTime) (params : List (Bytes × Bytes)) : Bytes :=
  b! " " ++ type ++
    (writtenDisposition filename creation modification read params).flatMap WrittenItem.text

/-- The value of the last parameter with a name, in any case. -/
def lastValue (params : List (Bytes × Bytes)) (name : Bytes) : Option Bytes :=
  (lastWith (fun p => p.1.map asciiLower == name) params).map (·.2)

end EmailParser.Spec
