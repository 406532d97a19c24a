import Verif.Spec.Exact
import Verif.Spec.Part
/-
Which reading of a `Content-Disposition` header counts, and what the header lines of the parts of messages denote.
RFC 2183 gives some parameters a date as value, but such a parameter is also one of the form of RFC 2045: it is a date
whenever it can be.  Nothing here refers to the parsers.
-/
namespace EmailParser.Spec

/-! ### Content-Disposition -/

/-- The parameters that are dates. -/
def dateParams : List Bytes := [b! "creation-date", b! "modification-date", b! "read-date"]

/-- The text begins with a parameter that is a date. -/
def BeginsWithDate (w : Bytes) : Prop :=
  ∃ name ∈ dateParams, ∃ x r d, w = x ++ r ∧ DateParam name x d

/-- Parameters of a disposition before the text `e`: those that can be dates are. -/
inductive DatesFirst (e : Bytes) : Bytes → List DispositionItem → Prop
  | nil : DatesFirst e [] []
  | cons {w s v vs} : DispositionParam w v → (∀ p, v = .parameter p → ¬ BeginsWithDate (w ++ (s ++ e))) →
      DatesFirst e s vs → DatesFirst e (w ++ s) (v :: vs)

/-- The disposition made of a type and parameters, of which the last of each kind counts. -/
def dispositionFrom (type : DispositionType) (items : List DispositionItem) (params : Params) : Disposition :=
  { dispositionType := type
    filename := (items.filterMap fun | .filename v => some v | _ => none).getLast?
    creationDate := (items.filterMap fun | .creationDate d => some d | _ => none).getLast?
    modificationDate := (items.filterMap fun | .modificationDate d => some d | _ => none).getLast?
    readDate := (items.filterMap fun | .readDate d => some d | _ => none).getLast?
    unstructured := params }

/-- A parameter that is neither a file name nor a date. -/
def paramOf : DispositionItem → Option RawParam
  | .parameter p => some p
  | _ => none

/-- The value of a `Content-Disposition` header: a reading of the grammar in which the parameters that can be dates
are. -/
def DispositionL (c : Cfg) (w : Bytes) (v : Disposition) : Prop :=
  ∃ g type t s items params e, w = g ++ (type ++ (s ++ e)) ∧ OptCfws g () ∧ NamedOr dispositionNames .unknown type t ∧
    DatesFirst e s items ∧
    (∀ name, ParamValue c (items.filterMap paramOf) name (params name)) ∧
    InlineCfws e () ∧ v = dispositionFrom t items params

/-- A beginning of the line is a disposition. -/
def BeginsWithDisposition (c : Cfg) (name l : Bytes) : Prop :=
  ∃ w r v, l = name ++ b! ":" ++ w ++ CRLF ++ r ∧ DispositionL c w v

/-- What a header line denotes, dispositions included. -/
inductive DenotesHeader (c : Cfg) : Bytes → Field → Prop
  | mime {l f} : DenotesMime c l f → DenotesHeader c l f
  | disposition {name x w l v} : HeaderText name x w l → c.feat.mime = true → Fits c w →
      name.map asciiLower = b! "content-disposition" → DispositionL c w v → DenotesHeader c l (.contentDisposition v)
  | text {name x w l v} : HeaderText name x w l → c.feat.mime = true → Fits c w →
      name.map asciiLower = b! "content-disposition" → ¬ BeginsWithDisposition c name l →
      TextL c c.feat.unrecognizedHeaders w v → DenotesHeader c l (.unknown name v)

/-! ### Parts -/

/-- What a header line of a part denotes: what it denotes in a message if it has the name of a header that has a meaning
in parts, otherwise its name and its text. -/
inductive DenotesPart (c : Cfg) : Bytes → EntityHeader → Prop
  | known {name x w l h} : HeaderText name x w l → name.map asciiLower ∈ partNames → DenotesHeader c l (partField h) →
      DenotesPart c l h
  | other {name x w l v} : HeaderText name x w l → name.map asciiLower ∉ partNames →
      TextL c c.feat.unrecognizedHeaders w v → DenotesPart c l (.other name v)

end EmailParser.Spec
