import Verif.Spec.ExactWords
/-
Header lines of which only a beginning is read.  The program reads some headers (the MIME headers, and `Keywords` when
there are encoded words) only up to a line end where nothing that it knows continues them, even if the line is folded
there; such a message is then refused.  `CutL` says exactly when; `MeansLine` is what a line means otherwise.  Nothing
here refers to the parsers.
-/
namespace EmailParser.Spec

/-- The parameters do not end with a quoted value. -/
def BareEnd (s : Bytes) : Prop := ∀ y b, s = y ++ [b] → tokenChar b = true

/-- A `Content-Type` value that stands before the line end and the text `r`, where no other parameter begins. -/
def TypeCut (c : Cfg) (r w : Bytes) (v : ContentType × Bytes × Params) : Prop :=
  ∃ g type t subtype s ps params e, w = g ++ (type ++ (b! "/" ++ (subtype ++ (s ++ e)))) ∧ OptCfws g () ∧
    NamedOr typeNames .unknown type t ∧ Token subtype subtype ∧ Gram.star Parameter s ps ∧ BareEnd s ∧
    (∀ name, ParamValue c ps name (params name)) ∧ InlineCfws e () ∧ v = (t, subtype.map asciiLower, params) ∧
    ¬ StartsIn (fun _ => Parameter) (e ++ (CRLF ++ r))

/-- The parameters of a disposition end with a date or without quotes. -/
def DateOrBareEnd (s : Bytes) (items : List DispositionItem) : Prop :=
  (∃ d, items.getLast? = some (.creationDate d) ∨ items.getLast? = some (.modificationDate d) ∨
    items.getLast? = some (.readDate d)) ∨ BareEnd s

/-- A `Content-Disposition` value that stands before the line end and the text `r`, where no other parameter begins. -/
def DispositionCut (c : Cfg) (r w : Bytes) (v : Disposition) : Prop :=
  ∃ g type t s items params e, w = g ++ (type ++ (s ++ e)) ∧ OptCfws g () ∧ NamedOr dispositionNames .unknown type t ∧
    DatesFirst (e ++ (CRLF ++ r)) s items ∧ DateOrBareEnd s items ∧
    (∀ name, ParamValue c (items.filterMap paramOf) name (params name)) ∧
    InlineCfws e () ∧ v = dispositionFrom t items params ∧
    ¬ StartsIn (fun _ => DispositionParam) (e ++ (CRLF ++ r))

/-- One word of a phrase. -/
def OneWord (c : Cfg) (e w v : Bytes) : Prop := ∃ q, Phrases c e false w [v] q

/-- A keyword that stands before the text `e`, with which no other word begins and which does not begin with white space
that belongs to the last word. -/
def KeywordCut (c : Cfg) (e w : Bytes) (vs : List Bytes) : Prop :=
  vs ≠ [] ∧ ∃ q, Phrases c e false w vs q ∧ (q = true → ∀ b t, e = CRLF ++ b :: t → wsp b = false) ∧
    ¬ StartsIn (OneWord c) e

/-- The text `w` of a header with the given name, which stands before a line end and the text `r`, is read as the
field `f`, and `r` is not. -/
def CutL (c : Cfg) (name r w : Bytes) (f : Field) : Prop :=
  CutName c name ∧ headerOf f = some (name.map asciiLower) ∧ Recognized c.feat (name.map asciiLower) ∧
    match f with
    | .mimeVersion .. => FieldG c (name ++ b! ":" ++ w ++ CRLF) f
    | .contentTransferEncoding .. => FieldG c (name ++ b! ":" ++ w ++ CRLF) f
    | .contentType t st q => TypeCut c r w (t, st, q)
    | .contentDisposition v => DispositionCut c r w v
    | .keywords v => CommasE (KeywordCut c) (CRLF ++ r) w v
    | _ => False

/-- Only a beginning of the line is read. -/
def IsCut (c : Cfg) (name l : Bytes) : Prop :=
  ∃ w b r f, l = name ++ b! ":" ++ w ++ CRLF ++ b :: r ∧ wsp b = true ∧ CutL c name (b :: r) w f

/-- What a header line means. -/
inductive MeansLine (c : Cfg) : Bytes → Field → Prop
  | typed {name x w l f} : HeaderText name x w l → Fits c w → TypedL c name CRLF w f → MeansLine c l f
  | untyped {name x w l v} : HeaderText name x w l → Fits c w → Recognized c.feat (name.map asciiLower) →
      name.map asciiLower ∉ textHeaders → (∀ f, ¬ TypedL c name CRLF w f) → ¬ IsCut c name l →
      TextL c c.feat.unrecognizedHeaders w v → MeansLine c l (.unknown name v)
  | text {name x w l f} : HeaderText name x w l → name.map asciiLower ∈ textHeaders →
      Recognized c.feat (name.map asciiLower) → headerOf f = some (name.map asciiLower) → ValueL c w f →
      MeansLine c l f
  | unknown {name x w l v} : HeaderText name x w l → ¬ Recognized c.feat (name.map asciiLower) →
      TextL c c.feat.unrecognizedHeaders w v → MeansLine c l (.unknown name v)

/-- A header line of the general form that is within the limits of the program. -/
def LineWithin (c : Cfg) (l : Bytes) : Prop :=
  ∃ name x w, HeaderText name x w l ∧
    (Fits c w ∨ name.map asciiLower ∈ textHeaders ∨ ¬ Recognized c.feat (name.map asciiLower))

/-- Header lines within the limits of the program. -/
inductive LinesWithin (c : Cfg) : Bytes → Prop
  | nil : LinesWithin c []
  | cons {l s} : LineWithin c l → LinesWithin c s → LinesWithin c (l ++ s)

end EmailParser.Spec
