import Verif.Spec.ExactCut
import Verif.Spec.Entity
import Verif.Spec.ExactPart
/-
What the header lines of MIME parts mean, parts and lists of parts as they stand in a message.  Nothing here refers to
the parsers.
-/
namespace EmailParser.Spec

/-- What a header line of a part means: what it means in a message if it has the name of a header that has a meaning in
parts, otherwise its name and its text. -/
inductive MeansPart (c : Cfg) : Bytes → EntityHeader → Prop
  | known {name x w l h} : HeaderText name x w l → name.map asciiLower ∈ partNames → MeansLine c l (partField h) →
      MeansPart c l h
  | other {name x w l v} : HeaderText name x w l → name.map asciiLower ∉ partNames →
      TextL c c.feat.unrecognizedHeaders w v → MeansPart c l (.other name v)

/-- A header line of a part that is within the limits of the program. -/
def PartLineWithin (c : Cfg) (l : Bytes) : Prop :=
  ∃ name x w, HeaderText name x w l ∧
    (Fits c w ∨ name.map asciiLower = b! "content-description" ∨ name.map asciiLower ∉ partNames)

/-- Header lines of a part within the limits of the program. -/
inductive PartLinesWithin (c : Cfg) : Bytes → Prop
  | nil : PartLinesWithin c []
  | cons {l s} : PartLineWithin c l → PartLinesWithin c s → PartLinesWithin c (l ++ s)

/-- A part made of header lines, and its body. -/
def PartWithin (c : Cfg) (i : Bytes) : Prop :=
  ∃ s tail body, i = s ++ tail ∧ PartLinesWithin c s ∧ PartEnd tail body

/-- What a part means. -/
def MeansEntity (c : Cfg) (i : Bytes) (e : RawEntity) : Prop :=
  ∃ s tail body hs v, i = s ++ tail ∧ LinesL (MeansPart c) s hs ∧ PartEnd tail body ∧
    Decoded (partEncoding hs) body v ∧ e = partValue hs v

/-- What the parts of a list mean. -/
inductive MeansEntities (c : Cfg) : List Bytes → List RawEntity → Prop
  | nil : MeansEntities c [] []
  | cons {p e ps es} : MeansEntity c p e → MeansEntities c ps es → MeansEntities c (p :: ps) (e :: es)

end EmailParser.Spec
