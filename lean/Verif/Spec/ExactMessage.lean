import Verif.Spec.ExactCut
import Verif.Spec.ExactTrace
/-
Messages made of header lines, trace headers included: how the lines are divided into trace blocks and other lines, and
what each of them means, to the letter.  Nothing here refers to the parsers.
-/
namespace EmailParser.Spec

/-- The text of a resent line stands for a field.  It is the last text of its line. -/
def ResentText (c : Cfg) (w : Bytes) : TraceField → Prop
  | .date v => DateTimeG w v
  | .messageId v => MessageId c.feat.compatibilityFixes w v
  | f => PhraseValue c CRLF w (resentField f)

/-- RFC 5322 3.6.6: a resent line.  The name is that of the field with `Resent-` before it, in any case; the text does
not end with white space. -/
def ResentE (c : Cfg) (l : Bytes) (f : TraceField) : Prop :=
  ∃ nm name w, l = name ++ b! ":" ++ w ++ CRLF ∧ headerOf (resentField f) = some nm ∧
    name.map asciiLower = b! "resent-" ++ nm ∧ ResentText c w f ∧ Solid w

/-- A header line of the general form that is within the limits of the program: these do not matter for text, and for
unknown headers except trace headers. -/
def MessageLine (c : Cfg) (l : Bytes) : Prop :=
  ∃ name x w, HeaderText name x w l ∧
    (Fits c w ∨ ((name.map asciiLower ∈ textHeaders ∨ ¬ Recognized c.feat (name.map asciiLower)) ∧
      (c.feat.trace = true → name.map asciiLower ∉ traceNames)))

/-- The trace blocks at the beginning of the lines and the lines after them. -/
def Parted (c : Cfg) (ls : List Bytes) (ts : List Field) (rest : List Bytes) : Prop :=
  if c.feat.trace then DivisionBy c (ResentE c) ls ts rest else ts = [] ∧ rest = ls

/-- Each line means the field at its place. -/
inductive EachMeans (c : Cfg) : List Bytes → List Field → Prop
  | nil : EachMeans c [] []
  | cons {l f ls fs} : MeansLine c l f → EachMeans c ls fs → EachMeans c (l :: ls) (f :: fs)

end EmailParser.Spec
