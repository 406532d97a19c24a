import Verif.Spec.ExactAnyPart
import Verif.Spec.Strings
import Verif.Spec.Trace
/-
Lines of a header block that consist of white space only: where they may be.  `WhiteLine` is in Verif/Spec/ExactAll.lean.
Nothing here refers to the parsers.
-/
namespace EmailParser.Spec

/-- Somewhere `n` lines in a row, after the first line, consist of white space only. -/
def WhiteLines (n : Nat) (w : Bytes) : Prop :=
  ∃ (y : Bytes) (ws : List Bytes) (z : Bytes), w = y ++ (CRLF ++ ((ws.map (· ++ CRLF)).flatten ++ z)) ∧
    ws.length = n ∧ ∀ s ∈ ws, ∀ b ∈ s, wsp b = true

/-- The text consists of these header lines, each given by its name and by the text after the colon.  A line break inside of
a header is followed by white space, perhaps by nothing else. -/
def HeadersAre (w : Bytes) (ls : List (Bytes × Bytes)) : Prop :=
  w = (ls.map fun l => l.1 ++ 58 :: (l.2 ++ CRLF)).flatten ∧
  ∀ l ∈ ls, (l.1 ≠ [] ∧ ∀ b ∈ l.1, ftext b = true) ∧ Folded l.2

/-- The headers of which the text may have white lines: those with comments between or after their parts. -/
def commentNames : List Bytes :=
  structuredNames ++ [b! "keywords", b! "content-type", b! "content-disposition"]

/-- A header of a message that may have white lines. -/
def MayBeWhite (c : Cfg) (name : Bytes) : Prop :=
  (Recognized c.feat name ∧ name ∈ commentNames) ∨ (c.feat.trace = true ∧ name ∈ traceNames)

/-- A header of a MIME part that may have white lines. -/
def PartMayBeWhite (name : Bytes) : Prop :=
  name ∈ [b! "content-type", b! "content-id", b! "content-disposition"]

/-- There is a white line, but only in headers that satisfy `P`, and there are never two in a row. -/
def SomeWhite (P : Bytes → Prop) (w : Bytes) : Prop :=
  ∃ ls, HeadersAre w ls ∧ (∃ l ∈ ls, WhiteLine (l.2 ++ CRLF)) ∧
    ∀ l ∈ ls, WhiteLine (l.2 ++ CRLF) → P (l.1.map asciiLower) ∧ ¬ WhiteLines 2 (l.2 ++ CRLF)

end EmailParser.Spec
