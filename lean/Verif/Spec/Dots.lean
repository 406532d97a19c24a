import Verif.Spec.Compatible
import Verif.Spec.Trace
/-
Header lines for which the feature `compatibility-fixes` makes no difference.  Nothing here refers to the parsers.
-/
namespace EmailParser.Spec

/-- Every dot is followed by a character of atoms. -/
def DotsFollowed (i : Bytes) : Prop := ∀ u t, i = u ++ 46 :: t → ∃ b s, t = b :: s ∧ atext b = true

/-- The names of all headers that have addresses, domains or identifiers, in lower case. -/
def namesWithDots : List Bytes := dottedHeaders ++ [b! "content-id"] ++ traceNames

/-- Every dot of the line is followed by a character of atoms, or the name of the line is not one of `namesWithDots`. -/
def Harmless (l : Bytes) : Prop := (∃ n ∈ namesWithDots, (n ++ b! ":") <+: l.map asciiLower) → DotsFollowed l

/-- A line, folded or not: it ends with CRLF, and white space comes after every other CRLF.  It
does not begin with white space or CR. -/
structure FoldedLine (l : Bytes) : Prop where
  ends : ∃ u, l = u ++ CRLF
  starts : ∃ b s, l = b :: s ∧ wsp b = false ∧ b ≠ 13
  folded : ∀ u b t, l = u ++ CRLF ++ b :: t → wsp b = true

end EmailParser.Spec
