import Verif.Spec.WhiteLines
/-
Texts that cannot be header blocks.  Nothing here refers to the parsers.
-/
namespace EmailParser.Spec

/-- A byte that has no place in a header block (RFC 5322 2.2): one that is neither printable ASCII nor space nor tab, or a CR or
LF that does not belong to a CRLF. -/
def Foreign (w : Bytes) : Prop :=
  ∃ x b y, w = x ++ b :: y ∧ ((vchar b = false ∧ wsp b = false ∧ b ≠ 13 ∧ b ≠ 10) ∨
    (b = 13 ∧ y.head? ≠ some 10) ∨ (b = 10 ∧ x.getLast? ≠ some 13))

/-- A line that neither continues a header nor begins with a field name and a colon.  `y` begins with this line. -/
def StrayLine (w : Bytes) : Prop :=
  ∃ x y, w = x ++ y ∧ (x = [] ∨ CRLF <:+ x) ∧ y ≠ [] ∧ NotBefore wsp y ∧
    ∀ name t, y = name ++ 58 :: t → ¬ (name ≠ [] ∧ ∀ b ∈ name, ftext b = true)

end EmailParser.Spec
