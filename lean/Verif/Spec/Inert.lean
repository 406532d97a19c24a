import Verif.Spec.Lines
/-
Header lines without a meaning of their own, and where they can be put in a header block.
-/
namespace EmailParser.Spec

/-- Not a name (in lower case) of a trace header, nor one that begins like those of resent headers. -/
def NotTrace (n : Bytes) : Prop := n ≠ b! "received" ∧ n ≠ b! "return-path" ∧ ¬ b! "resent-" <+: n

/-- A header line without a meaning of its own, the name of which is not that of a trace header. -/
structure InertLine (f : Features) (name x w l : Bytes) : Prop where
  text : HeaderText name x w l
  unrecognized : ¬ Recognized f (name.map asciiLower)
  notTrace : NotTrace (name.map asciiLower)

/-- Some line of `ls`, or the first of `rest` if there is one, is not a trace header: a line between them is not in a trace. -/
def AfterTrace (ls rest : List Bytes) : Prop :=
  (∃ l ∈ ls, ∃ name x w, HeaderText name x w l ∧ NotTrace (name.map asciiLower)) ∨
  ∀ l, rest.head? = some l → ∃ name x w, HeaderText name x w l ∧ NotTrace (name.map asciiLower)

end EmailParser.Spec
