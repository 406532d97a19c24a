import Verif.Spec.Email
import Verif.Spec.Lines
/-
What happens to the trace of an e-mail when a relay adds a line at the top of the message (RFC 5321 4.4).  Only the data types of
the model are used.
-/
namespace EmailParser.Spec

/-- A trace block: return path, received lines, resent headers. -/
abbrev TraceOf := Option (Option EmailAddress) × List (List ReceivedToken × DateTime) × List TraceField

/-- A `Received` line belongs to the block that follows, unless that block begins with a return path. -/
def addReceived (v : List ReceivedToken × DateTime) : List TraceOf → List TraceOf
  | (none, received, resent) :: ts => (none, v :: received, resent) :: ts
  | ts => (none, [v], []) :: ts

/-- A header line kept as a name and a text, as written but for the line ends inside; encoded words may be decoded. -/
def Kept (c : Cfg) (l : Bytes) (y : Bytes × Bytes) : Prop :=
  ∃ x w, HeaderText y.1 x w l ∧ ((c.feat.unrecognizedHeaders = false ∨ ¬ b! "=?" <:+: x) → y.2 = trimEnd x)

end EmailParser.Spec
