import Verif.Model.Borrow
import Verif.Spec.Cow
import Verif.Spec.Grammar
/-
When strings are slices of the input.  From `Model/Borrow.lean` this uses the description of the memory only.
-/
namespace EmailParser.Spec

/-- What is left of the input is where it should be. -/
def At (p : Place) (input : Bytes) : Prop :=
  input.length ≤ p.stop ∧ p.memory.read (p.addr input) input.length = input

/-- A parser's outcome, with another value. -/
def mapResult {α β : Type} (f : α → β) : Res α → Res β
  | .ok (rest, v) => .ok (rest, f v)
  | .err e => .err e
  | .abort k => .abort k

/-- A parser's outcome, with the contents of the string. -/
abbrev contents (m : Memory) : Res CowStr → Res Bytes := mapResult (CowStr.content m)

/-- The number of bytes at the beginning of a text that can be left out without copying: a line break or, in texts with
escaped characters, the backslash of the first character. -/
def lead (escapes : Bool) : Bytes → Nat
  | 92 :: _ => if escapes then 1 else 0
  | 13 :: _ => 2
  | _ => 0

/-- To get `value` from the text `raw`, something has to be left out after its beginning. -/
def Broken (escapes : Bool) (raw value : Bytes) : Prop := value.length + lead escapes raw < raw.length

/-- The text of a quoted string without the quotes (RFC 5322 3.2.4), and what it means. -/
def QuotedText : Gram Bytes := do
  let parts ← Gram.star do
    let white ← OptFws
    let v ← Gram.or (Gram.chars1 qtext) QuotedPair
    pure (white ++ v)
  let last ← OptFws
  pure (parts.flatten ++ last)

/-- The text of an unstructured header without trailing white space. -/
def PlainText : Gram Bytes := do
  let parts ← Gram.star do
    let white ← OptFws
    let v ← Gram.chars1 vchar
    pure (white ++ v)
  pure parts.flatten

/-- The text of a domain literal without the brackets (RFC 5322 3.4.1). -/
def DomainText : Gram Bytes := do
  let parts ← Gram.star do
    let _ ← Gram.opt Fws
    Gram.chars1 dtext
  let _ ← Gram.opt Fws
  pure parts.flatten

end EmailParser.Spec
