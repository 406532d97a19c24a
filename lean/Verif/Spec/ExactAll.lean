import Verif.Spec.ExactMessage
import Verif.Spec.Email
import Verif.Spec.Entity
/-
Any input at all: where the header block ends, whether it is made of header lines, and what must be returned.  Nothing here
refers to the parsers.
-/
namespace EmailParser.Spec

/-- RFC 5322 3.5: the first empty line of a message.  `head` is what is before it, `tail` the empty line and what follows. -/
inductive Split (i : Bytes) : Bytes → Bytes → Prop
  | none : ¬ CRLF <+: i → ¬ Occurs (CRLF ++ CRLF) i → Split i i []
  | first {b} : i = CRLF ++ b → Split i [] (CRLF ++ b)
  | later {p b} : ¬ CRLF <+: i → FirstOccurrence (CRLF ++ CRLF) i p b → Split i (p ++ CRLF) (CRLF ++ b)

/-- Some line after the first consists of white space only. -/
def WhiteLine (w : Bytes) : Prop := ∃ y ws z, w = y ++ CRLF ++ ws ++ CRLF ++ z ∧ ∀ b ∈ ws, wsp b = true

/-- The text is made of the header lines `ls`. -/
def MadeOf (w : Bytes) (ls : List Bytes) : Prop := w = ls.flatten ∧ ∀ l ∈ ls, ∃ name x t, HeaderText name x t l

/-- What must be returned for a message, `head` being its text before the first empty line and `tail` the rest. -/
inductive Returned (c : Cfg) (head tail : Bytes) : Outcome Email → Prop
  /-- All is read; what is returned depends on the fields and on the body. -/
  | read {ls ts rest fs content r} : MadeOf head ls → Parted c ls ts rest → EachMeans c rest fs → BodyL c tail content →
      EmailResult c (ts ++ fs) content r → Returned c head tail r
  /-- Without MIME the body must be lines of text. -/
  | body {ls ts rest fs b} : MadeOf head ls → Parted c ls ts rest → EachMeans c rest fs → tail = CRLF ++ b →
      c.feat.mime = false → ¬ Body b →
      Returned c head tail (.err (.explicit "TAG ERROR: In a body, a line must end with a CRLF sequence."))
  /-- Some line after the trace blocks is read in part only. -/
  | cut {ls ts rest} : MadeOf head ls → Parted c ls ts rest → (∀ fs, ¬ EachMeans c rest fs) →
      Returned c head tail (.err (.explicit "TAG ERROR: Headers must be followed by a CRLF sequence."))
  /-- Something else than header lines. -/
  | other : (∀ ls, ¬ MadeOf head ls) →
      Returned c head tail (.err (.explicit "TAG ERROR: Headers must be followed by a CRLF sequence."))

end EmailParser.Spec
