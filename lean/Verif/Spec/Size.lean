import Verif.Spec.BorrowMessage
/-
How much memory the strings of a value take.
-/
namespace EmailParser.Spec
open HasStrings

/-- The length of a string in bytes. -/
def bytesOf : CowStr → Nat
  | .borrowed _ len => len
  | .owned content => content.length

/-- The bytes of all strings of a value, and one for each string. -/
def size {α β : Type} [HasStrings α β] (v : α) : Nat := ((strings v).map fun t => bytesOf t + 1).sum

/-- The bytes that were copied to new strings. -/
def copiedBytes {α β : Type} [HasStrings α β] (v : α) : Nat :=
  ((strings v).map fun
    | .borrowed _ _ => 0
    | .owned content => content.length).sum

/-- The conversions from charsets make at most `k` bytes of one. -/
def TextcodeAtMost (k : Nat) (c : Cfg) : Prop := ∀ t bytes, (c.textcode t bytes).length ≤ k * bytes.length

end EmailParser.Spec
