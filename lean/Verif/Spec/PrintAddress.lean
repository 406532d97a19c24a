import Verif.Spec.Print
/-
Printers of mailboxes, groups and lists of them: every part is written as an atom or dot-atom where that is
possible and quoted otherwise.
-/
namespace EmailParser.Spec

/-- Runs of `atext` separated by single dots; the argument tells whether a run has just been seen. -/
def dotAtomFrom : Bool → Bytes → Bool
  | seen, [] => seen
  | seen, b :: s => if b == 46 then seen && dotAtomFrom false s else atext b && dotAtomFrom true s

/-- Whether a text is a dot-atom. -/
def dotAtomB (x : Bytes) : Bool := dotAtomFrom false x

/-- Whether a text begins like an encoded word. -/
def looksEncoded (x : Bytes) : Bool := (b! "=?").isPrefixOf x

/-- A word of a display name. -/
def printWord (x : Bytes) : Bytes :=
  if x != [] && x.all atext && !looksEncoded x then x else quote x

/-- Words separated by spaces. -/
def printPhrase : List Bytes → Bytes
  | [] => []
  | [x] => printWord x
  | x :: xs => printWord x ++ b! " " ++ printPhrase xs

/-- The part of an address before the `@`. -/
def printLocal (x : Bytes) : Bytes := if dotAtomB x && !looksEncoded x then x else quote x

/-- The part of an address after the `@`. -/
def printDomain (x : Bytes) : Bytes := if dotAtomB x then x else b! "[" ++ x ++ b! "]"

def printEmailAddress (a : EmailAddress) : Bytes := printLocal a.localPart ++ b! "@" ++ printDomain a.domain

def printMailbox (m : Mailbox) : Bytes :=
  match m.name with
  | none => printEmailAddress m.address
  | some words => printPhrase words ++ b! " <" ++ printEmailAddress m.address ++ b! ">"

/-- Texts separated by commas and spaces. -/
def printCommas : List Bytes → Bytes
  | [] => []
  | [x] => x
  | x :: xs => x ++ b! ", " ++ printCommas xs

def printAddress : Address → Bytes
  | .mailbox m => printMailbox m
  | .group name members => printPhrase name ++ b! ": " ++ printCommas (members.map printMailbox) ++ b! ";"

/-- Addresses whose parts can be printed. -/
def ValidAddress (a : EmailAddress) : Prop :=
  Printable a.localPart ∧ (dotAtomB a.domain = true ∨ ∀ b ∈ a.domain, dtext b = true)

def ValidPhrase (words : List Bytes) : Prop := words ≠ [] ∧ ∀ x ∈ words, Printable x

def ValidMailbox (m : Mailbox) : Prop :=
  (∀ words, m.name = some words → ValidPhrase words) ∧ ValidAddress m.address

def ValidAddressOrGroup : Address → Prop
  | .mailbox m => ValidMailbox m
  | .group name members => ValidPhrase name ∧ ∀ m ∈ members, ValidMailbox m

end EmailParser.Spec
