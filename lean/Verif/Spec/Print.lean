import Verif.Spec.Grammar
/-
Canonical texts for values.  Nothing here refers to the parsers.
-/
namespace EmailParser.Spec

/-- The decimal digit `n % 10`. -/
def digitOf (n : Nat) : UInt8 := UInt8.ofNat (48 + n % 10)

/-- A number in decimal, without leading zeros. -/
def printNat (n : Nat) : Bytes :=
  if n < 10 then [digitOf n] else printNat (n / 10) ++ [digitOf n]

/-- A number below 100 with two digits. -/
def printTwo (n : Nat) : Bytes := [digitOf (n / 10), digitOf n]

/-- RFC 5322 3.3: the time of day, with or without seconds. -/
def printTime (seconds : Bool) (t : Time) : Bytes :=
  printTwo t.hour ++ b! ":" ++ printTwo t.minute ++
    (if seconds then b! ":" ++ printTwo t.second else [])

/-- RFC 5322 3.3: a date such as `Mon, 01 Jan 2024 10:20:30 +0100`. -/
def printDate (seconds : Bool) (d : DateTime) : Bytes :=
  (match d.dayName with
    | none => []
    | some n => dayName n ++ b! ", ") ++
  printTwo d.date.day ++ b! " " ++ monthName d.date.month ++ b! " " ++ printNat d.date.year ++ b! " " ++
  printTime seconds d.time.time ++ b! " " ++
  (if d.time.zone.sign then b! "+" else b! "-") ++ printTwo d.time.zone.hourOffset ++
  printTwo d.time.zone.minuteOffset

/-- The ranges of RFC 5322 3.3, except that the day of the month is only bounded by 31; and the years
the code accepts. -/
def InRange (d : DateTime) : Prop :=
  d.date.day ≤ 31 ∧ 1990 ≤ d.date.year ∧ d.date.year < 2 ^ 64 ∧ d.time.time.hour ≤ 23 ∧
  d.time.time.minute ≤ 59 ∧ d.time.time.second ≤ 60 ∧ d.time.zone.hourOffset ≤ 99 ∧
  d.time.zone.minuteOffset ≤ 59

/-- A character that must be escaped between quotation marks: `"` or `\`. -/
def mustEscape (b : UInt8) : Bool := b == 34 || b == 92

/-- The text between the quotation marks. -/
def escapeText (x : Bytes) : Bytes := x.flatMap fun b => if mustEscape b then [92, b] else [b]

/-- A text as quoted string. -/
def quote (x : Bytes) : Bytes := b! "\"" ++ escapeText x ++ b! "\""

/-- Printable characters, spaces and tabs: what can be written in a quoted string. -/
def Printable (x : Bytes) : Prop := ∀ b ∈ x, vchar b = true ∨ wsp b = true

/-- Atoms separated by single dots. -/
def isDotAtom (x : Bytes) : Prop := DotAtomText false x x

/-- A message identifier.  The right part is written between brackets if `literal`. -/
def printId (literal : Bool) (id : Bytes × Bytes) : Bytes :=
  b! "<" ++ id.1 ++ b! "@" ++ (if literal then b! "[" ++ id.2 ++ b! "]" else id.2) ++ b! ">"

/-- What can be written as message identifier. -/
def ValidId (literal : Bool) (id : Bytes × Bytes) : Prop :=
  isDotAtom id.1 ∧ if literal then ∀ b ∈ id.2, dtext b = true else isDotAtom id.2

/-- Identifiers separated by spaces. -/
def printIds : List (Bool × (Bytes × Bytes)) → Bytes
  | [] => []
  | [(literal, id)] => printId literal id
  | (literal, id) :: ids => printId literal id ++ b! " " ++ printIds ids

end EmailParser.Spec
