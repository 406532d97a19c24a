import Verif.Spec.Exact
import Verif.Spec.Trace
/-
Trace header lines: what is in the grammar, and how the lines at the beginning of a header block are divided into
trace blocks and other lines.  Nothing here refers to the parsers.
-/
namespace EmailParser.Spec

/-! ### `Received` -/

/-- RFC 5322 3.6.7: `received-token = word / angle-addr / domain`, without the alternative `addr-spec`. -/
def TokenG (lax : Bool) : Gram ReceivedToken := fun w v =>
  match v with
  | .word x => Word w x
  | .addr a => AngleAddr lax w a
  | .domain d => Domain lax w d

/-- RFC 5322 3.6.7: tokens, a semicolon and a date. -/
def TokensDate (lax : Bool) : Gram (List ReceivedToken × DateTime) := do
  let tokens ← Gram.star (TokenG lax)
  Gram.lit (b! ";")
  let date ← DateTimeG
  pure (tokens, date)

/-- The characters of words and domains and the addresses, without the divisions between the tokens. -/
def tokenItems : List ReceivedToken → List (UInt8 ⊕ EmailAddress)
  | [] => []
  | .word x :: ts => x.map .inl ++ tokenItems ts
  | .domain x :: ts => x.map .inl ++ tokenItems ts
  | .addr a :: ts => .inr a :: tokenItems ts

/-! ### Lines -/

/-- The text of a line may be read as trace header: it is within the limits of the program and, if encoded words are
read, a resent line has none. -/
structure FitsTrace (c : Cfg) (name w : Bytes) : Prop where
  fits : Fits c w
  words : c.feat.mime = true → b! "resent-" <+: name.map asciiLower → ¬ b! "=?" <:+: w

/-- A header line; if it has the name of a trace header, then its text is as above. -/
def TraceText (c : Cfg) (l : Bytes) : Prop :=
  ∃ name x w, HeaderText name x w l ∧ (name.map asciiLower ∈ traceNames → FitsTrace c name w)

/-- A header line; if it has the name of a trace header, then its text is within the limits of the program. -/
def TraceWithin (c : Cfg) (l : Bytes) : Prop :=
  ∃ name x w, HeaderText name x w l ∧ (name.map asciiLower ∈ traceNames → Fits c w)

/-! ### Blocks -/

/-- As many lines as possible from the beginning of `ls`, with their values, and the lines that are left. -/
inductive Run {α : Type} (L : Bytes → α → Prop) : List Bytes → List α → List Bytes → Prop
  | stop {ls} : (∀ l ls' v, ls = l :: ls' → ¬ L l v) → Run L ls [] ls
  | next {l v ls vs rest} : L l v → Run L ls vs rest → Run L (l :: ls) (v :: vs) rest

/-- The return path, if the first line is one, and the lines that are left. -/
inductive FirstPath (c : Cfg) : List Bytes → Option (Option EmailAddress) → List Bytes → Prop
  | none {ls} : (∀ l ls' v, ls = l :: ls' → ¬ ReturnPathLineL c l v) → FirstPath c ls none ls
  | some {l v ls} : ReturnPathLineL c l v → FirstPath c (l :: ls) (some v) ls

/-- The trace blocks at the beginning of a list of lines, and the lines that are left: a block has a return path or not,
one or more `Received` lines and any number of resent lines (with the values `R` says), and ends where no such line follows.
Lines that do not begin a block are left, such as a return path without a `Received` line. -/
inductive DivisionBy (c : Cfg) (R : Bytes → TraceField → Prop) : List Bytes → List Field → List Bytes → Prop
  | stop {ls path ls'} : FirstPath c ls path ls' → Run (ReceivedLineL c) ls' [] ls' → DivisionBy c R ls [] ls
  | block {ls path ls₁ received ls₂ resent ls₃ fs rest} : FirstPath c ls path ls₁ →
      Run (ReceivedLineL c) ls₁ received ls₂ → received ≠ [] → Run R ls₂ resent ls₃ →
      DivisionBy c R ls₃ fs rest → DivisionBy c R ls (.trace path received resent :: fs) rest

/-- The division in which the resent lines have the values of their layout. -/
abbrev Division (c : Cfg) : List Bytes → List Field → List Bytes → Prop := DivisionBy c (ResentLineL c)

end EmailParser.Spec
