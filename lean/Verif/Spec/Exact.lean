import Verif.Spec.HeaderLayout
/-
What is compared when header fields are read in different ways: the grammar of RFC 5322 does not say where one
atom of a name ends and the next one begins (`ab` may be one atom or two), nor to which word the white space
between two words belongs.  Nothing here refers to the parsers.
-/
namespace EmailParser.Spec

/-- The name as one word. -/
def joinBox (m : Mailbox) : Mailbox := { m with name := m.name.map fun ws => [ws.flatten] }

def joinAddress : Address → Address
  | .mailbox m => .mailbox (joinBox m)
  | .group name ms => .group [name.flatten] (ms.map joinBox)

/-- A field with the words of each phrase put together. -/
def joinWords : Field → Field
  | .from v => .from (v.map joinBox)
  | .sender v => .sender (joinBox v)
  | .replyTo v => .replyTo (v.map joinAddress)
  | .to v => .to (v.map joinAddress)
  | .cc v => .cc (v.map joinAddress)
  | .bcc v => .bcc (v.map joinAddress)
  | .keywords v => .keywords (v.map fun ws => [ws.flatten])
  | f => f

/-- Text that ends the way the value of the header must: only unstructured text may have white space at its end. -/
def Ends (name w : Bytes) : Prop :=
  name.map asciiLower ∈ structuredNames ++ [b! "keywords"] → Solid w

/-- The line is in the grammar of the header it names. -/
def InGrammar (c : Cfg) (name w l : Bytes) : Prop :=
  (∃ f, FieldG c l f ∧ headerOf f = some (name.map asciiLower)) ∧ Ends name w

/-- The headers of RFC 2045 whose values end only with the line, and those of RFC 5322 without `Keywords`. -/
def mimeExactNames : List Bytes :=
  structuredNames ++ [b! "subject", b! "comments", b! "content-description"]

/-- Text within the limits of the program and, if encoded words are read, a header without any. -/
structure Plain (c : Cfg) (name w : Bytes) : Prop where
  depth : w.count 40 ≤ c.stack
  mime : c.feat.mime = true → name.map asciiLower ∈ mimeExactNames ∧ ¬ b! "=?" <:+: w ∧
    (c.overflowChecks = true → w.count 42 < 256)

/-- What a header line denotes: a field of its own kind if it is in the grammar, otherwise its name and its text. -/
inductive Denotes (c : Cfg) : Bytes → Field → Prop
  | typed {name x w l f} : HeaderText name x w l → Plain c name w → FieldG c l f →
      headerOf f = some (name.map asciiLower) → Ends name w → Denotes c l f
  | text {name x w l} : HeaderText name x w l → Plain c name w → ¬ InGrammar c name w l →
      Denotes c l (.unknown name (trimEnd x))

/-! ### MIME headers -/

/-- The headers of RFC 2045 with a version, an encoding or a type. -/
def mimeHeaders : List Bytes := [b! "mime-version", b! "content-transfer-encoding", b! "content-type"]

/-- The headers with unstructured text. -/
def textHeaders : List Bytes := [b! "subject", b! "comments", b! "content-description"]

/-- Text within the limits of the program. -/
structure Fits (c : Cfg) (w : Bytes) : Prop where
  depth : w.count 40 ≤ c.stack
  stars : c.overflowChecks = true → w.count 42 < 256

/-- A beginning of the line is in the grammar of the header it names. -/
def BeginsInGrammar (c : Cfg) (name l : Bytes) : Prop :=
  ∃ l₁ l₂ f, l = l₁ ++ l₂ ∧ FieldG c l₁ f ∧ headerOf f = some (name.map asciiLower)

/-- What a header line denotes, in MIME messages too.  A line of a MIME header that is not in the grammar denotes its
text, unless a beginning of it is in the grammar; text of unstructured headers and of headers that are not recognised may
have encoded words. -/
inductive DenotesMime (c : Cfg) : Bytes → Field → Prop
  | plain {l f} : Denotes c l f → DenotesMime c l f
  | typed {name x w l f} : HeaderText name x w l → Fits c w → name.map asciiLower ∈ mimeHeaders → FieldG c l f →
      headerOf f = some (name.map asciiLower) → DenotesMime c l f
  | untyped {name x w l v} : HeaderText name x w l → Fits c w → name.map asciiLower ∈ mimeHeaders →
      ¬ BeginsInGrammar c name l → TextL c c.feat.unrecognizedHeaders w v → DenotesMime c l (.unknown name v)
  | text {name x w l f} : HeaderText name x w l → name.map asciiLower ∈ textHeaders →
      Recognized c.feat (name.map asciiLower) → headerOf f = some (name.map asciiLower) → ValueL c w f →
      DenotesMime c l f
  | unknown {name x w l v} : HeaderText name x w l → ¬ Recognized c.feat (name.map asciiLower) →
      TextL c c.feat.unrecognizedHeaders w v → DenotesMime c l (.unknown name v)

end EmailParser.Spec
