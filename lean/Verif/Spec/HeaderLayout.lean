import Verif.Spec.Addresses
import Verif.Spec.PrintMime
import Verif.Spec.Lines
import Verif.Spec.Fields
/-
How header lines of every kind may be laid out so that they can be read back: names in any case, white space,
folds and comments wherever the readers know where they belong.  Nothing here refers to the parsers.
-/
namespace EmailParser.Spec

/-- The text does not end with white space. -/
def Solid (w : Bytes) : Prop := ∀ u b, w = u ++ [b] → wsp b = false

/-- One or more message identifiers; comments and white space between two of them belong to the first. -/
inductive IdsL (c : Cfg) : Bytes → List (Bytes × Bytes) → Prop
  | one {w v} : MessageIdOf (CommentN c.stack) c.feat.compatibilityFixes w v → IdsL c w [v]
  | cons {w v s vs} : MessageIdOf (CommentN c.stack) c.feat.compatibilityFixes w v → (∃ t, s = 60 :: t) →
      IdsL c s vs → IdsL c (w ++ s) (v :: vs)

/-- Unstructured text, with encoded words (RFC 2047) or without. -/
def TextL (c : Cfg) (encoded : Bool) (w v : Bytes) : Prop :=
  if encoded then ∃ s t ps, w = s ++ t ∧ Layout c s ps ∧ (∀ b ∈ t, wsp b = true) ∧ v = joinPieces false ps
  else ∃ x, Folding x w ∧ v = trimEnd x

/-- A keyword is a phrase. -/
def KeywordL (c : Cfg) (w : Bytes) (vs : List Bytes) : Prop := vs ≠ [] ∧ ∃ q, Names c false w vs q

/-- Raw parameters (of which the numbers are below 256) and the parameters they stand for.  If overflow checks
are enabled, no parameter has 256 segments. -/
def ParamsL (c : Cfg) (ps : List RawParam) (q : Params) : Prop :=
  (c.overflowChecks = true → ∀ name, ∃ k, k < 256 ∧ segment ps name k = none) ∧
  ∀ name, ParamValue c ps name (q name)

/-- The value of a header field, from the colon to the line end. -/
def ValueL (c : Cfg) (w : Bytes) : Field → Prop
  | .date v => DateTimeGOf (CommentN c.stack) w v ∧ Solid w
  | .from v => Commas (MailboxL c) w v ∧ Solid w
  | .sender v => MailboxL c w v ∧ Solid w
  | .replyTo v => Commas (AddressL c) w v ∧ Solid w
  | .to v => Commas (AddressL c) w v ∧ Solid w
  | .cc v => Commas (AddressL c) w v ∧ Solid w
  | .bcc v => (Commas (AddressL c) w v ∨ (v = [] ∧ w ≠ [] ∧ Gap c w ())) ∧ Solid w
  | .messageId v => MessageIdOf (CommentN c.stack) c.feat.compatibilityFixes w v ∧ Solid w
  | .inReplyTo v => IdsL c w v ∧ Solid w
  | .references v => IdsL c w v ∧ Solid w
  | .subject v => TextL c c.feat.mime w v
  | .comments v => TextL c c.feat.mime w v
  | .keywords v => Commas (KeywordL c) w v ∧ Solid w
  | .mimeVersion major minor => ∃ g ds ds' t, w = g ++ (ds ++ (b! "." ++ (ds' ++ t))) ∧
      (OptCfws g () ∧ g.count 40 ≤ c.stack) ∧ (InlineCfws t () ∧ t.count 40 ≤ c.stack) ∧
      (ds ≠ [] ∧ (∀ d ∈ ds, digit d = true) ∧ decimal ds < 256 ∧ major = decimal ds) ∧
      (ds' ≠ [] ∧ (∀ d ∈ ds', digit d = true) ∧ decimal ds' < 256 ∧ minor = decimal ds')
  | .contentType t st q => ∃ (g type subtype : Bytes) (ps : List WrittenParam),
      w = g ++ (type ++ (b! "/" ++ (subtype ++ ps.flatMap WrittenParam.text))) ∧ Gap c g () ∧
      WrittenName typeNames .unknown type t ∧ (subtype ≠ [] ∧ ∀ b ∈ subtype, tokenChar b = true) ∧
      st = subtype.map asciiLower ∧ (∀ p ∈ ps, p.Valid c) ∧ ParamsL c (ps.map WrittenParam.raw) q
  | .contentTransferEncoding e => ∃ g name t, w = g ++ (name ++ t) ∧
      (OptCfws g () ∧ g.count 40 ≤ c.stack) ∧ (InlineCfws t () ∧ t.count 40 ≤ c.stack) ∧
      WrittenName encodingNames .unknown name e
  | .contentId v => MessageIdOf (CommentN c.stack) c.feat.compatibilityFixes w v ∧ Solid w
  | .contentDescription v => TextL c true w v
  | .contentDisposition v => ∃ (g type : Bytes) (t : DispositionType) (xs : List WrittenItem) (q : Params), w = g ++ (type ++ xs.flatMap WrittenItem.text) ∧ Gap c g () ∧
      WrittenName dispositionNames .unknown type t ∧ (∀ x ∈ xs, x.Valid c) ∧ ParamsL c (otherParams xs) q ∧
      v = dispositionOf t (xs.map WrittenItem.item) q
  | .trace _ _ _ => False
  | .unknown _ _ => False

/-- A header line and the field it stands for: a header that is recognised with its value laid out as above, or
a header that is not, with any text. -/
inductive HeaderL (c : Cfg) : Bytes → Field → Prop
  | known {name n w f} : headerOf f = some name → Recognized c.feat name → n.map asciiLower = name →
      ValueL c w f → HeaderL c (n ++ b! ":" ++ w ++ CRLF) f
  | unknown {n w v} : n ≠ [] → (∀ b ∈ n, ftext b = true) → ¬ Recognized c.feat (n.map asciiLower) →
      TextL c c.feat.unrecognizedHeaders w v → HeaderL c (n ++ b! ":" ++ w ++ CRLF) (.unknown n v)

/-! ### Trace headers -/

/-- RFC 5322 3.4.1: what is between brackets, which are included. -/
def Literal : Gram Bytes := do
  Gram.lit (b! "[")
  let parts ← Gram.star do
    let _ ← Gram.opt Fws
    Gram.chars1 dtext
  let _ ← Gram.opt Fws
  Gram.lit (b! "]")
  pure parts.flatten

/-- RFC 5322 3.6.7: the tokens of a `Received` line without the comments and white space around them.  Text
without dots is a word, text with dots is a domain.  The truth value tells whether an atom must not follow
immediately. -/
inductive ReceivedTokenL (c : Cfg) : Bytes → Bool → ReceivedToken → Prop
  | atom {x} : x ≠ [] → (∀ b ∈ x, atext b = true) → ReceivedTokenL c x true (.word x)
  | quoted {x v} : Quoted x v → ReceivedTokenL c x false (.word v)
  | dotted {x} : DotAtomText c.feat.compatibilityFixes x x → 46 ∈ x → ReceivedTokenL c x true (.domain x)
  | literal {x v} : Literal x v → ReceivedTokenL c x false (.domain v)
  | addr {x v} : AddrSpecOf (CommentN c.stack) c.feat.compatibilityFixes x v →
      ReceivedTokenL c (60 :: (x ++ [62])) false (.addr v)

/-- Tokens, each with the comments and white space after it. -/
inductive ReceivedTokensL (c : Cfg) : Bytes → List ReceivedToken → Prop
  | nil : ReceivedTokensL c [] []
  | cons {x bare v t s vs} : ReceivedTokenL c x bare v → Gap c t () → (bare = true → t = [] → NotBefore atext s) →
      ReceivedTokensL c s vs → ReceivedTokensL c (x ++ (t ++ s)) (v :: vs)

/-- The value of a `Received` line: tokens, a semicolon and a date.  Nothing may be before the semicolon if there
are no tokens. -/
def ReceivedL (c : Cfg) (w : Bytes) (v : List ReceivedToken × DateTime) : Prop :=
  ∃ g ts d, w = g ++ (ts ++ 59 :: d) ∧ Gap c g () ∧ (ts = [] → g = []) ∧ ReceivedTokensL c ts v.1 ∧
    DateTimeGOf (CommentN c.stack) d v.2 ∧ Solid d

/-- The value of a `Return-Path` line: an address or an empty path between angle brackets. -/
inductive ReturnPathL (c : Cfg) : Bytes → Option EmailAddress → Prop
  | address {w v} : AngleAddrOf (CommentN c.stack) c.feat.compatibilityFixes w v → ReturnPathL c w (some v)
  | empty {g g' g''} : Gap c g () → Gap c g' () → Gap c g'' () →
      ReturnPathL c (g ++ 60 :: (g' ++ 62 :: g'')) none

/-- The field of which a resent field is a copy. -/
def resentField : TraceField → Field
  | .date v => .date v
  | .from v => .from v
  | .sender v => .sender v
  | .to v => .to v
  | .cc v => .cc v
  | .bcc v => .bcc v
  | .messageId v => .messageId v

def ReceivedLineL (c : Cfg) (l : Bytes) (v : List ReceivedToken × DateTime) : Prop :=
  ∃ n w, l = n ++ b! ":" ++ w ++ CRLF ∧ n.map asciiLower = b! "received" ∧ ReceivedL c w v

def ReturnPathLineL (c : Cfg) (l : Bytes) (v : Option EmailAddress) : Prop :=
  ∃ n w, l = n ++ b! ":" ++ w ++ CRLF ∧ n.map asciiLower = b! "return-path" ∧ ReturnPathL c w v ∧ Solid w

def ResentLineL (c : Cfg) (l : Bytes) (f : TraceField) : Prop :=
  ∃ name n w, l = n ++ b! ":" ++ w ++ CRLF ∧ headerOf (resentField f) = some name ∧
    n.map asciiLower = b! "resent-" ++ name ∧ ValueL c w (resentField f)

/-- Lines one after the other. -/
inductive LinesL {α : Type} (L : Bytes → α → Prop) : Bytes → List α → Prop
  | nil : LinesL L [] []
  | cons {l v s vs} : L l v → LinesL L s vs → LinesL L (l ++ s) (v :: vs)

/-- RFC 5322 3.6.7: trace blocks.  A block without resent lines ends where the next one begins with a return
path (otherwise the two are one block). -/
inductive TracesL (c : Cfg) : Bytes → List Field → Prop
  | nil : TracesL c [] []
  | cons {a path b received d resent s fs} : LinesL (ReturnPathLineL c) a path.toList →
      LinesL (ReceivedLineL c) b received → received ≠ [] → LinesL (ResentLineL c) d resent →
      (resent = [] → ∀ v vs vs' fs', fs = .trace v vs vs' :: fs' → v ≠ none) →
      TracesL c s fs → TracesL c (a ++ (b ++ (d ++ s))) (.trace path received resent :: fs)

/-- If trace headers are read, the header lines after the trace blocks do not begin with one that was not
accepted. -/
def NoTraceFirst (c : Cfg) (fs : List Field) : Prop :=
  c.feat.trace = true → ∀ n v fs', fs = .unknown n v :: fs' →
    n.map asciiLower ≠ b! "return-path" ∧ n.map asciiLower ≠ b! "received" ∧ ¬ b! "resent-" <+: n.map asciiLower

/-- The end of a message: nothing, or an empty line and the body. -/
inductive BodyL (c : Cfg) : Bytes → Option Bytes → Prop
  | none : BodyL c [] none
  | some {b} : (c.feat.mime = false → Body b) → BodyL c (CRLF ++ b) (some b)

/-- A message: trace blocks, if they are read, then other header lines, then the body. -/
inductive MessageL (c : Cfg) : Bytes → List Field → Option Bytes → Prop
  | intro {traces ts lines fs tail body} :
      (c.feat.trace = true ∧ TracesL c traces ts) ∨ (traces = [] ∧ ts = []) → LinesL (HeaderL c) lines fs →
      NoTraceFirst c fs → BodyL c tail body → MessageL c (traces ++ (lines ++ tail)) (ts ++ fs) body

end EmailParser.Spec
