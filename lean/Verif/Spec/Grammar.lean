import Verif.Spec.Gram
import Verif.Spec.Chars
import Verif.Spec.Base64
import Verif.Spec.QuotedPrintable
import Verif.Model.Address
import Verif.Model.Time
/-
The grammar of RFC 5322 (without obsolete syntax), with the values the texts denote.  From the model
it uses only the data types of the results (`Mailbox`, `DateTime`, …) and the configuration.
-/
namespace EmailParser.Spec
open Gram

/-- The text without value. -/
abbrev CRLF : Bytes := [13, 10]

/-! ### RFC 5322 3.2: lexical tokens -/

/-- 3.2.2: `FWS = ([*WSP CRLF] 1*WSP)`; its value is the white space without the CRLF. -/
def Fws : Gram Bytes :=
  Gram.or
    (do
      let before ← chars wsp
      lit CRLF
      let after ← chars1 wsp
      pure (before ++ after))
    (chars1 wsp)

/-- `[FWS]`, empty when absent. -/
def OptFws : Gram Bytes := map (·.getD []) (opt Fws)

/-- 3.2.1: `quoted-pair = "\" (VCHAR / WSP)`. -/
def QuotedPair : Gram Bytes := do
  lit (b! "\\")
  let c ← char fun c => vchar c || wsp c
  pure [c]

/-- 3.2.2: `ccontent = ctext / quoted-pair / comment`. -/
def CContent (comment : Gram Unit) : Gram Unit :=
  Gram.or (skip (chars1 ctext)) (Gram.or (skip QuotedPair) comment)

/-- 3.2.2: `comment = "(" *([FWS] ccontent) [FWS] ")"`, at most `n` levels. -/
def CommentN : Nat → Gram Unit
  | 0 => fail
  | n + 1 => do
    lit (b! "(")
    let _ ← star do
      let _ ← opt Fws
      CContent (CommentN n)
    let _ ← opt Fws
    lit (b! ")")

/-- 3.2.2: a comment of any depth. -/
def Comment : Gram Unit := fun w v => ∃ n, CommentN n w v

/-- 3.2.2: `CFWS = (1*([FWS] comment) [FWS]) / FWS`.  Here and below, `K` is the grammar of comments: the
name without `Of` allows comments of any depth, with `CommentN n` they have at most `n` levels. -/
def CfwsOf (K : Gram Unit) : Gram Unit :=
  Gram.or
    (do
      let _ ← plus do
        let _ ← opt Fws
        K
      let _ ← opt Fws
      pure ())
    (skip Fws)

@[inherit_doc CfwsOf]
abbrev Cfws : Gram Unit := CfwsOf Comment

/-- `[CFWS]`. -/
def OptCfwsOf (K : Gram Unit) : Gram Unit := skip (opt (CfwsOf K))

@[inherit_doc OptCfwsOf]
abbrev OptCfws : Gram Unit := OptCfwsOf Comment

/-- `[CFWS]` whose comments are nested no deeper than the stack of the program allows. -/
abbrev Gap (c : Cfg) : Gram Unit := OptCfwsOf (CommentN c.stack)

/-- 3.2.3: `atom = [CFWS] 1*atext [CFWS]`. -/
def AtomOf (K : Gram Unit) : Gram Bytes := do
  OptCfwsOf K
  let v ← chars1 atext
  OptCfwsOf K
  pure v

@[inherit_doc AtomOf]
abbrev Atom : Gram Bytes := AtomOf Comment

/-- An atom after a dot; `lax` allows it to be empty. -/
def DotPart (lax : Bool) : Gram Bytes := if lax then chars atext else chars1 atext

/-- 3.2.3: `dot-atom-text = 1*atext *("." 1*atext)`; `lax` allows empty atoms after a dot, as the
feature `compatibility-fixes` does. -/
def DotAtomText (lax : Bool) : Gram Bytes := do
  let first ← chars1 atext
  let others ← star do
    lit (b! ".")
    let v ← DotPart lax
    pure (b! "." ++ v)
  pure (first ++ others.flatten)

/-- 3.2.3: `dot-atom = [CFWS] dot-atom-text [CFWS]`. -/
def DotAtomOf (K : Gram Unit) (lax : Bool) : Gram Bytes := do
  OptCfwsOf K
  let v ← DotAtomText lax
  OptCfwsOf K
  pure v

@[inherit_doc DotAtomOf]
abbrev DotAtom (lax : Bool) : Gram Bytes := DotAtomOf Comment lax

/-- 3.2.4: `quoted-string = [CFWS] DQUOTE *([FWS] qcontent) [FWS] DQUOTE [CFWS]`. -/
def QuotedStringOf (K : Gram Unit) : Gram Bytes := do
  OptCfwsOf K
  lit (b! "\"")
  let parts ← star do
    let white ← OptFws
    let v ← Gram.or (chars1 qtext) QuotedPair
    pure (white ++ v)
  let last ← OptFws
  lit (b! "\"")
  OptCfwsOf K
  pure (parts.flatten ++ last)

@[inherit_doc QuotedStringOf]
abbrev QuotedString : Gram Bytes := QuotedStringOf Comment

/-- 3.2.5: `word = atom / quoted-string`. -/
def WordOf (K : Gram Unit) : Gram Bytes := Gram.or (AtomOf K) (QuotedStringOf K)

@[inherit_doc WordOf]
abbrev Word : Gram Bytes := WordOf Comment

/-! ### RFC 2047: encoded words -/

/-- The names of the charsets handled by the external decoders. -/
def charsetName : Textcode → Bytes
  | .iso8859_1 => b! "iso-8859-1"
  | .iso8859_2 => b! "iso-8859-2"
  | .iso8859_3 => b! "iso-8859-3"
  | .iso8859_4 => b! "iso-8859-4"
  | .iso8859_5 => b! "iso-8859-5"
  | .iso8859_6 => b! "iso-8859-6"
  | .iso8859_7 => b! "iso-8859-7"
  | .iso8859_8 => b! "iso-8859-8"
  | .iso8859_9 => b! "iso-8859-9"
  | .iso8859_10 => b! "iso-8859-10"
  | .iso8859_11 => b! "iso-8859-11"
  | .iso8859_13 => b! "iso-8859-13"
  | .iso8859_14 => b! "iso-8859-14"
  | .iso8859_15 => b! "iso-8859-15"
  | .iso8859_16 => b! "iso-8859-16"
  | .iso6937 => b! "iso-6937"
  | .gb2312 => b! "gb2312"

/-- `text` is what `bytes` denotes in the charset with this (lowercase) name. -/
def CharsetText (c : Cfg) (name bytes text : Bytes) : Prop :=
  ((name = b! "utf-8" ∨ name = b! "us-ascii") ∧ utf8Valid bytes = true ∧ text = bytes) ∨
  ∃ t, name = charsetName t ∧ text = c.textcode t bytes

/-- RFC 2047 2 with the language tag of RFC 2231 5:
`encoded-word = "=?" charset ["*" language] "?" encoding "?" encoded-text "?="`. -/
def EncodedWord (c : Cfg) : Gram Bytes := fun w v =>
  ∃ charset language encoding text bytes : Bytes,
    w = b! "=?" ++ charset ++ language ++ b! "?" ++ encoding ++ b! "?" ++ text ++ b! "?=" ∧
    (charset ≠ [] ∧ ∀ c ∈ charset, charsetChar c = true) ∧
    (language = [] ∨ ∃ l, language = 42 :: l ∧ l ≠ [] ∧ ∀ c ∈ l, encodingChar c = true) ∧
    (text ≠ [] ∧ ∀ c ∈ text, encodedTextChar c = true) ∧
    ((encoding.map asciiLower = b! "b" ∧ b64Decode .start (b64Tokens text) = .ok bytes) ∨
      (encoding.map asciiLower = b! "q" ∧ qDecode text = bytes)) ∧
    CharsetText c (charset.map asciiLower) bytes v

/-- A word of a phrase; with the feature `mime` it may be an encoded word. -/
def PhraseWord (c : Cfg) : Gram Bytes :=
  if c.feat.mime then
    Gram.or
      (do
        let _ ← opt Fws
        EncodedWord c)
      Word
  else Word

/-- 3.2.5: `phrase = 1*word`. -/
def Phrase (c : Cfg) : Gram (List Bytes) := plus (PhraseWord c)

/-- 3.2.5: `unstructured = (*([FWS] VCHAR) *WSP)`; the trailing white space is not part of the
value. -/
def Unstructured : Gram Bytes := do
  let parts ← star do
    let white ← OptFws
    let v ← chars1 vchar
    pure (white ++ v)
  let _ ← chars wsp
  pure parts.flatten

/-- A piece of unstructured text: preceding white space, whether it was encoded, text. -/
structure Piece where
  white : Bytes
  encoded : Bool
  text : Bytes

/-- RFC 2047 6.2: white space between adjacent encoded words is not part of the text.  The first
argument tells whether the previous piece was encoded. -/
def joinPieces : Bool → List Piece → Bytes
  | _, [] => []
  | previous, p :: ps =>
    (if previous && p.encoded then [] else p.white) ++ p.text ++ joinPieces p.encoded ps

/-- Unstructured text with encoded words. -/
def MimeUnstructured (c : Cfg) : Gram Bytes := do
  let pieces ← star do
    let white ← OptFws
    Gram.or
      (do
        let text ← EncodedWord c
        pure (Piece.mk white true text))
      (do
        let text ← chars1 vchar
        pure (Piece.mk white false text))
  let _ ← chars wsp
  pure (joinPieces false pieces)

/-! ### RFC 5322 3.4: addresses -/

/-- 3.4.1: `domain-literal = [CFWS] "[" *([FWS] dtext) [FWS] "]" [CFWS]`; the value is the text
between the brackets without white space. -/
def DomainLiteralOf (K : Gram Unit) : Gram Bytes := do
  OptCfwsOf K
  lit (b! "[")
  let parts ← star do
    let _ ← opt Fws
    chars1 dtext
  let _ ← opt Fws
  lit (b! "]")
  OptCfwsOf K
  pure parts.flatten

@[inherit_doc DomainLiteralOf]
abbrev DomainLiteral : Gram Bytes := DomainLiteralOf Comment

/-- 3.4.1: `local-part = dot-atom / quoted-string`. -/
def LocalPartOf (K : Gram Unit) (lax : Bool) : Gram Bytes :=
  Gram.or (DotAtomOf K lax) (QuotedStringOf K)

@[inherit_doc LocalPartOf]
abbrev LocalPart (lax : Bool) : Gram Bytes := LocalPartOf Comment lax

/-- 3.4.1: `domain = dot-atom / domain-literal`. -/
def DomainOf (K : Gram Unit) (lax : Bool) : Gram Bytes :=
  Gram.or (DotAtomOf K lax) (DomainLiteralOf K)

@[inherit_doc DomainOf]
abbrev Domain (lax : Bool) : Gram Bytes := DomainOf Comment lax

/-- 3.4.1: `addr-spec = local-part "@" domain`. -/
def AddrSpecOf (K : Gram Unit) (lax : Bool) : Gram EmailAddress := do
  let localPart ← LocalPartOf K lax
  lit (b! "@")
  let domain ← DomainOf K lax
  pure { localPart, domain }

@[inherit_doc AddrSpecOf]
abbrev AddrSpec (lax : Bool) : Gram EmailAddress := AddrSpecOf Comment lax

/-- 3.4: `angle-addr = [CFWS] "<" addr-spec ">" [CFWS]`. -/
def AngleAddrOf (K : Gram Unit) (lax : Bool) : Gram EmailAddress := do
  OptCfwsOf K
  lit (b! "<")
  let a ← AddrSpecOf K lax
  lit (b! ">")
  OptCfwsOf K
  pure a

@[inherit_doc AngleAddrOf]
abbrev AngleAddr (lax : Bool) : Gram EmailAddress := AngleAddrOf Comment lax

/-- 3.4: `mailbox = name-addr / addr-spec`, `name-addr = [display-name] angle-addr`. -/
def MailboxG (c : Cfg) : Gram Mailbox :=
  Gram.or
    (do
      let name ← opt (Phrase c)
      let address ← AngleAddr c.feat.compatibilityFixes
      pure { name, address })
    (do
      let address ← AddrSpec c.feat.compatibilityFixes
      pure { name := none, address })

/-- One or more elements separated by commas. -/
def CommaList {α : Type} (G : Gram α) : Gram (List α) := do
  let first ← G
  let others ← star do
    lit (b! ",")
    G
  pure (first :: others)

/-- 3.4: `mailbox-list = mailbox *("," mailbox)`. -/
def MailboxList (c : Cfg) : Gram (List Mailbox) := CommaList (MailboxG c)

/-- 3.4: `[group-list]`, `group-list = mailbox-list / CFWS`. -/
def GroupList (c : Cfg) : Gram (List Mailbox) :=
  Gram.or (MailboxList c) (do OptCfws; pure [])

/-- 3.4: `group = display-name ":" [group-list] ";" [CFWS]`. -/
def Group (c : Cfg) : Gram (List Bytes × List Mailbox) := do
  let name ← Phrase c
  lit (b! ":")
  let members ← GroupList c
  lit (b! ";")
  OptCfws
  pure (name, members)

/-- 3.4: `address = mailbox / group`. -/
def AddressG (c : Cfg) : Gram Address :=
  Gram.or
    (map .mailbox (MailboxG c))
    (map (fun (name, members) => .group name members) (Group c))

/-- 3.4: `address-list = address *("," address)`. -/
def AddressList (c : Cfg) : Gram (List Address) := CommaList (AddressG c)

/-- 3.6.4: `no-fold-literal = "[" *dtext "]"`; the value is the text between the brackets. -/
def NoFoldLiteral : Gram Bytes := do
  lit (b! "[")
  let v ← chars dtext
  lit (b! "]")
  pure v

/-- 3.6.4: `msg-id = [CFWS] "<" id-left "@" id-right ">" [CFWS]`. -/
def MessageIdOf (K : Gram Unit) (lax : Bool) : Gram (Bytes × Bytes) := do
  OptCfwsOf K
  lit (b! "<")
  let left ← DotAtomText lax
  lit (b! "@")
  let right ← Gram.or (DotAtomText lax) NoFoldLiteral
  lit (b! ">")
  OptCfwsOf K
  pure (left, right)

@[inherit_doc MessageIdOf]
abbrev MessageId (lax : Bool) : Gram (Bytes × Bytes) := MessageIdOf Comment lax

/-! ### RFC 5322 3.3: date and time -/

/-- The number denoted by a string of decimal digits. -/
def decimal (digits : Bytes) : Nat := digits.foldl (fun n d => 10 * n + (d.toNat - 48)) 0

/-- 3.3: day names. -/
def dayName : Day → Bytes
  | .monday => b! "Mon"
  | .tuesday => b! "Tue"
  | .wednesday => b! "Wed"
  | .thursday => b! "Thu"
  | .friday => b! "Fri"
  | .saturday => b! "Sat"
  | .sunday => b! "Sun"

/-- 3.3: month names. -/
def monthName : Month → Bytes
  | .january => b! "Jan"
  | .february => b! "Feb"
  | .march => b! "Mar"
  | .april => b! "Apr"
  | .may => b! "May"
  | .june => b! "Jun"
  | .july => b! "Jul"
  | .august => b! "Aug"
  | .september => b! "Sep"
  | .october => b! "Oct"
  | .november => b! "Nov"
  | .december => b! "Dec"

/-- 3.3: `day-of-week = ([FWS] day-name)`, with the comma that follows it. -/
def DayOfWeek : Gram Day := do
  let _ ← opt Fws
  let d ← fun w d => litNoCase (dayName d) w ()
  lit (b! ",")
  pure d

/-- A number with at least `lo` and at most `hi` digits. -/
def Number (lo hi : Nat) : Gram Nat := do
  let v ← filter (fun v => lo ≤ v.length ∧ v.length ≤ hi) (chars digit)
  pure (decimal v)

/-- 3.3: `day = ([FWS] 1*2DIGIT FWS)`. -/
def DayG : Gram Nat := do
  let _ ← opt Fws
  let d ← filter (· ≤ 31) (Number 1 2)
  let _ ← Fws
  pure d

/-- 3.3: `month`. -/
def MonthG : Gram Month := fun w m => litNoCase (monthName m) w ()

/-- 3.3: `year = (FWS 4*DIGIT FWS)`; the code accepts the years from 1990 up to what fits in 64 bits. -/
def Year : Gram Nat := do
  let _ ← Fws
  let v ← filter (fun v => 4 ≤ v.length) (chars digit)
  let y ← filter (fun y => 1990 ≤ y ∧ y < 2 ^ 64) (pure (decimal v))
  let _ ← Fws
  pure y

/-- 3.3: `time-of-day = hour ":" minute [ ":" second ]`. -/
def TimeOfDay : Gram Time := do
  let hour ← filter (· ≤ 23) (Number 2 2)
  lit (b! ":")
  let minute ← filter (· ≤ 59) (Number 2 2)
  let second ← opt do
    lit (b! ":")
    filter (· ≤ 60) (Number 2 2)
  pure { hour, minute, second := second.getD 0 }

/-- 3.3: `zone = (FWS ( "+" / "-" ) 4DIGIT)`. -/
def ZoneG : Gram Zone := do
  let _ ← Fws
  let sign ← Gram.or (map (fun _ => true) (lit (b! "+"))) (map (fun _ => false) (lit (b! "-")))
  let hourOffset ← Number 2 2
  let minuteOffset ← filter (· ≤ 59) (Number 2 2)
  pure { sign, hourOffset, minuteOffset }

/-- 3.3: `date-time = [ day-of-week "," ] date time [CFWS]`. -/
def DateTimeGOf (K : Gram Unit) : Gram DateTime := do
  let dayName ← opt DayOfWeek
  let day ← DayG
  let month ← MonthG
  let year ← Year
  let time ← TimeOfDay
  let zone ← ZoneG
  OptCfwsOf K
  pure { dayName, date := { day, month, year }, time := { time, zone } }

@[inherit_doc DateTimeGOf]
abbrev DateTimeG : Gram DateTime := DateTimeGOf Comment

end EmailParser.Spec
