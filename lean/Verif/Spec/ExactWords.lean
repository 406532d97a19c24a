import Verif.Spec.ExactPart
/-
Which reading of phrases and addresses counts when the text may have encoded words (RFC 2047).  A text such as
`=?utf-8?q?a@b,?=<c@d>` is both one named mailbox and a list of two; one reading is preferred here.  All relations have
as their first text what follows in the line.  Nothing here refers to the parsers.
-/
namespace EmailParser.Spec

/-- The text begins with something that is in `G` before the rest of the text. -/
def StartsIn {α : Type} (G : Bytes → Bytes → α → Prop) (i : Bytes) : Prop := ∃ w e v, i = w ++ e ∧ G e w v

/-- White space that may be absent and an encoded word. -/
def SpacedWord (c : Cfg) (_e w v : Bytes) : Prop :=
  ∃ f white x, w = f ++ x ∧ OptFws f white ∧ EncodedWord c x v

/-- The words of a phrase before the text `e`.  What can be an encoded word is one; an atom is as long as possible;
comments and white space after an atom or a quoted string belong to it.  The two truth values tell whether comments and
white space have already been passed at the beginning and at the end. -/
inductive Phrases (c : Cfg) (e : Bytes) : Bool → Bytes → List Bytes → Bool → Prop
  | nil {p} : Phrases c e p [] [] p
  | atom {p q g x t s vs} : Gap c g () → (p = true → g = []) → x ≠ [] → (∀ b ∈ x, atext b = true) → Gap c t () →
      (t = [] → NotBefore atext (s ++ e)) →
      (c.feat.mime = true → ¬ StartsIn (SpacedWord c) (g ++ (x ++ (t ++ (s ++ e))))) →
      Phrases c e true s vs q → Phrases c e p (g ++ (x ++ (t ++ s))) (x :: vs) q
  | quoted {p q g x v t s vs} : Gap c g () → (p = true → g = []) → Quoted x v → Gap c t () →
      Phrases c e true s vs q → Phrases c e p (g ++ (x ++ (t ++ s))) (v :: vs) q
  | encoded {p q f white x v s vs} : c.feat.mime = true → OptFws f white → (p = true → f = []) →
      EncodedWord c x v → Phrases c e false s vs q → Phrases c e p (f ++ (x ++ s)) (v :: vs) q

/-- An address in angle brackets, with or without a name. -/
inductive NameAddrE (c : Cfg) (e : Bytes) : Bytes → Mailbox → Prop
  | named {n vs p a v} : Phrases c (a ++ e) false n vs p → vs ≠ [] →
      AngleAddrOf (CommentN c.stack) c.feat.compatibilityFixes a v → (p = true → ∃ t, a = 60 :: t) →
      NameAddrE c e (n ++ a) ⟨some vs, v⟩
  | angle {a v} : AngleAddrOf (CommentN c.stack) c.feat.compatibilityFixes a v → NameAddrE c e a ⟨none, v⟩

/-- A mailbox: an address in angle brackets if possible, otherwise an address without them. -/
inductive MailboxE (c : Cfg) (e : Bytes) : Bytes → Mailbox → Prop
  | nameAddr {w m} : NameAddrE c e w m → MailboxE c e w m
  | addr {w v} : AddrSpecOf (CommentN c.stack) c.feat.compatibilityFixes w v → ¬ StartsIn (NameAddrE c) (w ++ e) →
      MailboxE c e w ⟨none, v⟩

/-- One or more elements separated by commas. -/
inductive CommasE {α : Type} (L : Bytes → Bytes → α → Prop) (e : Bytes) : Bytes → List α → Prop
  | one {w v} : L e w v → CommasE L e w [v]
  | cons {w v s vs} : L (44 :: (s ++ e)) w v → CommasE L e s vs → CommasE L e (w ++ 44 :: s) (v :: vs)

/-- The members of a group. -/
inductive MembersE (c : Cfg) (e : Bytes) : Bytes → List Mailbox → Prop
  | list {w ms} : CommasE (MailboxE c) e w ms → MembersE c e w ms
  | none {w} : Gap c w () → MembersE c e w []

/-- An address: a mailbox if possible, otherwise a group. -/
inductive AddressE (c : Cfg) (e : Bytes) : Bytes → Address → Prop
  | mailbox {w m} : MailboxE c e w m → AddressE c e w (.mailbox m)
  | group {n vs p w ms t} : Phrases c (58 :: (w ++ 59 :: (t ++ e))) false n vs p → vs ≠ [] →
      MembersE c (59 :: (t ++ e)) w ms → Gap c t () → ¬ StartsIn (MailboxE c) (n ++ 58 :: (w ++ 59 :: (t ++ e))) →
      AddressE c e (n ++ 58 :: (w ++ 59 :: t)) (.group vs ms)

/-- A keyword. -/
def KeywordE (c : Cfg) (e w : Bytes) (vs : List Bytes) : Prop := vs ≠ [] ∧ ∃ q, Phrases c e false w vs q

/-- The headers whose values have phrases. -/
def phraseHeaders : List Bytes :=
  [b! "from", b! "sender", b! "reply-to", b! "to", b! "cc", b! "bcc", b! "keywords"]

/-- The value of such a header before the text `e`. -/
def PhraseValue (c : Cfg) (e w : Bytes) : Field → Prop
  | .from v => CommasE (MailboxE c) e w v
  | .sender v => MailboxE c e w v
  | .replyTo v => CommasE (AddressE c) e w v
  | .to v => CommasE (AddressE c) e w v
  | .cc v => CommasE (AddressE c) e w v
  | .bcc v => CommasE (AddressE c) e w v ∨ (v = [] ∧ w ≠ [] ∧ Gap c w ())
  | .keywords v => CommasE (KeywordE c) e w v
  | _ => False

/-- The headers with a date or with identifiers. -/
def identifierHeaders : List Bytes := [b! "date", b! "message-id", b! "in-reply-to", b! "references", b! "content-id"]

/-! ### Header lines -/

/-- The text `w` of a header line with the given name stands for the field `f`, where `e` is the rest from the line
end on. -/
def TypedL (c : Cfg) (name e w : Bytes) (f : Field) : Prop :=
  headerOf f = some (name.map asciiLower) ∧ Recognized c.feat (name.map asciiLower) ∧
    ((name.map asciiLower ∈ phraseHeaders ∧ PhraseValue c e w f ∧ Solid w) ∨
      (name.map asciiLower ∈ identifierHeaders ∧ FieldG c (name ++ b! ":" ++ w ++ CRLF) f ∧ Solid w) ∨
      (name.map asciiLower ∈ mimeHeaders ∧ FieldG c (name ++ b! ":" ++ w ++ CRLF) f) ∨
      ∃ v, f = .contentDisposition v ∧ DispositionL c w v)

/-- The line, or a beginning of it if the header is one of those read only up to the end of their value, stands for a
field. -/
def BeginsTyped (c : Cfg) (name l : Bytes) : Prop :=
  ∃ w r f, l = name ++ b! ":" ++ w ++ CRLF ++ r ∧ (r = [] ∨ CutName c name) ∧ TypedL c name (CRLF ++ r) w f

/-- What a header line denotes, to the letter. -/
inductive DenotesLine (c : Cfg) : Bytes → Field → Prop
  | typed {name x w l f} : HeaderText name x w l → Fits c w → TypedL c name CRLF w f → DenotesLine c l f
  | untyped {name x w l v} : HeaderText name x w l → Fits c w → Recognized c.feat (name.map asciiLower) →
      name.map asciiLower ∉ textHeaders → ¬ BeginsTyped c name l → TextL c c.feat.unrecognizedHeaders w v →
      DenotesLine c l (.unknown name v)
  | text {name x w l f} : HeaderText name x w l → name.map asciiLower ∈ textHeaders →
      Recognized c.feat (name.map asciiLower) → headerOf f = some (name.map asciiLower) → ValueL c w f →
      DenotesLine c l f
  | unknown {name x w l v} : HeaderText name x w l → ¬ Recognized c.feat (name.map asciiLower) →
      TextL c c.feat.unrecognizedHeaders w v → DenotesLine c l (.unknown name v)

end EmailParser.Spec
