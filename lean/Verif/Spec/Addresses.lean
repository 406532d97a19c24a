import Verif.Spec.Layout
/-
How phrases, mailboxes and groups are written so that they can be read back without ambiguity.  The grammar
of RFC 5322 allows a space to belong to the word before it or to the word after it, and RFC 2047 lets
encoded words stand for atoms; the relations below fix one reading.  Nothing here refers to the parsers.
-/
namespace EmailParser.Spec

/-- What is between quotation marks, which are included. -/
def Quoted : Gram Bytes := do
  Gram.lit (b! "\"")
  let parts ← Gram.star do
    let white ← OptFws
    let v ← Gram.or (Gram.chars1 qtext) QuotedPair
    pure (white ++ v)
  let last ← OptFws
  Gram.lit (b! "\"")
  pure (parts.flatten ++ last)

/-- The words of a phrase.  Comments and white space after an atom or a quoted string belong to it; before
an encoded word that does not follow such a word there can be only white space.  The two truth values tell
whether comments and white space have already been passed at the beginning and at the end. -/
inductive Names (c : Cfg) : Bool → Bytes → List Bytes → Bool → Prop
  | nil {p} : Names c p [] [] p
  | atom {p q g x t s vs} : Gap c g () → (p = true → g = []) → x ≠ [] → (∀ b ∈ x, atext b = true) →
      (c.feat.mime = true → ¬ b! "=?" <+: x) → Gap c t () → (t = [] → NotBefore atext s) →
      Names c true s vs q → Names c p (g ++ (x ++ (t ++ s))) (x :: vs) q
  | quoted {p q g x v t s vs} : Gap c g () → (p = true → g = []) → Quoted x v → Gap c t () →
      Names c true s vs q → Names c p (g ++ (x ++ (t ++ s))) (v :: vs) q
  | encoded {p q f white w v s vs} : c.feat.mime = true → OptFws f white → (p = true → f = []) →
      EncodedWord c w v → Names c false s vs q → Names c p (f ++ (w ++ s)) (v :: vs) q

/-- Mailboxes. -/
inductive MailboxL (c : Cfg) : Bytes → Mailbox → Prop
  | named {n vs p a v} : Names c false n vs p → vs ≠ [] →
      AngleAddrOf (CommentN c.stack) c.feat.compatibilityFixes a v → (p = true → ∃ t, a = 60 :: t) →
      MailboxL c (n ++ a) ⟨some vs, v⟩
  | angle {a v} : AngleAddrOf (CommentN c.stack) c.feat.compatibilityFixes a v → MailboxL c a ⟨none, v⟩
  | dotAtom {l lv d dv} : DotAtomOf (CommentN c.stack) c.feat.compatibilityFixes l lv →
      (c.feat.mime = true → ¬ b! "=?" <+: lv) →
      DomainOf (CommentN c.stack) c.feat.compatibilityFixes d dv →
      MailboxL c (l ++ 64 :: d) ⟨none, ⟨lv, dv⟩⟩
  | quoted {l lv d dv} : QuotedStringOf (CommentN c.stack) l lv →
      DomainOf (CommentN c.stack) c.feat.compatibilityFixes d dv →
      MailboxL c (l ++ 64 :: d) ⟨none, ⟨lv, dv⟩⟩

/-- One or more elements separated by commas. -/
inductive Commas {α : Type} (L : Bytes → α → Prop) : Bytes → List α → Prop
  | one {w v} : L w v → Commas L w [v]
  | cons {w v s vs} : L w v → Commas L s vs → Commas L (w ++ 44 :: s) (v :: vs)

/-- The name of a group: if it begins with an encoded word, that word consists of characters of atoms and
is not followed by further ones. -/
def GroupName (c : Cfg) (w : Bytes) (vs : List Bytes) : Prop :=
  vs ≠ [] ∧ (∃ p, Names c false w vs p) ∧
  ∀ f white x v s, w = f ++ (x ++ s) → OptFws f white → EncodedWord c x v → c.feat.mime = true →
    (∀ b ∈ x, atext b = true) ∧ NotBefore (fun b => atext b || b == 46) s

/-- Mailboxes and groups. -/
inductive AddressL (c : Cfg) : Bytes → Address → Prop
  | mailbox {w m} : MailboxL c w m → AddressL c w (.mailbox m)
  | group {n vs w ms t} : GroupName c n vs → Commas (MailboxL c) w ms → Gap c t () →
      AddressL c (n ++ 58 :: (w ++ 59 :: t)) (.group vs ms)
  | emptyGroup {n vs w t} : GroupName c n vs → Gap c w () → Gap c t () →
      AddressL c (n ++ 58 :: (w ++ 59 :: t)) (.group vs [])

end EmailParser.Spec
