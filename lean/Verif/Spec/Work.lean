import Verif.Spec.Nesting
import Verif.Spec.QuotedPrintable
import Verif.Model.TimedEntity
/-
How many steps reading all levels of an entity takes.  `RawEntity.parse`, its counting copy `Timed.entity` and
`rawEntity` are the only functions of the model this file uses.
-/
namespace EmailParser.Spec

mutual
/-- Reading the entity and, again and again, its parts takes `t` steps. -/
inductive Work (c : Cfg) : RawEntity → Nat → Prop
  | leaf {raw} : (∀ subtype parts, raw.parse c ≠ .ok (.multipart subtype parts)) → Work c raw (Timed.entity c raw).cost
  | node {raw subtype parts t} : raw.parse c = .ok (.multipart subtype parts) → WorkOf c parts t →
      Work c raw ((Timed.entity c raw).cost + t)
/-- The same for a list of entities. -/
inductive WorkOf (c : Cfg) : List RawEntity → Nat → Prop
  | nil : WorkOf c [] 0
  | cons {raw raws t t'} : Work c raw t → WorkOf c raws t' → WorkOf c (raw :: raws) (t + t')
end

/-- The length of the multipart entities among these. -/
def multipartLength (parts : List RawEntity) : Nat :=
  ((parts.filter fun e => e.mimeType == .multipart).map fun e => e.value.length).sum

/-- Wherever there are multipart entities in an entity inside this one, they have together, after decoding, at most `a`
times its length. -/
def Grows (c : Cfg) (a : Nat) (raw : RawEntity) : Prop :=
  ∀ n whole, Inside c whole n raw → ∀ subtype parts, whole.parse c = .ok (.multipart subtype parts) →
    multipartLength parts ≤ a * whole.value.length

/-- No stretch of an entity inside this one that is read as a multipart entity becomes longer by decoding. -/
def Calm (c : Cfg) (raw : RawEntity) : Prop :=
  ∀ n whole, Inside c whole n raw → ∀ text part, text <:+: whole.value → rawEntity c text = .ok part →
    part.mimeType = .multipart → part.value.length ≤ text.length

/-- RFC 2045 6.7: whether data may be quoted-printable, that is, made of printable characters, white space, line breaks,
escapes and soft line breaks. -/
def wellQuoted : Bytes → Bool
  | [] => true
  | 61 :: 13 :: 10 :: s => wellQuoted s
  | 61 :: a :: b :: s => (hexByte? a b).isSome && wellQuoted s
  | 61 :: _ => false
  | 13 :: 10 :: s => wellQuoted s
  | b :: s => qpLiteral b && wellQuoted s

end EmailParser.Spec
