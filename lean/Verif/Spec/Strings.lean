import Verif.Model.Message
import Verif.Spec.Chars
/-
The strings reachable from a value, and folded lines.  From the model it uses only the data types.
-/
namespace EmailParser.Spec

/-- `Strings.All P v`: every string (Rust `str`, `String` or `Cow<str>`) reachable from `v` satisfies
`P`.  The decoded bytes of an entity (`RawEntity.value`) are not a string. -/
class Strings (α : Type) where
  All : (Bytes → Prop) → α → Prop

namespace Strings

instance : Strings Bytes := ⟨fun P s => P s⟩
instance : Strings Nat := ⟨fun _ _ => True⟩
instance : Strings Bool := ⟨fun _ _ => True⟩
instance : Strings Unit := ⟨fun _ _ => True⟩
instance : Strings DateTime := ⟨fun _ _ => True⟩

instance {α : Type} [Strings α] : Strings (Option α) := ⟨fun P o => ∀ v, o = some v → All P v⟩
instance {α : Type} [Strings α] : Strings (List α) := ⟨fun P l => ∀ v ∈ l, All P v⟩
instance {α β : Type} [Strings α] [Strings β] : Strings (α × β) :=
  ⟨fun P p => All P p.1 ∧ All P p.2⟩

instance : Strings EmailAddress := ⟨fun P a => P a.localPart ∧ P a.domain⟩
instance : Strings Mailbox := ⟨fun P m => All P m.name ∧ All P m.address⟩

instance : Strings Address := ⟨fun P a =>
  match a with
  | .mailbox m => All P m
  | .group name members => All P name ∧ All P members⟩

instance : Strings ReceivedToken := ⟨fun P t =>
  match t with
  | .word v => P v
  | .addr a => All P a
  | .domain d => P d⟩

instance : Strings TraceField := ⟨fun P f =>
  match f with
  | .date _ => True
  | .from v => All P v
  | .sender v => All P v
  | .to v => All P v
  | .cc v => All P v
  | .bcc v => All P v
  | .messageId v => All P v⟩

/-- The names and the values of parameters. -/
instance : Strings Params := ⟨fun P p => ∀ name value, p name = some value → P name ∧ P value⟩

instance : Strings ContentType := ⟨fun P t => ∀ name, t = .unknown name → P name⟩
instance : Strings DispositionType := ⟨fun P t => ∀ name, t = .unknown name → P name⟩
instance : Strings ContentTransferEncoding := ⟨fun P t => ∀ name, t = .unknown name → P name⟩

instance : Strings Disposition := ⟨fun P d =>
  All P d.dispositionType ∧ All P d.filename ∧ All P d.unstructured⟩

instance : Strings RawEntity := ⟨fun P e =>
  All P e.mimeType ∧ P e.subtype ∧ All P e.description ∧ All P e.id ∧ All P e.parameters ∧
  All P e.disposition ∧ All P e.additionalHeaders⟩

instance : Strings Entity := ⟨fun P e =>
  match e with
  | .multipart subtype content => P subtype ∧ All P content
  | .text subtype value => P subtype ∧ P value
  | .unknown => True⟩

instance : Strings Field := ⟨fun P f =>
  match f with
  | .date _ => True
  | .from v => All P v
  | .sender v => All P v
  | .replyTo v => All P v
  | .to v => All P v
  | .cc v => All P v
  | .bcc v => All P v
  | .messageId v => All P v
  | .inReplyTo v => All P v
  | .references v => All P v
  | .subject v => P v
  | .comments v => P v
  | .keywords v => All P v
  | .mimeVersion _ _ => True
  | .contentType t s p => All P t ∧ P s ∧ All P p
  | .contentTransferEncoding v => All P v
  | .contentId v => All P v
  | .contentDescription v => P v
  | .contentDisposition v => All P v
  | .trace returnPath received fields => All P returnPath ∧ All P received ∧ All P fields
  | .unknown name value => P name ∧ P value⟩

instance : Strings Email := ⟨fun P e =>
  All P e.body ∧ All P e.from ∧ All P e.sender ∧ All P e.subject ∧ All P e.to ∧ All P e.cc ∧
  All P e.bcc ∧ All P e.messageId ∧ All P e.inReplyTo ∧ All P e.references ∧ All P e.replyTo ∧
  All P e.comments ∧ All P e.keywords ∧ All P e.trace ∧ All P e.mimeEntity ∧
  All P e.unknownFields⟩

end Strings

/-- A line of printable characters and white space, in which a line break may only occur before white
space (RFC 5322 2.2.3). -/
inductive Folded : Bytes → Prop
  | nil : Folded []
  | char {x w} : vchar x = true ∨ wsp x = true → Folded w → Folded (x :: w)
  | fold {x w} : wsp x = true → Folded w → Folded (13 :: 10 :: x :: w)

/-- Folded lines, each beginning with a field name and a colon and ended by CRLF. -/
def HeaderLines (w : Bytes) : Prop :=
  ∃ ls : List Bytes, w = (ls.map (· ++ [13, 10])).flatten ∧
    ∀ l ∈ ls, Folded l ∧ ∃ name t, l = name ++ 58 :: t ∧ name ≠ [] ∧ ∀ b ∈ name, ftext b = true

end EmailParser.Spec
