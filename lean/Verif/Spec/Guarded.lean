import Verif.Spec.Strings
/-
The strings of a message that say where it goes, where it comes from and how it is encoded: addresses,
message ids, names of header fields, types and names of parameters.  From the model it uses only the
data types.
-/
namespace EmailParser.Spec

/-- Printable characters other than the space. -/
def Graphic (s : Bytes) : Prop := ∀ x ∈ s, vchar x = true

/-- Printable characters, spaces and tabs. -/
def OneLine (s : Bytes) : Prop := ∀ x ∈ s, vchar x = true ∨ wsp x = true

/-- `Guarded.All P Q v`: `P` holds for every domain, message id, name of a header field, MIME type and
name of a parameter reachable from `v`, and `Q` for every local part of an address, word of a `Received`
field and filename.  Display names, names of groups, the texts of `Subject`, `Comments`, `Keywords`,
`Content-Description` and of unknown fields, and the values of parameters are left out. -/
class Guarded (α : Type) where
  All : (Bytes → Prop) → (Bytes → Prop) → α → Prop

namespace Guarded

instance {α : Type} [Guarded α] : Guarded (Option α) := ⟨fun P Q o => ∀ v, o = some v → All P Q v⟩
instance {α : Type} [Guarded α] : Guarded (List α) := ⟨fun P Q l => ∀ v ∈ l, All P Q v⟩

instance : Guarded EmailAddress := ⟨fun P Q a => Q a.localPart ∧ P a.domain⟩
instance : Guarded Mailbox := ⟨fun P Q m => All P Q m.address⟩

instance : Guarded Address := ⟨fun P Q a =>
  match a with
  | .mailbox m => All P Q m
  | .group _ members => All P Q members⟩

/-- Both halves of a message id. -/
def Id (P : Bytes → Prop) (v : Bytes × Bytes) : Prop := P v.1 ∧ P v.2

instance : Guarded ReceivedToken := ⟨fun P Q t =>
  match t with
  | .word v => Q v
  | .addr a => All P Q a
  | .domain d => P d⟩

instance : Guarded TraceField := ⟨fun P Q f =>
  match f with
  | .date _ => True
  | .from v => All P Q v
  | .sender v => All P Q v
  | .to v => All P Q v
  | .cc v => All P Q v
  | .bcc v => All P Q v
  | .messageId v => Id P v⟩

/-- The names of the parameters. -/
instance : Guarded Params := ⟨fun P _ p => ∀ name value, p name = some value → P name⟩

instance : Guarded ContentType := ⟨fun P _ t => ∀ name, t = .unknown name → P name⟩
instance : Guarded DispositionType := ⟨fun P _ t => ∀ name, t = .unknown name → P name⟩

instance : Guarded Disposition := ⟨fun P Q d =>
  All P Q d.dispositionType ∧ (∀ v, d.filename = some v → Q v) ∧ All P Q d.unstructured⟩

instance : Guarded RawEntity := ⟨fun P Q e =>
  All P Q e.mimeType ∧ P e.subtype ∧ (∀ v, e.id = some v → Id P v) ∧ All P Q e.parameters ∧
  All P Q e.disposition ∧ ∀ h ∈ e.additionalHeaders, P h.1⟩

instance : Guarded Entity := ⟨fun P Q e =>
  match e with
  | .multipart subtype content => P subtype ∧ All P Q content
  | .text subtype _ => P subtype
  | .unknown => True⟩

instance : Guarded Email := ⟨fun P Q e =>
  All P Q e.from ∧ All P Q e.sender ∧ All P Q e.to ∧ All P Q e.cc ∧ All P Q e.bcc ∧
  All P Q e.replyTo ∧
  (∀ v, e.messageId = some v → Id P v) ∧
  (∀ l, e.inReplyTo = some l → ∀ v ∈ l, Id P v) ∧
  (∀ l, e.references = some l → ∀ v ∈ l, Id P v) ∧
  (∀ t ∈ e.trace, All P Q t.1 ∧ (∀ r ∈ t.2.1, All P Q r.1) ∧ All P Q t.2.2) ∧
  All P Q e.mimeEntity ∧
  ∀ h ∈ e.unknownFields, P h.1⟩

end Guarded

end EmailParser.Spec
