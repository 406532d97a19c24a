import Verif.Spec.Separate
import Verif.Spec.Join
import Verif.Spec.Part
/-
What an edit of one header changes.  Nothing here refers to the parsers.
-/
namespace EmailParser.Spec

/-- The first e-mail has the value of the first field where the second one has the value of the second field. -/
def Edited (e e' : Email) : Field → Field → Prop
  | .date v, .date v' => e.date = some v ∧ e'.date = some v'
  | .from v, .from v' => e.from = some v ∧ e'.from = some v'
  | .sender v, .sender v' => e.sender = some v ∧ e'.sender = some v'
  | .replyTo v, .replyTo v' => e.replyTo = some v ∧ e'.replyTo = some v'
  | .to v, .to v' => e.to = some v ∧ e'.to = some v'
  | .cc v, .cc v' => e.cc = some v ∧ e'.cc = some v'
  | .bcc v, .bcc v' => e.bcc = some v ∧ e'.bcc = some v'
  | .messageId v, .messageId v' => e.messageId = some v ∧ e'.messageId = some v'
  | .inReplyTo v, .inReplyTo v' => e.inReplyTo = some v ∧ e'.inReplyTo = some v'
  | .references v, .references v' => e.references = some v ∧ e'.references = some v'
  | .subject v, .subject v' => e.subject = some v ∧ e'.subject = some v'
  | .comments v, .comments v' => ∃ a b, e.comments = a ++ v :: b ∧ e'.comments = a ++ v' :: b
  | .keywords v, .keywords v' => ∃ a b, e.keywords = a ++ v ++ b ∧ e'.keywords = a ++ v' ++ b
  | .contentType t s q, .contentType t' s' q' =>
    e.mimeEntity.map (fun r => (r.mimeType, r.subtype, r.parameters)) = some (t, s, q) ∧
      e'.mimeEntity.map (fun r => (r.mimeType, r.subtype, r.parameters)) = some (t', s', q')
  | .contentId v, .contentId v' =>
    e.mimeEntity.map (·.id) = some (some v) ∧ e'.mimeEntity.map (·.id) = some (some v')
  | .contentDescription v, .contentDescription v' =>
    e.mimeEntity.map (·.description) = some (some v) ∧ e'.mimeEntity.map (·.description) = some (some v')
  | .contentDisposition v, .contentDisposition v' =>
    e.mimeEntity.map (·.disposition) = some (some v) ∧ e'.mimeEntity.map (·.disposition) = some (some v')
  | .mimeVersion _ _, .mimeVersion _ _ => True
  | _, _ => False

/-- With the second field in place of the first, no sender is missing that was not: the second field is not a list of several
authors, or the first one was such a list already. -/
def KeepsSender (c : Cfg) (f f' : Field) : Prop :=
  ∀ v v', f = .from v → f' = .from v' → c.feat.sender = false ∨ v'.length = 1 ∨ v.length ≠ 1

/-- The value of the header line is that of the part. -/
def PartShows (e : RawEntity) : EntityHeader → Prop
  | .type v => (e.mimeType, e.subtype, e.parameters) = v
  | .id v => e.id = some v
  | .description v => e.description = some v
  | .disposition v => e.disposition = some v
  | .other n v => (n, v) ∈ e.additionalHeaders
  | .encoding _ => True

end EmailParser.Spec
