import Verif.Spec.Fields
import Verif.Proofs.Sound.Mime
/-
Soundness of the parsers of src/parsing/fields.rs.
-/
namespace EmailParser
open Spec (Gram)

variable {A : Aborts} {α β : Type} {c : Cfg}

theorem bccValue_parses : Parses (aborts c) (Spec.Bcc c) (bccValue c) := by
  intro i
  unfold bccValue
  have h1 := addressList_parses (c := c) i
  cases hx : addressList c i with
  | abort k => rw [hx] at h1; exact h1
  | ok r => rw [hx] at h1; exact h1.orLeft
  | err e =>
    have h2 := cfws_parses (c := c) i
    dsimp only
    cases hy : cfws c i with
    | abort k => rw [hy] at h2; exact h2
    | err e => exact .err
    | ok r =>
      rw [hy] at h2
      obtain ⟨w, hi, ⟨⟩, hw⟩ := h2
      exact .ok w hi (.inr ⟨w, [], (), by simp, hw, rfl, rfl⟩)

theorem messageIds_parses :
    Parses (aborts c) (Spec.MessageIds c.feat.compatibilityFixes) (messageIds c) :=
  many1_parses messageId_progress messageId_parses

theorem textValue_parses : Parses (aborts c) (Spec.TextValue c.feat.mime c) (textValue c) := by
  intro i
  unfold textValue Spec.TextValue
  split
  · exact mimeUnstructured_parses i
  · exact unstructured_parses i

theorem unknownValue_parses :
    Parses (aborts c) (Spec.TextValue c.feat.unrecognizedHeaders c) (unknownValue c) := by
  intro i
  unfold unknownValue Spec.TextValue
  split
  · exact mimeUnstructured_parses i
  · exact unstructured_parses i

theorem keywordList_parses : Parses (aborts c) (Spec.Keywords c) (keywordList c) :=
  commaList_parses phrase_parses

theorem dateField_parses :
    Parses (aborts c) (Spec.HeaderLine (b! "Date:") Spec.DateTimeG) (dateField c) :=
  headerLine_parses (by decide) dateTime_parses

theorem fromField_parses :
    Parses (aborts c) (Spec.HeaderLine (b! "From:") (Spec.MailboxList c)) (fromField c) :=
  headerLine_parses (by decide) mailboxList_parses

theorem senderField_parses :
    Parses (aborts c) (Spec.HeaderLine (b! "Sender:") (Spec.MailboxG c)) (senderField c) :=
  headerLine_parses (by decide) mailbox_parses

theorem replyToField_parses :
    Parses (aborts c) (Spec.HeaderLine (b! "Reply-To:") (Spec.AddressList c)) (replyToField c) :=
  headerLine_parses (by decide) addressList_parses

theorem toField_parses :
    Parses (aborts c) (Spec.HeaderLine (b! "To:") (Spec.AddressList c)) (toField c) :=
  headerLine_parses (by decide) addressList_parses

theorem ccField_parses :
    Parses (aborts c) (Spec.HeaderLine (b! "Cc:") (Spec.AddressList c)) (ccField c) :=
  headerLine_parses (by decide) addressList_parses

theorem bccField_parses :
    Parses (aborts c) (Spec.HeaderLine (b! "Bcc:") (Spec.Bcc c)) (bccField c) :=
  headerLine_parses (by decide) bccValue_parses

theorem messageIdField_parses :
    Parses (aborts c) (Spec.HeaderLine (b! "Message-ID:")
      (Spec.MessageId c.feat.compatibilityFixes)) (messageIdField c) :=
  headerLine_parses (by decide) messageId_parses

theorem inReplyToField_parses :
    Parses (aborts c) (Spec.HeaderLine (b! "In-Reply-To:")
      (Spec.MessageIds c.feat.compatibilityFixes)) (inReplyToField c) :=
  headerLine_parses (by decide) messageIds_parses

theorem referencesField_parses :
    Parses (aborts c) (Spec.HeaderLine (b! "References:")
      (Spec.MessageIds c.feat.compatibilityFixes)) (referencesField c) :=
  headerLine_parses (by decide) messageIds_parses

theorem subjectField_parses :
    Parses (aborts c) (Spec.HeaderLine (b! "Subject:") (Spec.TextValue c.feat.mime c))
      (subjectField c) :=
  headerLine_parses (by decide) textValue_parses

theorem commentsField_parses :
    Parses (aborts c) (Spec.HeaderLine (b! "Comments:") (Spec.TextValue c.feat.mime c))
      (commentsField c) :=
  headerLine_parses (by decide) textValue_parses

theorem keywordsField_parses :
    Parses (aborts c) (Spec.HeaderLine (b! "Keywords:") (Spec.Keywords c)) (keywordsField c) :=
  headerLine_parses (by decide) keywordList_parses

theorem mimeVersion_parses :
    Parses (aborts c) (Spec.HeaderLine (b! "MIME-Version:") Spec.MimeVersion) (mimeVersion c) :=
  headerLine_parses (by decide) mimeVersionValue_parses

theorem contentType_parses (hm : c.feat.mime = true) :
    Parses (aborts c) (Spec.HeaderLine (b! "Content-Type:") (Spec.ContentTypeG c))
      (contentType c) :=
  headerLine_parses (by decide) (contentTypeValue_parses hm)

theorem contentTransferEncoding_parses :
    Parses (aborts c) (Spec.HeaderLine (b! "Content-Transfer-Encoding:") Spec.TransferEncodingG)
      (contentTransferEncoding c) :=
  headerLine_parses (by decide) transferEncodingValue_parses

theorem contentId_parses :
    Parses (aborts c) (Spec.HeaderLine (b! "Content-ID:")
      (Spec.MessageId c.feat.compatibilityFixes)) (contentId c) :=
  headerLine_parses (by decide) messageId_parses

theorem contentDescription_parses :
    Parses (aborts c) (Spec.HeaderLine (b! "Content-Description:") (Spec.MimeUnstructured c))
      (contentDescription c) :=
  headerLine_parses (by decide) mimeUnstructured_parses

theorem contentDisposition_parses (hm : c.feat.mime = true) :
    Parses (aborts c) (Spec.HeaderLine (b! "Content-Disposition:") (Spec.DispositionG c))
      (contentDisposition c) :=
  headerLine_parses (by decide) (contentDispositionValue_parses hm)

/-! ### Trace -/

theorem returnPathValue_parses :
    Parses (aborts c) (Spec.Path c.feat.compatibilityFixes) (returnPathValue c) := by
  refine matchParsers_two (fun i => ?_) fun i => ?_
  · exact map_psat (angleAddr_parses i) fun w v _ h => ⟨v, rfl, h⟩
  · refine (PSat.bind (G := do
      Spec.OptCfws
      Gram.lit (b! "<")
      Spec.OptCfws
      Gram.lit (b! ">")
      Spec.OptCfws) (F := fun _ => pure none) ?_ fun r v w _ _ => .pure).imp ?_
    · unfold emptyPath
      refine .bindRest (skipCfws_sat i) fun r w _ _ => ?_
      refine .bind (tag_parses _ _ r) fun r _ w _ _ => ?_
      refine .bindRest (skipCfws_sat r) fun r w _ _ => ?_
      refine .bind (tag_parses _ _ r) fun r _ w _ _ => ?_
      have h := skipCfws_sat (c := c) r
      dsimp only
      cases hx : skipCfws c r with
      | err e => exact .err
      | abort k => rw [hx] at h; exact h
      | ok s =>
        rw [hx] at h
        obtain ⟨w, hr, hw⟩ := h
        exact .ok w hr hw
    · rintro w v ⟨_, w₂, _, rfl, ⟨w₃, _, _, rfl, h₃, w₄, _, _, rfl, h₄, w₅, _, _, rfl, h₅, w₆, w₇, _,
        rfl, h₆, h₇⟩, rfl, rfl⟩
      exact ⟨w₃, _, _, by simp, h₃, w₄, _, _, rfl, h₄, w₅, _, _, rfl, h₅, w₆, w₇, (), rfl, h₆,
        w₇, [], (), by simp, h₇, rfl, rfl⟩

theorem returnPath_parses :
    Parses (aborts c) (Spec.HeaderLine (b! "Return-Path:")
      (Spec.Path c.feat.compatibilityFixes)) (returnPath c) :=
  headerLine_parses (by decide) returnPathValue_parses

theorem receivedToken_parses :
    Parses (aborts c) (Spec.ReceivedTokenG c.feat.compatibilityFixes) (receivedToken c) := by
  intro i
  unfold receivedToken
  have hd : ∀ r, domain c i = .ok r → ∃ w, i = w ++ r.1 ∧
      Spec.Domain c.feat.compatibilityFixes w r.2 := fun r h => (domain_parses (c := c) i).of_ok h
  have hda : ∀ k, domain c i = .abort k → (aborts c).P i k :=
    fun k h => (domain_parses (c := c) i).of_abort h
  have h1 := word_parses (c := c) i
  cases hx : word c i with
  | abort k => rw [hx] at h1; exact h1
  | ok r =>
    rw [hx] at h1
    obtain ⟨w, hi, hw⟩ := h1
    dsimp only
    cases hy : domain c i with
    | abort k => exact hda k hy
    | err e => exact .ok w hi hw
    | ok s =>
      obtain ⟨w', hi', hw'⟩ := hd s hy
      dsimp only
      split
      · exact .ok w' hi' hw'
      · exact .ok w hi hw
  | err e =>
    dsimp only
    have h2 := angleAddr_parses (c := c) i
    cases hy : angleAddr c i with
    | abort k => rw [hy] at h2; exact h2
    | ok r =>
      rw [hy] at h2
      obtain ⟨w, hi, hw⟩ := h2
      exact .ok w hi (.inl hw)
    | err e =>
      dsimp only
      have h3 := addrSpec_parses (c := c) i
      cases hz : addrSpec c i with
      | abort k => rw [hz] at h3; exact h3
      | ok r =>
        rw [hz] at h3
        obtain ⟨w, hi, hw⟩ := h3
        exact .ok w hi (.inr hw)
      | err e =>
        dsimp only
        cases hy : domain c i with
        | abort k => exact hda k hy
        | err e => exact .err
        | ok s =>
          obtain ⟨w', hi', hw'⟩ := hd s hy
          exact .ok w' hi' hw'

theorem receivedToken_progress {lax : Bool} : Progress (Spec.ReceivedTokenG lax) := by
  intro w v h
  cases v with
  | word x => exact word_progress _ _ h
  | addr a =>
    rcases h with h | h
    · exact angleAddr_progress _ _ h
    · exact addrSpec_progress _ _ h
  | domain d => exact domain_progress _ _ h

theorem receivedValue_parses :
    Parses (aborts c) (Spec.ReceivedG c.feat.compatibilityFixes) (receivedValue c) := by
  intro i
  unfold receivedValue
  refine .bind (many_parses receivedToken_progress receivedToken_parses i) fun r v w _ _ => ?_
  refine .bind (tag_parses _ _ r) fun r _ w _ _ => ?_
  refine .bind (dateTime_parses r) fun r v w _ _ => ?_
  exact .pure

theorem received_parses :
    Parses (aborts c) (Spec.HeaderLine (b! "Received:")
      (Spec.ReceivedG c.feat.compatibilityFixes)) (received c) :=
  headerLine_parses (by decide) receivedValue_parses

/-- A resent field. -/
theorem resent_psat {G : Gram α} {p : Bytes → Res α} {m : String} {f : α → TraceField}
    (hp : Parses (aborts c) G p)
    (h : ∀ w v, (do Gram.litNoCase (b! "Resent-"); G : Gram α) w v → Spec.ResentG c w (f v)) :
    Parses (aborts c) (Spec.ResentG c) (mapValue f (resent m p)) := by
  intro i
  unfold mapValue
  refine map_psat (G := do Gram.litNoCase (b! "Resent-"); G) ?_ fun w v _ hv => h w v hv
  unfold resent
  refine .bind (tagNoCase_parses _ (by decide) i) fun r _ w _ _ => ?_
  refine (PSat.bind (hp r) (F := fun v => pure v) fun r v w _ _ => .pure).imp ?_
  intro w v hv
  obtain ⟨a, ha, rfl⟩ := gram_bind_pure.mp hv
  exact ha

theorem traceFields_parses :
    Parses (aborts c) (Spec.ResentG c) (fun i => matchParsers i (traceFieldParsers c)) := by
  intro i
  refine matchParsers_psat fun p hp => ?_
  simp only [traceFieldParsers, List.mem_cons, List.not_mem_nil, or_false] at hp
  rcases hp with rfl | rfl | rfl | rfl | rfl | rfl | rfl
  · exact resent_psat dateField_parses (fun _ _ h => by exact h) i
  · exact resent_psat fromField_parses (fun _ _ h => by exact h) i
  · exact resent_psat senderField_parses (fun _ _ h => by exact h) i
  · exact resent_psat toField_parses (fun _ _ h => by exact h) i
  · exact resent_psat ccField_parses (fun _ _ h => by exact h) i
  · exact resent_psat bccField_parses (fun _ _ h => by exact h) i
  · exact resent_psat messageIdField_parses (fun _ _ h => by exact h) i

theorem resent_progress : Progress (Spec.ResentG c) := by
  intro w v h
  exact progress_bind_left (progress_litNoCase (by decide)) w v h

theorem traceBlock_parses : Parses (aborts c) (Spec.TraceBlock c) (traceBlock c) := by
  intro i
  unfold traceBlock
  refine (PSat.bind (G := do
      let rp ← Gram.opt (Spec.HeaderLine (b! "Return-Path:")
        (Spec.Path c.feat.compatibilityFixes))
      let rs ← Gram.plus (Spec.HeaderLine (b! "Received:")
        (Spec.ReceivedG c.feat.compatibilityFixes))
      pure (rp, rs)) (F := fun t => do
      let fields ← Gram.star (Spec.ResentG c)
      pure (Field.trace t.1 t.2 fields)) ?_ fun r v w _ _ => ?_).imp ?_
  · unfold trace
    refine .bind (optional_parses returnPath_parses i) fun r v w _ _ => ?_
    refine .bind (many1_parses (headerLine_progress (by decide)) received_parses r)
      fun r v w _ _ => ?_
    exact .pure
  · refine .bind (many_parses resent_progress traceFields_parses r) fun r v w _ _ => ?_
    exact .pure
  · rintro w v ⟨_, w₂, _, rfl, ⟨w₃, w₄, rp, rfl, h₃, w₅, w₆, rs, rfl, h₅, rfl, rfl⟩, h₂⟩
    exact ⟨w₃, _, rp, by simp, h₃, w₅, w₂, rs, rfl, h₅, h₂⟩

theorem traceBlock_progress : Progress (Spec.TraceBlock c) :=
  progress_bind_right fun _ => progress_bind_left
    (progress_plus (headerLine_progress (by decide)))

/-! ### Fields -/

theorem unknown_parses : Parses (aborts c) (Spec.OptionalField c) (unknown c) := by
  intro i
  unfold unknown
  rw [isFtext_eq]
  refine .bind (takeWhile1_parses _ i) fun r v w _ _ => ?_
  refine .bind (tag_parses _ _ r) fun r _ w _ _ => ?_
  refine .bind (unknownValue_parses r) fun r v w _ _ => ?_
  refine .bind (tag_parses _ _ r) fun r _ w _ _ => ?_
  exact .pure

theorem mapValue_psat {G : Gram α} {H : Gram β} {p : Bytes → Res α} {f : α → β}
    (hp : Parses A G p) (h : ∀ w v, G w v → H w (f v)) : Parses A H (mapValue f p) :=
  fun i => map_psat (hp i) fun w v _ => h w v

theorem mem_enabled {x p : α} {b : Bool} : p ∈ enabled b x ↔ b = true ∧ p = x := by
  unfold enabled
  split <;> simp [*]

theorem enabled_forall {P : α → Prop} {b : Bool} {x : α} (h : b = true → P x) :
    ∀ p ∈ enabled b x, P p := by
  intro p hp
  obtain ⟨hb, rfl⟩ := mem_enabled.mp hp
  exact h hb

theorem append_forall {P : α → Prop} {l m : List α} (h : ∀ p ∈ l, P p) (h' : ∀ p ∈ m, P p) :
    ∀ p ∈ l ++ m, P p :=
  List.forall_mem_append.mpr ⟨h, h'⟩

theorem fieldParsers_parses : ∀ p ∈ fieldParsers c, Parses (aborts c) (Spec.FieldG c) p := by
  unfold fieldParsers
  refine append_forall ?_ (List.forall_mem_singleton.mpr
    (mapValue_psat unknown_parses fun w v hv => hv))
  refine append_forall ?_ (enabled_forall fun h => mapValue_psat keywordsField_parses fun w v hv => ⟨h, hv⟩)
  refine append_forall ?_ (enabled_forall fun h => mapValue_psat (contentDisposition_parses h) fun w v hv => ⟨h, hv⟩)
  refine append_forall ?_ (enabled_forall fun h => mapValue_psat contentDescription_parses fun w v hv => ⟨h, hv⟩)
  refine append_forall ?_ (enabled_forall fun h => mapValue_psat contentId_parses fun w v hv => ⟨h, hv⟩)
  refine append_forall ?_ (enabled_forall fun h => mapValue_psat contentTransferEncoding_parses fun w v hv => ⟨h, hv⟩)
  refine append_forall ?_ (enabled_forall fun h => mapValue_psat (contentType_parses h) fun w v hv => ⟨h, hv⟩)
  refine append_forall ?_ (enabled_forall fun h => mapValue_psat mimeVersion_parses fun w v hv => ⟨h, hv⟩)
  refine append_forall ?_ (enabled_forall fun h => mapValue_psat commentsField_parses fun w v hv => ⟨h, hv⟩)
  refine append_forall ?_ (enabled_forall fun h => mapValue_psat subjectField_parses fun w v hv => ⟨h, hv⟩)
  refine append_forall ?_ (enabled_forall fun h => mapValue_psat referencesField_parses fun w v hv => ⟨h, hv⟩)
  refine append_forall ?_ (enabled_forall fun h => mapValue_psat inReplyToField_parses fun w v hv => ⟨h, hv⟩)
  refine append_forall ?_ (enabled_forall fun h => mapValue_psat messageIdField_parses fun w v hv => ⟨h, hv⟩)
  refine append_forall ?_ (enabled_forall fun h => mapValue_psat bccField_parses fun w v hv => ⟨h, hv⟩)
  refine append_forall ?_ (enabled_forall fun h => mapValue_psat ccField_parses fun w v hv => ⟨h, hv⟩)
  refine append_forall ?_ (enabled_forall fun h => mapValue_psat toField_parses fun w v hv => ⟨h, hv⟩)
  refine append_forall ?_ (enabled_forall fun h => mapValue_psat replyToField_parses fun w v hv => ⟨h, hv⟩)
  refine append_forall ?_ (enabled_forall fun h => mapValue_psat senderField_parses fun w v hv => ⟨h, hv⟩)
  refine append_forall ?_ (enabled_forall fun h => mapValue_psat fromField_parses fun w v hv => ⟨h, hv⟩)
  exact enabled_forall fun h => mapValue_psat dateField_parses fun w v hv => ⟨h, hv⟩

theorem field_parses : Parses (aborts c) (Spec.FieldG c) (field c) :=
  fun i => matchParsers_psat fun p hp => fieldParsers_parses p hp i

theorem field_progress : Progress (Spec.FieldG c) := by
  intro w f h
  cases f with
  | trace => exact h.elim
  | unknown n v => exact progress_bind_left progress_chars1 _ _ h
  | _ => exact headerLine_progress (by decide) _ _ h.2

theorem traces_parses : Parses (aborts c) (Spec.TraceBlocks c) (traces c) := by
  intro i
  unfold traces Spec.TraceBlocks
  split
  · exact many_parses traceBlock_progress traceBlock_parses i
  · exact .pure

theorem fields_parses : Parses (aborts c) (Spec.HeaderBlock c) (fields c) := by
  intro i
  unfold fields
  refine .bind (traces_parses i) fun r v w _ _ => ?_
  refine .bind (many_parses field_progress field_parses r) fun r v w _ _ => ?_
  exact .pure

end EmailParser
