import Verif.Proofs.BorrowMime
import Verif.Proofs.Sound.Fields
/-
All header fields: agreement with the model without ownership, and the reasons to copy.
-/
namespace EmailParser
open Spec HasStrings

variable {c : Cfg} {p : Place} {lo : Nat}

/-! ### MIME header fields -/

theorem keyword_reads {α β : Type} [HasStrings α β] {n n2 : Bytes} {m : String} {v : β} {s : α} (hn : n2 = n.map swapCase)
    (h : ∀ w, Keeps p lo w v s) {i : Bytes} (hi : Here p lo i) :
    Alike (keyword n n2 m s i) (keyword n n2 m v i) (ReadsTo (Keeps p lo) i) := by
  unfold keyword
  exact Alike.next (Parses.reads (A := .none) (tagNoCase_parses m hn)) hi fun w r _ _ _ hr => .ok (.here (h _))

theorem cowOtherToken_reads {α β : Type} [HasStrings α β] {f : CowStr → α} {g : Bytes → β}
    (h : ∀ w v s, Keeps p lo w v s → Keeps p lo w (g v) (f s)) {i : Bytes} (hi : Here p lo i) :
    Alike (cowOtherToken p f i) (otherToken g i) (ReadsTo (Keeps p lo) i) := by
  unfold cowOtherToken otherToken
  exact (cowToken_reads hi).next hi fun w r v s hs hr => .ok (.here (h _ _ _ ((hs.1.lowercase hs.2).mono (by infx))))

/-- Proves `Keeps` for values without strings. -/
macro "keeps_const" : tactic => `(tactic| exact fun _ => ⟨rfl, by intro t ht; cases ht⟩)

theorem cowMimeType_reads {i : Bytes} (hi : Here p lo i) :
    Alike (cowMimeType p i) (mimeType i) (ReadsTo (Keeps p lo) i) := by
  unfold cowMimeType mimeType
  iterate 7
    refine .matchParsers (keyword_reads (by decide +kernel) (by keeps_const) hi) ?_
  exact .matchParsers (cowOtherToken_reads (fun w v s h => h.wrap (f := CowContentType.unknown) rfl fun _ h => h) hi) .matchNil

theorem cowDispositionType_reads {i : Bytes} (hi : Here p lo i) :
    Alike (EmailParser.cowDispositionType p i) (dispositionType i) (ReadsTo (Keeps p lo) i) := by
  unfold EmailParser.cowDispositionType dispositionType
  iterate 2
    refine .matchParsers (keyword_reads (by decide +kernel) (by keeps_const) hi) ?_
  exact .matchParsers (cowOtherToken_reads (fun w v s h => h.wrap (f := CowDispositionType.unknown) rfl fun _ h => h) hi) .matchNil

theorem cowEncoding_reads {i : Bytes} (hi : Here p lo i) :
    Alike (cowEncoding p i) (transferEncoding i) (ReadsTo (Keeps p lo) i) := by
  unfold cowEncoding transferEncoding
  iterate 5
    refine .matchParsers (keyword_reads (by decide +kernel) (by keeps_const) hi) ?_
  exact .matchParsers (cowOtherToken_reads (fun w v s h => h.wrap (f := CowTransferEncoding.unknown) rfl fun _ h => h) hi) .matchNil

theorem cowEncodingValue_reads {i : Bytes} (hi : Here p lo i) :
    Alike (cowEncodingValue c p i) (transferEncodingValue c i) (ReadsTo (Keeps p lo) i) := by
  unfold cowEncodingValue transferEncodingValue
  refine .skipCfws hi fun w1 r hr => ?_
  refine (cowEncoding_reads hr).next hr fun w2 r v s hs hr => ?_
  exact (Parses.reads ignoreInlineCfws_parses).next hr fun w3 r _ _ _ hr => .ok (.here (hs.mono (by infx)))

theorem cowContentTypeValue_reads {i : Bytes} (hi : Here p lo i) :
    Alike (cowContentTypeValue c p i) (contentTypeValue c i) (ReadsTo (Keeps p lo) i) := by
  unfold cowContentTypeValue contentTypeValue
  refine .skipCfws hi fun w1 r hr => ?_
  refine (cowMimeType_reads hr).next hr fun w2 r v s hs hr => ?_
  refine tag_reads.next hr fun w3 r _ _ _ hr => ?_
  refine (cowToken_reads hr).next hr fun w4 r v' s' hs' hr => ?_
  refine (Alike.many keepsParam_grows (fun _ => cowParameter_reads) hr).next hr fun w5 r vs ss hss hr => ?_
  refine (cowCollectParameters_keeps hss).bindRes fun ps qs hps => ?_
  refine (Parses.reads ignoreInlineCfws_parses).next hr fun w6 r _ _ _ hr => .ok (.here ?_)
  exact (hs.mono (by infx)).pair (((hs'.1.lowercase hs'.2).mono (by infx)).pair (hps.mono (by infx)))

theorem cowFilenameParameter_reads {i : Bytes} (hi : Here p lo i) :
    Alike (cowFilenameParameter c p i) (filenameParameter c i) (ReadsTo (Keeps p lo) i) := by
  unfold cowFilenameParameter filenameParameter
  refine .skipCfws hi fun w1 r hr => ?_
  refine tag_reads.next hr fun w2 r _ _ _ hr => ?_
  refine .skipCfws hr fun w3 r hr => ?_
  refine Alike.next (Parses.reads (A := .none) (tagNoCase_parses _ (by decide +kernel))) hr fun w4 r _ _ _ hr => ?_
  refine tag_reads.next hr fun w5 r _ _ _ hr => ?_
  exact (cowParameterValue_reads hr).mono fun _ _ _ _ ⟨w, e, h⟩ => ⟨w, e, h.mono (by infx)⟩

/-- A parameter of `Content-Disposition`. -/
def KeepsItem (p : Place) (lo : Nat) (w : Bytes) : DispositionItem → CowDispositionItem → Prop
  | .filename v, .filename s => Keeps p lo w v s
  | .creationDate v, .creationDate s => s = v
  | .modificationDate v, .modificationDate s => s = v
  | .readDate v, .readDate s => s = v
  | .parameter v, .parameter s => KeepsParam p lo w v s
  | _, _ => False

theorem keepsItem_grows : Grows (KeepsItem p lo) := by
  intro w w' v s h hw
  cases v <;> cases s <;> first | exact h.elim | skip
  · exact Keeps.mono h hw
  · exact h
  · exact h
  · exact h
  · exact keepsParam_grows _ _ _ _ h hw

theorem cowDispositionItem_reads {i : Bytes} (hi : Here p lo i) :
    Alike (cowDispositionItem c p i) (dispositionItem c i) (ReadsTo (KeepsItem p lo) i) := by
  refine .matchParsers ?_ (.matchParsers ?_ (.matchParsers ?_ (.matchParsers ?_ (.matchParsers ?_ .matchNil))))
  · exact (cowFilenameParameter_reads hi).bind fun r v s _ ⟨w, e, h⟩ => .ok ⟨w, e, h⟩
  · exact (Parses.reads (dateParameter_parses (by decide +kernel))).bind fun r v s _ ⟨w, e, h⟩ => .ok ⟨w, e, h⟩
  · exact (Parses.reads (dateParameter_parses (by decide +kernel))).bind fun r v s _ ⟨w, e, h⟩ => .ok ⟨w, e, h⟩
  · exact (Parses.reads (dateParameter_parses (by decide +kernel))).bind fun r v s _ ⟨w, e, h⟩ => .ok ⟨w, e, h⟩
  · exact (cowParameter_reads hi).bind fun r v s _ ⟨w, e, h⟩ => .ok ⟨w, e, h⟩

theorem Keeps.disposition {w : Bytes} {t : DispositionType} {f : Option Bytes} {a b d : Option DateTime} {ps : Params}
    {t' : CowDispositionType} {f' : Option CowStr} {qs : CowParams} (ht : Keeps p lo w t t') (hf : Keeps p lo w f f')
    (hp : Keeps p lo w ps qs) : Keeps p lo w (Disposition.mk t f a b d ps) (CowDisposition.mk t' f' a b d qs) := by
  refine ⟨?_, fun x hx => ?_⟩
  · have h1 : Spec.cowDispositionType p.memory t' = t := ht.1
    have h2 : f'.map (CowStr.content p.memory) = f := hf.1
    have h3 : cowParams p.memory qs = ps := hp.1
    show Disposition.mk (Spec.cowDispositionType p.memory t') (f'.map (CowStr.content p.memory)) a b d (cowParams p.memory qs) = _
    rw [h1, h2, h3]
  · rcases List.mem_append.mp (show x ∈ dispositionTypeStrings t' ++ f'.toList ++ pairStrings qs from hx) with hx | hx
    · rcases List.mem_append.mp hx with hx | hx
      · exact ht.2 x hx
      · cases f' with
        | none => cases hx
        | some y =>
          rw [List.mem_singleton.mp hx]
          exact hf.2 y (List.mem_singleton.mpr rfl)
    · exact hp.2 x hx

/-- What holds of the parts of a disposition. -/
theorem Keeps.dispositionParts {w : Bytes} {d : Disposition} {e : CowDisposition} (h : Keeps p lo w d e) :
    Keeps p lo w d.dispositionType e.dispositionType ∧ Keeps p lo w d.filename e.filename ∧
    e.creationDate = d.creationDate ∧ e.modificationDate = d.modificationDate ∧ e.readDate = d.readDate ∧
    Keeps (α := CowParams) p lo w d.unstructured e.unstructured := by
  obtain ⟨rfl, h⟩ := h
  refine ⟨⟨rfl, fun x hx => h x ?_⟩, ⟨rfl, fun x hx => h x ?_⟩, rfl, rfl, rfl, ⟨rfl, fun x hx => h x ?_⟩⟩
  · exact List.mem_append_left _ (List.mem_append_left _ hx)
  · refine List.mem_append_left _ (List.mem_append_right _ ?_)
    cases hf : e.filename with
    | none => rw [hf] at hx; cases hx
    | some y => rw [hf] at hx; exact hx
  · exact List.mem_append_right _ hx

theorem Keeps.dispositionAdd {w : Bytes} {d : Disposition} {e : CowDisposition} (h : Keeps p lo w d e) {v : DispositionItem}
    {s : CowDispositionItem} (hs : KeepsItem p lo w v s) : Keeps p lo w (d.add v) (e.add s) := by
  obtain ⟨d1, d2, d3, d4, d5, d6⟩ := d
  obtain ⟨e1, e2, e3, e4, e5, e6⟩ := e
  obtain ⟨h1, h2, rfl, rfl, rfl, h6⟩ := h.dispositionParts
  cases v <;> cases s <;> first | exact hs.elim | skip
  · exact .disposition h1 (Keeps.some hs) h6
  · cases hs; exact .disposition h1 h2 h6
  · cases hs; exact .disposition h1 h2 h6
  · cases hs; exact .disposition h1 h2 h6
  · exact h

theorem Keeps.dispositionFold {w : Bytes} : ∀ {vs : List DispositionItem} {ss : List CowDispositionItem},
    All2 (KeepsItem p lo) w vs ss → ∀ {d : Disposition} {e : CowDisposition}, Keeps p lo w d e →
    Keeps p lo w (vs.foldl Disposition.add d) (ss.foldl CowDisposition.add e) := by
  intro vs
  induction vs with
  | nil =>
    intro ss hs d e h
    cases ss with
    | nil => exact h
    | cons => exact hs.elim
  | cons v vs ih =>
    intro ss hs d e h
    cases ss with
    | nil => exact hs.elim
    | cons s ss => exact ih hs.2 (h.dispositionAdd hs.1)

theorem All2.rawParams {w : Bytes} : ∀ {vs : List DispositionItem} {ss : List CowDispositionItem},
    All2 (KeepsItem p lo) w vs ss →
    All2 (KeepsParam p lo) w (vs.filterMap DispositionItem.rawParam?) (ss.filterMap CowDispositionItem.rawParam?)
  | [], [], _ => trivial
  | v :: vs, s :: ss, ⟨h, hs⟩ => by
    have ih := All2.rawParams hs
    cases v <;> cases s <;> first | exact h.elim | skip
    · exact ih
    · exact ih
    · exact ih
    · exact ih
    · exact ⟨h, ih⟩
  | [], _ :: _, h => h.elim
  | _ :: _, [], h => h.elim

theorem cowContentDispositionValue_reads {i : Bytes} (hi : Here p lo i) :
    Alike (cowContentDispositionValue c p i) (contentDispositionValue c i) (ReadsTo (Keeps p lo) i) := by
  unfold cowContentDispositionValue contentDispositionValue
  refine .skipCfws hi fun w1 r hr => ?_
  refine (cowDispositionType_reads hr).next hr fun w2 r v s hs hr => ?_
  refine (Alike.many keepsItem_grows (fun _ => cowDispositionItem_reads) hr).next hr fun w3 r vs ss hss hr => ?_
  dsimp only
  refine (cowCollectParameters_keeps hss.rawParams).bindRes fun ps qs hps => ?_
  refine (Parses.reads ignoreInlineCfws_parses).next hr fun w4 r _ _ _ hr => .ok (.here ?_)
  have h0 : Keeps p lo (w1 ++ (w2 ++ (w3 ++ (w4 ++ [])))) (Disposition.mk v none none none none Params.empty)
      (CowDisposition.mk s none none none none []) :=
    .disposition (hs.mono (by infx)) .none ⟨rfl, by intro t ht; cases ht⟩
  obtain ⟨h1, h2, h3, h4, h5, -⟩ := (Keeps.dispositionFold (hss.mono keepsItem_grows (by infx)) h0).dispositionParts
  refine cast (congrArg (Keeps p lo _ _) ?_) (Keeps.disposition h1 h2 (hps.mono (by infx)))
  rw [← h3, ← h4, ← h5]

/-! ### All header fields -/

theorem Alike.matchEnabled {α β : Type} {R : Bytes → β → α → Prop} {i : Bytes} {x : Bytes → Res α} {y : Bytes → Res β}
    {xs : List (Bytes → Res α)} {ys : List (Bytes → Res β)} {b : Bool} (h : Alike (x i) (y i) R)
    (hs : Alike (EmailParser.matchParsers i xs) (EmailParser.matchParsers i ys) R) :
    Alike (EmailParser.matchParsers i (enabled b x ++ xs)) (EmailParser.matchParsers i (enabled b y ++ ys)) R := by
  cases b with
  | true => exact .matchParsers h hs
  | false => exact hs

theorem cowFromField_reads {i : Bytes} (hi : Here p lo i) : Alike (cowFromField c p i) (fromField c i) (ReadsTo (Keeps p lo) i) :=
  Alike.headerLine keeps_grows (by decide +kernel) (fun _ => cowMailboxList_reads) hi

theorem cowSenderField_reads {i : Bytes} (hi : Here p lo i) :
    Alike (cowSenderField c p i) (senderField c i) (ReadsTo (Keeps p lo) i) :=
  Alike.headerLine keeps_grows (by decide +kernel) (fun _ => cowMailbox_reads) hi

theorem cowReplyToField_reads {i : Bytes} (hi : Here p lo i) :
    Alike (cowReplyToField c p i) (replyToField c i) (ReadsTo (Keeps p lo) i) :=
  Alike.headerLine keeps_grows (by decide +kernel) (fun _ => cowAddressList_reads) hi

theorem cowToField_reads {i : Bytes} (hi : Here p lo i) : Alike (cowToField c p i) (toField c i) (ReadsTo (Keeps p lo) i) :=
  Alike.headerLine keeps_grows (by decide +kernel) (fun _ => cowAddressList_reads) hi

theorem cowCcField_reads {i : Bytes} (hi : Here p lo i) : Alike (cowCcField c p i) (ccField c i) (ReadsTo (Keeps p lo) i) :=
  Alike.headerLine keeps_grows (by decide +kernel) (fun _ => cowAddressList_reads) hi

theorem cowBccField_reads {i : Bytes} (hi : Here p lo i) : Alike (cowBccField c p i) (bccField c i) (ReadsTo (Keeps p lo) i) :=
  Alike.headerLine keeps_grows (by decide +kernel) (fun _ => cowBccValue_reads) hi

theorem cowMessageIdField_reads {i : Bytes} (hi : Here p lo i) :
    Alike (cowMessageIdField c p i) (messageIdField c i) (ReadsTo (Keeps p lo) i) :=
  Alike.headerLine keeps_grows (by decide +kernel) (fun _ => cowMessageId_reads) hi

theorem cowInReplyToField_reads {i : Bytes} (hi : Here p lo i) :
    Alike (cowInReplyToField c p i) (inReplyToField c i) (ReadsTo (Keeps p lo) i) :=
  Alike.headerLine keeps_grows (by decide +kernel) (fun _ => cowMessageIds_reads) hi

theorem cowReferencesField_reads {i : Bytes} (hi : Here p lo i) :
    Alike (cowReferencesField c p i) (referencesField c i) (ReadsTo (Keeps p lo) i) :=
  Alike.headerLine keeps_grows (by decide +kernel) (fun _ => cowMessageIds_reads) hi

theorem cowSubjectField_reads {i : Bytes} (hi : Here p lo i) :
    Alike (cowSubjectField c p i) (subjectField c i) (ReadsTo (Keeps p lo) i) :=
  Alike.headerLine keeps_grows (by decide +kernel) (fun _ => cowTextValue_reads) hi

theorem cowCommentsField_reads {i : Bytes} (hi : Here p lo i) :
    Alike (cowCommentsField c p i) (commentsField c i) (ReadsTo (Keeps p lo) i) :=
  Alike.headerLine keeps_grows (by decide +kernel) (fun _ => cowTextValue_reads) hi

theorem cowKeywordsField_reads {i : Bytes} (hi : Here p lo i) :
    Alike (cowKeywordsField c p i) (keywordsField c i) (ReadsTo (Keeps p lo) i) :=
  Alike.headerLine keeps_grows (by decide +kernel) (fun _ => cowKeywordList_reads) hi

theorem cowContentType_reads {i : Bytes} (hi : Here p lo i) :
    Alike (EmailParser.cowContentType c p i) (contentType c i) (ReadsTo (Keeps p lo) i) :=
  Alike.headerLine keeps_grows (by decide +kernel) (fun _ => cowContentTypeValue_reads) hi

theorem cowTransferEncoding_reads {i : Bytes} (hi : Here p lo i) :
    Alike (EmailParser.cowTransferEncoding c p i) (contentTransferEncoding c i) (ReadsTo (Keeps p lo) i) :=
  Alike.headerLine keeps_grows (by decide +kernel) (fun _ => cowEncodingValue_reads) hi

theorem cowContentId_reads {i : Bytes} (hi : Here p lo i) :
    Alike (cowContentId c p i) (contentId c i) (ReadsTo (Keeps p lo) i) :=
  Alike.headerLine keeps_grows (by decide +kernel) (fun _ => cowMessageId_reads) hi

theorem cowContentDescription_reads {i : Bytes} (hi : Here p lo i) :
    Alike (cowContentDescription c p i) (contentDescription c i) (ReadsTo (Keeps p lo) i) :=
  Alike.headerLine keeps_grows (by decide +kernel) (fun _ => cowMimeUnstructured_reads) hi

theorem cowContentDisposition_reads {i : Bytes} (hi : Here p lo i) :
    Alike (cowContentDisposition c p i) (contentDisposition c i) (ReadsTo (Keeps p lo) i) :=
  Alike.headerLine keeps_grows (by decide +kernel) (fun _ => cowContentDispositionValue_reads) hi

theorem date_keeps {i : Bytes} : Alike (dateField c i) (dateField c i) (ReadsTo (Keeps p lo) i) :=
  (Parses.reads dateField_parses).mono fun _ _ _ _ ⟨w, e, h⟩ => ⟨w, e, h ▸ .date⟩

theorem cowTraceField_reads {i : Bytes} (hi : Here p lo i) :
    Alike (matchParsers i (cowTraceFieldParsers c p)) (matchParsers i (traceFieldParsers c)) (ReadsTo (Keeps p lo) i) := by
  unfold cowTraceFieldParsers traceFieldParsers
  refine .matchParsers ((Alike.resent keeps_grows (fun _ _ => date_keeps) hi).mapValue
    fun _ _ _ h => h.wrap (f := CowTraceField.date) rfl fun _ h => h) ?_
  refine .matchParsers ((Alike.resent keeps_grows (fun _ => cowFromField_reads) hi).mapValue
    fun _ _ _ h => h.wrap (f := CowTraceField.from) rfl fun _ h => h) ?_
  refine .matchParsers ((Alike.resent keeps_grows (fun _ => cowSenderField_reads) hi).mapValue
    fun _ _ _ h => h.wrap (f := CowTraceField.sender) rfl fun _ h => h) ?_
  refine .matchParsers ((Alike.resent keeps_grows (fun _ => cowToField_reads) hi).mapValue
    fun _ _ _ h => h.wrap (f := CowTraceField.to) rfl fun _ h => h) ?_
  refine .matchParsers ((Alike.resent keeps_grows (fun _ => cowCcField_reads) hi).mapValue
    fun _ _ _ h => h.wrap (f := CowTraceField.cc) rfl fun _ h => h) ?_
  refine .matchParsers ((Alike.resent keeps_grows (fun _ => cowBccField_reads) hi).mapValue
    fun _ _ _ h => h.wrap (f := CowTraceField.bcc) rfl fun _ h => h) ?_
  exact .matchParsers ((Alike.resent keeps_grows (fun _ => cowMessageIdField_reads) hi).mapValue
    fun _ _ _ h => h.wrap (f := CowTraceField.messageId) rfl fun _ h => h) .matchNil

theorem cowField_reads {i : Bytes} (hi : Here p lo i) : Alike (cowField c p i) (field c i) (ReadsTo (Keeps p lo) i) := by
  unfold cowField field cowFieldParsers fieldParsers
  simp only [List.append_assoc]
  refine .matchEnabled (Alike.mapValue date_keeps fun _ _ _ h => h.wrap (f := CowField.date) rfl fun _ h => h) ?_
  refine .matchEnabled ((cowFromField_reads hi).mapValue fun _ _ _ h => h.wrap (f := CowField.from) rfl fun _ h => h) ?_
  refine .matchEnabled ((cowSenderField_reads hi).mapValue fun _ _ _ h => h.wrap (f := CowField.sender) rfl fun _ h => h) ?_
  refine .matchEnabled ((cowReplyToField_reads hi).mapValue fun _ _ _ h => h.wrap (f := CowField.replyTo) rfl fun _ h => h) ?_
  refine .matchEnabled ((cowToField_reads hi).mapValue fun _ _ _ h => h.wrap (f := CowField.to) rfl fun _ h => h) ?_
  refine .matchEnabled ((cowCcField_reads hi).mapValue fun _ _ _ h => h.wrap (f := CowField.cc) rfl fun _ h => h) ?_
  refine .matchEnabled ((cowBccField_reads hi).mapValue fun _ _ _ h => h.wrap (f := CowField.bcc) rfl fun _ h => h) ?_
  refine .matchEnabled ((cowMessageIdField_reads hi).mapValue fun _ _ _ h => h.wrap (f := CowField.messageId) rfl fun _ h => h) ?_
  refine .matchEnabled ((cowInReplyToField_reads hi).mapValue fun _ _ _ h => h.wrap (f := CowField.inReplyTo) rfl fun _ h => h) ?_
  refine .matchEnabled ((cowReferencesField_reads hi).mapValue fun _ _ _ h => h.wrap (f := CowField.references) rfl fun _ h => h) ?_
  refine .matchEnabled ((cowSubjectField_reads hi).mapValue fun _ _ _ h => h.wrap (f := CowField.subject) rfl fun _ h => h) ?_
  refine .matchEnabled ((cowCommentsField_reads hi).mapValue fun _ _ _ h => h.wrap (f := CowField.comments) rfl fun _ h => h) ?_
  refine .matchEnabled ((Parses.reads mimeVersion_parses).mapValue fun w v s h => ?_) ?_
  · subst h
    exact ⟨rfl, by intro t ht; cases ht⟩
  refine .matchEnabled ((cowContentType_reads hi).mapValue fun _ _ _ h => h.wrap
    (f := fun s : CowContentType × CowStr × CowParams => CowField.contentType s.1 s.2.1 s.2.2)
    (g := fun v => Field.contentType v.1 v.2.1 v.2.2) rfl fun _ h => h) ?_
  refine .matchEnabled ((cowTransferEncoding_reads hi).mapValue
    fun _ _ _ h => h.wrap (f := CowField.contentTransferEncoding) rfl fun _ h => h) ?_
  refine .matchEnabled ((cowContentId_reads hi).mapValue fun _ _ _ h => h.wrap (f := CowField.contentId) rfl fun _ h => h) ?_
  refine .matchEnabled ((cowContentDescription_reads hi).mapValue
    fun _ _ _ h => h.wrap (f := CowField.contentDescription) rfl fun _ h => h) ?_
  refine .matchEnabled ((cowContentDisposition_reads hi).mapValue
    fun _ _ _ h => h.wrap (f := CowField.contentDisposition) rfl fun _ h => h) ?_
  refine .matchEnabled ((cowKeywordsField_reads hi).mapValue fun _ _ _ h => h.wrap (f := CowField.keywords) rfl fun _ h => h) ?_
  exact .matchParsers ((cowUnknown_reads hi).mapValue fun _ _ _ h => h.wrap
    (f := fun s : CowStr × CowStr => CowField.unknown s.1 s.2) (g := fun v => Field.unknown v.1 v.2) rfl fun _ h => h) .matchNil

theorem cowTraceBlock_reads {i : Bytes} (hi : Here p lo i) :
    Alike (cowTraceBlock c p i) (traceBlock c i) (ReadsTo (Keeps p lo) i) := by
  unfold cowTraceBlock traceBlock
  refine (cowTrace_reads hi).next hi fun w1 r v s hs hr => ?_
  refine (Alike.manyKeeps (fun _ => cowTraceField_reads) hr).next hr fun w2 r v' s' hs' hr => .ok (.here ?_)
  have h : Keeps p lo (w1 ++ (w2 ++ [])) (v, v') (s, s') := (hs.mono (by infx)).pair (hs'.mono (by infx))
  have h := h.wrap
    (f := fun s : (Option (Option CowEmailAddress) × List (List CowReceivedToken × DateTime)) × List CowTraceField =>
      CowField.trace s.1.1 s.1.2 s.2)
    (g := fun v => Field.trace v.1.1 v.1.2 v.2) rfl fun t h => by
      have h : t ∈ strings s.1 ++ (strings s.2 ++ strings s') := h
      show t ∈ (strings s.1 ++ strings s.2) ++ strings s'
      rw [List.append_assoc]
      exact h
  exact h.mono (by infx)

theorem cowFields_reads {i : Bytes} (hi : Here p lo i) : Alike (cowFields c p i) (fields c i) (ReadsTo (Keeps p lo) i) := by
  unfold cowFields fields
  have h1 : Alike (cowTraces c p i) (traces c i) (ReadsTo (Keeps p lo) i) := by
    unfold cowTraces traces
    split
    · exact Alike.manyKeeps (fun _ => cowTraceBlock_reads) hi
    · exact .ok (.here .nil)
  refine h1.next hi fun w1 r v s hs hr => ?_
  refine (Alike.manyKeeps (fun _ => cowField_reads) hr).next hr fun w2 r v' s' hs' hr => .ok (.here ?_)
  exact (hs.mono (by infx)).append (hs'.mono (by infx))

end EmailParser
