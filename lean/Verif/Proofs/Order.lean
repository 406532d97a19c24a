import Verif.Proofs.Entity
import Verif.Proofs.Message
/-
The order in which the hash map of `collect_parameters` is visited has no effect (for C39).
-/
namespace EmailParser

/-- The same program with another order of iteration of hash maps. -/
def Cfg.reorder (c : Cfg) (o : List (Bytes × Segments) → List (Bytes × Segments))
    (ho : ∀ l, (o l).Perm l) : Cfg :=
  { c with mapOrder := o, mapOrder_perm := ho }

/-- Equal, or two errors. -/
def Agree {α : Type} (x y : Outcome α) : Prop :=
  x = y ∨ ∃ e e', x = .err e ∧ y = .err e'

variable {α β : Type} {c : Cfg} {o : List (Bytes × Segments) → List (Bytes × Segments)}
  {ho : ∀ l, (o l).Perm l}

/-! ### Functions that do not visit a hash map -/

@[simp] theorem reorder_feat : (c.reorder o ho).feat = c.feat := rfl

@[simp] theorem reorder_stack : (c.reorder o ho).stack = c.stack := rfl

@[simp] theorem reorder_textcode : (c.reorder o ho).textcode = c.textcode := rfl

@[simp] theorem reorder_realCfwsLoop : ∀ fuel i,
    realCfwsLoop (c.reorder o ho) fuel i = realCfwsLoop c fuel i
  | 0, _ => rfl
  | fuel + 1, i => by
    unfold realCfwsLoop
    simp only [reorder_stack, reorder_realCfwsLoop fuel]

@[simp] theorem reorder_cfws : cfws (c.reorder o ho) = cfws c := by
  unfold cfws realCfws; simp

@[simp] theorem reorder_skipCfws : skipCfws (c.reorder o ho) = skipCfws c := by
  unfold skipCfws; simp

@[simp] theorem reorder_quotedString : quotedString (c.reorder o ho) = quotedString c := by
  unfold quotedString; simp

@[simp] theorem reorder_decodeCharset : decodeCharset (c.reorder o ho) = decodeCharset c := by
  unfold decodeCharset; simp

@[simp] theorem reorder_decodeWord : decodeWord (c.reorder o ho) = decodeWord c := by
  unfold decodeWord; simp

@[simp] theorem reorder_encodedWord : encodedWord (c.reorder o ho) = encodedWord c := by
  unfold encodedWord; simp

@[simp] theorem reorder_atom : atom (c.reorder o ho) = atom c := by
  unfold atom; simp

@[simp] theorem reorder_dotAtomTextLoop : ∀ fuel i,
    dotAtomTextLoop (c.reorder o ho) fuel i = dotAtomTextLoop c fuel i
  | 0, _ => rfl
  | fuel + 1, i => by
    unfold dotAtomTextLoop
    simp only [reorder_feat, reorder_dotAtomTextLoop fuel]
    rfl

@[simp] theorem reorder_dotAtomText : dotAtomText (c.reorder o ho) = dotAtomText c := by
  unfold dotAtomText; simp

@[simp] theorem reorder_dotAtom : dotAtom (c.reorder o ho) = dotAtom c := by
  unfold dotAtom; simp

@[simp] theorem reorder_word : word (c.reorder o ho) = word c := by
  unfold word; simp

@[simp] theorem reorder_phraseWord : phraseWord (c.reorder o ho) = phraseWord c := by
  unfold phraseWord; simp

@[simp] theorem reorder_phrase : phrase (c.reorder o ho) = phrase c := by
  unfold phrase; simp

@[simp] theorem reorder_mimeUnstructuredLoop : ∀ fuel b i,
    mimeUnstructuredLoop (c.reorder o ho) fuel b i = mimeUnstructuredLoop c fuel b i
  | 0, _, _ => rfl
  | fuel + 1, b, i => by
    unfold mimeUnstructuredLoop
    simp only [reorder_encodedWord, reorder_mimeUnstructuredLoop fuel]

@[simp] theorem reorder_mimeUnstructured : mimeUnstructured (c.reorder o ho) = mimeUnstructured c := by
  unfold mimeUnstructured; simp

@[simp] theorem reorder_messageId : messageId (c.reorder o ho) = messageId c := by
  unfold messageId; simp

@[simp] theorem reorder_domainLiteral : domainLiteral (c.reorder o ho) = domainLiteral c := by
  unfold domainLiteral; simp

@[simp] theorem reorder_localPart : localPart (c.reorder o ho) = localPart c := by
  unfold localPart; simp

@[simp] theorem reorder_domain : domain (c.reorder o ho) = domain c := by
  unfold domain; simp

@[simp] theorem reorder_addrSpec : addrSpec (c.reorder o ho) = addrSpec c := by
  unfold addrSpec; simp

@[simp] theorem reorder_angleAddr : angleAddr (c.reorder o ho) = angleAddr c := by
  unfold angleAddr; simp

@[simp] theorem reorder_nameAddr : nameAddr (c.reorder o ho) = nameAddr c := by
  unfold nameAddr; simp

@[simp] theorem reorder_mailbox : mailbox (c.reorder o ho) = mailbox c := by
  unfold mailbox; simp

@[simp] theorem reorder_mailboxList : mailboxList (c.reorder o ho) = mailboxList c := by
  unfold mailboxList; simp

@[simp] theorem reorder_groupList : groupList (c.reorder o ho) = groupList c := by
  unfold groupList; simp

@[simp] theorem reorder_group : group (c.reorder o ho) = group c := by
  unfold group; simp

@[simp] theorem reorder_address : address (c.reorder o ho) = address c := by
  unfold address; simp

@[simp] theorem reorder_addressList : addressList (c.reorder o ho) = addressList c := by
  unfold addressList; simp

@[simp] theorem reorder_dateTime : dateTime (c.reorder o ho) = dateTime c := by
  unfold dateTime; simp

@[simp] theorem reorder_ignoreInlineCfws : ignoreInlineCfws (c.reorder o ho) = ignoreInlineCfws c := by
  unfold ignoreInlineCfws; simp

@[simp] theorem reorder_mimeVersionValue : mimeVersionValue (c.reorder o ho) = mimeVersionValue c := by
  unfold mimeVersionValue; simp

@[simp] theorem reorder_mimeVersion : mimeVersion (c.reorder o ho) = mimeVersion c := by
  unfold mimeVersion; simp

@[simp] theorem reorder_parameterValue : parameterValue (c.reorder o ho) = parameterValue c := by
  unfold parameterValue; simp

@[simp] theorem reorder_parameter : parameter (c.reorder o ho) = parameter c := by
  unfold parameter; simp

@[simp] theorem reorder_filenameParameter : filenameParameter (c.reorder o ho) = filenameParameter c := by
  unfold filenameParameter; simp

@[simp] theorem reorder_dateParameter : dateParameter (c.reorder o ho) = dateParameter c := by
  unfold dateParameter; simp

@[simp] theorem reorder_dispositionItem : dispositionItem (c.reorder o ho) = dispositionItem c := by
  unfold dispositionItem; simp

@[simp] theorem reorder_transferEncodingValue : transferEncodingValue (c.reorder o ho) = transferEncodingValue c := by
  unfold transferEncodingValue; simp

@[simp] theorem reorder_contentTransferEncoding : contentTransferEncoding (c.reorder o ho) = contentTransferEncoding c := by
  unfold contentTransferEncoding; simp

@[simp] theorem reorder_contentId : contentId (c.reorder o ho) = contentId c := by
  unfold contentId; simp

@[simp] theorem reorder_contentDescription : contentDescription (c.reorder o ho) = contentDescription c := by
  unfold contentDescription; simp

@[simp] theorem reorder_bccValue : bccValue (c.reorder o ho) = bccValue c := by
  unfold bccValue; simp

@[simp] theorem reorder_messageIds : messageIds (c.reorder o ho) = messageIds c := by
  unfold messageIds; simp

@[simp] theorem reorder_textValue : textValue (c.reorder o ho) = textValue c := by
  unfold textValue; simp

@[simp] theorem reorder_keywordList : keywordList (c.reorder o ho) = keywordList c := by
  unfold keywordList; simp

@[simp] theorem reorder_dateField : dateField (c.reorder o ho) = dateField c := by
  unfold dateField; simp

@[simp] theorem reorder_fromField : fromField (c.reorder o ho) = fromField c := by
  unfold fromField; simp

@[simp] theorem reorder_senderField : senderField (c.reorder o ho) = senderField c := by
  unfold senderField; simp

@[simp] theorem reorder_replyToField : replyToField (c.reorder o ho) = replyToField c := by
  unfold replyToField; simp

@[simp] theorem reorder_toField : toField (c.reorder o ho) = toField c := by
  unfold toField; simp

@[simp] theorem reorder_ccField : ccField (c.reorder o ho) = ccField c := by
  unfold ccField; simp

@[simp] theorem reorder_bccField : bccField (c.reorder o ho) = bccField c := by
  unfold bccField; simp

@[simp] theorem reorder_messageIdField : messageIdField (c.reorder o ho) = messageIdField c := by
  unfold messageIdField; simp

@[simp] theorem reorder_inReplyToField : inReplyToField (c.reorder o ho) = inReplyToField c := by
  unfold inReplyToField; simp

@[simp] theorem reorder_referencesField : referencesField (c.reorder o ho) = referencesField c := by
  unfold referencesField; simp

@[simp] theorem reorder_subjectField : subjectField (c.reorder o ho) = subjectField c := by
  unfold subjectField; simp

@[simp] theorem reorder_commentsField : commentsField (c.reorder o ho) = commentsField c := by
  unfold commentsField; simp

@[simp] theorem reorder_keywordsField : keywordsField (c.reorder o ho) = keywordsField c := by
  unfold keywordsField; simp

@[simp] theorem reorder_resentDate : resentDate (c.reorder o ho) = resentDate c := by
  unfold resentDate; simp

@[simp] theorem reorder_resentFrom : resentFrom (c.reorder o ho) = resentFrom c := by
  unfold resentFrom; simp

@[simp] theorem reorder_resentSender : resentSender (c.reorder o ho) = resentSender c := by
  unfold resentSender; simp

@[simp] theorem reorder_resentTo : resentTo (c.reorder o ho) = resentTo c := by
  unfold resentTo; simp

@[simp] theorem reorder_resentCc : resentCc (c.reorder o ho) = resentCc c := by
  unfold resentCc; simp

@[simp] theorem reorder_resentBcc : resentBcc (c.reorder o ho) = resentBcc c := by
  unfold resentBcc; simp

@[simp] theorem reorder_resentMessageId : resentMessageId (c.reorder o ho) = resentMessageId c := by
  unfold resentMessageId; simp

@[simp] theorem reorder_emptyPath : emptyPath (c.reorder o ho) = emptyPath c := by
  unfold emptyPath; simp

@[simp] theorem reorder_returnPathValue : returnPathValue (c.reorder o ho) = returnPathValue c := by
  unfold returnPathValue; simp

@[simp] theorem reorder_returnPath : returnPath (c.reorder o ho) = returnPath c := by
  unfold returnPath; simp

@[simp] theorem reorder_receivedToken : receivedToken (c.reorder o ho) = receivedToken c := by
  unfold receivedToken; simp

@[simp] theorem reorder_receivedValue : receivedValue (c.reorder o ho) = receivedValue c := by
  unfold receivedValue; simp

@[simp] theorem reorder_received : received (c.reorder o ho) = received c := by
  unfold received; simp

@[simp] theorem reorder_trace : trace (c.reorder o ho) = trace c := by
  unfold trace; simp

@[simp] theorem reorder_unknownValue : unknownValue (c.reorder o ho) = unknownValue c := by
  unfold unknownValue; simp

@[simp] theorem reorder_unknown : unknown (c.reorder o ho) = unknown c := by
  unfold unknown; simp

@[simp] theorem reorder_traceFieldParsers : traceFieldParsers (c.reorder o ho) = traceFieldParsers c := by
  unfold traceFieldParsers; simp

@[simp] theorem reorder_traceBlock : traceBlock (c.reorder o ho) = traceBlock c := by
  unfold traceBlock; simp

@[simp] theorem reorder_traces : traces (c.reorder o ho) = traces c := by
  unfold traces; simp

@[simp] theorem reorder_entity : EmailAcc.entity (c.reorder o ho) = EmailAcc.entity c := by
  unfold EmailAcc.entity; simp; rfl

@[simp] theorem reorder_finish : EmailAcc.finish (c.reorder o ho) = EmailAcc.finish c := by
  unfold EmailAcc.finish; simp; rfl

/-! ### Agreement -/

theorem Agree.refl (x : Outcome α) : Agree x x := .inl rfl

theorem Agree.bind {x y : Outcome α} {f g : α → Outcome β} (h : Agree x y)
    (hf : ∀ a, x = .ok a → Agree (f a) (g a)) : Agree (x >>= f) (y >>= g) := by
  rcases h with rfl | ⟨e, e', rfl, rfl⟩
  · cases x with
    | ok a => exact hf a rfl
    | err e => exact .inl rfl
    | abort k => exact .inl rfl
  · exact .inr ⟨e, e', rfl, rfl⟩

theorem Agree.matchParsers {i : Bytes} {p q : Bytes → Res α} {ps qs : List (Bytes → Res α)}
    (h : Agree (p i) (q i)) (hs : Agree (matchParsers i ps) (EmailParser.matchParsers i qs)) :
    Agree (EmailParser.matchParsers i (p :: ps)) (EmailParser.matchParsers i (q :: qs)) := by
  unfold EmailParser.matchParsers
  rcases h with h | ⟨e, e', h, h'⟩
  · rw [h]
    cases q i with
    | ok a => exact .inl rfl
    | err e => exact hs
    | abort k => exact .inl rfl
  · rw [h, h']; exact hs

/-- No parameter list contained in the input overflows the counter. -/
def Small (c : Cfg) (i : Bytes) : Prop := c.overflowChecks = true → i.count 42 < 256

theorem Small.suffix {i w r : Bytes} (h : Small c i) (hi : i = w ++ r) : Small c r := by
  intro ho
  have := h ho
  rw [hi, List.count_append] at this
  omega

theorem Small.infix {i p : Bytes} (h : Small c i) (hi : p <:+: i) : Small c p := by
  intro ho
  have := h ho
  have := hi.sublist.count_le 42
  omega

theorem collectParameters_agree {ps : List RawParam} (hs : IndicesSmall ps)
    (hc : c.overflowChecks = true → indexedCount ps < 256) :
    Agree (collectParameters c ps) (collectParameters (c.reorder o ho) ps) := by
  obtain ⟨a1, a2, a3⟩ := collectParameters_spec (c := c) hs
  obtain ⟨b1, b2, b3⟩ := collectParameters_spec (c := c.reorder o ho) hs
  have b1 : ∀ q, collectParameters (c.reorder o ho) ps = .ok q →
    ∀ name, Spec.ParamValue c ps name (q name) := b1
  have b2 : ∀ x, collectParameters (c.reorder o ho) ps = .err x →
    ∃ name, ∀ v, ¬ Spec.ParamValue c ps name v := b2
  cases hx : collectParameters c ps with
  | abort k =>
    obtain ⟨-, ho, name, ha⟩ := a3 k hx
    have := allSegments_count ha
    have := hc ho
    omega
  | ok q =>
    cases hy : collectParameters (c.reorder o ho) ps with
    | abort k =>
      obtain ⟨-, ho, name, ha⟩ := b3 k hy
      have := allSegments_count ha
      have := hc ho
      omega
    | ok q' =>
      left
      congr 1
      funext name
      exact paramValue_unique (a1 q hx name) (b1 q' hy name)
    | err e =>
      obtain ⟨name, hn⟩ := b2 e hy
      exact (hn _ (a1 q hx name)).elim
  | err e =>
    cases hy : collectParameters (c.reorder o ho) ps with
    | abort k =>
      obtain ⟨-, ho, name, ha⟩ := b3 k hy
      have := allSegments_count ha
      have := hc ho
      omega
    | ok q' =>
      obtain ⟨name, hn⟩ := a2 e hx
      exact (hn _ (b1 q' hy name)).elim
    | err e' => exact .inr ⟨e, e', rfl, rfl⟩

theorem contentTypeValue_agree {i : Bytes} (hi : Small c i) :
    Agree (contentTypeValue c i) (contentTypeValue (c.reorder o ho) i) := by
  unfold contentTypeValue
  refine .bind (.inl (by simp)) fun i₁ h₁ => ?_
  refine .bind (.inl (by simp)) fun ⟨i₂, t⟩ h₂ => ?_
  refine .bind (.inl (by simp)) fun ⟨i₃, _⟩ h₃ => ?_
  refine .bind (.inl (by simp)) fun ⟨i₄, st⟩ h₄ => ?_
  refine .bind (.inl (by simp)) fun ⟨i₅, ps⟩ h₅ => ?_
  obtain ⟨w₁, e₁, -⟩ := (skipCfws_sat (c := c) i).of_ok h₁
  obtain ⟨w₂, e₂, -⟩ := (mimeType_parses (A := .none) i₁).of_ok h₂
  obtain ⟨w₃, e₃, -⟩ := (tag_parses (A := .none) _ _ i₂).of_ok h₃
  obtain ⟨w₄, e₄, -⟩ := (token_parses (A := .none) i₃).of_ok h₄
  obtain ⟨w₅, e₅, hw⟩ := (many_parses parameter_progress (parameter_parses (c := c)) i₄).of_ok h₅
  dsimp only at e₂ e₃ e₄ e₅ hw
  have hi := (((hi.suffix e₁).suffix e₂).suffix e₃).suffix e₄
  obtain ⟨hs, hc⟩ := parameters_small hw
  refine .bind (collectParameters_agree hs ?_) fun ps _ => ?_
  · intro ho
    have := hi ho
    rw [e₅, List.count_append] at this
    omega
  · exact .inl (by simp)

theorem contentDispositionValue_agree {i : Bytes} (hi : Small c i) :
    Agree (contentDispositionValue c i) (contentDispositionValue (c.reorder o ho) i) := by
  unfold contentDispositionValue
  refine .bind (.inl (by simp)) fun i₁ h₁ => ?_
  refine .bind (.inl (by simp)) fun ⟨i₂, t⟩ h₂ => ?_
  refine .bind (.inl (by simp)) fun ⟨i₃, items⟩ h₃ => ?_
  obtain ⟨w₁, e₁, -⟩ := (skipCfws_sat (c := c) i).of_ok h₁
  obtain ⟨w₂, e₂, -⟩ := (dispositionType_parses (A := .none) i₁).of_ok h₂
  obtain ⟨w₃, e₃, hw⟩ :=
    (many_parses dispositionItem_progress (dispositionItem_parses (c := c)) i₂).of_ok h₃
  dsimp only at e₂ e₃ hw
  have hi := (hi.suffix e₁).suffix e₂
  obtain ⟨hs, hc⟩ := items_small hw
  refine .bind (collectParameters_agree hs ?_) fun ps _ => ?_
  · intro ho
    have := hi ho
    rw [e₃, List.count_append] at this
    omega
  · exact .inl (by simp)

theorem headerLine_agree {name name2 : Bytes} {m m' : String} {v v' : Bytes → Res α} {i : Bytes}
    (hn : name2 = name.map swapCase) (hi : Small c i)
    (hv : ∀ r, Small c r → Agree (v r) (v' r)) :
    Agree (headerLine name name2 m m' v i) (headerLine name name2 m m' v' i) := by
  unfold headerLine
  refine .bind (.inl (by simp)) fun ⟨i₁, _⟩ h₁ => ?_
  obtain ⟨w₁, e₁, -⟩ := (tagNoCase_parses (A := .none) _ hn i).of_ok h₁
  refine .bind (hv _ (hi.suffix e₁)) fun ⟨i₂, _⟩ h₂ => ?_
  exact .inl (by simp)

theorem contentType_agree {i : Bytes} (hi : Small c i) :
    Agree (contentType c i) (contentType (c.reorder o ho) i) :=
  headerLine_agree (by decide +kernel) hi fun _ => contentTypeValue_agree

theorem contentDisposition_agree {i : Bytes} (hi : Small c i) :
    Agree (contentDisposition c i) (contentDisposition (c.reorder o ho) i) :=
  headerLine_agree (by decide +kernel) hi fun _ => contentDispositionValue_agree

theorem mapValue_agree {f : α → β} {p q : Bytes → Res α} {i : Bytes} (h : Agree (p i) (q i)) :
    Agree (mapValue f p i) (mapValue f q i) :=
  .bind h fun _ _ => .inl (by simp)

theorem agree_enabled {i : Bytes} {b : Bool} {p q : Bytes → Res α} {ps qs : List (Bytes → Res α)}
    (h : Agree (p i) (q i)) (hs : Agree (matchParsers i ps) (EmailParser.matchParsers i qs)) :
    Agree (EmailParser.matchParsers i (enabled b p ++ ps))
      (EmailParser.matchParsers i (enabled b q ++ qs)) := by
  unfold enabled
  cases b
  · simpa using hs
  · exact .matchParsers h hs

theorem field_agree {i : Bytes} (hi : Small c i) :
    Agree (field c i) (field (c.reorder o ho) i) := by
  unfold field fieldParsers
  simp only [List.append_assoc]
  iterate 13 refine agree_enabled (.inl (by simp)) ?_
  refine agree_enabled (mapValue_agree (contentType_agree hi)) ?_
  iterate 3 refine agree_enabled (.inl (by simp)) ?_
  refine agree_enabled (mapValue_agree (contentDisposition_agree hi)) ?_
  exact .inl (by simp)

theorem manyLoop_agree {p q : Bytes → Res α} (h : ∀ i, Small c i → Agree (p i) (q i))
    (hp : ∀ i r v, p i = .ok (r, v) → ∃ w, i = w ++ r) :
    ∀ fuel i, Small c i → manyLoop p fuel i = manyLoop q fuel i
  | 0, _, _ => rfl
  | fuel + 1, i, hi => by
    unfold manyLoop
    rcases h i hi with e | ⟨x, y, e, e'⟩
    · rw [← e]
      cases hx : p i with
      | ok rv =>
        obtain ⟨r, v⟩ := rv
        obtain ⟨w, hw⟩ := hp i r v hx
        dsimp only
        rw [manyLoop_agree h hp fuel r (hi.suffix hw)]
      | err e => rfl
      | abort k => rfl
    · rw [e, e']

theorem many_agree {p q : Bytes → Res α} (h : ∀ i, Small c i → Agree (p i) (q i))
    (hp : ∀ i r v, p i = .ok (r, v) → ∃ w, i = w ++ r) {i : Bytes} (hi : Small c i) :
    many i p = many i q := manyLoop_agree h hp _ i hi

theorem many_field_reorder {i : Bytes} (hi : Small c i) :
    many i (field c) = many i (field (c.reorder o ho)) := by
  apply many_agree (c := c)
  · intro i hi; exact field_agree hi
  · intro i r v h
    obtain ⟨w, hw, -⟩ := (field_parses i).of_ok h
    exact ⟨w, hw⟩
  · exact hi

theorem fields_reorder {i : Bytes} (hi : Small c i) : fields c i = fields (c.reorder o ho) i := by
  have h := traces_parses (c := c) i
  unfold fields
  simp only [reorder_traces]
  generalize traces c i = x at h
  cases x with
  | err e => simp only [err_bind]
  | abort k => simp only [abort_bind]
  | ok rv =>
    obtain ⟨r, v⟩ := rv
    obtain ⟨w, hw, -⟩ := h
    simp only [ok_bind]
    simp only [many_field_reorder (o := o) (ho := ho) (hi.suffix hw)]

theorem email_parse_reorder {i : Bytes} (hi : Small c i) :
    Email.parse c i = Email.parse (c.reorder o ho) i := by
  unfold Email.parse parseMessage
  simp only [fields_reorder (o := o) (ho := ho) hi, reorder_feat, reorder_finish]

theorem entityHeader_agree {i : Bytes} (hi : Small c i) :
    Agree (entityHeader c i) (entityHeader (c.reorder o ho) i) := by
  unfold entityHeader
  refine .matchParsers (.inl (by simp)) ?_
  refine .matchParsers (mapValue_agree (contentType_agree hi)) ?_
  refine .matchParsers (.inl (by simp)) ?_
  refine .matchParsers (.inl (by simp)) ?_
  refine .matchParsers (mapValue_agree (contentDisposition_agree hi)) ?_
  exact .inl (by simp)

theorem many_entityHeader_reorder (hm : c.feat.mime = true) {i : Bytes} (hi : Small c i) :
    many i (entityHeader c) = many i (entityHeader (c.reorder o ho)) := by
  apply many_agree (c := c)
  · intro i hi; exact entityHeader_agree hi
  · intro i r v h
    obtain ⟨w, hw, -⟩ := (entityHeader_parses hm i).of_ok h
    exact ⟨w, hw⟩
  · exact hi

theorem rawEntity_reorder (hm : c.feat.mime = true) {i : Bytes} (hi : Small c i) :
    rawEntity c i = rawEntity (c.reorder o ho) i := by
  unfold rawEntity headerPart
  simp only [many_entityHeader_reorder (o := o) (ho := ho) hm hi]

theorem rawEntities_reorder (hm : c.feat.mime = true) :
    ∀ {ps : List Bytes}, (∀ p ∈ ps, Small c p) →
      rawEntities c ps = rawEntities (c.reorder o ho) ps
  | [], _ => rfl
  | p :: ps, h => by
    unfold rawEntities
    simp only [rawEntity_reorder (o := o) (ho := ho) hm (h p (by simp)),
      rawEntities_reorder hm (ps := ps) fun p hp => h p (by simp [hp])]

theorem rawEntity_parse_reorder (hm : c.feat.mime = true) (raw : RawEntity)
    (hi : Small c raw.value) : raw.parse c = raw.parse (c.reorder o ho) := by
  unfold RawEntity.parse
  split
  · unfold parseMultipart
    cases raw.parameters (b! "boundary") with
    | none => rfl
    | some b =>
      dsimp only
      cases hx : multipartParts raw.value b with
      | err e => simp only [err_bind]
      | abort k => simp only [abort_bind]
      | ok parts =>
        simp only [ok_bind]
        have hp : ∀ p ∈ parts, Small c p := fun p hp =>
          hi.infix (MultipartText.infix ((multipartParts_iff _ _ _).mp hx) p hp)
        simp only [rawEntities_reorder (o := o) (ho := ho) hm hp]
  · simp only [reorder_decodeCharset]
    rfl

end EmailParser
