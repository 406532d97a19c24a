import Verif.Proofs.Order
import Verif.Proofs.Complete.Message
/-
How the parsers depend on the Cargo features.
-/
namespace EmailParser

/-- The configuration with other features, except for `compatibility-fixes`. -/
def Cfg.switch (c : Cfg) (f : Features) : Cfg :=
  { c with feat := { f with compatibilityFixes := c.feat.compatibilityFixes } }

variable {α β : Type} {c : Cfg} {f : Features}

/-! ### Parsers that do not depend on the features -/

@[simp] theorem switch_compat : (c.switch f).feat.compatibilityFixes = c.feat.compatibilityFixes := rfl

@[simp] theorem switch_stack : (c.switch f).stack = c.stack := rfl

@[simp] theorem switch_textcode : (c.switch f).textcode = c.textcode := rfl

@[simp] theorem switch_realCfwsLoop : ∀ fuel i,
    realCfwsLoop (c.switch f) fuel i = realCfwsLoop c fuel i
  | 0, _ => rfl
  | fuel + 1, i => by
    unfold realCfwsLoop
    simp only [switch_stack, switch_realCfwsLoop fuel]

@[simp] theorem switch_cfws : cfws (c.switch f) = cfws c := by
  unfold cfws realCfws; simp

@[simp] theorem switch_skipCfws : skipCfws (c.switch f) = skipCfws c := by
  unfold skipCfws; simp

@[simp] theorem switch_quotedString : quotedString (c.switch f) = quotedString c := by
  unfold quotedString; simp

@[simp] theorem switch_decodeCharset : decodeCharset (c.switch f) = decodeCharset c := by
  unfold decodeCharset; simp

@[simp] theorem switch_decodeWord : decodeWord (c.switch f) = decodeWord c := by
  unfold decodeWord; simp

@[simp] theorem switch_encodedWord : encodedWord (c.switch f) = encodedWord c := by
  unfold encodedWord; simp

@[simp] theorem switch_atom : atom (c.switch f) = atom c := by
  unfold atom; simp

@[simp] theorem switch_dotAtomTextLoop : ∀ fuel i,
    dotAtomTextLoop (c.switch f) fuel i = dotAtomTextLoop c fuel i
  | 0, _ => rfl
  | fuel + 1, i => by
    unfold dotAtomTextLoop
    simp only [switch_compat, switch_dotAtomTextLoop fuel]
    rfl

@[simp] theorem switch_dotAtomText : dotAtomText (c.switch f) = dotAtomText c := by
  unfold dotAtomText; simp

@[simp] theorem switch_dotAtom : dotAtom (c.switch f) = dotAtom c := by
  unfold dotAtom; simp

@[simp] theorem switch_word : word (c.switch f) = word c := by
  unfold word; simp

@[simp] theorem switch_mimeUnstructuredLoop : ∀ fuel b i,
    mimeUnstructuredLoop (c.switch f) fuel b i = mimeUnstructuredLoop c fuel b i
  | 0, _, _ => rfl
  | fuel + 1, b, i => by
    unfold mimeUnstructuredLoop
    simp only [switch_encodedWord, switch_mimeUnstructuredLoop fuel]

@[simp] theorem switch_mimeUnstructured : mimeUnstructured (c.switch f) = mimeUnstructured c := by
  unfold mimeUnstructured; simp

@[simp] theorem switch_messageId : messageId (c.switch f) = messageId c := by
  unfold messageId; simp

@[simp] theorem switch_domainLiteral : domainLiteral (c.switch f) = domainLiteral c := by
  unfold domainLiteral; simp

@[simp] theorem switch_localPart : localPart (c.switch f) = localPart c := by
  unfold localPart; simp

@[simp] theorem switch_domain : domain (c.switch f) = domain c := by
  unfold domain; simp

@[simp] theorem switch_addrSpec : addrSpec (c.switch f) = addrSpec c := by
  unfold addrSpec; simp

@[simp] theorem switch_angleAddr : angleAddr (c.switch f) = angleAddr c := by
  unfold angleAddr; simp

@[simp] theorem switch_dateTime : dateTime (c.switch f) = dateTime c := by
  unfold dateTime; simp

@[simp] theorem switch_ignoreInlineCfws : ignoreInlineCfws (c.switch f) = ignoreInlineCfws c := by
  unfold ignoreInlineCfws; simp

@[simp] theorem switch_mimeVersionValue : mimeVersionValue (c.switch f) = mimeVersionValue c := by
  unfold mimeVersionValue; simp

@[simp] theorem switch_mimeVersion : mimeVersion (c.switch f) = mimeVersion c := by
  unfold mimeVersion; simp

@[simp] theorem switch_parameterValue : parameterValue (c.switch f) = parameterValue c := by
  unfold parameterValue; simp

@[simp] theorem switch_parameter : parameter (c.switch f) = parameter c := by
  unfold parameter; simp

@[simp] theorem switch_filenameParameter : filenameParameter (c.switch f) = filenameParameter c := by
  unfold filenameParameter; simp

@[simp] theorem switch_dateParameter : dateParameter (c.switch f) = dateParameter c := by
  unfold dateParameter; simp

@[simp] theorem switch_dispositionItem : dispositionItem (c.switch f) = dispositionItem c := by
  unfold dispositionItem; simp

@[simp] theorem switch_transferEncodingValue : transferEncodingValue (c.switch f) = transferEncodingValue c := by
  unfold transferEncodingValue; simp

@[simp] theorem switch_contentTransferEncoding : contentTransferEncoding (c.switch f) = contentTransferEncoding c := by
  unfold contentTransferEncoding; simp

@[simp] theorem switch_contentId : contentId (c.switch f) = contentId c := by
  unfold contentId; simp

@[simp] theorem switch_contentDescription : contentDescription (c.switch f) = contentDescription c := by
  unfold contentDescription; simp

@[simp] theorem switch_messageIds : messageIds (c.switch f) = messageIds c := by
  unfold messageIds; simp

@[simp] theorem switch_dateField : dateField (c.switch f) = dateField c := by
  unfold dateField; simp

@[simp] theorem switch_messageIdField : messageIdField (c.switch f) = messageIdField c := by
  unfold messageIdField; simp

@[simp] theorem switch_inReplyToField : inReplyToField (c.switch f) = inReplyToField c := by
  unfold inReplyToField; simp

@[simp] theorem switch_referencesField : referencesField (c.switch f) = referencesField c := by
  unfold referencesField; simp

@[simp] theorem switch_resentDate : resentDate (c.switch f) = resentDate c := by
  unfold resentDate; simp

@[simp] theorem switch_resentMessageId : resentMessageId (c.switch f) = resentMessageId c := by
  unfold resentMessageId; simp

@[simp] theorem switch_emptyPath : emptyPath (c.switch f) = emptyPath c := by
  unfold emptyPath; simp

@[simp] theorem switch_returnPathValue : returnPathValue (c.switch f) = returnPathValue c := by
  unfold returnPathValue; simp

@[simp] theorem switch_returnPath : returnPath (c.switch f) = returnPath c := by
  unfold returnPath; simp

@[simp] theorem switch_receivedToken : receivedToken (c.switch f) = receivedToken c := by
  unfold receivedToken; simp

@[simp] theorem switch_receivedValue : receivedValue (c.switch f) = receivedValue c := by
  unfold receivedValue; simp

@[simp] theorem switch_received : received (c.switch f) = received c := by
  unfold received; simp

@[simp] theorem switch_trace : trace (c.switch f) = trace c := by
  unfold trace; simp

@[simp] theorem switch_decodeParameter : decodeParameter (c.switch f) = decodeParameter c := by
  unfold decodeParameter; simp

@[simp] theorem switch_firstSegment : firstSegment (c.switch f) = firstSegment c := by
  unfold firstSegment; simp

@[simp] theorem switch_segmentPiece : segmentPiece (c.switch f) = segmentPiece c := by
  unfold segmentPiece; simp

@[simp] theorem switch_incrementIndex : incrementIndex (c.switch f) = incrementIndex c := rfl

@[simp] theorem switch_segmentsLoop (o : Option Bytes) : ∀ fuel v i,
    segmentsLoop (c.switch f) o fuel v i = segmentsLoop c o fuel v i
  | 0, _, _ => rfl
  | fuel + 1, v, i => by
    unfold segmentsLoop
    simp only [switch_segmentPiece, switch_incrementIndex, switch_segmentsLoop o fuel]

@[simp] theorem switch_collectOne : collectOne (c.switch f) = collectOne c := by
  unfold collectOne; simp

@[simp] theorem switch_collectAll : ∀ es ps, collectAll (c.switch f) ps es = collectAll c ps es
  | [], _ => rfl
  | e :: es, ps => by
    unfold collectAll
    simp only [switch_collectOne, switch_collectAll es]

@[simp] theorem switch_collectParameters : collectParameters (c.switch f) = collectParameters c := by
  unfold collectParameters; simp; rfl

@[simp] theorem switch_contentTypeValue : contentTypeValue (c.switch f) = contentTypeValue c := by
  unfold contentTypeValue; simp

@[simp] theorem switch_contentType : contentType (c.switch f) = contentType c := by
  unfold contentType; simp

@[simp] theorem switch_contentDispositionValue : contentDispositionValue (c.switch f) = contentDispositionValue c := by
  unfold contentDispositionValue; simp

@[simp] theorem switch_contentDisposition : contentDisposition (c.switch f) = contentDisposition c := by
  unfold contentDisposition; simp

/-! ### Parsers that depend on `mime` -/

/-- `mime` and `unrecognized-headers` do not change, or there is no encoded word in the text. -/
def Usual (c : Cfg) (f : Features) (i : Bytes) : Prop :=
  (f.mime = c.feat.mime ∧ f.unrecognizedHeaders = c.feat.unrecognizedHeaders) ∨ ¬ b! "=?" <:+: i

theorem Usual.suffix {w r : Bytes} (h : Usual c f (w ++ r)) : Usual c f r :=
  h.imp id fun h hr => h (hr.trans (List.suffix_append _ _).isInfix)

/-- Equal, or two errors. -/
inductive Coincide (c : Cfg) (f : Features) {α : Type} : Res α → Res α → Prop
  | ok {r : Bytes} {v : α} : Usual c f r → Coincide c f (.ok (r, v)) (.ok (r, v))
  | err {e e' : Error} : Coincide c f (.err e) (.err e')
  | abort {k : Abort} : Coincide c f (.abort k) (.abort k)

/-- The same for parsers. -/
def Unswitched (c : Cfg) (f : Features) (p q : Bytes → Res α) : Prop := ∀ i, Usual c f i → Coincide c f (p i) (q i)

theorem Coincide.bind {x y : Res α} {g h : Bytes × α → Res β} (hx : Coincide c f x y)
    (hg : ∀ r v, Usual c f r → Coincide c f (g (r, v)) (h (r, v))) : Coincide c f (x >>= g) (y >>= h) := by
  cases hx with
  | ok hr => exact hg _ _ hr
  | err => exact .err
  | abort => exact .abort

theorem Coincide.of_psat {A : Aborts} {G : Spec.Gram α} {i : Bytes} {x : Res α} (hi : Usual c f i) (h : PSat A G i x) :
    Coincide c f x x := by
  cases x with
  | ok r =>
    obtain ⟨w, e, -⟩ := h
    exact .ok (Usual.suffix (w := w) (e ▸ hi))
  | err => exact .err
  | abort => exact .abort

theorem Unswitched.of_parses {A : Aborts} {G : Spec.Gram α} {p : Bytes → Res α} (h : Parses A G p) : Unswitched c f p p :=
  fun i hi => .of_psat hi (h i)

theorem Coincide.skip {i : Bytes} {g h : Bytes → Res β} (hi : Usual c f i)
    (hg : ∀ r, Usual c f r → Coincide c f (g r) (h r)) : Coincide c f (skipCfws c i >>= g) (skipCfws c i >>= h) := by
  have hs := skipCfws_sat (c := c) i
  cases hx : skipCfws c i with
  | ok r =>
    obtain ⟨w, e, -⟩ := hs.of_ok hx
    exact hg r (Usual.suffix (w := w) (e ▸ hi))
  | err => exact .err
  | abort => exact .abort

theorem matchParsers_like {i : Bytes} {p q : Bytes → Res α} {ps qs : List (Bytes → Res α)} (h : Coincide c f (p i) (q i))
    (hs : Coincide c f (matchParsers i ps) (matchParsers i qs)) :
    Coincide c f (matchParsers i (p :: ps)) (matchParsers i (q :: qs)) := by
  unfold matchParsers
  generalize p i = x at h
  generalize q i = y at h
  cases h with
  | ok hr => exact .ok hr
  | err => exact hs
  | abort => exact .abort

theorem optional_like {p q : Bytes → Res α} (h : Unswitched c f p q) :
    Unswitched c f (fun i => optional i p) fun i => optional i q := by
  intro i hi
  dsimp only
  unfold optional
  have h := h i hi
  generalize p i = x at h
  generalize q i = y at h
  cases h with
  | ok hr => exact .ok hr
  | err => exact .ok hi
  | abort => exact .abort

theorem manyLoop_like {p q : Bytes → Res α} (h : Unswitched c f p q) : ∀ n i, Usual c f i →
    Coincide c f (manyLoop p n i) (manyLoop q n i)
  | 0, _, _ => .abort
  | n + 1, i, hi => by
    unfold manyLoop
    have h' := h i hi
    generalize p i = x at h'
    generalize q i = y at h'
    cases h' with
    | ok hr => exact .bind (manyLoop_like h n _ hr) fun _ _ hr => .ok hr
    | err => exact .ok hi
    | abort => exact .abort

theorem many_like {p q : Bytes → Res α} (h : Unswitched c f p q) : Unswitched c f (fun i => many i p) fun i => many i q :=
  fun i => manyLoop_like h _ i

theorem many1_like {p q : Bytes → Res α} (h : Unswitched c f p q) : Unswitched c f (fun i => many1 i p) fun i => many1 i q :=
  fun i hi => .bind (h i hi) fun _ _ hr => .bind (manyLoop_like h _ _ hr) fun _ _ hr => .ok hr

theorem prefixed_like {p q : Bytes → Res α} {x : Bytes} (h : Unswitched c f p q) :
    Unswitched c f (fun i => prefixed i p x) fun i => prefixed i q x := by
  intro i hi
  dsimp only
  unfold prefixed getUncheckedFrom
  split
  · split
    · exact h _ (Usual.suffix (w := i.take x.length) (by rwa [List.take_append_drop]))
    · exact .abort
  · exact .err

theorem encodedWord_none {i : Bytes} (h : ¬ b! "=?" <:+: i) : ∃ e, encodedWord c i = .err e :=
  encodedWord_err_start fun h' => h h'.isInfix

theorem phraseWord_none {d : Cfg} {i : Bytes} (h : ¬ b! "=?" <:+: i) : Coincide d f (phraseWord c i) (word c i) := by
  have hw := Coincide.of_psat (c := d) (f := f) (.inr h) (word_parses (c := c) i)
  unfold phraseWord
  split
  · have : ∃ e, (do let (i, _) ← optional i fws; encodedWord c i : Res Bytes) = .err e := by
      unfold optional
      cases hx : fws i with
      | ok r =>
        obtain ⟨w, e, -⟩ := (fws_parses (A := .none) i).of_ok hx
        exact encodedWord_none fun h' => h (by rw [e]; exact h'.trans (List.suffix_append _ _).isInfix)
      | err => exact encodedWord_none h
      | abort k => exact ((fws_parses (A := .none) i).of_abort hx).elim
    obtain ⟨e, he⟩ := this
    rw [matchParsers, he]
    dsimp only
    rw [matchParsers]
    generalize word c i = x at hw
    cases hw with
    | ok hr => exact .ok hr
    | err => exact .err
    | abort => exact .abort
  · exact hw

theorem Coincide.trans {x y z : Res α} (h : Coincide c f x y) (h' : Coincide c f y z) : Coincide c f x z := by
  cases h with
  | ok hr => exact h'
  | err => cases h'; exact .err
  | abort => exact h'

theorem Coincide.symm {x y : Res α} (h : Coincide c f x y) : Coincide c f y x := by
  cases h with
  | ok hr => exact .ok hr
  | err => exact .err
  | abort => exact .abort

theorem phraseWord_like : Unswitched c f (phraseWord c) (phraseWord (c.switch f)) := by
  intro i hi
  by_cases h : f.mime = c.feat.mime
  · have : phraseWord (c.switch f) = phraseWord c := by
      unfold phraseWord
      simp only [switch_encodedWord, switch_word, show (c.switch f).feat.mime = c.feat.mime from h]
    rw [this]
    exact .of_psat hi (phraseWord_parses i)
  · have hi' := hi.resolve_left fun h' => h h'.1
    have := phraseWord_none (c := c.switch f) (d := c) (f := f) hi'
    rw [switch_word] at this
    exact (phraseWord_none hi').trans this.symm

theorem phrase_like : Unswitched c f (phrase c) (phrase (c.switch f)) := many1_like phraseWord_like

theorem tag_like {x : Bytes} {m : String} : Unswitched c f (fun i => tag i x m) fun i => tag i x m :=
  .of_parses (tag_parses (A := .none) x m)

theorem nameAddr_like : Unswitched c f (nameAddr c) (nameAddr (c.switch f)) := by
  intro i hi
  unfold nameAddr
  rw [switch_angleAddr]
  refine .bind (optional_like phrase_like i hi) fun r v hr => ?_
  exact .bind (.of_psat hr (angleAddr_parses r)) fun r v hr => .ok hr

theorem mailbox_like : Unswitched c f (mailbox c) (mailbox (c.switch f)) := by
  intro i hi
  unfold mailbox
  rw [switch_addrSpec]
  refine matchParsers_like (nameAddr_like i hi) (matchParsers_like ?_ .err)
  exact .bind (.of_psat hi (addrSpec_parses i)) fun r v hr => .ok hr

theorem mailboxList_like : Unswitched c f (mailboxList c) (mailboxList (c.switch f)) := fun i hi =>
  .bind (mailbox_like i hi) fun r _ hr => .bind (many_like (prefixed_like mailbox_like) r hr) fun _ _ hr => .ok hr

theorem groupList_like : Unswitched c f (groupList c) (groupList (c.switch f)) := by
  intro i hi
  unfold groupList
  rw [switch_cfws]
  have h := mailboxList_like i hi
  generalize mailboxList c i = x at h
  generalize mailboxList (c.switch f) i = y at h
  cases h with
  | ok hr => exact .ok hr
  | abort => exact .abort
  | err =>
    have h := Coincide.of_psat hi (cfws_parses (c := c) i)
    dsimp only
    generalize cfws c i = x at h
    cases h with
    | ok hr => exact .ok hr
    | abort => exact .abort
    | err => exact .ok hi

theorem group_like : Unswitched c f (group c) (group (c.switch f)) := by
  intro i hi
  unfold group
  rw [switch_skipCfws]
  refine .bind (phrase_like i hi) fun r v hr => .bind (tag_like r hr) fun r v hr =>
    .bind (groupList_like r hr) fun r v hr => .bind (tag_like r hr) fun r v hr => ?_
  exact .skip hr fun r hr => .ok hr

theorem address_like : Unswitched c f (address c) (address (c.switch f)) := by
  intro i hi
  unfold address
  have h := mailbox_like i hi
  generalize mailbox c i = x at h
  generalize mailbox (c.switch f) i = y at h
  cases h with
  | ok hr => exact .ok hr
  | abort => exact .abort
  | err =>
    have h := group_like i hi
    dsimp only
    generalize group c i = x at h
    generalize group (c.switch f) i = y at h
    cases h with
    | ok hr => exact .ok hr
    | abort => exact .abort
    | err => exact .err

theorem addressList_like : Unswitched c f (addressList c) (addressList (c.switch f)) := fun i hi =>
  .bind (address_like i hi) fun r _ hr => .bind (many_like (prefixed_like address_like) r hr) fun _ _ hr => .ok hr

theorem bccValue_like : Unswitched c f (bccValue c) (bccValue (c.switch f)) := by
  intro i hi
  unfold bccValue
  rw [switch_cfws]
  have h := addressList_like i hi
  generalize addressList c i = x at h
  generalize addressList (c.switch f) i = y at h
  cases h with
  | ok hr => exact .ok hr
  | abort => exact .abort
  | err =>
    have h := Coincide.of_psat hi (cfws_parses (c := c) i)
    dsimp only
    generalize cfws c i = x at h
    cases h with
    | ok hr => exact .ok hr
    | abort => exact .abort
    | err => exact .err

theorem keywordList_like : Unswitched c f (keywordList c) (keywordList (c.switch f)) := fun i hi =>
  .bind (phrase_like i hi) fun r _ hr => .bind (many_like (prefixed_like phrase_like) r hr) fun _ _ hr => .ok hr

/-- Without encoded words, both kinds of text are read in the same way. -/
theorem mimeUnstructuredLoop_plain : ∀ fuel (prev : Bool) (i : Bytes), ¬ b! "=?" <:+: i →
    mimeUnstructuredLoop c fuel prev i = collectManyLoop (fun i =>
      collectPair i fwsOrEmpty fun i => do
        let (input, value) ← takeWhile1 i isVchar
        .ok (input, value)) fuel i
  | 0, _, _, _ => rfl
  | fuel + 1, prev, i, hi => by
    rw [mimeUnstructuredLoop, collectManyLoop]
    conv => rhs; rw [collectPair]
    have hf := fwsOrEmpty_parses (A := .none) i
    cases hx : fwsOrEmpty i with
    | err e => unfold fwsOrEmpty at hx; split at hx <;> cases hx
    | abort k => rfl
    | ok a =>
      obtain ⟨w, hw, -⟩ := hf.of_ok hx
      simp only [ok_bind]
      have hj : ¬ b! "=?" <:+: a.1 := fun h => hi (by rw [hw]; exact h.trans (List.suffix_append _ _).isInfix)
      obtain ⟨e, he⟩ := encodedWord_none (c := c) hj
      rw [he]
      cases hy : takeWhile1 a.1 isVchar with
      | ok b =>
        obtain ⟨w', e1, -⟩ := (takeWhile1_parses (A := .none) isVchar a.1).of_ok hy
        simp only [ok_bind]
        rw [mimeUnstructuredLoop_plain fuel false _ fun h => hj (by rw [e1]; exact h.trans (List.suffix_append _ _).isInfix)]
      | err e => rfl
      | abort k => rfl

theorem mimeUnstructured_plain {i : Bytes} (hi : ¬ b! "=?" <:+: i) : mimeUnstructured c i = unstructured i := by
  unfold mimeUnstructured unstructured collectMany
  rw [mimeUnstructuredLoop_plain _ _ _ hi]

theorem text_like (b b' : Bool) {i : Bytes} (hi : Usual c f i) (h : b = b' ∨ ¬ b! "=?" <:+: i) :
    Coincide c f (if b then mimeUnstructured c i else unstructured i) (if b' then mimeUnstructured c i else unstructured i) := by
  have h1 := Coincide.of_psat hi (mimeUnstructured_parses (A := .none) (c := c) i)
  have h2 := Coincide.of_psat hi (unstructured_parses (A := .none) i)
  rcases h with rfl | h
  · cases b
    · exact h2
    · exact h1
  · rw [mimeUnstructured_plain h, ite_self, ite_self]
    exact h2

theorem textValue_like : Unswitched c f (textValue c) (textValue (c.switch f)) := by
  intro i hi
  unfold textValue
  rw [switch_mimeUnstructured]
  exact text_like _ _ hi (hi.imp (·.1.symm) id)

theorem unknownValue_like : Unswitched c f (unknownValue c) (unknownValue (c.switch f)) := by
  intro i hi
  unfold unknownValue
  rw [switch_mimeUnstructured]
  exact text_like _ _ hi (hi.imp (·.2.symm) id)

theorem unknown_like : Unswitched c f (unknown c) (unknown (c.switch f)) := by
  intro i hi
  unfold unknown
  exact .bind (.of_psat hi (takeWhile1_parses (A := .none) isFtext i)) fun r v hr => .bind (tag_like r hr) fun r v hr =>
    .bind (unknownValue_like r hr) fun r v hr => .bind (tag_like r hr) fun r v hr => .ok hr

theorem headerLine_like {n n2 : Bytes} {m m' : String} {p q : Bytes → Res α} (hn : n2 = n.map swapCase)
    (h : Unswitched c f p q) : Unswitched c f (headerLine n n2 m m' p) (headerLine n n2 m m' q) := fun i hi =>
  .bind (.of_psat hi (tagNoCase_parses (A := .none) m hn i)) fun r _ hr => .bind (h r hr) fun r _ hr =>
    .bind (tag_like r hr) fun _ _ hr => .ok hr

theorem mapValue_like {g : α → β} {p q : Bytes → Res α} (h : Unswitched c f p q) :
    Unswitched c f (mapValue g p) (mapValue g q) := fun i hi => .bind (h i hi) fun _ _ hr => .ok hr

theorem resent_like {m : String} {p q : Bytes → Res α} (h : Unswitched c f p q) :
    Unswitched c f (resent m p) (resent m q) := fun i hi =>
  .bind (.of_psat hi (tagNoCase_parses (A := .none) m rfl i)) fun r _ hr => .bind (h r hr) fun _ _ hr => .ok hr

/-! ### One header line -/

theorem recognized_date : Spec.Recognized f (b! "date") ↔ f.date = true := by simp [Spec.Recognized]
theorem recognized_from : Spec.Recognized f (b! "from") ↔ f.«from» = true := by simp [Spec.Recognized]
theorem recognized_sender : Spec.Recognized f (b! "sender") ↔ f.sender = true := by simp [Spec.Recognized]
theorem recognized_reply_to : Spec.Recognized f (b! "reply-to") ↔ f.replyTo = true := by simp [Spec.Recognized]
theorem recognized_to : Spec.Recognized f (b! "to") ↔ f.to = true := by simp [Spec.Recognized]
theorem recognized_cc : Spec.Recognized f (b! "cc") ↔ f.cc = true := by simp [Spec.Recognized]
theorem recognized_bcc : Spec.Recognized f (b! "bcc") ↔ f.bcc = true := by simp [Spec.Recognized]
theorem recognized_message_id : Spec.Recognized f (b! "message-id") ↔ f.messageId = true := by simp [Spec.Recognized]
theorem recognized_in_reply_to : Spec.Recognized f (b! "in-reply-to") ↔ f.inReplyTo = true := by simp [Spec.Recognized]
theorem recognized_references : Spec.Recognized f (b! "references") ↔ f.references = true := by simp [Spec.Recognized]
theorem recognized_subject : Spec.Recognized f (b! "subject") ↔ f.subject = true := by simp [Spec.Recognized]
theorem recognized_comments : Spec.Recognized f (b! "comments") ↔ f.comments = true := by simp [Spec.Recognized]
theorem recognized_mime_version : Spec.Recognized f (b! "mime-version") ↔ f.mime = true := by simp [Spec.Recognized]
theorem recognized_content_type : Spec.Recognized f (b! "content-type") ↔ f.mime = true := by simp [Spec.Recognized]
theorem recognized_content_transfer_encoding : Spec.Recognized f (b! "content-transfer-encoding") ↔ f.mime = true := by simp [Spec.Recognized]
theorem recognized_content_id : Spec.Recognized f (b! "content-id") ↔ f.mime = true := by simp [Spec.Recognized]
theorem recognized_content_description : Spec.Recognized f (b! "content-description") ↔ f.mime = true := by simp [Spec.Recognized]
theorem recognized_content_disposition : Spec.Recognized f (b! "content-disposition") ↔ f.mime = true := by simp [Spec.Recognized]
theorem recognized_keywords : Spec.Recognized f (b! "keywords") ↔ f.keywords = true := by simp [Spec.Recognized]

theorem dateField_like : Unswitched c f (dateField c) (dateField (c.switch f)) := by
  rw [switch_dateField]
  exact .of_parses dateField_parses

theorem fromField_like : Unswitched c f (fromField c) (fromField (c.switch f)) := headerLine_like rfl mailboxList_like

theorem senderField_like : Unswitched c f (senderField c) (senderField (c.switch f)) := headerLine_like rfl mailbox_like

theorem replyToField_like : Unswitched c f (replyToField c) (replyToField (c.switch f)) := headerLine_like rfl addressList_like

theorem toField_like : Unswitched c f (toField c) (toField (c.switch f)) := headerLine_like rfl addressList_like

theorem ccField_like : Unswitched c f (ccField c) (ccField (c.switch f)) := headerLine_like rfl addressList_like

theorem bccField_like : Unswitched c f (bccField c) (bccField (c.switch f)) := headerLine_like rfl bccValue_like

theorem messageIdField_like : Unswitched c f (messageIdField c) (messageIdField (c.switch f)) := by
  rw [switch_messageIdField]
  exact .of_parses messageIdField_parses

theorem inReplyToField_like : Unswitched c f (inReplyToField c) (inReplyToField (c.switch f)) := by
  rw [switch_inReplyToField]
  exact .of_parses inReplyToField_parses

theorem referencesField_like : Unswitched c f (referencesField c) (referencesField (c.switch f)) := by
  rw [switch_referencesField]
  exact .of_parses referencesField_parses

theorem subjectField_like : Unswitched c f (subjectField c) (subjectField (c.switch f)) := headerLine_like rfl textValue_like

theorem commentsField_like : Unswitched c f (commentsField c) (commentsField (c.switch f)) := headerLine_like rfl textValue_like

theorem mimeVersion_like : Unswitched c f (mimeVersion c) (mimeVersion (c.switch f)) := by
  rw [switch_mimeVersion]
  exact .of_parses mimeVersion_parses

theorem contentType_like (hm : c.feat.mime = true) : Unswitched c f (contentType c) (contentType (c.switch f)) := by
  rw [switch_contentType]
  exact .of_parses (contentType_parses hm)

theorem contentTransferEncoding_like : Unswitched c f (contentTransferEncoding c) (contentTransferEncoding (c.switch f)) := by
  rw [switch_contentTransferEncoding]
  exact .of_parses contentTransferEncoding_parses

theorem contentId_like : Unswitched c f (contentId c) (contentId (c.switch f)) := by
  rw [switch_contentId]
  exact .of_parses contentId_parses

theorem contentDescription_like : Unswitched c f (contentDescription c) (contentDescription (c.switch f)) := by
  rw [switch_contentDescription]
  exact .of_parses contentDescription_parses

theorem contentDisposition_like (hm : c.feat.mime = true) : Unswitched c f (contentDisposition c) (contentDisposition (c.switch f)) := by
  rw [switch_contentDisposition]
  exact .of_parses (contentDisposition_parses hm)

theorem keywordsField_like : Unswitched c f (keywordsField c) (keywordsField (c.switch f)) := headerLine_like rfl keywordList_like

theorem headerTable_pair : ∀ e ∈ headerTable c, Spec.Recognized (c.switch f).feat e.1 →
    ∃ q, (e.1, q) ∈ headerTable (c.switch f) ∧ Unswitched c f e.2 q := by
  unfold headerTable
  refine append_forall ?_ (enabled_forall fun _ h => ⟨mapValue .keywords (keywordsField (c.switch f)), ?_, mapValue_like keywordsField_like⟩)
  rotate_left
  · simp only [recognized_keywords] at h
    skip
    exact List.mem_append_right _ (mem_enabled.mpr ⟨h, rfl⟩)
  refine append_forall ?_ (enabled_forall fun hm h => ⟨mapValue .contentDisposition (contentDisposition (c.switch f)), ?_, mapValue_like (contentDisposition_like hm)⟩)
  rotate_left
  · simp only [recognized_content_disposition] at h
    iterate 1 refine List.mem_append_left _ ?_
    exact List.mem_append_right _ (mem_enabled.mpr ⟨h, rfl⟩)
  refine append_forall ?_ (enabled_forall fun _ h => ⟨mapValue .contentDescription (contentDescription (c.switch f)), ?_, mapValue_like contentDescription_like⟩)
  rotate_left
  · simp only [recognized_content_description] at h
    iterate 2 refine List.mem_append_left _ ?_
    exact List.mem_append_right _ (mem_enabled.mpr ⟨h, rfl⟩)
  refine append_forall ?_ (enabled_forall fun _ h => ⟨mapValue .contentId (contentId (c.switch f)), ?_, mapValue_like contentId_like⟩)
  rotate_left
  · simp only [recognized_content_id] at h
    iterate 3 refine List.mem_append_left _ ?_
    exact List.mem_append_right _ (mem_enabled.mpr ⟨h, rfl⟩)
  refine append_forall ?_ (enabled_forall fun _ h => ⟨mapValue .contentTransferEncoding (contentTransferEncoding (c.switch f)), ?_, mapValue_like contentTransferEncoding_like⟩)
  rotate_left
  · simp only [recognized_content_transfer_encoding] at h
    iterate 4 refine List.mem_append_left _ ?_
    exact List.mem_append_right _ (mem_enabled.mpr ⟨h, rfl⟩)
  refine append_forall ?_ (enabled_forall fun hm h => ?_)
  rotate_left
  · dsimp only at h ⊢
    refine ⟨_, ?_, mapValue_like (contentType_like hm)⟩
    simp only [recognized_content_type] at h
    iterate 5 refine List.mem_append_left _ ?_
    exact List.mem_append_right _ (mem_enabled.mpr ⟨h, rfl⟩)
  refine append_forall ?_ (enabled_forall fun _ h => ?_)
  rotate_left
  · dsimp only at h ⊢
    refine ⟨_, ?_, mapValue_like mimeVersion_like⟩
    simp only [recognized_mime_version] at h
    iterate 6 refine List.mem_append_left _ ?_
    exact List.mem_append_right _ (mem_enabled.mpr ⟨h, rfl⟩)
  refine append_forall ?_ (enabled_forall fun _ h => ⟨mapValue .comments (commentsField (c.switch f)), ?_, mapValue_like commentsField_like⟩)
  rotate_left
  · simp only [recognized_comments] at h
    iterate 7 refine List.mem_append_left _ ?_
    exact List.mem_append_right _ (mem_enabled.mpr ⟨h, rfl⟩)
  refine append_forall ?_ (enabled_forall fun _ h => ⟨mapValue .subject (subjectField (c.switch f)), ?_, mapValue_like subjectField_like⟩)
  rotate_left
  · simp only [recognized_subject] at h
    iterate 8 refine List.mem_append_left _ ?_
    exact List.mem_append_right _ (mem_enabled.mpr ⟨h, rfl⟩)
  refine append_forall ?_ (enabled_forall fun _ h => ⟨mapValue .references (referencesField (c.switch f)), ?_, mapValue_like referencesField_like⟩)
  rotate_left
  · simp only [recognized_references] at h
    iterate 9 refine List.mem_append_left _ ?_
    exact List.mem_append_right _ (mem_enabled.mpr ⟨h, rfl⟩)
  refine append_forall ?_ (enabled_forall fun _ h => ⟨mapValue .inReplyTo (inReplyToField (c.switch f)), ?_, mapValue_like inReplyToField_like⟩)
  rotate_left
  · simp only [recognized_in_reply_to] at h
    iterate 10 refine List.mem_append_left _ ?_
    exact List.mem_append_right _ (mem_enabled.mpr ⟨h, rfl⟩)
  refine append_forall ?_ (enabled_forall fun _ h => ⟨mapValue .messageId (messageIdField (c.switch f)), ?_, mapValue_like messageIdField_like⟩)
  rotate_left
  · simp only [recognized_message_id] at h
    iterate 11 refine List.mem_append_left _ ?_
    exact List.mem_append_right _ (mem_enabled.mpr ⟨h, rfl⟩)
  refine append_forall ?_ (enabled_forall fun _ h => ⟨mapValue .bcc (bccField (c.switch f)), ?_, mapValue_like bccField_like⟩)
  rotate_left
  · simp only [recognized_bcc] at h
    iterate 12 refine List.mem_append_left _ ?_
    exact List.mem_append_right _ (mem_enabled.mpr ⟨h, rfl⟩)
  refine append_forall ?_ (enabled_forall fun _ h => ⟨mapValue .cc (ccField (c.switch f)), ?_, mapValue_like ccField_like⟩)
  rotate_left
  · simp only [recognized_cc] at h
    iterate 13 refine List.mem_append_left _ ?_
    exact List.mem_append_right _ (mem_enabled.mpr ⟨h, rfl⟩)
  refine append_forall ?_ (enabled_forall fun _ h => ⟨mapValue .to (toField (c.switch f)), ?_, mapValue_like toField_like⟩)
  rotate_left
  · simp only [recognized_to] at h
    iterate 14 refine List.mem_append_left _ ?_
    exact List.mem_append_right _ (mem_enabled.mpr ⟨h, rfl⟩)
  refine append_forall ?_ (enabled_forall fun _ h => ⟨mapValue .replyTo (replyToField (c.switch f)), ?_, mapValue_like replyToField_like⟩)
  rotate_left
  · simp only [recognized_reply_to] at h
    iterate 15 refine List.mem_append_left _ ?_
    exact List.mem_append_right _ (mem_enabled.mpr ⟨h, rfl⟩)
  refine append_forall ?_ (enabled_forall fun _ h => ⟨mapValue .sender (senderField (c.switch f)), ?_, mapValue_like senderField_like⟩)
  rotate_left
  · simp only [recognized_sender] at h
    iterate 16 refine List.mem_append_left _ ?_
    exact List.mem_append_right _ (mem_enabled.mpr ⟨h, rfl⟩)
  refine append_forall ?_ (enabled_forall fun _ h => ⟨mapValue .from (fromField (c.switch f)), ?_, mapValue_like fromField_like⟩)
  rotate_left
  · simp only [recognized_from] at h
    iterate 17 refine List.mem_append_left _ ?_
    exact List.mem_append_right _ (mem_enabled.mpr ⟨h, rfl⟩)
  refine enabled_forall fun _ h => ⟨mapValue .date (dateField (c.switch f)), ?_, mapValue_like dateField_like⟩
  simp only [recognized_date] at h
  iterate 18 refine List.mem_append_left _ ?_
  exact mem_enabled.mpr ⟨h, rfl⟩

theorem mapValue_kind {g : α → Field} {p : Bytes → Res α} {n : Bytes} (h : ∀ v, Spec.headerOf (g v) = some n)
    {i r : Bytes} {x : Field} (hx : mapValue g p i = .ok (r, x)) : Spec.headerOf x = some n := by
  obtain ⟨a, -, h'⟩ := bind_eq_ok.1 hx
  cases h'
  exact h _

theorem headerTable_kind : ∀ e ∈ headerTable c, ∀ i r x, e.2 i = .ok (r, x) → Spec.headerOf x = some e.1 := by
  unfold headerTable
  iterate 18 refine append_forall ?_ (enabled_forall fun _ _ _ _ h => by
    dsimp only at h ⊢
    exact mapValue_kind (fun _ => rfl) h)
  exact enabled_forall fun _ _ _ _ h => mapValue_kind (fun _ => rfl) h

theorem matchParsers_skip {i : Bytes} {ps qs : List (Bytes → Res α)} (h : ∀ p ∈ ps, ∃ e, p i = .err e) :
    matchParsers i (ps ++ qs) = matchParsers i qs := by
  obtain ⟨e, he⟩ := matchParsers_all_err h
  rw [matchParsers_append, he]

/-- The parser of unknown fields. -/
def unknownField (c : Cfg) : Bytes → Res Field := mapValue (fun (name, value) => .unknown name value) (unknown c)

theorem field_named {n i : Bytes} {p : Bytes → Res Field} (hm : (n, p) ∈ headerTable c)
    (hn : (n ++ b! ":") <+: i.map asciiLower) : field c i = matchParsers i [p, unknownField c] := by
  have hd := headerTable_nodup (c := c)
  have ho : ∀ e ∈ headerTable c, e.1 ≠ n → ∃ x, e.2 i = .err x := by
    intro e he hne
    refine headerTable_other e he fun hp => hne ?_
    obtain ⟨t, ht⟩ := hn
    rw [← ht] at hp
    exact prefix_name (headerTable_colon _ hm) (headerTable_colon e he) hp
  unfold field
  rw [fieldParsers_table]
  obtain ⟨l, l', e⟩ := List.append_of_mem hm
  rw [e] at hd ho ⊢
  simp only [List.map_append, List.map_cons, List.nodup_append, List.nodup_cons, List.mem_cons] at hd
  rw [List.map_append, List.map_cons, List.append_assoc, matchParsers_skip, List.cons_append]
  · rw [matchParsers, matchParsers, matchParsers_skip]
    · rfl
    · intro p hp
      obtain ⟨e, he, rfl⟩ := List.mem_map.mp hp
      exact ho e (by simp [he]) fun h' => hd.2.1.1 (h' ▸ List.mem_map_of_mem he)
  · intro p hp
    obtain ⟨e, he, rfl⟩ := List.mem_map.mp hp
    exact ho e (by simp [he]) fun h' => hd.2.2 e.1 (List.mem_map_of_mem he) _ (.inl rfl) h'

theorem field_unnamed {i : Bytes} (h : ∀ e ∈ headerTable c, ¬ (e.1 ++ b! ":") <+: i.map asciiLower) :
    field c i = matchParsers i [unknownField c] := by
  unfold field
  rw [fieldParsers_table, matchParsers_skip]
  · rfl
  · intro p hp
    obtain ⟨e, he, rfl⟩ := List.mem_map.mp hp
    exact headerTable_other e he (h e he)

theorem unknownField_like : Unswitched c f (unknownField c) (unknownField (c.switch f)) := mapValue_like unknown_like

theorem unknownField_shape {i r : Bytes} {x : Field} (h : unknownField c i = .ok (r, x)) :
    ∃ name v, x = .unknown name v ∧ 58 ∉ name.map asciiLower ∧ (name.map asciiLower ++ b! ":") <+: i.map asciiLower := by
  obtain ⟨⟨r', name, v⟩, h1, h2⟩ := bind_eq_ok.1 h
  cases h2
  refine ⟨name, v, rfl, ?_⟩
  obtain ⟨w, e, hw⟩ := (unknown_parses (c := c) i).of_ok h1
  obtain ⟨w₁, _, _, rfl, ⟨he, h₁, h₁'⟩, w₂, _, _, rfl, h₂, w₃, _, _, rfl, h₃, w₄, _, _, rfl, h₄, rfl, e'⟩ := hw
  cases e'
  subst he
  refine ⟨ftext_colon_lower h₁', ?_⟩
  rw [e, show w₂ = b! ":" from h₂]
  exact ⟨(w₃ ++ (w₄ ++ r)).map asciiLower, by simp; rfl⟩

/-- The fields read from a line with two sets of features: they are the same, unless the header is recognised with
only one of them. -/
inductive Counterpart (f f' : Features) : Field → Field → Prop
  | same (x : Field) : Counterpart f f' x x
  | left {x : Field} {name v : Bytes} : Spec.headerOf x = some (name.map asciiLower) →
    Spec.Recognized f (name.map asciiLower) → ¬ Spec.Recognized f' (name.map asciiLower) → Counterpart f f' x (.unknown name v)
  | right {x : Field} {name v : Bytes} : Spec.headerOf x = some (name.map asciiLower) →
    ¬ Spec.Recognized f (name.map asciiLower) → Spec.Recognized f' (name.map asciiLower) → Counterpart f f' (.unknown name v) x

theorem switch_switch : (c.switch f).switch c.feat = c := rfl

theorem Usual.switch {i : Bytes} (h : Usual c f i) : Usual (c.switch f) c.feat i :=
  h.imp (fun h => ⟨h.1.symm, h.2.symm⟩) id

/-- Recognised on one side only. -/
theorem field_left {n i r r' : Bytes} {p : Bytes → Res Field} {x y : Field} (hi : Usual c f i)
    (hm : (n, p) ∈ headerTable c) (hn : (n ++ b! ":") <+: i.map asciiLower)
    (hr : ¬ Spec.Recognized (c.switch f).feat n) (hx : field c i = .ok (r, x)) (hy : field (c.switch f) i = .ok (r', y)) :
    Counterpart c.feat (c.switch f).feat x y := by
  rw [field_named hm hn] at hx
  rw [field_unnamed (fun e he h => ?_)] at hy
  rotate_left
  · obtain ⟨t, ht⟩ := hn
    rw [← ht] at h
    have := prefix_name (headerTable_colon _ hm) (headerTable_colon e he) h
    have hr' := headerTable_recognized e he
    rw [this] at hr'
    exact hr hr'
  have hy' : unknownField (c.switch f) i = .ok (r', y) := by
    unfold matchParsers at hy
    split at hy
    · cases hy; assumption
    · cases hy
    · cases hy
  obtain ⟨name, v, rfl, hname, hp⟩ := unknownField_shape hy'
  have e : n = name.map asciiLower := by
    obtain ⟨t, ht⟩ := hp
    rw [← ht] at hn
    exact prefix_name hname (headerTable_colon _ hm) hn
  unfold matchParsers at hx
  split at hx
  · cases hx
    next h => 
      have := headerTable_kind _ hm _ _ _ h
      subst e
      exact .left this (headerTable_recognized _ hm) hr
  · have hl := unknownField_like i hi
    rw [hy'] at hl
    unfold matchParsers at hx
    cases hl' : unknownField c i with
    | ok a =>
      rw [hl'] at hl hx
      cases hl
      cases hx
      exact .same _
    | err e => rw [hl'] at hx; cases hx
    | abort k => rw [hl'] at hx; cases hx
  · cases hx

theorem Counterpart.symm {f f' : Features} {x y : Field} (h : Counterpart f f' x y) : Counterpart f' f y x := by
  cases h with
  | same => exact .same _
  | left h1 h2 h3 => exact .right h1 h3 h2
  | right h1 h2 h3 => exact .left h1 h3 h2

theorem Coincide.field {x y : Res Field} {g g' : Features} {r r' : Bytes} {a b : Field} (h : Coincide c f x y)
    (hx : x = .ok (r, a)) (hy : y = .ok (r', b)) : Counterpart g g' a b := by
  subst hx
  cases h
  cases hy
  exact .same _

/-- One header line, read with both sets of features. -/
theorem field_same {i r r' : Bytes} {x y : Field} (hi : Usual c f i) (hx : field c i = .ok (r, x))
    (hy : field (c.switch f) i = .ok (r', y)) : Counterpart c.feat (c.switch f).feat x y := by
  by_cases h : ∃ e ∈ headerTable c, (e.1 ++ b! ":") <+: i.map asciiLower
  · obtain ⟨⟨n, p⟩, hm, hn⟩ := h
    by_cases hr : Spec.Recognized (c.switch f).feat n
    · obtain ⟨q, hq, hl⟩ := headerTable_pair _ hm hr
      rw [field_named hm hn] at hx
      rw [field_named hq hn] at hy
      exact (matchParsers_like (hl i hi) (matchParsers_like (unknownField_like i hi) .err)).field hx hy
    · exact field_left hi hm hn hr hx hy
  · by_cases h' : ∃ e ∈ headerTable (c.switch f), (e.1 ++ b! ":") <+: i.map asciiLower
    · obtain ⟨⟨n, p⟩, hm, hn⟩ := h'
      refine (field_left (c := c.switch f) (f := c.feat) hi.switch hm hn (fun hr => h ?_) hy hx).symm
      obtain ⟨q, hq, -⟩ := headerTable_pair (c := c.switch f) (f := c.feat) _ hm hr
      exact ⟨_, hq, hn⟩
    · rw [field_unnamed fun e he he' => h ⟨e, he, he'⟩] at hx
      rw [field_unnamed fun e he he' => h' ⟨e, he, he'⟩] at hy
      exact (matchParsers_like (unknownField_like i hi) .err).field hx hy

/-! ### Traces -/

theorem traceFields_like : Unswitched c f (fun i => matchParsers i (traceFieldParsers c))
    fun i => matchParsers i (traceFieldParsers (c.switch f)) := fun i hi =>
  matchParsers_like (mapValue_like (resent_like dateField_like) i hi) <|
  matchParsers_like (mapValue_like (resent_like fromField_like) i hi) <|
  matchParsers_like (mapValue_like (resent_like senderField_like) i hi) <|
  matchParsers_like (mapValue_like (resent_like toField_like) i hi) <|
  matchParsers_like (mapValue_like (resent_like ccField_like) i hi) <|
  matchParsers_like (mapValue_like (resent_like bccField_like) i hi) <|
  matchParsers_like (mapValue_like (resent_like messageIdField_like) i hi) .err

theorem traceBlock_like : Unswitched c f (traceBlock c) (traceBlock (c.switch f)) := by
  intro i hi
  unfold traceBlock trace
  rw [switch_returnPath, switch_received]
  refine .bind (.bind (optional_like (.of_parses returnPath_parses) i hi) fun r v hr =>
    .bind (many1_like (.of_parses received_parses) r hr) fun r v hr => .ok hr) fun r v hr => ?_
  exact .bind (many_like traceFields_like r hr) fun r v hr => .ok hr

theorem traces_like (ht : f.trace = c.feat.trace) : Unswitched c f (traces c) (traces (c.switch f)) := by
  intro i hi
  unfold traces
  rw [show (c.switch f).feat.trace = c.feat.trace from ht]
  split
  · exact many_like traceBlock_like i hi
  · exact .ok hi

end EmailParser
