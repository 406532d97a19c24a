import Verif.Proofs.FeatureEmail
import Verif.Proofs.Complete.Message
import Verif.Spec.Dots
/-
Lemmas: where the feature `compatibility-fixes` has no effect.
-/
namespace EmailParser
open Spec (withFixes DotsFollowed)

variable {α β : Type} {c : Cfg}

/-! ### Parsers that do not depend on the feature -/

@[simp] theorem fixes_mimeFlag : (withFixes c).feat.mime = c.feat.mime := rfl

@[simp] theorem fixes_unrecognized : (withFixes c).feat.unrecognizedHeaders = c.feat.unrecognizedHeaders := rfl

@[simp] theorem fixes_stack : (withFixes c).stack = c.stack := rfl

@[simp] theorem fixes_textcode : (withFixes c).textcode = c.textcode := rfl

@[simp] theorem fixes_realCfwsLoop : ∀ fuel i,
    realCfwsLoop (withFixes c) fuel i = realCfwsLoop c fuel i
  | 0, _ => rfl
  | fuel + 1, i => by
    unfold realCfwsLoop
    simp only [fixes_stack, fixes_realCfwsLoop fuel]

@[simp] theorem fixes_cfws : cfws (withFixes c) = cfws c := by
  unfold cfws realCfws; simp

@[simp] theorem fixes_skipCfws : skipCfws (withFixes c) = skipCfws c := by
  unfold skipCfws; simp

@[simp] theorem fixes_quotedString : quotedString (withFixes c) = quotedString c := by
  unfold quotedString; simp

@[simp] theorem fixes_decodeCharset : decodeCharset (withFixes c) = decodeCharset c := by
  unfold decodeCharset; simp

@[simp] theorem fixes_decodeWord : decodeWord (withFixes c) = decodeWord c := by
  unfold decodeWord; simp

@[simp] theorem fixes_encodedWord : encodedWord (withFixes c) = encodedWord c := by
  unfold encodedWord; simp

@[simp] theorem fixes_atom : atom (withFixes c) = atom c := by
  unfold atom; simp

@[simp] theorem fixes_word : word (withFixes c) = word c := by
  unfold word; simp

@[simp] theorem fixes_mimeUnstructuredLoop : ∀ fuel b i,
    mimeUnstructuredLoop (withFixes c) fuel b i = mimeUnstructuredLoop c fuel b i
  | 0, _, _ => rfl
  | fuel + 1, b, i => by
    unfold mimeUnstructuredLoop
    simp only [fixes_encodedWord, fixes_mimeUnstructuredLoop fuel]

@[simp] theorem fixes_mimeUnstructured : mimeUnstructured (withFixes c) = mimeUnstructured c := by
  unfold mimeUnstructured; simp

@[simp] theorem fixes_domainLiteral : domainLiteral (withFixes c) = domainLiteral c := by
  unfold domainLiteral; simp

@[simp] theorem fixes_dateTime : dateTime (withFixes c) = dateTime c := by
  unfold dateTime; simp

@[simp] theorem fixes_ignoreInlineCfws : ignoreInlineCfws (withFixes c) = ignoreInlineCfws c := by
  unfold ignoreInlineCfws; simp

@[simp] theorem fixes_mimeVersionValue : mimeVersionValue (withFixes c) = mimeVersionValue c := by
  unfold mimeVersionValue; simp

@[simp] theorem fixes_mimeVersion : mimeVersion (withFixes c) = mimeVersion c := by
  unfold mimeVersion; simp

@[simp] theorem fixes_parameterValue : parameterValue (withFixes c) = parameterValue c := by
  unfold parameterValue; simp

@[simp] theorem fixes_parameter : parameter (withFixes c) = parameter c := by
  unfold parameter; simp

@[simp] theorem fixes_filenameParameter : filenameParameter (withFixes c) = filenameParameter c := by
  unfold filenameParameter; simp

@[simp] theorem fixes_dateParameter : dateParameter (withFixes c) = dateParameter c := by
  unfold dateParameter; simp

@[simp] theorem fixes_dispositionItem : dispositionItem (withFixes c) = dispositionItem c := by
  unfold dispositionItem; simp

@[simp] theorem fixes_transferEncodingValue : transferEncodingValue (withFixes c) = transferEncodingValue c := by
  unfold transferEncodingValue; simp

@[simp] theorem fixes_contentTransferEncoding : contentTransferEncoding (withFixes c) = contentTransferEncoding c := by
  unfold contentTransferEncoding; simp

@[simp] theorem fixes_contentDescription : contentDescription (withFixes c) = contentDescription c := by
  unfold contentDescription; simp

@[simp] theorem fixes_dateField : dateField (withFixes c) = dateField c := by
  unfold dateField; simp

@[simp] theorem fixes_resentDate : resentDate (withFixes c) = resentDate c := by
  unfold resentDate; simp

@[simp] theorem fixes_emptyPath : emptyPath (withFixes c) = emptyPath c := by
  unfold emptyPath; simp

@[simp] theorem fixes_decodeParameter : decodeParameter (withFixes c) = decodeParameter c := by
  unfold decodeParameter; simp

@[simp] theorem fixes_firstSegment : firstSegment (withFixes c) = firstSegment c := by
  unfold firstSegment; simp

@[simp] theorem fixes_segmentPiece : segmentPiece (withFixes c) = segmentPiece c := by
  unfold segmentPiece; simp

@[simp] theorem fixes_incrementIndex : incrementIndex (withFixes c) = incrementIndex c := rfl

@[simp] theorem fixes_segmentsLoop (o : Option Bytes) : ∀ fuel v i,
    segmentsLoop (withFixes c) o fuel v i = segmentsLoop c o fuel v i
  | 0, _, _ => rfl
  | fuel + 1, v, i => by
    unfold segmentsLoop
    simp only [fixes_segmentPiece, fixes_incrementIndex, fixes_segmentsLoop o fuel]

@[simp] theorem fixes_collectOne : collectOne (withFixes c) = collectOne c := by
  unfold collectOne; simp

@[simp] theorem fixes_collectAll : ∀ es ps, collectAll (withFixes c) ps es = collectAll c ps es
  | [], _ => rfl
  | e :: es, ps => by
    unfold collectAll
    simp only [fixes_collectOne, fixes_collectAll es]

@[simp] theorem fixes_collectParameters : collectParameters (withFixes c) = collectParameters c := by
  unfold collectParameters; simp; rfl

@[simp] theorem fixes_contentTypeValue : contentTypeValue (withFixes c) = contentTypeValue c := by
  unfold contentTypeValue; simp

@[simp] theorem fixes_contentType : contentType (withFixes c) = contentType c := by
  unfold contentType; simp

@[simp] theorem fixes_contentDispositionValue : contentDispositionValue (withFixes c) = contentDispositionValue c := by
  unfold contentDispositionValue; simp

@[simp] theorem fixes_contentDisposition : contentDisposition (withFixes c) = contentDisposition c := by
  unfold contentDisposition; simp

@[simp] theorem fixes_phraseWord : phraseWord (withFixes c) = phraseWord c := by
  unfold phraseWord; simp

@[simp] theorem fixes_phrase : phrase (withFixes c) = phrase c := by
  unfold phrase; simp

@[simp] theorem fixes_keywordList : keywordList (withFixes c) = keywordList c := by
  unfold keywordList; simp

@[simp] theorem fixes_keywordsField : keywordsField (withFixes c) = keywordsField c := by
  unfold keywordsField; simp

@[simp] theorem fixes_textValue : textValue (withFixes c) = textValue c := by
  unfold textValue; simp

@[simp] theorem fixes_subjectField : subjectField (withFixes c) = subjectField c := by
  unfold subjectField; simp

@[simp] theorem fixes_commentsField : commentsField (withFixes c) = commentsField c := by
  unfold commentsField; simp

@[simp] theorem fixes_unknownValue : unknownValue (withFixes c) = unknownValue c := by
  unfold unknownValue; simp

@[simp] theorem fixes_unknown : unknown (withFixes c) = unknown c := by
  unfold unknown; simp

/-! ### Parsers that depend on the feature -/

/-- The dots of the end of a text are followed as well. -/
theorem Spec.DotsFollowed.suffix {w r : Bytes} (h : DotsFollowed (w ++ r)) : DotsFollowed r :=
  fun u t e => h (w ++ u) t (by rw [e, List.append_assoc])

/-- Equal, and no dot of the rest is without a character of atoms after it. -/
inductive Level {α : Type} : Res α → Res α → Prop
  | ok {r : Bytes} {v : α} : DotsFollowed r → Level (.ok (r, v)) (.ok (r, v))
  | err {e : Error} : Level (.err e) (.err e)
  | abort {k : Abort} : Level (.abort k) (.abort k)

/-- The same for parsers. -/
def Leveled (p q : Bytes → Res α) : Prop := ∀ i, DotsFollowed i → Level (p i) (q i)

theorem Level.eq {x y : Res α} (h : Level x y) : y = x := by cases h <;> rfl

theorem Leveled.same {p q : Bytes → Res α} {A : Aborts} {G : Spec.Gram α} (e : q = p) (h : Parses A G p) : Leveled p q := by
  subst e
  intro i hi
  have h := h i
  cases hx : q i with
  | ok r =>
    obtain ⟨w, e, -⟩ := h.of_ok hx
    exact .ok (DotsFollowed.suffix (w := w) (e ▸ hi))
  | err => exact .err
  | abort => exact .abort

theorem Level.bind {x y : Res α} {g h : Bytes × α → Res β} (hx : Level x y)
    (hg : ∀ r v, DotsFollowed r → Level (g (r, v)) (h (r, v))) : Level (x >>= g) (y >>= h) := by
  cases hx with
  | ok hr => exact hg _ _ hr
  | err => exact .err
  | abort => exact .abort

theorem Level.of_psat {A : Aborts} {G : Spec.Gram α} {i : Bytes} {x : Res α} (hi : DotsFollowed i) (h : PSat A G i x) :
    Level x x := by
  cases x with
  | ok r =>
    obtain ⟨w, e, -⟩ := h
    exact .ok (DotsFollowed.suffix (w := w) (e ▸ hi))
  | err => exact .err
  | abort => exact .abort

theorem Leveled.of_parses {A : Aborts} {G : Spec.Gram α} {p : Bytes → Res α} (h : Parses A G p) : Leveled p p :=
  fun i hi => .of_psat hi (h i)

theorem Level.skip {i : Bytes} {g h : Bytes → Res β} (hi : DotsFollowed i)
    (hg : ∀ r, DotsFollowed r → Level (g r) (h r)) : Level (skipCfws c i >>= g) (skipCfws c i >>= h) := by
  have hs := skipCfws_sat (c := c) i
  cases hx : skipCfws c i with
  | ok r =>
    obtain ⟨w, e, -⟩ := hs.of_ok hx
    exact hg r (DotsFollowed.suffix (w := w) (e ▸ hi))
  | err => exact .err
  | abort => exact .abort

theorem matchParsers_level {i : Bytes} {p q : Bytes → Res α} {ps qs : List (Bytes → Res α)} (h : Level (p i) (q i))
    (hs : Level (matchParsers i ps) (matchParsers i qs)) :
    Level (matchParsers i (p :: ps)) (matchParsers i (q :: qs)) := by
  unfold matchParsers
  generalize p i = x at h
  generalize q i = y at h
  cases h with
  | ok hr => exact .ok hr
  | err => exact hs
  | abort => exact .abort

theorem optional_level {p q : Bytes → Res α} (h : Leveled p q) :
    Leveled (fun i => optional i p) fun i => optional i q := by
  intro i hi
  dsimp only
  unfold optional
  have h := h i hi
  generalize p i = x at h
  generalize q i = y at h
  cases h with
  | ok hr => exact .ok hr
  | err => exact .ok hi
  | abort => exact .abort

theorem manyLoop_level {p q : Bytes → Res α} (h : Leveled p q) : ∀ n i, DotsFollowed i →
    Level (manyLoop p n i) (manyLoop q n i)
  | 0, _, _ => .abort
  | n + 1, i, hi => by
    unfold manyLoop
    have h' := h i hi
    generalize p i = x at h'
    generalize q i = y at h'
    cases h' with
    | ok hr => exact .bind (manyLoop_level h n _ hr) fun _ _ hr => .ok hr
    | err => exact .ok hi
    | abort => exact .abort

theorem many_level {p q : Bytes → Res α} (h : Leveled p q) : Leveled (fun i => many i p) fun i => many i q :=
  fun i => manyLoop_level h _ i

theorem many1_level {p q : Bytes → Res α} (h : Leveled p q) : Leveled (fun i => many1 i p) fun i => many1 i q :=
  fun i hi => .bind (h i hi) fun _ _ hr => .bind (manyLoop_level h _ _ hr) fun _ _ hr => .ok hr

theorem prefixed_level {p q : Bytes → Res α} {x : Bytes} (h : Leveled p q) :
    Leveled (fun i => prefixed i p x) fun i => prefixed i q x := by
  intro i hi
  dsimp only
  unfold prefixed getUncheckedFrom
  split
  · split
    · exact h _ (DotsFollowed.suffix (w := i.take x.length) (by rwa [List.take_append_drop]))
    · exact .abort
  · exact .err

theorem tag_level {x : Bytes} {m : String} : Leveled (fun i => tag i x m) fun i => tag i x m :=
  .of_parses (tag_parses (A := .none) x m)


theorem dotAtomTextLoop_level : ∀ n, Leveled (dotAtomTextLoop c n) (dotAtomTextLoop (withFixes c) n)
  | 0, _, _ => .abort
  | n + 1, i, hi => by
    have key : ∀ r, i = 46 :: r → takeWhile1 r isAtext = takeWhile r isAtext := by
      rintro r rfl
      obtain ⟨b, s, rfl, hb⟩ := hi [] r rfl
      rw [takeWhile_eq, takeWhile1_eq, if_neg (by simp [isAtext_eq, hb])]
    unfold dotAtomTextLoop
    split
    · rename_i hd
      obtain ⟨r, rfl⟩ : ∃ r, i = 46 :: r := by
        cases i with
        | nil => exact absurd hd (by decide)
        | cons b r =>
          refine ⟨r, ?_⟩
          have : 46 = b := by simpa [startsWith] using hd
          rw [this]
      have e1 : (if (withFixes c).feat.compatibilityFixes then takeWhile r isAtext else takeWhile1 r isAtext) =
          takeWhile r isAtext := by simp [withFixes]
      have e2 : (if c.feat.compatibilityFixes then takeWhile r isAtext else takeWhile1 r isAtext) =
          takeWhile r isAtext := by rw [key r rfl, ite_self]
      have e3 : sliceFrom (46 :: r) 1 = .ok r := by simp [sliceFrom]
      rw [e3]
      simp only [ok_bind]
      rw [e1, e2, takeWhile_eq]
      have hr : DotsFollowed (r.dropWhile isAtext) := by
        refine DotsFollowed.suffix (w := 46 :: r.takeWhile isAtext) ?_
        rw [List.cons_append, List.takeWhile_append_dropWhile]
        exact hi
      dsimp only
      have e4 : sliceTo (46 :: r) 1 = .ok [46] := by simp [sliceTo]
      rw [e4]
      simp only [ok_bind]
      exact .bind (dotAtomTextLoop_level n _ hr) fun _ _ hr => .ok hr
    · exact .ok hi

theorem dotAtomText_level : Leveled (dotAtomText c) (dotAtomText (withFixes c)) := fun i hi =>
  .bind (.of_psat hi (takeWhile1_parses (A := .none) isAtext i)) fun r _ hr =>
    .bind (dotAtomTextLoop_level _ r hr) fun _ _ hr => .ok hr

theorem dotAtom_level : Leveled (dotAtom c) (dotAtom (withFixes c)) := by
  intro i hi
  unfold dotAtom
  rw [fixes_skipCfws]
  exact .skip hi fun r hr => .bind (dotAtomText_level r hr) fun r _ hr => .skip hr fun r hr => .ok hr

theorem headerLine_level {n n2 : Bytes} {m m' : String} {p q : Bytes → Res α} (hn : n2 = n.map swapCase)
    (h : Leveled p q) : Leveled (headerLine n n2 m m' p) (headerLine n n2 m m' q) := fun i hi =>
  .bind (.of_psat hi (tagNoCase_parses (A := .none) m hn i)) fun r _ hr => .bind (h r hr) fun r _ hr =>
    .bind (tag_level r hr) fun _ _ hr => .ok hr

theorem mapValue_level {g : α → β} {p q : Bytes → Res α} (h : Leveled p q) :
    Leveled (mapValue g p) (mapValue g q) := fun i hi => .bind (h i hi) fun _ _ hr => .ok hr

theorem resent_level {m : String} {p q : Bytes → Res α} (h : Leveled p q) :
    Leveled (resent m p) (resent m q) := fun i hi =>
  .bind (.of_psat hi (tagNoCase_parses (A := .none) m rfl i)) fun r _ hr => .bind (h r hr) fun _ _ hr => .ok hr


theorem Leveled.or {p q p' q' : Bytes → Res α} (h : Leveled p q) (h' : Leveled p' q') :
    Leveled (fun i => matchParsers i [p, p']) fun i => matchParsers i [q, q'] := fun i hi =>
  matchParsers_level (h i hi) (matchParsers_level (h' i hi) .err)

theorem messageId_level : Leveled (messageId c) (messageId (withFixes c)) := by
  intro i hi
  unfold messageId
  rw [fixes_skipCfws]
  refine .skip hi fun r hr => .bind (tag_level r hr) fun r _ hr => .bind (dotAtomText_level r hr) fun r _ hr =>
    .bind (tag_level r hr) fun r _ hr => ?_
  refine .bind (Leveled.or dotAtomText_level (.of_parses (noFoldLitteral_parses (A := .none))) r hr) fun r _ hr =>
    .bind (tag_level r hr) fun r _ hr => ?_
  exact .skip hr fun r hr => .ok hr

theorem localPart_level : Leveled (localPart c) (localPart (withFixes c)) :=
  .or dotAtom_level (.same fixes_quotedString quotedString_parses)

theorem domain_level : Leveled (domain c) (domain (withFixes c)) :=
  .or dotAtom_level (.same fixes_domainLiteral domainLiteral_parses)

theorem addrSpec_level : Leveled (addrSpec c) (addrSpec (withFixes c)) := fun i hi =>
  .bind (localPart_level i hi) fun r _ hr => .bind (tag_level r hr) fun r _ hr =>
    .bind (domain_level r hr) fun _ _ hr => .ok hr

theorem angleAddr_level : Leveled (angleAddr c) (angleAddr (withFixes c)) := by
  intro i hi
  unfold angleAddr
  rw [fixes_skipCfws]
  exact .skip hi fun r hr => .bind (tag_level r hr) fun r _ hr => .bind (addrSpec_level r hr) fun r _ hr =>
    .bind (tag_level r hr) fun r _ hr => .skip hr fun r hr => .ok hr

theorem phrase_level : Leveled (phrase c) (phrase (withFixes c)) := .same fixes_phrase phrase_parses

theorem nameAddr_level : Leveled (nameAddr c) (nameAddr (withFixes c)) := by
  intro i hi
  unfold nameAddr
  refine .bind (optional_level phrase_level i hi) fun r v hr => ?_
  exact .bind (angleAddr_level r hr) fun r v hr => .ok hr

theorem mailbox_level : Leveled (mailbox c) (mailbox (withFixes c)) := by
  intro i hi
  unfold mailbox
  refine matchParsers_level (nameAddr_level i hi) (matchParsers_level ?_ .err)
  exact .bind (addrSpec_level i hi) fun r v hr => .ok hr

theorem mailboxList_level : Leveled (mailboxList c) (mailboxList (withFixes c)) := fun i hi =>
  .bind (mailbox_level i hi) fun r _ hr => .bind (many_level (prefixed_level mailbox_level) r hr) fun _ _ hr => .ok hr

theorem groupList_level : Leveled (groupList c) (groupList (withFixes c)) := by
  intro i hi
  unfold groupList
  rw [fixes_cfws]
  have h := mailboxList_level (c := c) i hi
  generalize mailboxList c i = x at h
  generalize mailboxList (withFixes c) i = y at h
  cases h with
  | ok hr => exact .ok hr
  | abort => exact .abort
  | err =>
    have h := Level.of_psat hi (cfws_parses (c := c) i)
    dsimp only
    generalize cfws c i = x at h
    cases h with
    | ok hr => exact .ok hr
    | abort => exact .abort
    | err => exact .ok hi

theorem group_level : Leveled (group c) (group (withFixes c)) := by
  intro i hi
  unfold group
  rw [fixes_skipCfws]
  refine .bind (phrase_level i hi) fun r v hr => .bind (tag_level r hr) fun r v hr =>
    .bind (groupList_level r hr) fun r v hr => .bind (tag_level r hr) fun r v hr => ?_
  exact .skip hr fun r hr => .ok hr

theorem address_level : Leveled (address c) (address (withFixes c)) := by
  intro i hi
  unfold address
  have h := mailbox_level (c := c) i hi
  generalize mailbox c i = x at h
  generalize mailbox (withFixes c) i = y at h
  cases h with
  | ok hr => exact .ok hr
  | abort => exact .abort
  | err =>
    have h := group_level (c := c) i hi
    dsimp only
    generalize group c i = x at h
    generalize group (withFixes c) i = y at h
    cases h with
    | ok hr => exact .ok hr
    | abort => exact .abort
    | err => exact .err

theorem addressList_level : Leveled (addressList c) (addressList (withFixes c)) := fun i hi =>
  .bind (address_level i hi) fun r _ hr => .bind (many_level (prefixed_level address_level) r hr) fun _ _ hr => .ok hr

theorem bccValue_level : Leveled (bccValue c) (bccValue (withFixes c)) := by
  intro i hi
  unfold bccValue
  rw [fixes_cfws]
  have h := addressList_level (c := c) i hi
  generalize addressList c i = x at h
  generalize addressList (withFixes c) i = y at h
  cases h with
  | ok hr => exact .ok hr
  | abort => exact .abort
  | err =>
    have h := Level.of_psat hi (cfws_parses (c := c) i)
    dsimp only
    generalize cfws c i = x at h
    cases h with
    | ok hr => exact .ok hr
    | abort => exact .abort
    | err => exact .err

theorem messageIds_level : Leveled (messageIds c) (messageIds (withFixes c)) := many1_level messageId_level

theorem emptyPath_level : Leveled (emptyPath c) (emptyPath (withFixes c)) := by
  intro i hi
  unfold emptyPath
  rw [fixes_skipCfws]
  exact .skip hi fun r hr => .bind (tag_level r hr) fun r _ hr => .skip hr fun r hr =>
    .bind (tag_level r hr) fun r _ hr => .skip hr fun r hr => .ok hr

theorem returnPathValue_level : Leveled (returnPathValue c) (returnPathValue (withFixes c)) := by
  intro i hi
  unfold returnPathValue
  refine matchParsers_level (.bind (angleAddr_level i hi) fun r v hr => .ok hr) (matchParsers_level ?_ .err)
  exact .bind (emptyPath_level i hi) fun r v hr => .ok hr

theorem receivedToken_level : Leveled (receivedToken c) (receivedToken (withFixes c)) := by
  intro i hi
  unfold receivedToken
  rw [fixes_word]
  have h1 := Level.of_psat hi (word_parses (c := c) i)
  have h2 := domain_level (c := c) i hi
  generalize domain c i = x at h2
  generalize domain (withFixes c) i = y at h2
  generalize word c i = z at h1
  cases h1 with
  | abort => exact .abort
  | ok hr =>
    dsimp only
    cases h2 with
    | ok hr' =>
      dsimp only
      split
      · exact .ok hr'
      · exact .ok hr
    | err => exact .ok hr
    | abort => exact .abort
  | err =>
    dsimp only
    have h3 := angleAddr_level (c := c) i hi
    generalize angleAddr c i = a at h3
    generalize angleAddr (withFixes c) i = b at h3
    cases h3 with
    | ok hr => exact .ok hr
    | abort => exact .abort
    | err =>
      dsimp only
      have h4 := addrSpec_level (c := c) i hi
      generalize addrSpec c i = a at h4
      generalize addrSpec (withFixes c) i = b at h4
      cases h4 with
      | ok hr => exact .ok hr
      | abort => exact .abort
      | err =>
        dsimp only
        cases h2 with
        | ok hr => exact .ok hr
        | abort => exact .abort
        | err => exact .err

theorem receivedValue_level : Leveled (receivedValue c) (receivedValue (withFixes c)) := by
  intro i hi
  unfold receivedValue
  rw [fixes_dateTime]
  exact .bind (many_level receivedToken_level i hi) fun r _ hr => .bind (tag_level r hr) fun r _ hr =>
    .bind (.of_psat hr (dateTime_parses r)) fun _ _ hr => .ok hr

theorem fromField_level : Leveled (fromField c) (fromField (withFixes c)) := headerLine_level rfl mailboxList_level

theorem senderField_level : Leveled (senderField c) (senderField (withFixes c)) := headerLine_level rfl mailbox_level

theorem toField_level : Leveled (toField c) (toField (withFixes c)) := headerLine_level rfl addressList_level

theorem ccField_level : Leveled (ccField c) (ccField (withFixes c)) := headerLine_level rfl addressList_level

theorem bccField_level : Leveled (bccField c) (bccField (withFixes c)) := headerLine_level rfl bccValue_level

theorem messageIdField_level : Leveled (messageIdField c) (messageIdField (withFixes c)) :=
  headerLine_level rfl messageId_level

/-! ### One header line -/

theorem headerLine_dots {n n2 k i : Bytes} {m m' : String} {p q : Bytes → Res α} (hn : n2 = n.map swapCase)
    (hk : n.map asciiLower = k ++ b! ":") (h : Leveled p q) (hm : k ∈ Spec.namesWithDots) (hi : Spec.Harmless i) :
    headerLine n n2 m m' q i = headerLine n n2 m m' p i := by
  by_cases hp : n.map asciiLower <+: i.map asciiLower
  · exact (headerLine_level hn h i (hi ⟨k, hm, hk ▸ hp⟩)).eq
  · obtain ⟨x, hx⟩ := tagNoCase_err (m := m) hn hp
    rw [headerLine, headerLine, hx]
    rfl

theorem mapValue_dots {g : α → β} {p q : Bytes → Res α} {i : Bytes} (h : q i = p i) :
    mapValue g q i = mapValue g p i := by
  rw [mapValue, mapValue, h]

theorem enabled_dots {b : Bool} {x : α} {g : α → β} : (enabled b x).map g = enabled b (g x) := by
  cases b <;> rfl

theorem matchParsers_dots {i : Bytes} : ∀ {ps qs : List (Bytes → Res α)}, ps.map (· i) = qs.map (· i) →
    matchParsers i ps = matchParsers i qs
  | [], [], _ => rfl
  | [], _ :: _, h => by cases h
  | _ :: _, [], h => by cases h
  | p :: ps, q :: qs, h => by
    obtain ⟨h1, h2⟩ := List.cons.inj h
    have h1 : p i = q i := h1
    rw [matchParsers, matchParsers, h1, matchParsers_dots h2]

/-- A harmless text is read as one header line in the same way. -/
theorem field_dots {i : Bytes} (hi : Spec.Harmless i) : field (withFixes c) i = field c i := by
  unfold field
  refine matchParsers_dots ?_
  unfold fieldParsers
  have e1 : fromField (withFixes c) i = fromField c i := headerLine_dots (k := b! "from") rfl rfl mailboxList_level (by decide) hi
  have e2 : senderField (withFixes c) i = senderField c i := headerLine_dots (k := b! "sender") rfl rfl mailbox_level (by decide) hi
  have e3 : replyToField (withFixes c) i = replyToField c i := headerLine_dots (k := b! "reply-to") rfl rfl addressList_level (by decide) hi
  have e4 : toField (withFixes c) i = toField c i := headerLine_dots (k := b! "to") rfl rfl addressList_level (by decide) hi
  have e5 : ccField (withFixes c) i = ccField c i := headerLine_dots (k := b! "cc") rfl rfl addressList_level (by decide) hi
  have e6 : bccField (withFixes c) i = bccField c i := headerLine_dots (k := b! "bcc") rfl rfl bccValue_level (by decide) hi
  have e7 : messageIdField (withFixes c) i = messageIdField c i := headerLine_dots (k := b! "message-id") rfl rfl messageId_level (by decide) hi
  have e8 : inReplyToField (withFixes c) i = inReplyToField c i := headerLine_dots (k := b! "in-reply-to") rfl rfl messageIds_level (by decide) hi
  have e9 : referencesField (withFixes c) i = referencesField c i := headerLine_dots (k := b! "references") rfl rfl messageIds_level (by decide) hi
  have e10 : contentId (withFixes c) i = contentId c i := headerLine_dots (k := b! "content-id") rfl rfl messageId_level (by decide) hi
  simp only [List.map_append, enabled_dots, mapValue_dots e1, mapValue_dots e2, mapValue_dots e3, mapValue_dots e4,
    mapValue_dots e5, mapValue_dots e6, mapValue_dots e7, mapValue_dots e8, mapValue_dots e9, mapValue_dots e10,
    fixes_dateField, fixes_subjectField, fixes_commentsField, fixes_mimeVersion, fixes_contentType,
    fixes_contentTransferEncoding, fixes_contentDescription, fixes_contentDisposition, fixes_keywordsField, fixes_unknown]
  rfl

/-! ### Traces -/

theorem traceFields_level : Leveled (fun i => matchParsers i (traceFieldParsers c))
    fun i => matchParsers i (traceFieldParsers (withFixes c)) := fun i hi =>
  matchParsers_level (mapValue_level (resent_level (.same fixes_dateField dateField_parses)) i hi) <|
  matchParsers_level (mapValue_level (resent_level fromField_level) i hi) <|
  matchParsers_level (mapValue_level (resent_level senderField_level) i hi) <|
  matchParsers_level (mapValue_level (resent_level toField_level) i hi) <|
  matchParsers_level (mapValue_level (resent_level ccField_level) i hi) <|
  matchParsers_level (mapValue_level (resent_level bccField_level) i hi) <|
  matchParsers_level (mapValue_level (resent_level messageIdField_level) i hi) .err

theorem traceBlock_level : Leveled (traceBlock c) (traceBlock (withFixes c)) := by
  intro i hi
  unfold traceBlock trace
  refine .bind (.bind (optional_level (headerLine_level rfl returnPathValue_level) i hi) fun r v hr =>
    .bind (many1_level (headerLine_level rfl receivedValue_level) r hr) fun r v hr => .ok hr) fun r v hr => ?_
  exact .bind (many_level traceFields_level r hr) fun r v hr => .ok hr

theorem traces_level : Leveled (traces c) (traces (withFixes c)) := by
  intro i hi
  unfold traces
  rw [show (withFixes c).feat.trace = c.feat.trace from rfl]
  split
  · exact many_level traceBlock_level i hi
  · exact .ok hi

/-! ### Header blocks -/

theorem Spec.DotsFollowed.append {a b : Bytes} (ha : DotsFollowed a) (hb : DotsFollowed b) : DotsFollowed (a ++ b) := by
  intro u t e
  rcases List.append_eq_append_iff.1 e with ⟨v, rfl, hv⟩ | ⟨v, rfl, hv⟩
  · exact hb v t hv
  · cases v with
    | nil => exact hb [] t (by simpa using hv.symm)
    | cons x v =>
      obtain ⟨rfl, rfl⟩ := List.cons.inj hv
      obtain ⟨b', s, rfl, h⟩ := ha u v rfl
      exact ⟨b', s ++ b, rfl, h⟩

theorem dotsFollowed_flatten {ls : List Bytes} (h : ∀ l ∈ ls, DotsFollowed l) : DotsFollowed ls.flatten := by
  induction ls with
  | nil => intro u t e; simp at e
  | cons l ls ih => exact (h l (by simp)).append (ih fun l hl => h l (by simp [hl]))

theorem resent_other {m : String} {p : Bytes → Res α} {i : Bytes} (h : ¬ b! "resent-" <+: i.map asciiLower) :
    ∃ e, resent m p i = .err e := by
  obtain ⟨x, hx⟩ := tagNoCase_err (m := m) (i := i) (show b! "rESENT-" = (b! "Resent-").map swapCase from rfl) h
  exact ⟨x, by rw [resent, hx]; rfl⟩

/-- No trace begins with, and none is continued by, a line that has another name. -/
theorem quiet_untraced {i : Bytes} (hs : Stops Spec.wsp i)
    (h : ∀ n ∈ Spec.traceNames, ¬ (n ++ b! ":") <+: i.map asciiLower) : Quiet c i := by
  refine ⟨hs, headerLine_other rfl (h (b! "return-path") (by decide)),
    headerLine_other rfl (h (b! "received") (by decide)), matchParsers_all_err ?_⟩
  intro p hp
  rw [show traceFieldParsers c = (resentTable c).map (·.2) from rfl] at hp
  obtain ⟨e, he, rfl⟩ := List.mem_map.1 hp
  by_cases hr : b! "resent-" <+: i.map asciiLower
  · obtain ⟨s, hs⟩ := hr
    have hi : i = i.take 7 ++ i.drop 7 := (List.take_append_drop 7 i).symm
    have h7 : (i.take 7).map asciiLower = b! "resent-" := by
      rw [List.map_take, ← hs]
      rfl
    rw [hi]
    refine resentTable_other h7 e he fun hx => ?_
    refine h (b! "resent-" ++ e.1) ?_ ?_
    · simp only [resentTable, List.mem_cons, List.not_mem_nil, or_false] at he
      rcases he with rfl | rfl | rfl | rfl | rfl | rfl | rfl <;> (dsimp only; decide)
    · rw [hi, List.map_append, h7, List.append_assoc]
      exact (List.prefix_append_right_inj _).2 hx
  · simp only [resentTable, List.mem_cons, List.not_mem_nil, or_false] at he
    rcases he with rfl | rfl | rfl | rfl | rfl | rfl | rfl <;> refine mapValue_err ?_
    all_goals exact resent_other hr

/-- The lines at the start that have the names of trace headers. -/
theorem untraced_split (ls : List Bytes) : ∃ pre post, ls = pre ++ post ∧
    (∀ l ∈ pre, ∃ n ∈ Spec.traceNames, (n ++ b! ":") <+: l.map asciiLower) ∧
    ∀ l ls', post = l :: ls' → ∀ n ∈ Spec.traceNames, ¬ (n ++ b! ":") <+: l.map asciiLower := by
  induction ls with
  | nil => exact ⟨[], [], rfl, by simp, by simp⟩
  | cons l ls ih =>
    by_cases h : ∃ n ∈ Spec.traceNames, (n ++ b! ":") <+: l.map asciiLower
    · obtain ⟨pre, post, rfl, h1, h2⟩ := ih
      refine ⟨l :: pre, post, rfl, ?_, h2⟩
      intro l' hl
      rcases List.mem_cons.1 hl with rfl | hl
      · exact h
      · exact h1 l' hl
    · refine ⟨[], l :: ls, rfl, by simp, ?_⟩
      intro l' ls' e n hn hp
      cases e
      exact h ⟨n, hn, hp⟩

theorem traceNames_cr : ∀ n ∈ Spec.traceNames, (13 : UInt8) ∉ n ++ b! ":" := by decide

theorem quiet_lines {ls : List Bytes} {t : Bytes} (hl : ∀ l ∈ ls, HLine l) (ht : Ended t)
    (h : ∀ l ls', ls = l :: ls' → ∀ n ∈ Spec.traceNames, ¬ (n ++ b! ":") <+: l.map asciiLower) :
    Quiet c (ls.flatten ++ t) := by
  cases ls with
  | nil => exact ht.quiet
  | cons l ls =>
    refine quiet_untraced (HLine.stops hl ht.stops) fun n hn hp => h l ls rfl n hn ?_
    obtain ⟨⟨u, hu⟩, -⟩ := (hl l (by simp)).shape
    rw [List.flatten_cons, List.append_assoc, List.map_append] at hp
    rcases List.prefix_or_prefix_of_prefix hp (List.prefix_append _ _) with h' | h'
    · exact h'
    · refine absurd (h'.subset ?_) (traceNames_cr n hn)
      rw [hu]
      simp [asciiLower]

theorem traces_dots {ls : List Bytes} {t : Bytes} (hl : ∀ l ∈ ls, HLine l) (hh : ∀ l ∈ ls, Spec.Harmless l) (ht : Ended t)
    {r : Bytes} {v : List Field} :
    traces (withFixes c) (ls.flatten ++ t) = .ok (r, v) ↔ traces c (ls.flatten ++ t) = .ok (r, v) := by
  obtain ⟨pre, post, rfl, h1, h2⟩ := untraced_split ls
  have hq : ∀ c, Quiet c (post.flatten ++ t) := fun c => quiet_lines (fun l h => hl l (by simp [h])) ht h2
  have hat : At (post.flatten ++ t) [] (pre.flatten ++ (post.flatten ++ t)) pre.flatten :=
    HLine.at fun l h => hl l (by simp [h])
  have hd : DotsFollowed pre.flatten := dotsFollowed_flatten fun l h => by
    obtain ⟨n, hn, hp⟩ := h1 l h
    exact hh l (by simp [h]) ⟨n, List.mem_append_right _ hn, hp⟩
  have he := (traces_level (c := c) _ hd).eq
  rw [List.flatten_append, List.append_assoc]
  rcases (traces_block (hq c) Ended.nil.quiet).cases hat with
    ⟨s, s', x, hs, a1, a2⟩ | ⟨e, e', a1, a2⟩ | ⟨k, a1, a2⟩ <;>
  rcases (traces_block (hq (withFixes c)) Ended.nil.quiet).cases hat with
    ⟨s₂, s₂', x₂, hs₂, b1, b2⟩ | ⟨e₂, e₂', b1, b2⟩ | ⟨k₂, b1, b2⟩ <;>
  rw [a2, b2] at he <;> try cases he
  · rw [a1, b1, hs.append, hs₂.append]
  · simp [a1, b1]
  · simp [a1, b1]

theorem fields_dots {d : Cfg} (hd : d = withFixes c ∨ c = withFixes d) {ls : List Bytes} {t : Bytes} {fs : List Field}
    (hh : ∀ l ∈ ls, Spec.Harmless l) (hl : ∀ l ∈ ls, HLine l) (ht : Ended t)
    (h : fields c (ls.flatten ++ t) = .ok (t, fs)) : fields d (ls.flatten ++ t) = .ok (t, fs) := by
  have hf : ∀ l, Spec.Harmless l → field d l = field c l := by
    rcases hd with rfl | rfl
    · exact fun l h => field_dots h
    · exact fun l h => (field_dots h).symm
  have htr : ∀ r v, traces c (ls.flatten ++ t) = .ok (r, v) → traces d (ls.flatten ++ t) = .ok (r, v) := by
    rcases hd with rfl | rfl
    · exact fun r v => (traces_dots hl hh ht).2
    · exact fun r v => (traces_dots hl hh ht).1
  obtain ⟨pre, post, ts, us, e, hpre, -, h1, h2, rfl⟩ := fields_hlines h ht
  have key : ls = pre ++ post := by
    refine (HLine.split hl ?_ ?_ ht ht).1
    · exact fun l h => (List.mem_append.1 h).elim (fun h => (hpre l h).1) (h2.hline l)
    · rw [e, List.flatten_append, List.append_assoc]
  have h3 : LinesOf d post us := by
    have hp : ∀ l ∈ post, Spec.Harmless l := fun l hl => hh l (by simp [key, hl])
    clear e h1 key h
    induction h2 with
    | nil => exact .nil
    | cons h _ ih =>
      exact .cons (by rw [hf _ (hp _ (by simp)), h]) (ih fun l hl => hp l (by simp [hl]))
  unfold fields
  rw [htr _ _ h1, ok_bind]
  dsimp only
  rw [h3.many ht.stops (field_ended ht)]
  rfl

/-! ### Lines -/

theorem Spec.FoldedLine.stops {l : Bytes} (h : Spec.FoldedLine l) (s : Bytes) : Stops Spec.wsp (l ++ s) := by
  obtain ⟨b, s', rfl, hb, -⟩ := h.starts
  intro b' s₂ e
  cases e
  exact hb

theorem oneLines_stops {ls : List Bytes} (h : ∀ l ∈ ls, Spec.FoldedLine l) (ht : Ended t) :
    Stops Spec.wsp (ls.flatten ++ t) := by
  cases ls with
  | nil => exact ht.stops
  | cons l ls =>
    rw [List.flatten_cons, List.append_assoc]
    exact (h l (by simp)).stops _

theorem Spec.FoldedLine.not_ended {l s : Bytes} (h : Spec.FoldedLine l) : ¬ Ended (l ++ s) := by
  obtain ⟨b, s', rfl, -, hb⟩ := h.starts
  intro h'
  generalize e : b :: s' ++ s = x at h'
  cases h' with
  | nil => cases e
  | crlf => exact hb (List.cons.inj e).1

theorem oneLine_unique {l l' s s' : Bytes} (h : HLine l) (h' : Spec.FoldedLine l') (e : l ++ s = l' ++ s')
    (hs : Stops Spec.wsp s) (hs' : Stops Spec.wsp s') : l = l' ∧ s = s' := by
  have hlen : s'.length ≤ s.length := by
    obtain ⟨u, rfl⟩ := h'.ends
    obtain ⟨hp, h, -⟩ := h
    have h := hp.followed h hs
    rw [e, List.append_assoc] at h
    rcases hp.line.cases (w := u) (t := s') (t' := s') ⟨hs', hs'⟩ with
      ⟨u', s, v, e, h1, h2⟩ | ⟨v, h1, h2⟩ | ⟨e, e', h1, h2⟩ | ⟨k, h1, h2⟩
    all_goals
      have h1 := h.symm.trans h1
      cases h1
    · simp; omega
    · exact Nat.le_refl _
  obtain ⟨⟨u, hu⟩, -⟩ := h.shape
  rcases List.append_eq_append_iff.1 e with ⟨v, hv, hv'⟩ | ⟨v, hv, hv'⟩
  · cases v with
    | nil => simp_all
    | cons b v =>
      have := h'.folded u b v (by rw [hv, hu])
      have := hs b (v ++ s') hv'
      simp_all
  · have : v = [] := by
      have := congrArg List.length hv'
      simp at this
      exact List.length_eq_zero_iff.1 (by omega)
    simp_all

theorem oneLine_split : ∀ {ls ls' : List Bytes} {t t' : Bytes}, (∀ l ∈ ls, HLine l) → (∀ l ∈ ls', Spec.FoldedLine l) →
    ls.flatten ++ t = ls'.flatten ++ t' → Ended t → Ended t' → ls = ls' ∧ t = t'
  | [], [], _, _, _, _, e, _, _ => ⟨rfl, by simpa using e⟩
  | [], l :: ls, t, t', _, h', e, ht, ht' => by
    exfalso
    refine (h' l (by simp)).not_ended (s := ls.flatten ++ t') ?_
    have e : t = l ++ (ls.flatten ++ t') := by simpa using e
    exact e ▸ ht
  | l :: ls, [], t, t', h, _, e, ht, ht' => by
    exfalso
    refine (h l (by simp)).not_ended (HLine.stops (fun l hl => h l (.tail _ hl)) ht.stops) ?_
    have e : l ++ (ls.flatten ++ t) = t' := by simpa using e
    exact e ▸ ht'
  | l :: ls, l' :: ls', t, t', h, h', e, ht, ht' => by
    simp only [List.flatten_cons, List.append_assoc] at e
    obtain ⟨rfl, e'⟩ := oneLine_unique (h l (by simp)) (h' l' (by simp)) e
      (HLine.stops (fun l hl => h l (.tail _ hl)) ht.stops) (oneLines_stops (fun l hl => h' l (.tail _ hl)) ht')
    obtain ⟨rfl, rfl⟩ := oneLine_split (fun l hl => h l (.tail _ hl)) (fun l hl => h' l (.tail _ hl)) e' ht ht'
    exact ⟨rfl, rfl⟩

end EmailParser
