import Verif.Proofs.Complete.Trace
import Verif.Proofs.Complete.PrintMime
import Verif.Proofs.Overflow
import Verif.Proofs.Lines
import Verif.Props.Mime
/-
Header lines of every kind are read back.
-/
namespace EmailParser
open Spec

variable {α : Type} {c : Cfg}

/-! ### The alternatives for a header field -/

/-- The headers that are recognised, with their parsers. -/
def headerTable (c : Cfg) : List (Bytes × (Bytes → Res Field)) :=
  enabled c.feat.date (b! "date", mapValue .date (dateField c)) ++
  enabled c.feat.from (b! "from", mapValue .from (fromField c)) ++
  enabled c.feat.sender (b! "sender", mapValue .sender (senderField c)) ++
  enabled c.feat.replyTo (b! "reply-to", mapValue .replyTo (replyToField c)) ++
  enabled c.feat.to (b! "to", mapValue .to (toField c)) ++
  enabled c.feat.cc (b! "cc", mapValue .cc (ccField c)) ++
  enabled c.feat.bcc (b! "bcc", mapValue .bcc (bccField c)) ++
  enabled c.feat.messageId (b! "message-id", mapValue .messageId (messageIdField c)) ++
  enabled c.feat.inReplyTo (b! "in-reply-to", mapValue .inReplyTo (inReplyToField c)) ++
  enabled c.feat.references (b! "references", mapValue .references (referencesField c)) ++
  enabled c.feat.subject (b! "subject", mapValue .subject (subjectField c)) ++
  enabled c.feat.comments (b! "comments", mapValue .comments (commentsField c)) ++
  enabled c.feat.mime (b! "mime-version", mapValue (fun (mj, mn) => .mimeVersion mj mn) (mimeVersion c)) ++
  enabled c.feat.mime (b! "content-type", mapValue (fun (t, st, p) => .contentType t st p) (contentType c)) ++
  enabled c.feat.mime (b! "content-transfer-encoding",
    mapValue .contentTransferEncoding (contentTransferEncoding c)) ++
  enabled c.feat.mime (b! "content-id", mapValue .contentId (contentId c)) ++
  enabled c.feat.mime (b! "content-description", mapValue .contentDescription (contentDescription c)) ++
  enabled c.feat.mime (b! "content-disposition", mapValue .contentDisposition (contentDisposition c)) ++
  enabled c.feat.keywords (b! "keywords", mapValue .keywords (keywordsField c))

theorem enabled_map {β : Type} (b : Bool) (x : α) (f : α → β) : (enabled b x).map f = enabled b (f x) := by
  cases b <;> rfl

theorem fieldParsers_table : fieldParsers c = (headerTable c).map (·.2) ++
    [mapValue (fun (name, value) => .unknown name value) (unknown c)] := by
  unfold fieldParsers headerTable
  simp only [List.map_append, enabled_map]

theorem enabled_sublist (b : Bool) (x : α) : (enabled b x).Sublist [x] := by
  cases b
  · exact List.nil_sublist _
  · exact List.Sublist.refl _

theorem enabled_sublist_cons {b : Bool} {x : α} {l m : List α} (h : l.Sublist m) :
    (enabled b x ++ l).Sublist (x :: m) :=
  (enabled_sublist b x).append h

theorem headerTable_nodup : ((headerTable c).map (·.1)).Nodup := by
  refine List.Sublist.nodup (l₂ := [b! "date", b! "from", b! "sender", b! "reply-to", b! "to", b! "cc", b! "bcc",
    b! "message-id", b! "in-reply-to", b! "references", b! "subject", b! "comments", b! "mime-version",
    b! "content-type", b! "content-transfer-encoding", b! "content-id", b! "content-description",
    b! "content-disposition", b! "keywords"]) ?_ (by decide +kernel)
  unfold headerTable
  simp only [List.map_append, enabled_map, List.append_assoc]
  iterate 18 refine enabled_sublist_cons ?_
  exact enabled_sublist _ _

/-- An entry of the table fails on texts that do not begin with its name and a colon. -/
theorem headerTable_other {i : Bytes} : ∀ e ∈ headerTable c,
    ¬ (e.1 ++ b! ":") <+: i.map asciiLower → ∃ x, e.2 i = .err x := by
  unfold headerTable
  iterate 18 refine append_forall ?_ (enabled_forall fun _ h => by
    dsimp only at h ⊢
    exact mapValue_err (headerLine_other rfl h))
  exact enabled_forall fun _ h => mapValue_err (headerLine_other rfl h)

theorem headerTable_colon : ∀ e ∈ headerTable c, 58 ∉ e.1 := by
  unfold headerTable
  iterate 18 refine append_forall ?_ (enabled_forall fun _ => by dsimp only; decide)
  exact enabled_forall fun _ => by dsimp only; decide

theorem headerTable_recognized : ∀ e ∈ headerTable c, Recognized c.feat e.1 := by
  unfold headerTable
  iterate 18 refine append_forall ?_ (enabled_forall fun h => by simp [Recognized, h])
  exact enabled_forall fun h => by simp [Recognized, h]

theorem matchParsers_entry {ps : List (Bytes × (Bytes → Res α))} {qs : List (Bytes → Res α)} {i n : Bytes}
    {p : Bytes → Res α} {a : Bytes × α} (hd : (ps.map (·.1)).Nodup) (hm : (n, p) ∈ ps)
    (ho : ∀ e ∈ ps, e.1 ≠ n → ∃ x, e.2 i = .err x) (h : p i = .ok a) :
    matchParsers i (ps.map (·.2) ++ qs) = .ok a := by
  induction ps with
  | nil => cases hm
  | cons e ps ih =>
    simp only [List.map_cons, List.nodup_cons, List.cons_append, matchParsers] at hd ⊢
    rcases List.mem_cons.mp hm with rfl | hm
    · simp [h]
    · obtain ⟨x, hx⟩ := ho e (by simp) fun en => hd.1 (en ▸ List.mem_map_of_mem hm)
      simp only [hx]
      exact ih hd.2 hm fun e he => ho e (by simp [he])

theorem prefix_name {n m s : Bytes} (hn : 58 ∉ n) (hm : 58 ∉ m) (h : (m ++ b! ":") <+: n ++ b! ":" ++ s) : m = n := by
  obtain ⟨t, h⟩ := h
  have : m ++ 58 :: t = n ++ 58 :: s := by simpa using h
  have e := congrArg (List.takeWhile (· != 58)) this
  have key : ∀ (m t : Bytes), 58 ∉ m → (m ++ 58 :: t).takeWhile (· != 58) = m := by
    intro m t hm
    rw [List.takeWhile_append_of_pos]
    · simp
    · intro b hb
      simp only [bne_iff_ne, ne_eq]
      rintro rfl
      exact hm hb
  rwa [key m t hm, key n s hn] at e

/-- A line is read by the parser of its header. -/
theorem field_entry {name n s : Bytes} {p : Bytes → Res Field} {a : Bytes × Field}
    (hm : (name, p) ∈ headerTable c) (hn : n.map asciiLower = name) (h : p (n ++ b! ":" ++ s) = .ok a) :
    field c (n ++ b! ":" ++ s) = .ok a := by
  unfold field
  rw [fieldParsers_table]
  refine matchParsers_entry headerTable_nodup hm (fun e he hne => ?_) h
  refine headerTable_other e he fun hp => hne ?_
  rw [List.map_append, List.map_append, hn] at hp
  exact prefix_name (s := s.map asciiLower) (headerTable_colon _ hm) (headerTable_colon e he) hp

/-! ### Values -/

variable {w r : Bytes}

theorem crlf_stops {p : UInt8 → Bool} (h : p 13 = false) : Stops p (CRLF ++ r) := stops_cons.mpr h

theorem date_value {v : DateTime} (h : ValueL c w (.date v)) (hr : Stops Spec.wsp r) :
    dateTime c (w ++ (CRLF ++ r)) = .ok (CRLF ++ r, v) :=
  dateTime_append h.1 (solid_end h.2 hr)

theorem mailboxes_value {v : List Mailbox} (h : Commas (MailboxL c) w v ∧ Solid w) (hr : Stops Spec.wsp r) :
    mailboxList c (w ++ (CRLF ++ r)) = .ok (CRLF ++ r, v) :=
  mailboxList_append h.1 (solid_end h.2 hr) (crlf_stops (by decide))

theorem mailbox_value {v : Mailbox} (h : MailboxL c w v ∧ Solid w) (hr : Stops Spec.wsp r) :
    mailbox c (w ++ (CRLF ++ r)) = .ok (CRLF ++ r, v) :=
  mailbox_append h.1 (solid_end h.2 hr) (crlf_stops (by decide))

theorem addresses_value {v : List Address} (h : Commas (AddressL c) w v ∧ Solid w) (hr : Stops Spec.wsp r) :
    addressList c (w ++ (CRLF ++ r)) = .ok (CRLF ++ r, v) :=
  addressList_append h.1 (solid_end h.2 hr) (crlf_stops (by decide))

theorem messageId_value {v : Bytes × Bytes}
    (h : MessageIdOf (CommentN c.stack) c.feat.compatibilityFixes w v ∧ Solid w) (hr : Stops Spec.wsp r) :
    messageId c (w ++ (CRLF ++ r)) = .ok (CRLF ++ r, v) :=
  messageId_append h.1 (solid_end h.2 hr)

theorem idsL_split {v : List (Bytes × Bytes)} (h : IdsL c w v) : ∃ u s x xs, w = u ++ s ∧ v = x :: xs ∧
    MessageIdOf (CommentN c.stack) c.feat.compatibilityFixes u x ∧
    IdList (CommentN c.stack) c.feat.compatibilityFixes s xs := by
  induction h with
  | one h => exact ⟨_, [], _, [], by simp, rfl, h, .nil⟩
  | cons h h' hs ih =>
    obtain ⟨u, s, x, xs, rfl, rfl, h1, h2⟩ := ih
    refine ⟨_, _, _, _, rfl, rfl, h, .cons ⟨h1, ?_⟩ h2⟩
    obtain ⟨t, e⟩ := h'
    cases u with
    | nil =>
      obtain ⟨a, b, _, e', -, a', b', _, rfl, rfl, -⟩ := h1
      cases a <;> cases e'
    | cons y u => cases e; exact ⟨_, rfl⟩

theorem messageIds_value {v : List (Bytes × Bytes)} (h : IdsL c w v ∧ Solid w) (hr : Stops Spec.wsp r) :
    messageIds c (w ++ (CRLF ++ r)) = .ok (CRLF ++ r, v) := by
  obtain ⟨h, hs⟩ := h
  obtain ⟨u, s, x, xs, rfl, rfl, h1, h2⟩ := idsL_split h
  rw [List.append_assoc]
  exact messageIds_append h1 h2 (solid_end hs hr) (crlf_stops (by decide))

theorem text_value {encoded : Bool} {v : Bytes} (h : TextL c encoded w v) (hr : Stops Spec.wsp r) :
    (if encoded then mimeUnstructured c (w ++ (CRLF ++ r)) else unstructured (w ++ (CRLF ++ r))) =
      .ok (CRLF ++ r, v) := by
  unfold TextL at h
  split
  · rename_i he
    rw [if_pos he] at h
    obtain ⟨s, t, ps, rfl, hs, ht, rfl⟩ := h
    rw [List.append_assoc]
    exact mimeUnstructured_append hs ht (noFws_line hr).1 (noFws_line hr).2
  · rename_i he
    rw [if_neg he] at h
    obtain ⟨x, hf, rfl⟩ := h
    exact unstructured_line hf hr

theorem keywords_value {v : List (List Bytes)} (h : Commas (KeywordL c) w v ∧ Solid w) (hr : Stops Spec.wsp r) :
    keywordList c (w ++ (CRLF ++ r)) = .ok (CRLF ++ r, v) := by
  obtain ⟨i, x, xs, rfl, h1, -, h2⟩ := commas_append_of (p := phrase c) (cls := fun b => Spec.atext b || b == 34)
    (by decide) (fun w v r h hr ha => by
      obtain ⟨hne, q, h⟩ := h
      have := phrase_append (g := []) h hne optCfws_nil (fun _ => rfl) ha (by simpa using hr)
      simpa using this) h.1 (solid_end h.2 hr) (crlf_stops (by decide))
  unfold keywordList many
  simp only [h1, ok_bind, h2 _ (Nat.lt_succ_self _)]

theorem gap_cfws (h : Gap c w ()) (hne : w ≠ []) : CfwsOf (CommentN c.stack) w () := by
  obtain ⟨o, ⟨rfl, rfl⟩ | ⟨⟨⟩, rfl, h⟩⟩ := h
  · exact absurd rfl hne
  · exact h

theorem bcc_value {v : List Address} (h : ValueL c w (.bcc v)) (hr : Stops Spec.wsp r) :
    bccValue c (w ++ (CRLF ++ r)) = .ok (CRLF ++ r, v) := by
  obtain ⟨h | ⟨rfl, hne, h⟩, hs⟩ := h
  · unfold bccValue
    rw [addresses_value ⟨h, hs⟩ hr]
  · obtain ⟨x, hx⟩ := cfws_append (gap_cfws h hne) (solid_end hs hr)
    have : ∃ e, addressList c (w ++ (CRLF ++ r)) = .err e := by
      obtain ⟨e, he⟩ := mailbox_none h (solid_end hs hr) (crlf_stops (by decide))
      obtain ⟨e', he'⟩ := phrase_err h (solid_end hs hr) (crlf_stops (by decide))
      unfold addressList address group
      simp only [he, he', err_bind]
      exact ⟨_, rfl⟩
    obtain ⟨e, he⟩ := this
    unfold bccValue
    simp only [he, hx]

theorem mimeVersion_value {mj mn : Nat} (h : ValueL c w (.mimeVersion mj mn)) {n : Bytes}
    (hn : n.map asciiLower = b! "mime-version:") :
    mimeVersion c (n ++ (w ++ (CRLF ++ r))) = .ok (r, (mj, mn)) := by
  obtain ⟨g, ds, ds', t, rfl, ⟨hg, hg'⟩, ⟨ht, ht'⟩, ⟨h1, h2, h3, rfl⟩, h4, h5, h6, rfl⟩ := h
  have := (C48_header_iff c n g ds ds' t r (decimal ds) (decimal ds') hn hg ht hg' ht' h1 h4 h2 h5).mpr
    ⟨⟨h3, rfl⟩, h6, rfl⟩
  simpa only [List.append_assoc] using this

theorem encoding_value {e : ContentTransferEncoding} (h : ValueL c w (.contentTransferEncoding e)) {n : Bytes}
    (hn : n.map asciiLower = b! "content-transfer-encoding:") :
    contentTransferEncoding c (n ++ (w ++ (CRLF ++ r))) = .ok (r, e) := by
  obtain ⟨g, name, t, rfl, ⟨hg, hg'⟩, ⟨ht, ht'⟩, h⟩ := h
  obtain ⟨hne, htok⟩ := writtenName_token (by decide +kernel) h
  have := contentTransferEncoding_append (r := r) hn hg ht hg' ht' hne htok (e := e) (fun r hr => by
    rcases h with ⟨s, hs, hw⟩ | ⟨h1, h2, h3, rfl⟩
    · exact transferEncoding_named hs hw
    · exact transferEncoding_other h1 h2 hr h3)
  simpa only [List.append_assoc] using this

theorem params_value {ps : List RawParam} {q : Params} (hi : ∀ p ∈ ps, ∀ k, p.index = some k → k < 256)
    (h : ParamsL c ps q) : collectParameters c ps = .ok q :=
  (C38_collect_iff c ps q hi h.1).mpr h.2

theorem otherParams_valid {xs : List WrittenItem} (h : ∀ x ∈ xs, x.Valid c) :
    ∀ p ∈ otherParams xs, ∀ k, p.index = some k → k < 256 := by
  intro p hp k hk
  obtain ⟨x, hx, e⟩ := List.mem_filterMap.mp hp
  cases x with
  | filename => cases e
  | date => cases e
  | other p' =>
    cases e
    exact (h _ hx).1.index k hk

theorem contentType_value {t : ContentType} {st : Bytes} {q : Params} (h : ValueL c w (.contentType t st q)) {n : Bytes}
    (hn : n.map asciiLower = b! "content-type:") (hr : Stops Spec.wsp r) :
    contentType c (n ++ (w ++ (CRLF ++ r))) = .ok (r, (t, st, q)) := by
  obtain ⟨g, type, subtype, ps, rfl, hg, ht, ⟨hne, hs⟩, rfl, hp, hq⟩ := h
  refine contentType_append hn hg ht hne hs hp (params_value ?_ hq) hr
  intro p hm k hk
  obtain ⟨x, hx, rfl⟩ := List.mem_map.mp hm
  exact (hp x hx).index k hk

theorem contentDisposition_value {v : Disposition} (h : ValueL c w (.contentDisposition v)) {n : Bytes}
    (hn : n.map asciiLower = b! "content-disposition:") (hr : Stops Spec.wsp r) :
    contentDisposition c (n ++ (w ++ (CRLF ++ r))) = .ok (r, v) := by
  obtain ⟨g, type, t, xs, q, rfl, hg, ht, hx, hq, rfl⟩ := h
  exact contentDisposition_append hn hg ht hx (params_value (otherParams_valid hx) hq) hr

/-! ### Header lines -/

theorem entry_line {name n w r : Bytes} {q : Bytes → Res α} {K : α → Field} {v : α}
    (hm : (name, mapValue K q) ∈ headerTable c) (hn : n.map asciiLower = name)
    (hq : ∀ n' : Bytes, n'.map asciiLower = name ++ b! ":" → q (n' ++ (w ++ (CRLF ++ r))) = .ok (r, v)) :
    field c (n ++ b! ":" ++ w ++ CRLF ++ r) = .ok (r, K v) := by
  have h := hq (n ++ b! ":") (by rw [List.map_append, hn]; rfl)
  rw [List.append_assoc, List.append_assoc]
  refine field_entry hm hn ?_
  unfold mapValue
  rw [h, ok_bind]

theorem known_field {f : Field} {name n : Bytes} (ho : headerOf f = some name) (hf : Recognized c.feat name)
    (hn : n.map asciiLower = name) (h : ValueL c w f) (hr : Stops Spec.wsp r) :
    field c (n ++ b! ":" ++ w ++ CRLF ++ r) = .ok (r, f) := by
  cases f with
  | trace => cases ho
  | unknown => cases ho
  | date v =>
    cases ho
    have hf : c.feat.date = true := by simpa [Recognized] using hf
    exact entry_line (K := .date) (q := dateField c) (by simp [headerTable, enabled, hf]) hn
      fun n' hn' => headerLine_append rfl hn' (date_value h hr)
  | «from» v =>
    cases ho
    have hf : c.feat.from = true := by simpa [Recognized] using hf
    exact entry_line (K := .from) (q := fromField c) (by simp [headerTable, enabled, hf]) hn
      fun n' hn' => headerLine_append rfl hn' (mailboxes_value h hr)
  | sender v =>
    cases ho
    have hf : c.feat.sender = true := by simpa [Recognized] using hf
    exact entry_line (K := .sender) (q := senderField c) (by simp [headerTable, enabled, hf]) hn
      fun n' hn' => headerLine_append rfl hn' (mailbox_value h hr)
  | replyTo v =>
    cases ho
    have hf : c.feat.replyTo = true := by simpa [Recognized] using hf
    exact entry_line (K := .replyTo) (q := replyToField c) (by simp [headerTable, enabled, hf]) hn
      fun n' hn' => headerLine_append rfl hn' (addresses_value h hr)
  | to v =>
    cases ho
    have hf : c.feat.to = true := by simpa [Recognized] using hf
    exact entry_line (K := .to) (q := toField c) (by simp [headerTable, enabled, hf]) hn
      fun n' hn' => headerLine_append rfl hn' (addresses_value h hr)
  | cc v =>
    cases ho
    have hf : c.feat.cc = true := by simpa [Recognized] using hf
    exact entry_line (K := .cc) (q := ccField c) (by simp [headerTable, enabled, hf]) hn
      fun n' hn' => headerLine_append rfl hn' (addresses_value h hr)
  | bcc v =>
    cases ho
    have hf : c.feat.bcc = true := by simpa [Recognized] using hf
    exact entry_line (K := .bcc) (q := bccField c) (by simp [headerTable, enabled, hf]) hn
      fun n' hn' => headerLine_append rfl hn' (bcc_value h hr)
  | messageId v =>
    cases ho
    have hf : c.feat.messageId = true := by simpa [Recognized] using hf
    exact entry_line (K := .messageId) (q := messageIdField c) (by simp [headerTable, enabled, hf]) hn
      fun n' hn' => headerLine_append rfl hn' (messageId_value h hr)
  | inReplyTo v =>
    cases ho
    have hf : c.feat.inReplyTo = true := by simpa [Recognized] using hf
    exact entry_line (K := .inReplyTo) (q := inReplyToField c) (by simp [headerTable, enabled, hf]) hn
      fun n' hn' => headerLine_append rfl hn' (messageIds_value h hr)
  | references v =>
    cases ho
    have hf : c.feat.references = true := by simpa [Recognized] using hf
    exact entry_line (K := .references) (q := referencesField c) (by simp [headerTable, enabled, hf]) hn
      fun n' hn' => headerLine_append rfl hn' (messageIds_value h hr)
  | subject v =>
    cases ho
    have hf : c.feat.subject = true := by simpa [Recognized] using hf
    exact entry_line (K := .subject) (q := subjectField c) (by simp [headerTable, enabled, hf]) hn
      fun n' hn' => headerLine_append rfl hn' (text_value h hr)
  | comments v =>
    cases ho
    have hf : c.feat.comments = true := by simpa [Recognized] using hf
    exact entry_line (K := .comments) (q := commentsField c) (by simp [headerTable, enabled, hf]) hn
      fun n' hn' => headerLine_append rfl hn' (text_value h hr)
  | keywords v =>
    cases ho
    have hf : c.feat.keywords = true := by simpa [Recognized] using hf
    exact entry_line (K := .keywords) (q := keywordsField c) (by simp [headerTable, enabled, hf]) hn
      fun n' hn' => headerLine_append rfl hn' (keywords_value h hr)
  | contentId v =>
    cases ho
    have hf : c.feat.mime = true := by simpa [Recognized] using hf
    exact entry_line (K := .contentId) (q := contentId c) (by simp [headerTable, enabled, hf]) hn
      fun n' hn' => headerLine_append rfl hn' (messageId_value h hr)
  | contentDescription v =>
    cases ho
    have hf : c.feat.mime = true := by simpa [Recognized] using hf
    exact entry_line (K := .contentDescription) (q := contentDescription c) (by simp [headerTable, enabled, hf]) hn
      fun n' hn' => headerLine_append rfl hn' (text_value h hr)
  | mimeVersion mj mn =>
    cases ho
    have hf : c.feat.mime = true := by simpa [Recognized] using hf
    exact entry_line (K := fun (mj, mn) => .mimeVersion mj mn) (q := mimeVersion c)
      (by simp [headerTable, enabled, hf]) hn fun n' hn' => mimeVersion_value h hn'
  | contentType t st q =>
    cases ho
    have hf : c.feat.mime = true := by simpa [Recognized] using hf
    exact entry_line (K := fun (t, st, p) => .contentType t st p) (q := contentType c)
      (by simp [headerTable, enabled, hf]) hn fun n' hn' => contentType_value h hn' hr
  | contentTransferEncoding e =>
    cases ho
    have hf : c.feat.mime = true := by simpa [Recognized] using hf
    exact entry_line (K := .contentTransferEncoding) (q := contentTransferEncoding c)
      (by simp [headerTable, enabled, hf]) hn fun n' hn' => encoding_value h hn'
  | contentDisposition v =>
    cases ho
    have hf : c.feat.mime = true := by simpa [Recognized] using hf
    exact entry_line (K := .contentDisposition) (q := contentDisposition c)
      (by simp [headerTable, enabled, hf]) hn fun n' hn' => contentDisposition_value h hn' hr

theorem unknown_text {n v : Bytes} (hne : n ≠ []) (hn : ∀ b ∈ n, ftext b = true)
    (ht : TextL c c.feat.unrecognizedHeaders w v) (hr : Stops Spec.wsp r) :
    unknown c (n ++ b! ":" ++ w ++ CRLF ++ r) = .ok (r, (n, v)) := by
  have h := text_value ht hr
  unfold unknown unknownValue
  simp only [List.append_assoc]
  have h1 : ∀ t, Stops ftext (b! ":" ++ t) := fun t => stops_cons.mpr (by decide)
  rw [isFtext_eq, takeWhile1_ok hne hn (h1 _), ok_bind]
  dsimp only
  rw [tag_append, ok_bind]
  dsimp only
  rw [h, ok_bind]
  dsimp only
  rw [show CRLF ++ r = b! "\r\n" ++ r from rfl, tag_append]
  rfl

/-- A line that is laid out as a header is read as that header. -/
theorem headerL_field {l : Bytes} {f : Field} (h : HeaderL c l f) (hr : Stops Spec.wsp r) :
    field c (l ++ r) = .ok (r, f) := by
  cases h with
  | known ho hf hn h => exact known_field ho hf hn h hr
  | @unknown n w v hne hn hf ht =>
    have h := unknown_text hne hn ht hr
    unfold field
    rw [fieldParsers_table, matchParsers_append]
    have : ∃ e, matchParsers (n ++ b! ":" ++ w ++ CRLF ++ r) ((headerTable c).map (·.2)) = .err e := by
      refine matchParsers_all_err fun p hp => ?_
      obtain ⟨e, he, rfl⟩ := List.mem_map.mp hp
      refine headerTable_other e he fun hpre => hf ?_
      rw [List.append_assoc, List.append_assoc, List.append_assoc, List.map_append, List.map_append,
        ← List.append_assoc] at hpre
      have hcol : 58 ∉ n.map asciiLower := by
        intro hm
        obtain ⟨b, hb, e⟩ := List.mem_map.mp hm
        have key : ∀ b : UInt8, ftext b = true → asciiLower b ≠ 58 := by decide +kernel
        exact key b (hn b hb) e
      rw [← prefix_name hcol (headerTable_colon e he) hpre]
      exact headerTable_recognized e he
    obtain ⟨e, he⟩ := this
    simp only [he, matchParsers, mapValue, h, ok_bind]

end EmailParser
