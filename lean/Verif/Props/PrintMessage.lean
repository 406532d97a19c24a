import Verif.Proofs.Complete.PrintMessage
import Verif.Props.Base64
import Verif.Props.QuotedPrintable
import Verif.Props.Email
import Verif.Model.Concrete
/-
C51: whole messages are read back as they were written.
-/
namespace EmailParser
open Spec

variable (c : Cfg)

/-! ### Any layout -/

/-- A message of which every line is laid out in any permitted way is read as exactly its fields and body; the
e-mail is made of them as specified. -/
theorem C51_any_layout (hc : c.feat.compiles) (i : Bytes) (fs : List Field) (body : Option Bytes)
    (h : MessageL c i fs body) (r : Outcome Email) :
    parseMessage c i = .ok (fs, body) ∧ (Email.parse c i = r ↔ EmailResult c fs body r) := by
  refine ⟨messageL_parse h, ?_⟩
  rw [email_parse_eq, messageL_parse h]
  exact emailFrom_iff hc fs body r

/-- Any list of headers, in any order, is read back. -/
theorem C51_headers (hs : List MailHeader) (hv : ∀ h ∈ hs, h.Valid c)
    (ht : NoTraceFirst c (hs.map MailHeader.field)) :
    parseMessage c (hs.flatMap MailHeader.text) = .ok (hs.map MailHeader.field, none) := by
  have := messageL_parse (.intro (.inr ⟨rfl, rfl⟩) (headers_layout hs hv) ht .none)
  simpa using this

/-! ### Canonical form -/

theorem findSome?_toList {α β : Type} (o : Option α) (g : α → Option β) : o.toList.findSome? g = o.bind g := by
  cases o with
  | none => rfl
  | some a => cases h : g a <;> simp [h]

theorem findSome?_nothing {α β : Type} (l : List α) : l.findSome? (fun _ => (none : Option β)) = none := by
  induction l <;> simp_all

theorem filterMap_nothing {α β : Type} (l : List α) : l.filterMap (fun _ => (none : Option β)) = [] := by
  induction l <;> simp_all

theorem flatMap_nothing {α β : Type} (l : List α) : l.flatMap (fun _ => ([] : List β)) = [] := by
  induction l <;> simp_all

theorem letter_noDuplicate (m : Letter) : NoDuplicate (letterFields m) := by
  have one : ∀ {α : Type} (o : Option α) (s : String), (o.toList.filterMap fun _ => some s).Sublist [s] := by
    intro α o s
    cases o
    · exact List.nil_sublist _
    · exact .refl _
  have h : ((letterFields m).filterMap onceName).Sublist
      (["Date"] ++ (["From"] ++ (["Sender"] ++ (["Reply-To"] ++ (["To"] ++ (["Cc"] ++ (["Bcc"] ++ (["Message-ID"] ++
      (["In-Reply-To"] ++ (["References"] ++ (["Subject"] ++ (["Mime-Version"] ++ (["Content-Type"] ++
      (["Content-Transfer-Encoding"] ++ (["Content-Id"] ++ (["Content-Description"] ++
      ["Content-Disposition"])))))))))))))))) := by
    have hk : List.filterMap onceName ((if m.keywords = [] then [] else [MailHeader.keywords m.keywords]).map
        MailHeader.field) = [] := by
      split <;> rfl
    simp only [letterFields, Letter.headers, List.map_append, List.filterMap_append, List.map_map, List.filterMap_map,
      hk, Function.comp_def, onceName, MailHeader.field, filterMap_nothing, List.nil_append, List.append_nil]
    repeat' first
      | exact one _ _
      | refine List.Sublist.append (one _ _) ?_
  exact h.nodup (by decide)

section
variable {α β : Type}

theorem findSome_letter (m : Letter) (g : Field → Option β) : (letterFields m).findSome? g =
    ((m.trace.findSome? fun t => g (.trace t.path t.received t.resent)).or
    ((m.date.bind fun v => g (.date v)).or ((m.from.bind fun v => g (.from v)).or
    ((m.sender.bind fun v => g (.sender v)).or ((m.replyTo.bind fun v => g (.replyTo v)).or
    ((m.to.bind fun v => g (.to v)).or ((m.cc.bind fun v => g (.cc v)).or ((m.bcc.bind fun v => g (.bcc v)).or
    ((m.messageId.bind fun v => g (.messageId v)).or ((m.inReplyTo.bind fun v => g (.inReplyTo v)).or
    ((m.references.bind fun v => g (.references v)).or ((m.subject.bind fun v => g (.subject v)).or
    ((m.comments.findSome? fun v => g (.comments v)).or
    ((if m.keywords = [] then none else g (.keywords m.keywords)).or
    ((m.mimeVersion.bind fun v => g (.mimeVersion v.1 v.2)).or
    ((m.contentType.bind fun v => g (.contentType v.value.1 v.value.2.1 v.value.2.2)).or
    ((m.encoding.bind fun v => g (.contentTransferEncoding v)).or
    ((m.contentId.bind fun v => g (.contentId v)).or
    ((m.description.bind fun v => g (.contentDescription v)).or
    ((m.disposition.bind fun v => g (.contentDisposition v.value)).or
    (m.others.findSome? fun v => g (.unknown v.1 v.2)))))))))))))))))))))) := by
  have hk : List.findSome? g ((if m.keywords = [] then [] else [MailHeader.keywords m.keywords]).map
      MailHeader.field) = if m.keywords = [] then none else g (.keywords m.keywords) := by
    split
    · rfl
    · cases h : g (.keywords m.keywords) <;> simp [h, MailHeader.field]
  simp only [letterFields, Letter.headers, List.map_append, List.findSome?_append, List.map_map, List.findSome?_map,
    Function.comp_def, MailHeader.field, findSome?_toList, hk]

end

theorem decodeValue_encodeBody (encoding : Option ContentTransferEncoding)
    (hv : ∀ name, encoding ≠ some (.unknown name)) (b : Bytes) :
    decodeValue (encodeBody encoding b) (encoding.getD .sevenBit) = .ok b := by
  have h64 : decodeBase64 (breakLines 72 (b64Encode b)) = .ok b := by
    obtain ⟨e, h1, h2⟩ := C30_base64_round_trip b
    rw [encodeBase64_eq] at h1
    cases h1
    exact h2
  have hqp : ∀ b : Bytes, qpDecode (qpText b) = b := by
    intro b
    induction b with
    | nil => rfl
    | cons x b ih =>
      rw [show qpText (x :: b) = (if 33 ≤ x && x ≤ 126 && x != 61 then [x] else escape x) ++ qpText b from rfl]
      split
      · rename_i hx
        have hl : qpLiteral x = true := (by decide +kernel : ∀ x : UInt8,
          (decide (33 ≤ x) && decide (x ≤ 126) && x != 61) = true → qpLiteral x = true) x (by simpa using hx)
        rw [show [x] ++ qpText b = x :: qpText b from rfl, qpDecode_literal _ hl, ih]
      · rw [qpDecode_escape_eq, ih]
  cases he : encoding with
  | none => rfl
  | some e =>
    cases e with
    | base64 => exact h64
    | quotedPrintable => exact (decodeQp_eq _).trans (congrArg _ (hqp b))
    | unknown name => exact absurd he (hv name)
    | _ => rfl

theorem letter_email (m : Letter)
    (hr : ∀ h ∈ m.headers, ∀ name, headerOf h.field = some name → Recognized c.feat name)
    (he : ∀ name, m.encoding ≠ some (.unknown name)) :
    IsEmail c (letterFields m) (m.body.map (encodeBody m.encoding)) (m.email c.feat) := by
  have hf : c.feat.from = false → m.from = none := fun hf => by
    cases h : m.from with
    | none => rfl
    | some v =>
      have := hr (.from v) (by simp [Letter.headers, h]) _ rfl
      simp [Recognized, hf] at this
  have hd : c.feat.date = false → m.date = none := fun hf => by
    cases h : m.date with
    | none => rfl
    | some v =>
      have := hr (.date v) (by simp [Letter.headers, h]) _ rfl
      simp [Recognized, hf] at this
  have hfrom : (letterFields m).findSome? fromOf = m.from := by
    simp [findSome_letter, fromOf, findSome?_nothing]
  constructor
  · rw [hfrom]
    split
    · rfl
    · rename_i h
      exact hf (by simpa using h)
  · have : (letterFields m).findSome? dateOf = m.date := by
      simp [findSome_letter, dateOf, findSome?_nothing]
    rw [this]
    split
    · rfl
    · rename_i h
      exact hd (by simpa using h)
  · have : (letterFields m).findSome? senderOf = m.sender := by
      simp [findSome_letter, senderOf, findSome?_nothing]
    rw [this, hfrom]
    rfl
  · simp [findSome_letter, subjectOf, findSome?_nothing, Letter.email]
  · simp [findSome_letter, toOf, findSome?_nothing, Letter.email]
  · simp [findSome_letter, ccOf, findSome?_nothing, Letter.email]
  · simp [findSome_letter, bccOf, findSome?_nothing, Letter.email]
  · simp [findSome_letter, messageIdOf, findSome?_nothing, Letter.email]
  · simp [findSome_letter, inReplyToOf, findSome?_nothing, Letter.email]
  · simp [findSome_letter, referencesOf, findSome?_nothing, Letter.email]
  · simp [findSome_letter, replyToOf, findSome?_nothing, Letter.email]
  · have hk : List.filterMap commentsOf ((if m.keywords = [] then [] else [MailHeader.keywords m.keywords]).map
        MailHeader.field) = [] := by
      split <;> rfl
    simp only [letterFields, Letter.headers, List.map_append, List.filterMap_append, List.map_map, List.filterMap_map,
      hk, Function.comp_def, commentsOf, MailHeader.field, filterMap_nothing, List.nil_append, List.append_nil,
      Letter.email, List.filterMap_some]
  · have hk : List.flatMap keywordsOf ((if m.keywords = [] then [] else [MailHeader.keywords m.keywords]).map
        MailHeader.field) = m.keywords := by
      split
      · exact Eq.symm ‹_›
      · simp [MailHeader.field, keywordsOf]
    simp only [letterFields, Letter.headers, List.map_append, List.flatMap_append, List.map_map, List.flatMap_map,
      hk, Function.comp_def, keywordsOf, MailHeader.field, flatMap_nothing, List.nil_append, List.append_nil,
      Letter.email]
  · have hk : List.filterMap traceOf ((if m.keywords = [] then [] else [MailHeader.keywords m.keywords]).map
        MailHeader.field) = [] := by
      split <;> rfl
    simp only [letterFields, Letter.headers, List.map_append, List.filterMap_append, List.map_map, List.filterMap_map,
      hk, Function.comp_def, traceOf, MailHeader.field, filterMap_nothing, List.append_nil,
      Letter.email, List.filterMap_eq_map']
  · have hk : List.filterMap unknownOf ((if m.keywords = [] then [] else [MailHeader.keywords m.keywords]).map
        MailHeader.field) = [] := by
      split <;> rfl
    simp only [letterFields, Letter.headers, List.map_append, List.filterMap_append, List.map_map, List.filterMap_map,
      hk, Function.comp_def, unknownOf, MailHeader.field, filterMap_nothing, List.nil_append, Letter.email]
    exact List.filterMap_some.symm
  · cases hm : c.feat.mime
    · have : encodeBody m.encoding = id := by rw [encodeBody_plain hr hm]; rfl
      simp [Letter.email, hm, this]
    · simp [Letter.email, hm]
  · intro hm
    simp [Letter.email, hm]
  · intro hm
    have he' : (letterFields m).findSome? encodingOf = m.encoding := by
      simp [findSome_letter, encodingOf, findSome?_nothing]
    have ht : (letterFields m).findSome? contentTypeOf = m.contentType.map MailType.value := by
      simp [findSome_letter, contentTypeOf, findSome?_nothing]
      cases m.contentType <;> rfl
    refine ⟨_, if_pos hm, ?_, ?_, ?_, ?_, rfl, ?_, ?_⟩
    · rw [ht]
    · simp [findSome_letter, contentDescriptionOf, findSome?_nothing]
    · simp [findSome_letter, contentIdOf, findSome?_nothing]
    · simp [findSome_letter, contentDispositionOf, findSome?_nothing]
      cases m.disposition <;> rfl
    · intro h
      rw [Option.map_eq_none_iff] at h
      simp [h]
    · intro b h
      obtain ⟨b, hb, rfl⟩ := Option.map_eq_some_iff.1 h
      rw [he', ← decodeValue_eq, decodeValue_encodeBody _ he]
      simp [hb]

/-- A message in any layout is read as that message. -/
theorem letter_parse (hc : c.feat.compiles) (m : Letter) {i : Bytes}
    (hr : ∀ h ∈ m.headers, ∀ name, headerOf h.field = some name → Recognized c.feat name)
    (he : ∀ name, m.encoding ≠ some (.unknown name)) (hdate : c.feat.date = true → m.date ≠ none)
    (hfrom : c.feat.from = true → m.from ≠ none)
    (hsender : c.feat.sender = true → m.sender = none → ∀ authors, m.from = some authors → authors.length = 1)
    (hl : MessageL c i (letterFields m) (m.body.map (encodeBody m.encoding))) :
    Email.parse c i = .ok (m.email c.feat) := by
  rw [(C51_any_layout c hc _ _ _ hl _).2]
  refine .email (letter_noDuplicate m) ?_ (letter_email c m hr he)
  have hf : ∀ v, m.from = some v → .from v ∈ letterFields m := fun v h => by
    simp [letterFields, Letter.headers, h, MailHeader.field]
  rintro name (⟨-, h1, h2⟩ | ⟨-, h1, h2⟩ | ⟨-, h1, h2, h3⟩)
  · cases h : m.from with
    | none => exact hfrom h1 h
    | some v => cases h2 _ (hf v h)
  · cases h : m.date with
    | none => exact hdate h1 h
    | some v => cases h2 (.date v) (by simp [letterFields, Letter.headers, h, MailHeader.field])
  · cases h : m.sender with
    | none =>
      cases hf' : m.from with
      | none => exact hfrom (hc.1 h1) hf'
      | some v => exact h3 _ (hf v hf') v rfl (hsender h1 h v hf')
    | some v => cases h2 (.sender v) (by simp [letterFields, Letter.headers, h, MailHeader.field])

/-- Writing any message in canonical form and reading it gives back that message. -/
theorem C51_round_trip (hc : c.feat.compiles) (m : Letter) (hv : m.Valid c) :
    Email.parse c m.text = .ok (m.email c.feat) :=
  letter_parse c hc m (fun h hh => (hv.headers h hh).2)
    (fun name he => absurd rfl ((hv.headers _ (headers_encoding he)).1 name)) hv.date hv.from hv.sender
    (letter_layout hv)

/-- A message with trace, two authors, a group, an attachment and a base64 body. -/
def exampleLetter : Letter where
  trace := [⟨some none, [([.word (b! "from"), .domain (b! "a.org"), .word (b! "a b")],
    ⟨none, ⟨2, .march, 2021⟩, ⟨⟨4, 5, 6⟩, ⟨false, 7, 30⟩⟩⟩)], [.to [.mailbox ⟨none, ⟨b! "z", b! "z.org"⟩⟩]]⟩]
  date := some ⟨some .monday, ⟨1, .january, 2024⟩, ⟨⟨10, 20, 30⟩, ⟨true, 1, 0⟩⟩⟩
  «from» := some [⟨some [b! "Ann", b! "O\"Neil"], ⟨b! "ann", b! "a.org"⟩⟩, ⟨none, ⟨b! "x y", b! "1.2.3.4:5"⟩⟩]
  sender := some ⟨none, ⟨b! "s", b! "s.org"⟩⟩
  to := some [.group [b! "All"] [⟨none, ⟨b! "q", b! "q.org"⟩⟩], .mailbox ⟨none, ⟨b! "r", b! "r"⟩⟩]
  bcc := some []
  messageId := some (b! "id.1", b! "a.org")
  subject := some (b! " Hello  world")
  comments := [b! " one", b! "two"]
  keywords := [[b! "a", b! "b c"], [b! "d"]]
  contentType := some ⟨b! "Application", b! "X-data", [(b! "name", b! "a b")]⟩
  encoding := some .base64
  disposition := some ⟨b! "attachment", some (b! "a.bin"), none, none, none, []⟩
  others := [(b! "X-Spam", b! " no")]
  body := some [0, 255, 13]

example : exampleLetter.text = b! "Return-Path: <>\r\nReceived: from a.org \"a b\"; 02 Mar 2021 04:05:06 -0730\r\nResent-To: z@z.org\r\nDate: Mon, 01 Jan 2024 10:20:30 +0100\r\nFrom: Ann \"O\\\"Neil\" <ann@a.org>, \"x y\"@[1.2.3.4:5]\r\nSender: s@s.org\r\nTo: All: q@q.org;, r@r\r\nBcc: ()\r\nMessage-ID: <id.1@a.org>\r\nSubject: Hello  world\r\nComments: one\r\nComments:two\r\nKeywords: a \"b c\", d\r\nContent-Type: Application/X-data; name=\"a b\"\r\nContent-Transfer-Encoding: base64\r\nContent-Disposition: attachment; filename=\"a.bin\"\r\nX-Spam: no\r\n\r\nAP8N" := by
  decide +kernel

theorem solid_of_getLast {x : Bytes} (h : x.getLast?.all (fun b => !wsp b) = true) : Solid x := by
  rintro u b rfl
  simpa using h

/-- It can be written. -/
theorem exampleLetter_valid : exampleLetter.Valid (Cfg.concrete .full) where
  headers := by
    have text : ∀ x encoded, x.all (fun b => vchar b || wsp b) = true → x.getLast?.all (fun b => !wsp b) = true →
        61 ∉ x → ValidText encoded x := fun x encoded h1 h2 h3 =>
      ⟨fun b hb => by simpa using List.all_eq_true.1 h1 b hb, solid_of_getLast h2, fun _ ⟨u, v, e⟩ => h3 (by simp [← e])⟩
    have recognized : ∀ h ∈ exampleLetter.headers, ∀ name, headerOf h.field = some name →
        Recognized Features.full name := by
      intro h hh name hn
      simp only [exampleLetter, Letter.headers, Option.toList, List.map, List.nil_append, List.cons_append,
        List.mem_cons, List.not_mem_nil, or_false, reduceCtorEq, if_false] at hh
      rcases hh with rfl | rfl | rfl | rfl | rfl | rfl | rfl | rfl | rfl | rfl | rfl | rfl | rfl | rfl <;>
        cases hn <;> simp [Recognized, Features.full, Features.default]
    refine fun h hh => ⟨?_, recognized h hh⟩
    simp only [exampleLetter, Letter.headers, Option.toList, List.map, List.nil_append, List.cons_append,
      List.mem_cons, List.not_mem_nil, or_false, reduceCtorEq, if_false] at hh
    rcases hh with rfl | rfl | rfl | rfl | rfl | rfl | rfl | rfl | rfl | rfl | rfl | rfl | rfl | rfl
    · simp [MailHeader.Writable, InRange]
    · simp [MailHeader.Writable, ValidMailbox, ValidPhrase, ValidAddress, Spec.Printable]
      decide +kernel
    · simp [MailHeader.Writable, ValidMailbox, ValidAddress, Spec.Printable]
      decide +kernel
    · simp [MailHeader.Writable, ValidAddresses, ValidAddressOrGroup, ValidMailbox, ValidPhrase, ValidAddress, Spec.Printable]
      decide +kernel
    · simp [MailHeader.Writable, Cfg.concrete]
    · simp [MailHeader.Writable, ValidMessageId]
      decide +kernel
    · exact text _ _ rfl rfl (by decide +kernel)
    · exact text _ _ rfl rfl (by decide +kernel)
    · exact text _ _ rfl rfl (by decide +kernel)
    · simp [MailHeader.Writable, ValidPhrase, Spec.Printable]
      decide +kernel
    · refine ⟨⟨by simp, by decide +kernel, .inl (by decide +kernel)⟩, ⟨by simp, by decide +kernel⟩, ?_⟩
      simp [ValidParams, Spec.Printable]
      decide +kernel
    · simp [MailHeader.Writable]
    · refine ⟨⟨by simp, by decide +kernel, .inl (by decide +kernel)⟩, ?_⟩
      simp [ValidParams, Spec.Printable]
      decide +kernel
    · refine ⟨by simp, by decide +kernel, ?_, text _ _ rfl rfl (by decide +kernel)⟩
      simp [Recognized]
      decide +kernel
  trace := .inr rfl
  traces := by
    intro t ht
    simp only [exampleLetter, List.mem_cons, List.not_mem_nil, or_false] at ht
    subst ht
    refine ⟨nofun, by simp, ?_, ?_⟩
    · simp [ValidToken, InRange, Spec.Printable]
      decide +kernel
    · simp [resentHeader, MailHeader.Writable, ValidAddresses, ValidAddressOrGroup, ValidMailbox, ValidAddress, Spec.Printable]
      decide +kernel
  separated := trivial
  others := by
    simp [exampleLetter]
  date := by simp [exampleLetter]
  «from» := by simp [exampleLetter]
  sender := by simp [exampleLetter]
  body := by simp [Cfg.concrete, Features.full]

example : Email.parse (Cfg.concrete .full) exampleLetter.text = .ok (exampleLetter.email .full) :=
  C51_round_trip _ ⟨fun _ => rfl, fun _ => rfl⟩ _ exampleLetter_valid

example : ((exampleLetter.email .full).body, (exampleLetter.email .full).mimeEntity.map (·.value),
    (exampleLetter.email .full).unknownFields) = (none, some [0, 255, 13], [(b! "X-Spam", b! " no")]) := by
  decide +kernel

/-! ### C47: trace headers in any layout -/

/-- The lines of a trace, laid out in any permitted way, are read as what they stand for.  In a `Received` line
text without dots is a word and text with dots is a domain. -/
theorem C47_layout :
    (∀ l v, ReceivedLineL c l v → received c l = .ok ([], v)) ∧
    (∀ l v, ReturnPathLineL c l v → returnPath c l = .ok ([], v)) ∧
    ∀ l v, ResentLineL c l v → matchParsers l (traceFieldParsers c) = .ok ([], v) :=
  ⟨fun _ _ => receivedL_line, fun _ _ => returnPathL_line, fun _ _ => resentL_line⟩

example : (outcomeValue (received (Cfg.concrete .default)
      (b! "RECEIVED: from (x) a.b.org\r\n [1 2]\"c\\d\"e<f@g> ; 1 Jan 2020 00:00 +0000 (y)\r\n"))).map
    (fun r => (r.1, r.2.1)) =
    some ([], [.word (b! "from"), .domain (b! "a.b.org"), .domain (b! "12"), .word (b! "cd"), .word (b! "e"),
      .addr ⟨b! "f", b! "g"⟩]) := by
  decide +kernel

end EmailParser
