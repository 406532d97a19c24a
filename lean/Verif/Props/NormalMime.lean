import Verif.Proofs.NormalMime
import Verif.Props.Normal
/-
C67: in every configuration, every e-mail that has been read can be written again, and reads the same.
-/
namespace EmailParser
open Spec Gram

variable {c : Cfg}

/-- What is known about the entity of an e-mail that has been read. -/
structure EntityGood (c : Cfg) (r : RawEntity) : Prop where
  mime : c.feat.mime = true
  type : TypeGood (r.mimeType, r.subtype, r.parameters)
  id : ∀ v, r.id = some v → UnicodeId c.feat.compatibilityFixes v
  description : ∀ v, r.description = some v → Utf8 v
  disposition : ∀ v, r.disposition = some v → DispositionGood v
  additional : r.additionalHeaders = []

theorem understood_message (hc : c.feat.compiles) (hs : 0 < c.stack) {i : Bytes} {fs : List Field} {b : Option Bytes}
    (hp : parseMessage c i = .ok (fs, b)) : Understood c fs := by
  unfold parseMessage at hp
  obtain ⟨⟨r, fs'⟩, h1, h2⟩ := bind_eq_ok.1 hp
  have : fs' = fs := by
    dsimp only at h2
    by_cases hm : c.feat.mime = true
    · rw [if_pos hm] at h2
      by_cases hr : r.isEmpty = true
      · rw [if_pos hr] at h2; cases h2; rfl
      · rw [if_neg hr] at h2
        obtain ⟨⟨_, _⟩, -, h3⟩ := bind_eq_ok.1 h2
        cases h3
        rfl
    · rw [if_neg hm] at h2
      obtain ⟨_, -, h3⟩ := bind_eq_ok.1 h2
      cases h3
      rfl
  subst this
  exact understood_of hs hc h1

theorem entityGood_of {fs : List Field} {b : Option Bytes} {e : Email} (hr : Understood c fs) (he : IsEmail c fs b e)
    {r : RawEntity} (h : e.mimeEntity = some r) : EntityGood c r := by
  have hm : c.feat.mime = true := by
    cases hm : c.feat.mime with
    | true => rfl
    | false => rw [he.noEntity hm] at h; cases h
  obtain ⟨raw, e1, e2, e3, e4, e5, e6, -⟩ := he.entity hm
  rw [h] at e1
  cases e1
  have one : ∀ {α : Type} {g : Field → Option α} {P : α → Prop}, (∀ f ∈ fs, ∀ v, g f = some v → P v) →
      ∀ v, fs.findSome? g = some v → P v := by
    intro α g P hg v hv
    obtain ⟨f, hf, hfv⟩ := List.exists_of_findSome?_eq_some hv
    exact hg f hf v hfv
  refine ⟨hm, ?_, ?_, ?_, ?_, e6⟩
  · rw [e2]
    cases hx : fs.findSome? contentTypeOf with
    | none => exact plainText_good
    | some v => exact one (fun f hf => (hr.mime f hf).type) v hx
  · rw [e4]; exact one fun f hf => (hr.mime f hf).id
  · rw [e3]; exact one fun f hf => (hr.mime f hf).description
  · rw [e5]; exact one fun f hf => (hr.mime f hf).disposition

/-- The parameters of an e-mail that has been read have finitely many names, so they can be listed. -/
theorem C67_listed (hc : c.feat.compiles) (hs : 0 < c.stack) (i : Bytes) (e : Email) (h : Email.parse c i = .ok e) :
    ∃ l : Listing, l.Of e := by
  obtain ⟨fs, b, hp, hmsg, hn, hmi, he⟩ := parse_ok c hc h
  have hr := understood_message hc hs hp
  cases hx : e.mimeEntity with
  | none => exact ⟨⟨[], []⟩, fun r h => by rw [hx] at h; cases h⟩
  | some r =>
    have hg := entityGood_of hr he hx
    obtain ⟨names, hn⟩ := hg.type.params.listed
    cases hd : r.disposition with
    | none =>
      refine ⟨⟨names, []⟩, fun r' h => ?_⟩
      rw [hx] at h
      cases h
      exact ⟨hn, fun d h => by rw [hd] at h; cases h⟩
    | some d =>
      obtain ⟨names', hn'⟩ := (hg.disposition d hd).params.listed
      refine ⟨⟨names, names'⟩, fun r' h => ?_⟩
      rw [hx] at h
      cases h
      refine ⟨hn, fun d' h => ?_⟩
      rw [hd] at h
      cases h
      exact hn'

/-- An e-mail that has been read is written as a message that can be written and that is read as the same e-mail. -/
theorem C67_normal_form (hc : c.feat.compiles) (hs : 0 < c.stack) (i : Bytes) (e : Email)
    (h : Email.parse c i = .ok e) (hu : AllUnderstood c.feat e) (l : Listing) (hl : l.Of e) :
    (mimeLetterOf l e).Encodable c ∧ (mimeLetterOf l e).email c.feat = e ∧
      Email.parse c (mimeCanonical c.feat l e) = .ok e := by
  obtain ⟨fs, b, hp, hmsg, hn, hmi, he⟩ := parse_ok c hc h
  have hr := understood_message hc hs hp
  have hg : ∀ r, e.mimeEntity = some r → EntityGood c r := fun r hx => entityGood_of hr he hx
  have hb : c.feat.mime = false → ∀ b', (mimeLetterOf l e).body = some b' → Body b' := by
    intro hm b' hb'
    have hb' : (e.mimeEntity.map (·.value)).or e.body = some b' := hb'
    rw [he.noEntity hm, Option.map_none, Option.none_or, he.body, hm] at hb'
    subst hb'
    obtain ⟨_, _, _, -, -, h | ⟨_, _, _, -, -, h, hb⟩⟩ := hmsg
    · cases h.2
    · cases h; exact hb hm
  have one : ∀ {α : Type} {g : Field → Option α} {mk : α → MailHeader},
      (∀ f v, g f = some v → headerFor f = some (mk v)) → ∀ v, fs.findSome? g = some v → Written c (mk v) := by
    intro α g mk hg v hv
    obtain ⟨f, hf, hfv⟩ := List.exists_of_findSome?_eq_some hv
    exact hr.headers f hf _ (hg f v hfv)
  have hfrom : ∀ v, fs.findSome? fromOf = some v → Written c (.from v) :=
    one (by intro f v hv; cases f <;> cases hv; rfl)
  have hdate : ∀ v, fs.findSome? dateOf = some v → Written c (.date v) :=
    one (by intro f v hv; cases f <;> cases hv; rfl)
  have hsender : ∀ v, fs.findSome? senderOf = some v → Written c (.sender v) :=
    one (by intro f v hv; cases f <;> cases hv; rfl)
  have efrom : e.from = fs.findSome? fromOf := by
    rw [he.from]
    split
    · rfl
    · rename_i hf
      cases hx : fs.findSome? fromOf with
      | none => rfl
      | some v =>
        have := (hfrom v hx).2 _ rfl
        simp [Recognized, hf] at this
  have edate : e.date = fs.findSome? dateOf := by
    rw [he.date]
    split
    · rfl
    · rename_i hf
      cases hx : fs.findSome? dateOf with
      | none => rfl
      | some v =>
        have := (hdate v hx).2 _ rfl
        simp [Recognized, hf] at this
  have hasSender : c.feat.sender = true → e.sender ≠ none := by
    intro hsd hnone
    rw [he.sender, hsd, if_pos rfl, Option.or_eq_none_iff] at hnone
    refine hmi "Sender" (.inr (.inr ⟨rfl, hsd, List.findSome?_eq_none_iff.1 hnone.1, ?_⟩))
    intro f hf authors ha hlen
    cases hx : fs.findSome? fromOf with
    | none => rw [List.findSome?_eq_none_iff.1 hx f hf] at ha; cases ha
    | some v =>
      rw [hx] at hnone
      have hv := (hfrom v hx).1.1
      cases v with
      | nil => exact hv rfl
      | cons => cases hnone.2
  have headers : ∀ h ∈ (mimeLetterOf l e).headers, Written c h := by
    intro x hx
    simp only [mimeLetterOf, letterOf, Letter.headers, Option.toList_none, List.map_nil, List.nil_append,
      List.mem_append, List.mem_map, Option.mem_toList] at hx
    rcases hx with ⟨v, hv, rfl⟩ | ⟨v, hv, rfl⟩ | ⟨v, hv, rfl⟩ | ⟨v, hv, rfl⟩ | ⟨v, hv, rfl⟩ | ⟨v, hv, rfl⟩ |
      ⟨v, hv, rfl⟩ | ⟨v, hv, rfl⟩ | ⟨v, hv, rfl⟩ | ⟨v, hv, rfl⟩ | ⟨v, hv, rfl⟩ | ⟨v, hv, rfl⟩ | hv | ⟨v, hv, rfl⟩ |
      ⟨v, hv, rfl⟩ | ⟨v, hv, rfl⟩ | ⟨v, hv, rfl⟩ | ⟨v, hv, rfl⟩
    · exact hdate v (edate ▸ hv)
    · exact hfrom v (efrom ▸ hv)
    · have hv : e.sender = some v := hv
      rw [he.sender] at hv
      split at hv
      · rename_i hsd
        cases hx : fs.findSome? senderOf with
        | some v' =>
          rw [hx] at hv
          cases hv
          exact hsender v hx
        | none =>
          rw [hx, Option.none_or] at hv
          obtain ⟨l, hl1, hl2⟩ := Option.bind_eq_some_iff.1 hv
          refine ⟨(hfrom l hl1).1.2 v (List.mem_of_mem_head? (by rw [hl2]; rfl)), ?_⟩
          rintro _ ⟨⟩
          simp [Recognized, hsd]
      · cases hv
    · exact one (by intro f v hv; cases f <;> cases hv; rfl) v (he.replyTo ▸ hv)
    · exact one (by intro f v hv; cases f <;> cases hv; rfl) v (he.to ▸ hv)
    · exact one (by intro f v hv; cases f <;> cases hv; rfl) v (he.cc ▸ hv)
    · exact one (by intro f v hv; cases f <;> cases hv; rfl) v (he.bcc ▸ hv)
    · exact one (by intro f v hv; cases f <;> cases hv; rfl) v (he.messageId ▸ hv)
    · exact one (by intro f v hv; cases f <;> cases hv; rfl) v (he.inReplyTo ▸ hv)
    · exact one (by intro f v hv; cases f <;> cases hv; rfl) v (he.references ▸ hv)
    · exact one (by intro f v hv; cases f <;> cases hv; rfl) v (he.subject ▸ hv)
    · rw [he.comments] at hv
      obtain ⟨f, hf, hfv⟩ := List.mem_filterMap.1 hv
      refine hr.headers f hf _ ?_
      cases f <;> cases hfv
      rfl
    · have hv : x ∈ (if e.keywords = [] then [] else [MailHeader.keywords e.keywords]) := hv
      by_cases hk : e.keywords = []
      · rw [if_pos hk] at hv
        cases hv
      · rw [if_neg hk] at hv
        rw [List.mem_singleton.1 hv]
        have hkey : ∀ words ∈ e.keywords, UnicodePhrase c.feat.mime words ∧ Recognized c.feat (b! "keywords") := by
          intro words hw
          rw [he.keywords] at hw
          obtain ⟨f, hf, hfw⟩ := List.mem_flatMap.1 hw
          cases f <;> simp only [keywordsOf, List.not_mem_nil] at hfw
          have := hr.headers _ hf _ rfl
          exact ⟨this.1.2 _ hfw, this.2 _ rfl⟩
        obtain ⟨w, hw⟩ := List.exists_mem_of_ne_nil _ hk
        exact ⟨⟨hk, fun w hw => (hkey w hw).1⟩, by rintro _ ⟨⟩; exact (hkey w hw).2⟩
    · obtain ⟨r, hx, rfl⟩ := Option.map_eq_some_iff.1 hv
      have := hg r hx
      refine ⟨⟨this.type.name, this.type.subtype, paramsAt_unicode this.type.params⟩, ?_⟩
      rintro _ ⟨⟩
      simp [Recognized, this.mime]
    · obtain ⟨r, hx, hv⟩ := Option.bind_eq_some_iff.1 hv
      have := hg r hx
      refine ⟨this.id v hv, ?_⟩
      rintro _ ⟨⟩
      simp [Recognized, this.mime]
    · obtain ⟨r, hx, hv⟩ := Option.bind_eq_some_iff.1 hv
      have := hg r hx
      refine ⟨this.description v hv, ?_⟩
      rintro _ ⟨⟩
      simp [Recognized, this.mime]
    · obtain ⟨d, hd, rfl⟩ := Option.map_eq_some_iff.1 hv
      obtain ⟨r, hx, hd⟩ := Option.bind_eq_some_iff.1 hd
      have hd := (hg r hx).disposition d hd
      refine ⟨⟨hd.name, hd.filename, hd.creation, hd.modification, hd.read, paramsAt_unicode hd.params⟩, ?_⟩
      rintro _ ⟨⟩
      simp [Recognized, (hg r hx).mime]
    · have hv' := hv
      rw [he.unknownFields] at hv'
      obtain ⟨f, hf, hfv⟩ := List.mem_filterMap.1 hv'
      obtain ⟨h1, h2, h3⟩ := hr.others f hf v hfv
      exact ⟨⟨h1, h2, (hu v hv).1, h3⟩, by rintro _ ⟨⟩⟩
  have hval : (mimeLetterOf l e).Encodable c := by
    refine ⟨fun h hh => (headers h hh).1, fun h hh => (headers h hh).2, ?_, ?_, ?_, ?_, ?_, ?_, ?_, hb⟩
    · by_cases ht : c.feat.trace = true
      · exact .inr ht
      · left
        unfold mimeLetterOf letterOf
        dsimp only
        rw [he.trace, List.map_eq_nil_iff, List.filterMap_eq_nil_iff]
        intro f hf
        cases hx : traceOf f with
        | none => rfl
        | some t => exact absurd (hr.traces f hf t hx).1 ht
    · intro t ht
      obtain ⟨t', ht', rfl⟩ := List.mem_map.1 ht
      rw [he.trace] at ht'
      obtain ⟨f, hf, hft⟩ := List.mem_filterMap.1 ht'
      exact (hr.traces f hf t' hft).2
    · have := hr.separated
      rw [← he.trace] at this
      exact this
    · intro ht v hv
      exact (hu v hv).2 ht
    · intro hd hnone
      refine hmi "Date" (.inr (.inl ⟨rfl, hd, ?_⟩))
      exact List.findSome?_eq_none_iff.1 (edate ▸ hnone)
    · intro hd hnone
      refine hmi "From" (.inl ⟨rfl, hd, ?_⟩)
      exact List.findSome?_eq_none_iff.1 (efrom ▸ hnone)
    · intro hsd hnone
      exact absurd hnone (hasSender hsd)
  have hemail : (mimeLetterOf l e).email c.feat = e := by
    have h2 : (if c.feat.sender then e.sender.or (e.from.bind List.head?) else none) = e.sender := by
      split
      · rename_i hsd
        cases hx : e.sender with
        | none => exact absurd hx (hasSender hsd)
        | some v => rfl
      · rename_i hsd
        rw [he.sender, if_neg hsd]
    have h3 : (e.trace.map fun t => (⟨t.1, t.2.1, t.2.2⟩ : MailTrace)).map (fun t => (t.path, t.received, t.resent)) =
        e.trace := by
      rw [List.map_map]
      exact List.map_id _
    unfold Letter.email mimeLetterOf letterOf
    dsimp only
    rw [h2, h3]
    cases hm : c.feat.mime with
    | false =>
      have h1 : e.mimeEntity = none := he.noEntity hm
      cases e
      cases h1
      rfl
    | true =>
      obtain ⟨r, hx, -⟩ := he.entity hm
      have h1 := hg r hx
      have h4 : e.body = none := by rw [he.body, hm]; rfl
      have h5 : (typeAt l r).value = (r.mimeType, r.subtype, r.parameters) := by
        unfold typeAt MailType.value
        dsimp only
        rw [h1.type.type, h1.type.lower, paramsAt_value h1.type.params (hl r hx).1]
      have h6 : (r.disposition.map (dispositionAt l)).map MailDisposition.value = r.disposition := by
        cases hd : r.disposition with
        | none => rfl
        | some d =>
          have hd' := h1.disposition d hd
          simp only [Option.map_some, Option.some.injEq]
          unfold dispositionAt MailDisposition.value
          dsimp only
          rw [hd'.type, paramsAt_value hd'.params ((hl r hx).2 d hd)]
      have h7 := h1.additional
      cases e
      cases hx
      cases h4
      simp only [Option.map_some, Option.getD_some, Option.bind_some, Option.some_or, h5, h6, if_true]
      cases r
      cases h7
      rfl
  refine ⟨hval, hemail, ?_⟩
  have := C66_round_trip c hc _ hval
  rwa [hemail] at this

/-- The e-mails that can be read (and in which no unknown field has the name of a known one) are exactly those of the
messages that can be written. -/
theorem C67_image (hc : c.feat.compiles) (hs : 0 < c.stack) (e : Email) :
    ((∃ i, Email.parse c i = .ok e) ∧ AllUnderstood c.feat e) ↔ ∃ m : Letter, m.Encodable c ∧ m.email c.feat = e := by
  constructor
  · rintro ⟨⟨i, h⟩, hu⟩
    obtain ⟨l, hl⟩ := C67_listed hc hs i e h
    obtain ⟨h1, h2, -⟩ := C67_normal_form hc hs i e h hu l hl
    exact ⟨_, h1, h2⟩
  · rintro ⟨m, hm, rfl⟩
    refine ⟨⟨_, C66_round_trip c hc m hm⟩, fun v hv => ⟨?_, fun ht => hm.others ht v hv⟩⟩
    have : MailHeader.other v.1 v.2 ∈ m.headers := by
      unfold Letter.headers
      simp only [List.mem_append, List.mem_map]
      iterate 19 right
      exact ⟨v, hv, rfl⟩
    exact (hm.headers _ this).2.2.1

/-- Two messages are read as the same e-mail exactly if their canonical texts are the same. -/
theorem C67_same_text (hc : c.feat.compiles) (hs : 0 < c.stack) (i i' : Bytes) (e e' : Email)
    (h : Email.parse c i = .ok e) (h' : Email.parse c i' = .ok e') (hu : AllUnderstood c.feat e)
    (hu' : AllUnderstood c.feat e') (l : Listing) (hl : l.Of e) (hl' : l.Of e') :
    mimeCanonical c.feat l e = mimeCanonical c.feat l e' ↔ e = e' := by
  refine ⟨fun heq => ?_, fun heq => heq ▸ rfl⟩
  have h1 := (C67_normal_form hc hs i e h hu l hl).2.2
  have h2 := (C67_normal_form hc hs i' e' h' hu' l hl').2.2
  rw [heq, h2] at h1
  cases h1
  rfl

/-! A message in an unusual layout, with encoded words, segments of parameters and an encoded body; and its canonical
text. -/

def exampleMime : Bytes :=
  b! "from: =?UTF-8?Q?Zo=C3=AB?= (c) \"O'Neil\" <\"x\"@\r\n y>\r\nDATE: Wed, 01 jan 2020 00:00 -0130\r\n" ++
  b! "Subject: =?utf-8?q?=C3=A9?= =?utf-8?b?w6k=?= x\r\nTo: =?utf-8?b?w6k=?=:;\r\nMessage-id: <a..b@[c]>\r\n" ++
  b! "CONTENT-TYPE: Text/PLAIN; Title*1*=%C3%A9; a*b=\"c d\"; title*0*=UTF-8'en'na; Charset=utf-8\r\n" ++
  b! "Content-Disposition: Attachment; filename*0*=utf-8''%C3%A9; FILENAME=f; read-date=\"1 Jan 2020 00:00 +0000\"\r\n" ++
  b! "Content-Transfer-Encoding: Base64\r\n\r\nw6kN\r\nCg==\r\n"

def exampleMimeCanonical : Bytes :=
  b! "Date: Wed, 01 Jan 2020 00:00:00 -0130\r\nFrom: =?utf-8?b?Wm/Dqw==?= O'Neil <x@y>\r\n" ++
  b! "Sender: =?utf-8?b?Wm/Dqw==?= O'Neil <x@y>\r\nTo: =?utf-8?b?w6k=?=: ;\r\nMessage-ID: <a..b@c>\r\n" ++
  b! "Subject:=?utf-8?b?IMOpw6kgeA==?=\r\n" ++
  b! "Content-Type: text/plain; title*0*=utf-8''na%C3%A9; a*b=\"c d\"; charset=\"utf-8\"\r\n" ++
  b! "Content-Disposition: attachment; filename=\"f\"; read-date=\"01 Jan 2020 00:00:00 +0000\"; filename*0*=utf-8''%C3%A9\r\n" ++
  b! "\r\né\r\n"

/-- What can be said about a message by evaluation. -/
def mimeRewritten (i : Bytes) : Option (Bytes × List (Bytes × Bytes)) :=
  (outcomeValue (Email.parse (Cfg.concrete unicodeFeatures) i)).map fun e =>
    (mimeCanonical unicodeFeatures ⟨[b! "title", b! "a*b", b! "charset"], [b! "filename"]⟩ e, e.unknownFields)

theorem exampleMime_rewritten : mimeRewritten exampleMime = some (exampleMimeCanonical, []) := by decide +kernel

example : mimeRewritten exampleMimeCanonical = some (exampleMimeCanonical, []) := by decide +kernel

/-- The theorem applies to it. -/
example : ∃ e l, Email.parse (Cfg.concrete unicodeFeatures) exampleMime = .ok e ∧
    Email.parse (Cfg.concrete unicodeFeatures) (mimeCanonical unicodeFeatures l e) = .ok e := by
  have h := exampleMime_rewritten
  unfold mimeRewritten at h
  cases he : Email.parse (Cfg.concrete unicodeFeatures) exampleMime with
  | err => rw [he] at h; cases h
  | abort => rw [he] at h; cases h
  | ok e =>
    rw [he] at h
    simp only [outcomeValue, Option.map_some, Option.some.injEq, Prod.mk.injEq] at h
    have hc : (Cfg.concrete unicodeFeatures).feat.compiles := ⟨fun _ => rfl, fun _ => rfl⟩
    have hs : 0 < (Cfg.concrete unicodeFeatures).stack := by decide +kernel
    obtain ⟨l, hl⟩ := C67_listed hc hs _ e he
    exact ⟨e, l, rfl, (C67_normal_form hc hs _ e he (by unfold AllUnderstood; rw [h.2]; nofun) l hl).2.2⟩

end EmailParser
