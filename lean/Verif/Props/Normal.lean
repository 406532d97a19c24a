import Verif.Spec.Normal
import Verif.Proofs.Normal
import Verif.Props.PrintMessage
/-
C59: every e-mail that has been read can be written again in canonical form, and reads the same.
-/
namespace EmailParser
open Spec Gram

variable (c : Cfg)

/-- What is known about the fields of a message without MIME. -/
structure Readable (fs : List Field) : Prop where
  headers : ∀ f ∈ fs, ∀ h, headerFor f = some h → h.Valid c
  others : ∀ f ∈ fs, ∀ v, unknownOf f = some v →
    v.1 ≠ [] ∧ (∀ b ∈ v.1, ftext b = true) ∧ ValidText c.feat.unrecognizedHeaders v.2
  traces : ∀ f ∈ fs, ∀ t, traceOf f = some t → c.feat.trace = true ∧ (blockOf t).Valid c
  separated : Separated ((fs.filterMap traceOf).map blockOf)

variable {c}

theorem gives_optionalField (hu : c.feat.unrecognizedHeaders = false) :
    Gives (fun v => v.1 ≠ [] ∧ (∀ b ∈ v.1, ftext b = true) ∧ ValidText c.feat.unrecognizedHeaders v.2)
      (OptionalField c) :=
  gives_bind (P := fun n => n ≠ [] ∧ ∀ b ∈ n, ftext b = true) (by rintro w v ⟨rfl, h⟩; exact h) fun _ h =>
    gives_then fun _ => gives_bind (P := ValidText c.feat.unrecognizedHeaders)
      (by unfold TextValue; rw [hu]; exact gives_unstructured) fun _ h' =>
      gives_then fun _ => gives_pure ⟨h.1, h.2, h'⟩

theorem readable_of (hc : c.feat.compiles) (hm : c.feat.mime = false) (hl : c.feat.compatibilityFixes = false)
    (hs : 0 < c.stack) {i r : Bytes} {fs : List Field} (h : fields c i = .ok (r, fs)) : Readable c fs := by
  have hu : c.feat.unrecognizedHeaders = false := by
    cases hx : c.feat.unrecognizedHeaders with
    | false => rfl
    | true => rw [hc.2 hx] at hm; cases hm
  unfold fields at h
  obtain ⟨⟨r1, ts⟩, h1, h⟩ := bind_eq_ok.1 h
  obtain ⟨⟨r2, us⟩, h2, h⟩ := bind_eq_ok.1 h
  cases h
  obtain ⟨w1, -, g1⟩ := (traces_parses (c := c) i).of_ok h1
  obtain ⟨w2, -, g2⟩ := (many_parses field_progress (field_parses (c := c)) r1).of_ok h2
  have ht : ∀ f ∈ ts, c.feat.trace = true ∧ ∃ t, traceOf f = some t ∧ (blockOf t).Valid c := by
    intro f hf
    unfold TraceBlocks at g1
    split at g1
    · rename_i h
      exact ⟨h, gives_star (gives_traceBlock hm hl hs) _ _ g1 f hf⟩
    · obtain ⟨-, rfl⟩ := g1; cases hf
  have hus : ∀ f ∈ us, ∃ w, FieldG c w f := gives_star (P := fun f => ∃ w, FieldG c w f) (fun w _ h => ⟨w, h⟩) _ _ g2
  refine ⟨?_, ?_, ?_, ?_⟩
  · intro f hf x hx
    rcases List.mem_append.1 hf with hf | hf
    · obtain ⟨-, t, ht, -⟩ := ht f hf
      cases f <;> simp [traceOf, headerFor] at ht hx
    · obtain ⟨w, hw⟩ := hus f hf
      exact gives_field hm hl hs w f hw x hx
  · intro f hf x hx
    rcases List.mem_append.1 hf with hf | hf
    · obtain ⟨-, t, ht, -⟩ := ht f hf
      cases f <;> simp [traceOf, unknownOf] at ht hx
    · obtain ⟨w, hw⟩ := hus f hf
      cases f <;> simp only [unknownOf, Option.some.injEq, reduceCtorEq] at hx
      subst hx
      exact gives_optionalField hu w _ hw
  · intro f hf x hx
    rcases List.mem_append.1 hf with hf | hf
    · obtain ⟨h1, t, ht, hv⟩ := ht f hf
      rw [ht] at hx
      cases hx
      exact ⟨h1, hv⟩
    · obtain ⟨w, hw⟩ := hus f hf
      cases f <;> simp only [traceOf, Option.some.injEq, reduceCtorEq] at hx
      exact hw.elim
  · have h0 : us.filterMap traceOf = [] := by
      rw [List.filterMap_eq_nil_iff]
      intro f hf
      obtain ⟨w, hw⟩ := hus f hf
      cases f <;> first | rfl | exact hw.elim
    rw [List.filterMap_append, h0, List.append_nil]
    unfold traces at h1
    split at h1
    · exact (blocks_separated h1).1
    · cases h1; trivial

/-- An e-mail without MIME that has been read is written canonically as a message that can be written and that is
read as the same e-mail. -/
theorem C59_normal_form (hc : c.feat.compiles) (hm : c.feat.mime = false)
    (hl : c.feat.compatibilityFixes = false) (hs : 0 < c.stack) (i : Bytes) (e : Email)
    (h : Email.parse c i = .ok e) (hu : AllUnderstood c.feat e) :
    (letterOf e).Valid c ∧ (letterOf e).email c.feat = e ∧ Email.parse c (canonical e) = .ok e := by
  obtain ⟨fs, b, hp, hmsg, hn, hmi, he⟩ := parse_ok c hc h
  have hr : Readable c fs := by
    unfold parseMessage at hp
    obtain ⟨⟨r, fs'⟩, h1, h2⟩ := bind_eq_ok.1 hp
    rw [hm] at h2
    simp only [Bool.false_eq_true, if_false] at h2
    obtain ⟨b', -, h3⟩ := bind_eq_ok.1 h2
    cases h3
    exact readable_of hc hm hl hs h1
  have hb : ∀ b', e.body = some b' → Body b' := by
    intro b' hb'
    rw [he.body, hm] at hb'
    subst hb'
    obtain ⟨_, _, _, -, -, h | ⟨_, _, _, -, -, h, hb⟩⟩ := hmsg
    · cases h.2
    · cases h; exact hb hm
  have one : ∀ {α : Type} {g : Field → Option α} {mk : α → MailHeader},
      (∀ f v, g f = some v → headerFor f = some (mk v)) → ∀ v, fs.findSome? g = some v → (mk v).Valid c := by
    intro α g mk hg v hv
    obtain ⟨f, hf, hfv⟩ := List.exists_of_findSome?_eq_some hv
    exact hr.headers f hf _ (hg f v hfv)
  have hfrom : ∀ v, fs.findSome? fromOf = some v → (MailHeader.from v).Valid c :=
    one (by intro f v hv; cases f <;> cases hv; rfl)
  have hdate : ∀ v, fs.findSome? dateOf = some v → (MailHeader.date v).Valid c :=
    one (by intro f v hv; cases f <;> cases hv; rfl)
  have hsender : ∀ v, fs.findSome? senderOf = some v → (MailHeader.sender v).Valid c :=
    one (by intro f v hv; cases f <;> cases hv; rfl)
  have efrom : e.from = fs.findSome? fromOf := by
    rw [he.from]
    split
    · rfl
    · rename_i hf
      cases hx : fs.findSome? fromOf with
      | none => rfl
      | some v =>
        have := (hfrom v hx).2 _ rfl
        simp [Recognized, hf] at this
  have edate : e.date = fs.findSome? dateOf := by
    rw [he.date]
    split
    · rfl
    · rename_i hf
      cases hx : fs.findSome? dateOf with
      | none => rfl
      | some v =>
        have := (hdate v hx).2 _ rfl
        simp [Recognized, hf] at this
  have hasSender : c.feat.sender = true → e.sender ≠ none := by
    intro hsd hnone
    rw [he.sender, hsd, if_pos rfl, Option.or_eq_none_iff] at hnone
    refine hmi "Sender" (.inr (.inr ⟨rfl, hsd, List.findSome?_eq_none_iff.1 hnone.1, ?_⟩))
    intro f hf authors ha hlen
    cases hx : fs.findSome? fromOf with
    | none => rw [List.findSome?_eq_none_iff.1 hx f hf] at ha; cases ha
    | some v =>
      rw [hx] at hnone
      have hv := (hfrom v hx).1.1
      cases v with
      | nil => exact hv rfl
      | cons => cases hnone.2
  have hval : (letterOf e).Valid c := by
    refine ⟨?_, ?_, ?_, ?_, ?_, ?_, ?_, ?_, ?_⟩
    · intro x hx
      simp only [letterOf, Letter.headers, Option.toList_none, List.map_nil, List.nil_append, List.mem_append,
        List.mem_map, Option.mem_toList] at hx
      rcases hx with ⟨v, hv, rfl⟩ | ⟨v, hv, rfl⟩ | ⟨v, hv, rfl⟩ | ⟨v, hv, rfl⟩ | ⟨v, hv, rfl⟩ | ⟨v, hv, rfl⟩ |
        ⟨v, hv, rfl⟩ | ⟨v, hv, rfl⟩ | ⟨v, hv, rfl⟩ | ⟨v, hv, rfl⟩ | ⟨v, hv, rfl⟩ | ⟨v, hv, rfl⟩ | hv | ⟨v, hv, rfl⟩
      · exact hdate v (edate ▸ hv)
      · exact hfrom v (efrom ▸ hv)
      · have hv : e.sender = some v := hv
        rw [he.sender] at hv
        split at hv
        · rename_i hsd
          cases hx : fs.findSome? senderOf with
          | some v' =>
            rw [hx] at hv
            cases hv
            exact hsender v hx
          | none =>
            rw [hx, Option.none_or] at hv
            obtain ⟨l, hl1, hl2⟩ := Option.bind_eq_some_iff.1 hv
            refine ⟨(hfrom l hl1).1.2 v (List.mem_of_mem_head? (by rw [hl2]; rfl)), ?_⟩
            rintro _ ⟨⟩
            simp [Recognized, hsd]
        · cases hv
      · exact one (by intro f v hv; cases f <;> cases hv; rfl) v (he.replyTo ▸ hv)
      · exact one (by intro f v hv; cases f <;> cases hv; rfl) v (he.to ▸ hv)
      · exact one (by intro f v hv; cases f <;> cases hv; rfl) v (he.cc ▸ hv)
      · exact one (by intro f v hv; cases f <;> cases hv; rfl) v (he.bcc ▸ hv)
      · exact one (by intro f v hv; cases f <;> cases hv; rfl) v (he.messageId ▸ hv)
      · exact one (by intro f v hv; cases f <;> cases hv; rfl) v (he.inReplyTo ▸ hv)
      · exact one (by intro f v hv; cases f <;> cases hv; rfl) v (he.references ▸ hv)
      · exact one (by intro f v hv; cases f <;> cases hv; rfl) v (he.subject ▸ hv)
      · rw [he.comments] at hv
        obtain ⟨f, hf, hfv⟩ := List.mem_filterMap.1 hv
        refine hr.headers f hf _ ?_
        cases f <;> cases hfv
        rfl
      · have hv : x ∈ (if e.keywords = [] then [] else [MailHeader.keywords e.keywords]) := hv
        by_cases hk : e.keywords = []
        · rw [if_pos hk] at hv
          cases hv
        · rw [if_neg hk] at hv
          rw [List.mem_singleton.1 hv]
          have hkey : ∀ words ∈ e.keywords, ValidPhrase words ∧ Recognized c.feat (b! "keywords") := by
            intro words hw
            rw [he.keywords] at hw
            obtain ⟨f, hf, hfw⟩ := List.mem_flatMap.1 hw
            cases f <;> simp only [keywordsOf, List.not_mem_nil] at hfw
            have := hr.headers _ hf _ rfl
            exact ⟨this.1.2 _ hfw, this.2 _ rfl⟩
          obtain ⟨w, hw⟩ := List.exists_mem_of_ne_nil _ hk
          exact ⟨⟨hk, fun w hw => (hkey w hw).1⟩, by rintro _ ⟨⟩; exact (hkey w hw).2⟩
      · have hv' := hv
        rw [he.unknownFields] at hv'
        obtain ⟨f, hf, hfv⟩ := List.mem_filterMap.1 hv'
        obtain ⟨h1, h2, h3⟩ := hr.others f hf v hfv
        exact ⟨⟨h1, h2, (hu v hv).1, h3⟩, by rintro _ ⟨⟩⟩
    · by_cases ht : c.feat.trace = true
      · exact .inr ht
      · left
        unfold letterOf
        dsimp only
        rw [he.trace, List.map_eq_nil_iff, List.filterMap_eq_nil_iff]
        intro f hf
        cases hx : traceOf f with
        | none => rfl
        | some t => exact absurd (hr.traces f hf t hx).1 ht
    · intro t ht
      obtain ⟨t', ht', rfl⟩ := List.mem_map.1 ht
      rw [he.trace] at ht'
      obtain ⟨f, hf, hft⟩ := List.mem_filterMap.1 ht'
      exact (hr.traces f hf t' hft).2
    · have := hr.separated
      rw [← he.trace] at this
      exact this
    · intro ht v hv
      exact (hu v hv).2 ht
    · intro hd hnone
      refine hmi "Date" (.inr (.inl ⟨rfl, hd, ?_⟩))
      exact List.findSome?_eq_none_iff.1 (edate ▸ hnone)
    · intro hd hnone
      refine hmi "From" (.inl ⟨rfl, hd, ?_⟩)
      exact List.findSome?_eq_none_iff.1 (efrom ▸ hnone)
    · intro hsd hnone
      exact absurd hnone (hasSender hsd)
    · intro _ b' hb'
      exact hb b' hb'
  have hemail : (letterOf e).email c.feat = e := by
    have h1 : e.mimeEntity = none := he.noEntity hm
    have h2 : (if c.feat.sender then e.sender.or (e.from.bind List.head?) else none) = e.sender := by
      split
      · rename_i hsd
        cases hx : e.sender with
        | none => exact absurd hx (hasSender hsd)
        | some v => rfl
      · rename_i hsd
        rw [he.sender, if_neg hsd]
    have h3 : (e.trace.map fun t => (⟨t.1, t.2.1, t.2.2⟩ : MailTrace)).map (fun t => (t.path, t.received, t.resent)) =
        e.trace := by
      rw [List.map_map]
      exact List.map_id _
    unfold Letter.email letterOf
    dsimp only
    rw [h2, h3, hm]
    cases e
    cases h1
    rfl
  refine ⟨hval, hemail, ?_⟩
  have := C51_round_trip c hc _ hval
  rwa [hemail] at this

/-- Two messages are read as the same e-mail exactly if their canonical texts are the same. -/
theorem C59_same_text (hc : c.feat.compiles) (hm : c.feat.mime = false)
    (hl : c.feat.compatibilityFixes = false) (hs : 0 < c.stack) (i i' : Bytes) (e e' : Email)
    (h : Email.parse c i = .ok e) (h' : Email.parse c i' = .ok e') (hu : AllUnderstood c.feat e)
    (hu' : AllUnderstood c.feat e') : canonical e = canonical e' ↔ e = e' := by
  refine ⟨fun heq => ?_, fun heq => heq ▸ rfl⟩
  have h1 := (C59_normal_form hc hm hl hs i e h hu).2.2
  have h2 := (C59_normal_form hc hm hl hs i' e' h' hu').2.2
  rw [heq, h2] at h1
  cases h1
  rfl

/-- Writing canonically a second time changes nothing. -/
theorem C59_idempotent (hc : c.feat.compiles) (hm : c.feat.mime = false)
    (hl : c.feat.compatibilityFixes = false) (hs : 0 < c.stack) (i : Bytes) (e e' : Email)
    (h : Email.parse c i = .ok e) (hu : AllUnderstood c.feat e) (h' : Email.parse c (canonical e) = .ok e') :
    canonical e' = canonical e := by
  rw [(C59_normal_form hc hm hl hs i e h hu).2.2] at h'
  cases h'
  rfl

/-- The condition on unknown fields cannot be left out: `To: a@b`, followed by a space, is an unknown field (C29);
written again, without the space, it is a `To` header. -/
theorem C59_condition_needed :
    ∃ i e e', Email.parse (Cfg.concrete .default) i = .ok e ∧
      Email.parse (Cfg.concrete .default) (canonical e) = .ok e' ∧ e.to = none ∧ e'.to ≠ none := by
  have h : (outcomeValue (Email.parse (Cfg.concrete .default)
      (b! "From: a@b\r\nDate: 1 Jan 2020 00:00 +0000\r\nTo: a@b \r\n"))).map (fun e => (e.to,
        (outcomeValue (Email.parse (Cfg.concrete .default) (canonical e))).map (·.to.isSome))) =
        some (none, some true) := by decide +kernel
  cases he : Email.parse (Cfg.concrete .default)
      (b! "From: a@b\r\nDate: 1 Jan 2020 00:00 +0000\r\nTo: a@b \r\n") with
  | err => rw [he] at h; cases h
  | abort => rw [he] at h; cases h
  | ok e =>
    rw [he] at h
    simp only [outcomeValue, Option.map_some, Option.some.injEq, Prod.mk.injEq] at h
    cases he' : Email.parse (Cfg.concrete .default) (canonical e) with
    | err => rw [he'] at h; cases h.2
    | abort => rw [he'] at h; cases h.2
    | ok e' =>
      rw [he'] at h
      refine ⟨_, e, e', he, he', h.1, fun hn => ?_⟩
      have := h.2
      simp [hn] at this

/-! A message in an unusual layout, and its canonical text. -/

def exampleUnusual : Bytes :=
  b! "RETURN-PATH:<>\r\nReceived: (c) by [1 2] a.b;1 Jan 2020 00:00 +0000\r\nResent-to: g:;\r\n" ++
  b! "keywords: a ,\"b c\"\r\nfrom:(x)\"A\" <\"x\"@\r\n y>\r\nDATE: Wed, 01 jan 2020 00:00 -0130\r\n" ++
  b! "X: a\r\n\tb  \r\nKeywords: d\r\nBcc:(a(b))\r\n\r\nHi\r\n"

def exampleCanonical : Bytes :=
  b! "Return-Path: <>\r\nReceived: by [12] a.b; 01 Jan 2020 00:00:00 +0000\r\nResent-To: g: ;\r\n" ++
  b! "Date: Wed, 01 Jan 2020 00:00:00 -0130\r\nFrom: A <x@y>\r\nSender: A <x@y>\r\nBcc: ()\r\n" ++
  b! "Keywords: a, \"b c\", d\r\nX: a\tb\r\n\r\nHi\r\n"

/-- What can be said about a message by evaluation. -/
def rewritten (i : Bytes) : Option (Bytes × List Bytes) :=
  (outcomeValue (Email.parse (Cfg.concrete .default) i)).map fun e => (canonical e, e.unknownFields.map (·.1))

theorem exampleUnusual_rewritten : rewritten exampleUnusual = some (exampleCanonical, [b! "X"]) := by
  decide +kernel

example : ∃ e, Email.parse (Cfg.concrete .default) exampleUnusual = .ok e ∧
    Email.parse (Cfg.concrete .default) exampleCanonical = .ok e := by
  have h := exampleUnusual_rewritten
  unfold rewritten at h
  cases he : Email.parse (Cfg.concrete .default) exampleUnusual with
  | err => rw [he] at h; cases h
  | abort => rw [he] at h; cases h
  | ok e =>
    rw [he] at h
    simp only [outcomeValue, Option.map_some, Option.some.injEq, Prod.mk.injEq] at h
    refine ⟨e, rfl, h.1 ▸ (C59_normal_form ⟨fun _ => rfl, by decide +kernel⟩ rfl rfl (by decide +kernel) _ e he ?_).2.2⟩
    intro v hv
    have hn : v.1 = b! "X" := by
      have := List.mem_map_of_mem (f := (·.1)) hv
      rw [h.2] at this
      simpa using this
    rw [hn]
    refine ⟨?_, fun _ => by decide +kernel⟩
    simp [Recognized]

end EmailParser
