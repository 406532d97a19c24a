import Verif.Spec.NormalPart
import Verif.Props.NormalMime
import Verif.Props.Part
/-
C68: every part that has been read can be written again, and reads the same; parts that have been read, from any
messages, can be put together in a new message.
-/
namespace EmailParser
open Spec Gram

variable (c : Cfg)

theorem partEncodable_layout {h : MailHeader} (hv : h.PartEncodable c) (e : EntityHeader)
    (he : partField e = h.field) : PartHeaderL c (h.unicode c.feat) e := by
  unfold MailHeader.unicode
  cases h with
  | other n v =>
    cases e <;> cases he
    obtain ⟨h1, h2, h3, h4⟩ := hv
    exact .other h1 h2 h3 (unicodeText_layout h4)
  | contentType v =>
    have := unicodeValue_layout (c := c) (h := .contentType v) rfl hv
    rw [← he] at this
    exact .known (by rw [he]; rfl) this.2 this.1
  | contentTransferEncoding v =>
    have := unicodeValue_layout (c := c) (h := .contentTransferEncoding v) rfl hv
    rw [← he] at this
    exact .known (by rw [he]; rfl) this.2 this.1
  | contentId v =>
    have := unicodeValue_layout (c := c) (h := .contentId v) rfl hv
    rw [← he] at this
    exact .known (by rw [he]; rfl) this.2 this.1
  | contentDescription v =>
    have := unicodeValue_layout (c := c) (h := .contentDescription v) rfl hv
    rw [← he] at this
    exact .known (by rw [he]; rfl) this.2 this.1
  | contentDisposition v =>
    have := unicodeValue_layout (c := c) (h := .contentDisposition v) rfl hv
    rw [← he] at this
    exact .known (by rw [he]; rfl) this.2 this.1
  | _ => cases e <;> cases he

theorem unicodeHeaders_layout (hs : List MailHeader) (hv : ∀ h ∈ hs, h.PartEncodable c) (es : List EntityHeader)
    (he : es.map partField = hs.map MailHeader.field) :
    LinesL (PartHeaderL c) (hs.flatMap (MailHeader.unicode c.feat)) es := by
  induction hs generalizing es with
  | nil =>
    cases es with
    | nil => exact .nil
    | cons e es => cases he
  | cons h hs ih =>
    cases es with
    | nil => cases he
    | cons e es =>
      simp only [List.map_cons, List.cons.injEq] at he
      exact .cons (partEncodable_layout c (hv h (by simp)) e he.1) (ih (fun h hh => hv h (by simp [hh])) es he.2)

/-- Writing any part, with encoded words and encoded parameters for what cannot be written as it is, and reading it gives
back that part. -/
theorem C68_round_trip (p : MailPart) (hv : p.Encodable c) : rawEntity c (p.unicode c.feat) = .ok p.entity := by
  have h : PartL c (p.unicode c.feat) (partHeaders p) (encodeBody p.encoding p.body) :=
    ⟨_, _, rfl, unicodeHeaders_layout c _ hv _ (partHeaders_field p), .body⟩
  rw [partL_rawEntity h, partEncoding_part, decodeValue_encodeBody]
  · exact congrArg Outcome.ok (partValue_part p p.body)
  · intro name he
    exact hv (.contentTransferEncoding (.unknown name)) (by simp [MailPart.headers, he]) name rfl

variable {c}

/-- What is known about a part that has been read. -/
structure PartGood (c : Cfg) (r : RawEntity) : Prop where
  type : TypeGood (r.mimeType, r.subtype, r.parameters)
  id : ∀ v, r.id = some v → UnicodeId c.feat.compatibilityFixes v
  description : ∀ v, r.description = some v → Utf8 v
  disposition : ∀ v, r.disposition = some v → DispositionGood v
  others : ∀ v ∈ r.additionalHeaders, v.1 ≠ [] ∧ (∀ b ∈ v.1, ftext b = true) ∧
    UnicodeText c.feat.unrecognizedHeaders v.2

/-- What is known about a header of a part. -/
def PartHeaderGood (c : Cfg) : EntityHeader → Prop
  | .encoding _ => True
  | .type v => TypeGood v
  | .id v => UnicodeId c.feat.compatibilityFixes v
  | .description v => Utf8 v
  | .disposition v => DispositionGood v
  | .other name value => name ≠ [] ∧ (∀ b ∈ name, ftext b = true) ∧ UnicodeText c.feat.unrecognizedHeaders value

theorem gives_partHeader (hc : c.feat.compiles) (hm : c.feat.mime = true) :
    Gives (PartHeaderGood c) (EntityHeaderG c) := by
  intro w h hw
  cases h with
  | encoding v => trivial
  | type v => exact gives_headerLine (gives_typeGood hm) w v hw
  | id v => exact gives_headerLine gives_unicodeId w v hw
  | description v => exact gives_headerLine (ens_mimeUnstructured (strOk_utf8 c) hm).gives w v hw
  | disposition v => exact gives_headerLine (gives_dispositionGood hm) w v hw
  | other n v => exact gives_unicodeOptional hc w (n, v) hw

theorem partGood_of (hc : c.feat.compiles) (hm : c.feat.mime = true) {i : Bytes} {r : RawEntity}
    (h : rawEntity c i = .ok r) : PartGood c r := by
  obtain ⟨hs, body, v, ⟨head, hh, -⟩, -, rfl⟩ := (rawEntity_sat hm i).of_ok h
  have hg := gives_star (gives_partHeader hc hm) _ _ hh
  rw [entityOf_partValue]
  have last : ∀ {α : Type} {kind : EntityHeader → Option α} {x : α}, lastOf kind hs = some x →
      ∃ y, PartHeaderGood c y ∧ kind y = some x := by
    intro α kind x h
    obtain ⟨y, hy, e⟩ := List.mem_filterMap.1 (List.mem_of_getLast? h)
    exact ⟨y, hg y hy, e⟩
  refine ⟨?_, ?_, ?_, ?_, ?_⟩
  · show TypeGood ((lastOf typeOf hs).getD plainText)
    cases hx : lastOf typeOf hs with
    | none => exact plainText_good
    | some t =>
      obtain ⟨y, hy, e⟩ := last hx
      cases y <;> cases e
      exact hy
  · intro x hx
    obtain ⟨y, hy, e⟩ := last hx
    cases y <;> cases e
    exact hy
  · intro x hx
    obtain ⟨y, hy, e⟩ := last hx
    cases y <;> cases e
    exact hy
  · intro x hx
    obtain ⟨y, hy, e⟩ := last hx
    cases y <;> cases e
    exact hy
  · intro x hx
    obtain ⟨y, hy, e⟩ := List.mem_filterMap.1 hx
    have := hg y hy
    cases y <;> cases e
    exact this

/-- The parameters of a part that has been read have finitely many names, so they can be listed. -/
theorem C68_listed (hc : c.feat.compiles) (hm : c.feat.mime = true) (i : Bytes) (r : RawEntity)
    (h : rawEntity c i = .ok r) : ∃ l : Listing, l.OfPart r := by
  have hg := partGood_of hc hm h
  obtain ⟨names, hn⟩ := hg.type.params.listed
  cases hd : r.disposition with
  | none => exact ⟨⟨names, []⟩, hn, fun d h => by rw [hd] at h; cases h⟩
  | some d =>
    obtain ⟨names', hn'⟩ := (hg.disposition d hd).params.listed
    refine ⟨⟨names, names'⟩, hn, fun d' h => ?_⟩
    rw [hd] at h
    cases h
    exact hn'

/-- A part that has been read is written as a part that can be written and that is read as the same part. -/
theorem C68_normal_form (hc : c.feat.compiles) (hm : c.feat.mime = true) (i : Bytes) (r : RawEntity)
    (h : rawEntity c i = .ok r) (hu : PartUnderstood r) (l : Listing) (hl : l.OfPart r) :
    (partOf l r).Encodable c ∧ (partOf l r).entity = r ∧ rawEntity c ((partOf l r).unicode c.feat) = .ok r := by
  have hg := partGood_of hc hm h
  have h1 : (partOf l r).Encodable c := by
    intro x hx
    simp only [partOf, MailPart.headers, Option.toList_none, Option.toList_some, List.map_nil, List.map_cons,
      List.nil_append, List.mem_append, List.mem_map, Option.mem_toList, List.mem_singleton] at hx
    rcases hx with rfl | ⟨v, hv, rfl⟩ | ⟨v, hv, rfl⟩ | ⟨v, hv, rfl⟩ | ⟨v, hv, rfl⟩
    · exact ⟨hg.type.name, hg.type.subtype, paramsAt_unicode hg.type.params⟩
    · exact hg.id v hv
    · exact hg.description v hv
    · obtain ⟨d, hd, rfl⟩ := Option.map_eq_some_iff.1 hv
      have hd := hg.disposition d hd
      exact ⟨hd.name, hd.filename, hd.creation, hd.modification, hd.read, paramsAt_unicode hd.params⟩
    · obtain ⟨h1, h2, h3⟩ := hg.others v hv
      exact ⟨h1, h2, hu v hv, h3⟩
  have h2 : (partOf l r).entity = r := by
    have h5 : (typeAt l r).value = (r.mimeType, r.subtype, r.parameters) := by
      unfold typeAt MailType.value
      dsimp only
      rw [hg.type.type, hg.type.lower, paramsAt_value hg.type.params hl.1]
    have h6 : (r.disposition.map (dispositionAt l)).map MailDisposition.value = r.disposition := by
      cases hd : r.disposition with
      | none => rfl
      | some d =>
        have hd' := hg.disposition d hd
        simp only [Option.map_some, Option.some.injEq]
        unfold dispositionAt MailDisposition.value
        dsimp only
        rw [hd'.type, paramsAt_value hd'.params (hl.2 d hd)]
    unfold MailPart.entity partOf
    simp only [Option.map_some, Option.getD_some, h5, h6]
  refine ⟨h1, h2, ?_⟩
  rw [C68_round_trip c _ h1, h2]

/-- The parts that can be read (and in which no additional header has the name of one with a meaning) are exactly those
of the parts that can be written. -/
theorem C68_image (hc : c.feat.compiles) (hm : c.feat.mime = true) (r : RawEntity) :
    ((∃ i, rawEntity c i = .ok r) ∧ PartUnderstood r) ↔ ∃ p : MailPart, p.Encodable c ∧ p.entity = r := by
  constructor
  · rintro ⟨⟨i, h⟩, hu⟩
    obtain ⟨l, hl⟩ := C68_listed hc hm i r h
    obtain ⟨h1, h2, -⟩ := C68_normal_form hc hm i r h hu l hl
    exact ⟨_, h1, h2⟩
  · rintro ⟨p, hp, rfl⟩
    refine ⟨⟨_, C68_round_trip c p hp⟩, fun v hv => ?_⟩
    have : MailHeader.other v.1 v.2 ∈ p.headers := by
      unfold MailPart.headers
      simp only [List.mem_append, List.mem_map]
      iterate 5 right
      exact ⟨v, hv, rfl⟩
    exact (hp _ this).2.2.1

theorem withParts_headers {f : Features} {m : Letter} {boundary : Bytes} {first : MailPart} {others : List MailPart}
    {h : MailHeader} (hh : h ∈ (m.withParts f boundary first others).headers) :
    h ∈ m.headers ∨ h = .contentType ⟨b! "multipart", b! "mixed", [(b! "boundary", boundary)]⟩ := by
  simp only [Letter.headers, Letter.withParts, List.mem_append, Option.toList_some, List.map_cons, List.map_nil,
    List.mem_singleton] at hh ⊢
  grind

/-- Parts that can be written, put together as the body of a message with a boundary that is in none of them, are read as
these parts; the other headers of the message are as before. -/
theorem C68_message (hc : c.feat.compiles) (hm : c.feat.mime = true) (m : Letter) (hv : m.Encodable c)
    (boundary : Bytes) (hb : Spec.Printable boundary) (first : MailPart) (others : List MailPart)
    (hp : ∀ p ∈ first :: others, p.Encodable c ∧ NoBoundaryLine boundary (p.unicode c.feat)) :
    ∃ email raw, Email.parse c ((m.withParts c.feat boundary first others).unicode c.feat) = .ok email ∧
      email = { m.email c.feat with mimeEntity := some raw } ∧
      raw.parse c = .ok (.multipart (b! "mixed") ((first :: others).map MailPart.entity)) := by
  have he : (m.withParts c.feat boundary first others).Encodable c := by
    refine ⟨fun h hh => ?_, fun h hh name hn => ?_, hv.trace, hv.traces, hv.separated, hv.others, hv.date, hv.from,
      hv.sender, fun h => by rw [hm] at h; cases h⟩
    · rcases withParts_headers hh with hh | rfl
      · exact hv.headers h hh
      · refine ⟨⟨by simp, ?_, .inl ?_⟩, ⟨by simp, ?_⟩, ?_, ?_⟩
        iterate 3
          dsimp only
          decide +kernel
        · intro p hp
          rw [List.mem_singleton] at hp
          subst hp
          exact ⟨by simp, by dsimp only; decide +kernel, printable_utf8 hb,
            fun h => absurd h (by dsimp only; decide +kernel)⟩
        · intro p hp q hq _
          rw [List.mem_singleton] at hp hq
          rw [hp, hq]
    · rcases withParts_headers hh with hh | rfl
      · exact hv.recognized h hh name hn
      · cases hn
        unfold Recognized
        simp [hm]
  have hcr : (13 : UInt8) ∉ boundary := fun h => absurd (hb 13 h) (by decide +kernel)
  have h := C66_round_trip c hc _ he
  obtain ⟨raw, h1, h2, h3, h4, h5⟩ : ∃ raw, (m.withParts c.feat boundary first others).email c.feat =
        { m.email c.feat with mimeEntity := some raw } ∧ raw.mimeType = .multipart ∧ raw.subtype = b! "mixed" ∧
      raw.parameters (b! "boundary") = some boundary ∧
      raw.value = joinParts boundary none (first.unicode c.feat) (others.map (MailPart.unicode c.feat)) [] := by
    unfold Letter.email Letter.withParts
    simp only [hm, if_true]
    refine ⟨_, rfl, ?_⟩
    refine ⟨?_, ?_, ?_, rfl⟩
    · rfl
    · rfl
    · rfl
  refine ⟨_, raw, h, h1, ?_⟩
  rw [← h3]
  refine C40_parse_join c raw boundary none (first.unicode c.feat) (others.map (MailPart.unicode c.feat)) [] hcr nofun
    ?_ ?_ h2 h4 h5 _ ?_
  · intro x hx
    rw [← List.map_cons (f := MailPart.unicode c.feat)] at hx
    obtain ⟨p, hpp, rfl⟩ := List.mem_map.1 hx
    exact (hp p hpp).2
  · intro h
    have := h.length_le
    simp [dashBoundary, CRLF] at this
  · rw [← List.map_cons (f := MailPart.unicode c.feat), List.map_map, List.map_map]
    exact List.map_congr_left fun p hpp => C68_round_trip c p (hp p hpp).1

theorem written_parts (hc : c.feat.compiles) (hm : c.feat.mime = true) (rs : List RawEntity)
    (h : ∀ r ∈ rs, (∃ i, rawEntity c i = .ok r) ∧ PartUnderstood r) :
    ∃ ps : List MailPart, (∀ p ∈ ps, p.Encodable c) ∧ ps.map MailPart.entity = rs := by
  induction rs with
  | nil => exact ⟨[], by simp, rfl⟩
  | cons r rs ih =>
    obtain ⟨ps, h1, h2⟩ := ih fun r hr => h r (by simp [hr])
    obtain ⟨p, h3, h4⟩ := (C68_image hc hm r).1 (h r (by simp))
    refine ⟨p :: ps, ?_, by simp [h2, h4]⟩
    intro x hx
    rcases List.mem_cons.1 hx with rfl | hx
    · exact h3
    · exact h1 x hx

/-- Any parts that have been read, in any messages, can be put together: any message can be given a body that is read as
exactly these parts. -/
theorem C68_recombine (hc : c.feat.compiles) (hm : c.feat.mime = true) (m : Letter) (hv : m.Encodable c)
    (r : RawEntity) (rs : List RawEntity)
    (h : ∀ x ∈ r :: rs, (∃ i, rawEntity c i = .ok x) ∧ PartUnderstood x) :
    ∃ text raw, Email.parse c text = .ok { m.email c.feat with mimeEntity := some raw } ∧
      raw.parse c = .ok (.multipart (b! "mixed") (r :: rs)) := by
  obtain ⟨ps, h1, h2⟩ := written_parts hc hm _ h
  cases ps with
  | nil => cases h2
  | cons p ps =>
    obtain ⟨boundary, -, h3, h4⟩ := C55_boundary_exists ((p :: ps).map (MailPart.unicode c.feat))
    have hb : Spec.Printable boundary := by
      intro b hb
      have := h3 b hb
      revert this
      clear h3 hb
      revert b
      decide +kernel
    obtain ⟨email, raw, h5, rfl, h6⟩ := C68_message hc hm m hv boundary hb p ps
      fun x hx => ⟨h1 x hx, h4 _ (List.mem_map.2 ⟨x, hx, rfl⟩)⟩
    exact ⟨_, raw, h5, by rw [h6, h2]⟩

/-! ### Examples -/

def exampleRead : Bytes :=
  b! "x-NOTE: =?utf-8?q?=C3=A9?=\r\ncontent-type: Text/HTML; Title*1*=%C3%A9; title*0*=utf-8'en'na\r\n" ++
  b! "Content-Disposition: attachment; Filename=\"a b\"; size=3\r\nContent-Description: =?utf-8?b?w6k=?= x\r\n" ++
  b! "Content-Id: (c) <a@b>\r\ncontent-transfer-encoding: Quoted-Printable\r\n\r\n=C3=A9"

def exampleRewritten : Bytes :=
  b! "Content-Type: text/html; title*0*=utf-8''na%C3%A9\r\nContent-ID: <a@b>\r\n" ++
  b! "Content-Description:=?utf-8?b?IMOpIHg=?=\r\nContent-Disposition: attachment; filename=\"a b\"; size=\"3\"\r\n" ++
  b! "x-NOTE:=?utf-8?b?IMOp?=\r\n\r\né"

/-- The canonical text of a part, and the names of the additional headers. -/
def partRewritten (i : Bytes) : Option (Bytes × List Bytes) :=
  (outcomeValue (rawEntity (Cfg.concrete unicodeFeatures) i)).map fun r =>
    ((partOf ⟨[b! "title"], [b! "size"]⟩ r).unicode unicodeFeatures, r.additionalHeaders.map (·.1))

theorem exampleRead_rewritten : partRewritten exampleRead = some (exampleRewritten, [b! "x-NOTE"]) := by
  decide +kernel

example : partRewritten exampleRewritten = some (exampleRewritten, [b! "x-NOTE"]) := by decide +kernel

theorem exampleRead_understood : ∃ r, rawEntity (Cfg.concrete unicodeFeatures) exampleRead = .ok r ∧
    PartUnderstood r := by
  have h := exampleRead_rewritten
  unfold partRewritten at h
  cases he : rawEntity (Cfg.concrete unicodeFeatures) exampleRead with
  | err => rw [he] at h; cases h
  | abort => rw [he] at h; cases h
  | ok r =>
    rw [he] at h
    simp only [outcomeValue, Option.map_some, Option.some.injEq, Prod.mk.injEq] at h
    refine ⟨r, rfl, fun v hv => ?_⟩
    have : v.1 ∈ r.additionalHeaders.map (·.1) := List.mem_map.2 ⟨v, hv, rfl⟩
    rw [h.2, List.mem_singleton] at this
    rw [this]
    decide +kernel

/-- The theorems apply to it: it can be written again, and a message can have it twice. -/
example : ∃ r l, rawEntity (Cfg.concrete unicodeFeatures) exampleRead = .ok r ∧
    rawEntity (Cfg.concrete unicodeFeatures) ((partOf l r).unicode unicodeFeatures) = .ok r := by
  obtain ⟨r, h, hu⟩ := exampleRead_understood
  have hc : (Cfg.concrete unicodeFeatures).feat.compiles := ⟨fun _ => rfl, fun _ => rfl⟩
  obtain ⟨l, hl⟩ := C68_listed hc rfl _ r h
  exact ⟨r, l, h, (C68_normal_form hc rfl _ r h hu l hl).2.2⟩

example (m : Letter) (hv : m.Encodable (Cfg.concrete unicodeFeatures)) : ∃ text email raw r,
    rawEntity (Cfg.concrete unicodeFeatures) exampleRead = .ok r ∧
    Email.parse (Cfg.concrete unicodeFeatures) text = .ok email ∧ email.subject = m.subject ∧
    email.mimeEntity = some raw ∧
    raw.parse (Cfg.concrete unicodeFeatures) = .ok (.multipart (b! "mixed") [r, r]) := by
  obtain ⟨r, h, hu⟩ := exampleRead_understood
  have hc : (Cfg.concrete unicodeFeatures).feat.compiles := ⟨fun _ => rfl, fun _ => rfl⟩
  obtain ⟨text, raw, h1, h2⟩ := C68_recombine hc rfl m hv r [r] (by
    intro x hx
    have : x = r := by simpa using hx
    exact this ▸ ⟨⟨_, h⟩, hu⟩)
  exact ⟨text, _, raw, r, h, h1, rfl, rfl, h2⟩

/-- A header that is not well-formed is among the additional headers with the name of one that has a meaning. -/
example : partRewritten (b! "Content-ID: nothing\r\n\r\n") =
    some (b! "Content-Type: text/plain\r\nContent-ID: nothing\r\n\r\n", [b! "Content-ID"]) := by
  decide +kernel

/-! ### C44: composite types -/

/-- A part is composite (`ContentType::is_composite_type`) when its type is called `message` or `multipart`.  Only
composite parts have parts, and only others are read as text. -/
theorem C44_composite (hc : c.feat.compiles) (hm : c.feat.mime = true) {i : Bytes} {r : RawEntity}
    (h : rawEntity c i = .ok r) :
    (r.mimeType.isCompositeType = true ↔ typeName r.mimeType = b! "message" ∨ typeName r.mimeType = b! "multipart") ∧
    (∀ s es, r.parse c = .ok (.multipart s es) → r.mimeType.isCompositeType = true) ∧
    (∀ s v, r.parse c = .ok (.text s v) → r.mimeType.isCompositeType = false) := by
  have ht := (partGood_of hc hm h).type.type
  dsimp only at ht
  refine ⟨?_, fun s es hp => ?_, fun s v hp => ?_⟩
  · cases hv : r.mimeType with
    | unknown name =>
      rw [hv] at ht
      simp only [ContentType.isCompositeType, Bool.false_eq_true, false_iff, not_or]
      exact ⟨fun e => by rw [e] at ht; revert ht; nofun,
        fun e => by rw [e] at ht; revert ht; nofun⟩
    | _ => decide +kernel
  · by_cases hmp : r.mimeType = .multipart
    · rw [hmp]; rfl
    · exfalso
      by_cases htx : r.mimeType = .text
      · unfold RawEntity.parse at hp
        rw [if_neg hmp, if_pos htx] at hp
        split at hp
        · split at hp
          · obtain ⟨y, -, e⟩ := bind_eq_ok.1 hp
            cases e
          · cases hp
        · cases hp
      · rw [C44_other_types c r htx hmp] at hp
        cases hp
  · by_cases htx : r.mimeType = .text
    · rw [htx]; rfl
    · exfalso
      by_cases hmp : r.mimeType = .multipart
      · unfold RawEntity.parse at hp
        rw [if_pos hmp] at hp
        obtain ⟨y, -, e⟩ := bind_eq_ok.1 hp
        cases e
      · rw [C44_other_types c r htx hmp] at hp
        cases hp

example : ((outcomeValue (rawEntity (Cfg.concrete .full) (b! "Content-Type: MESSAGE/rfc822\r\n\r\n"))).map
    (·.mimeType.isCompositeType)) = some true := by decide +kernel
example : ((outcomeValue (rawEntity (Cfg.concrete .full) (b! "Content-Type: text/plain\r\n\r\n"))).map
    (·.mimeType.isCompositeType)) = some false := by decide +kernel

end EmailParser
