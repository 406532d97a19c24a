import Verif.Proofs.Guarded
import Verif.Props.Strings
import Verif.Props.Unicode
/-
C85: which strings of a parsed message can contain line breaks and control characters.
`Spec.Guarded.All` enumerates the strings that cannot (Verif/Spec/Guarded.lean).
-/
namespace EmailParser
open Spec

variable (c : Cfg)

/-- Domains, message ids, names of fields, types and names of parameters consist of printable characters;
local parts, words of `Received` fields and filenames may also contain spaces and tabs. -/
theorem C85_email (hc : c.feat.compiles) (i : Bytes) (e : Email) (h : Email.parse c i = .ok e) :
    Guarded.All Graphic OneLine e := by
  obtain ⟨fs, b, -, hm, -, -, he⟩ := parse_ok c hc h
  obtain ⟨w₁, w₂, gs, rfl, h1, h2⟩ := hm
  have hfs : ∀ f ∈ fs, FieldSafe f := by
    have := (safe_headerBlock hc.2 _ _ h1).2
    rcases h2 with ⟨-, h⟩ | ⟨_, _, _, -, -, h, -⟩
    · cases h; exact this
    · cases h; exact this
  have one : ∀ {α : Type} {P : α → Prop} {g : Field → Option α},
      (∀ f v, g f = some v → FieldSafe f → P v) → ∀ v, fs.findSome? g = some v → P v := by
    intro α P g hg v hv
    obtain ⟨f, hf, h⟩ := List.exists_of_findSome?_eq_some hv
    exact hg f v h (hfs f hf)
  have many : ∀ {α : Type} {P : α → Prop} {g : Field → Option α},
      (∀ f v, g f = some v → FieldSafe f → P v) → ∀ v ∈ fs.filterMap g, P v := by
    intro α P g hg v hv
    obtain ⟨f, hf, h⟩ := List.mem_filterMap.1 hv
    exact hg f v h (hfs f hf)
  have hfrom : ∀ v, fs.findSome? fromOf = some v → Safe v :=
    one fun f v hv ha => by cases f <;> cases hv; exact ha
  have hsender : ∀ v, fs.findSome? senderOf = some v → Safe v :=
    one fun f v hv ha => by cases f <;> cases hv; exact ha
  refine ⟨?_, ?_, ?_, ?_, ?_, ?_, ?_, ?_, ?_, ?_, ?_, ?_⟩
  · intro v hv
    rw [he.from] at hv
    split at hv
    · exact hfrom v hv
    · cases hv
  · intro v hv
    rw [he.sender] at hv
    split at hv
    · cases hs : fs.findSome? senderOf with
      | some s => rw [hs] at hv; cases hv; exact hsender _ hs
      | none =>
        rw [hs, Option.none_or] at hv
        obtain ⟨as, ha, hv⟩ := Option.bind_eq_some_iff.1 hv
        exact hfrom as ha v (List.mem_of_mem_head? hv)
    · cases hv
  · rw [he.to]; exact one fun f v hv ha => by cases f <;> cases hv; exact ha
  · rw [he.cc]; exact one fun f v hv ha => by cases f <;> cases hv; exact ha
  · rw [he.bcc]; exact one fun f v hv ha => by cases f <;> cases hv; exact ha
  · rw [he.replyTo]; exact one fun f v hv ha => by cases f <;> cases hv; exact ha
  · rw [he.messageId]; exact one fun f v hv ha => by cases f <;> cases hv; exact ha
  · rw [he.inReplyTo]; exact one fun f v hv ha => by cases f <;> cases hv; exact ha
  · rw [he.references]; exact one fun f v hv ha => by cases f <;> cases hv; exact ha
  · rw [he.trace]; exact many fun f v hv ha => by cases f <;> cases hv; exact ha
  · intro raw hraw
    by_cases hmime : c.feat.mime = true
    · obtain ⟨raw', hr, ht, hd, hi, hdi, ha, -, -⟩ := he.entity hmime
      rw [hr] at hraw; cases hraw
      have ht' : (fun t : ContentType × Bytes × Params => Safe t.1 ∧ Graphic t.2.1 ∧ Safe t.2.2)
          (raw.mimeType, raw.subtype, raw.parameters) := by
        rw [ht]
        cases hct : fs.findSome? contentTypeOf with
        | none =>
          refine ⟨fun _ h => (by cases h), ?_, fun name value h => ?_⟩
          · simp only [Option.getD_none, plainText]
            unfold Graphic
            decide +kernel
          · simp only [Option.getD_none, plainText] at h
            split at h
            · subst name
              unfold Graphic
              decide +kernel
            · cases h
        | some t =>
          exact one (P := fun t : ContentType × Bytes × Params => Safe t.1 ∧ Graphic t.2.1 ∧ Safe t.2.2)
            (fun f v hv ha => by cases f <;> cases hv; exact ha) t hct
      refine ⟨ht'.1, ht'.2.1, ?_, ht'.2.2, ?_, ?_⟩
      · rw [hi]; exact one fun f v hv ha => by cases f <;> cases hv; exact ha
      · rw [hdi]; exact one fun f v hv ha => by cases f <;> cases hv; exact ha
      · rw [ha]; intro v hv; cases hv
    · rw [he.noEntity (by simpa using hmime)] at hraw; cases hraw
  · rw [he.unknownFields]; exact many fun f v hv ha => by cases f <;> cases hv; exact ha

/-- The same for a part of a multipart body. -/
theorem C85_part (hm : c.feat.mime = true) (p : Bytes) (x : RawEntity) (he : rawEntity c p = .ok x) :
    Guarded.All Graphic OneLine x := by
  obtain ⟨hs, body, val, ⟨head, hp, -⟩, -, rfl⟩ := (rawEntity_sat hm p).of_ok he
  have hh : ∀ (hs : List EntityHeader) (head : Bytes), Gram.star (EntityHeaderG c) head hs →
      ∀ a : EntityHeaders, Safe (entityOf a val) → Safe (entityOf (hs.foldl EntityHeaders.add a) val) := by
    intro hs head h
    induction h with
    | nil => exact fun a ha => ha
    | cons hg _ ih =>
      rename_i w₁ w₂ a as _
      intro acc hacc
      refine ih _ ?_
      obtain ⟨a1, a2, a3, a4, a5, a6⟩ := hacc
      cases a with
      | encoding v => exact ⟨a1, a2, a3, a4, a5, a6⟩
      | type v =>
        have := (lines_header safe_contentType (by decide +kernel) (by decide +kernel) _ _ hg).2
        exact ⟨this.1, this.2.1, a3, this.2.2, a5, a6⟩
      | id v =>
        have := (lines_header solid_messageId (by decide +kernel) (by decide +kernel) _ _ hg).2
        exact ⟨a1, a2, fun x hx => by cases hx; exact this, a4, a5, a6⟩
      | description v => exact ⟨a1, a2, a3, a4, a5, a6⟩
      | disposition v =>
        have := (lines_header safe_disposition (by decide +kernel) (by decide +kernel) _ _ hg).2
        exact ⟨a1, a2, a3, a4, fun x hx => by cases hx; exact this, a6⟩
      | other n v =>
        have := optionalField_name hg
        refine ⟨a1, a2, a3, a4, a5, fun x hx => ?_⟩
        rcases List.mem_append.1 hx with hx | hx
        · exact a6 x hx
        · rw [List.mem_singleton.1 hx]; exact this
  refine hh hs head hp {} ⟨fun _ h => (by cases h), ?_, fun _ h => (by cases h), fun name value h => ?_,
    fun _ h => (by cases h), fun _ h => (by cases h)⟩
  · show Graphic (b! "plain")
    unfold Graphic
    decide +kernel
  · simp only [entityOf, Option.getD_none, defaultType, Params.insert, Params.empty] at h
    split at h
    · subst name
      unfold Graphic
      decide +kernel
    · cases h

/-- The same for the content of an entity. -/
theorem C85_entity (hm : c.feat.mime = true) (raw : RawEntity) (v : Entity)
    (hr : Guarded.All Graphic OneLine raw) (h : raw.parse c = .ok v) : Guarded.All Graphic OneLine v := by
  have parts : ∀ (ps : List Bytes) (es : List RawEntity), rawEntities c ps = .ok es → Safe es := by
    intro ps
    induction ps with
    | nil => intro es h; cases h; intro v hv; cases hv
    | cons p ps ih =>
      intro es h
      unfold rawEntities at h
      obtain ⟨e, he, h1⟩ := bind_eq_ok.1 h
      obtain ⟨es', hes, h2⟩ := bind_eq_ok.1 h1
      cases h2
      intro x hx
      rcases List.mem_cons.1 hx with rfl | hx
      · exact C85_part c hm p x he
      · exact ih es' hes x hx
  unfold RawEntity.parse at h
  split at h
  · obtain ⟨es, h1, h⟩ := bind_eq_ok.1 h
    cases h
    refine ⟨hr.2.1, ?_⟩
    unfold parseMultipart at h1
    split at h1
    · cases h1
    · obtain ⟨ps, -, h2⟩ := bind_eq_ok.1 h1
      exact parts ps es h2
  · split at h
    · split at h
      · split at h
        · obtain ⟨s, -, h⟩ := bind_eq_ok.1 h
          cases h
          exact hr.2.1
        · cases h; trivial
      · cases h; trivial
    · cases h; trivial

/-- Without the feature `mime`, none of the strings of an e-mail other than its body contains a line break
or a control character. -/
theorem C85_without_mime (hc : c.feat.compiles) (hm : c.feat.mime = false) (i : Bytes) (e : Email)
    (h : Email.parse c i = .ok e) : Strings.All OneLine { e with body := none } :=
  strings_email c
    { append := fun hu hv => Printable.append hu hv
      printable := fun h => h
      encoded := fun h => by simp [hm] at h } hc h

/-- With the feature `mime`, a subject is any text, with whatever control characters in it: nothing is removed
from the decoded text of an encoded word. -/
theorem C85_subjects (hc : c.feat.compiles) (hm : c.feat.mime = true) (hf : c.feat.from = true)
    (hd : c.feat.date = true) (hs : c.feat.subject = true) (x : Bytes) :
    (∃ i e, Email.parse c i = .ok e ∧ e.subject = some x) ↔ Utf8 x := by
  constructor
  · rintro ⟨i, e, h, hx⟩
    exact (C04_strings_are_utf8 c hc i e h).2.2.2.1 x hx
  · intro hx
    let m : Letter :=
      { date := some ⟨none, ⟨1, .january, 2024⟩, ⟨⟨0, 0, 0⟩, ⟨true, 0, 0⟩⟩⟩
        «from» := some [⟨none, ⟨b! "a", b! "b"⟩⟩]
        subject := some x }
    have hh : m.headers = [.date ⟨none, ⟨1, .january, 2024⟩, ⟨⟨0, 0, 0⟩, ⟨true, 0, 0⟩⟩⟩,
      .from [⟨none, ⟨b! "a", b! "b"⟩⟩], .subject x] := rfl
    have hv : m.Encodable c :=
      { headers := by
          rw [hh]
          intro h hmem
          simp only [List.mem_cons, List.not_mem_nil, or_false] at hmem
          rcases hmem with rfl | rfl | rfl
          · simp only [MailHeader.Encodable]
            unfold InRange
            decide +kernel
          · refine ⟨by simp, fun m hm => ?_⟩
            rw [List.mem_singleton.1 hm]
            refine ⟨nofun, ?_, .inl (by decide +kernel)⟩
            unfold Spec.Printable
            decide +kernel
          · show UnicodeText c.feat.mime x
            rw [hm]
            exact (C66_exactly_utf8 x).2.2 hx
        recognized := by
          rw [hh]
          intro h hmem name hn
          simp only [List.mem_cons, List.not_mem_nil, or_false] at hmem
          rcases hmem with rfl | rfl | rfl <;> cases hn <;> simp [Recognized, hf, hd, hs]
        trace := .inl rfl
        traces := fun _ h => by cases h
        separated := trivial
        others := fun _ _ h => by cases h
        date := fun _ => nofun
        «from» := fun _ => nofun
        sender := fun _ _ authors h => by cases h; rfl
        body := fun _ _ h => by cases h }
    exact ⟨_, _, C66_round_trip c hc m hv, rfl⟩

/-- The subject of this message, put in a header again as it is, adds a recipient. -/
theorem C85_injection : ∃ e, Email.parse (Cfg.concrete .full)
    (b! "From: a@b\r\nDate: 1 Jan 2024 00:00 +0000\r\nSubject:=?utf-8?q?Hi=0D=0ABcc:_c@d?=\r\n") = .ok e ∧
    e.subject = some (b! "Hi\r\nBcc: c@d") := by
  have : (outcomeValue (Email.parse (Cfg.concrete .full)
    (b! "From: a@b\r\nDate: 1 Jan 2024 00:00 +0000\r\nSubject:=?utf-8?q?Hi=0D=0ABcc:_c@d?=\r\n"))).map
      (·.subject) = some (some (b! "Hi\r\nBcc: c@d")) := by
    decide +kernel
  obtain ⟨e, he, hs⟩ := Option.map_eq_some_iff.1 this
  refine ⟨e, ?_, hs⟩
  revert he
  generalize Email.parse _ _ = o
  intro he
  cases o <;> simp_all [outcomeValue]

/-- So the guarded strings cannot be extended by the subject. -/
example : ∃ e, Email.parse (Cfg.concrete .full)
    (b! "From: a@b\r\nDate: 1 Jan 2024 00:00 +0000\r\nSubject:=?utf-8?q?Hi=0D=0ABcc:_c@d?=\r\n") = .ok e ∧
    ¬ ∀ s, e.subject = some s → OneLine s := by
  obtain ⟨e, he, hs⟩ := C85_injection
  refine ⟨e, he, fun h => ?_⟩
  have := h _ hs
  revert this
  unfold OneLine
  decide +kernel

/-- An encoded word is not decoded in an address or in the name of a field. -/
example : (outcomeValue (Email.parse (Cfg.concrete .full)
    (b! "From: \"=?utf-8?q?=0D=0A?=\"@b\r\nDate: 1 Jan 2024 00:00 +0000\r\n=?utf-8?q?=0D=0A?=: x\r\n"))).map
      (fun e => (e.from.map (·.map (·.address.localPart)), e.unknownFields.map (·.1))) =
    some (some [b! "=?utf-8?q?=0D=0A?="], [b! "=?utf-8?q?=0D=0A?="]) := by
  decide +kernel

end EmailParser
