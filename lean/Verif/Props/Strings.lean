import Verif.Proofs.Strings
import Verif.Proofs.Utf8
import Verif.Props.Email
/-
C04: every string of a parsed message is UTF-8.  `Spec.Strings.All` enumerates the strings of a
value (Verif/Spec/Strings.lean), `Spec.Utf8` is the definition of RFC 3629 (Verif/Spec/Utf8.lean).
-/
namespace EmailParser
open Spec

variable (c : Cfg)

/-- ASCII text. -/
def Ascii (s : Bytes) : Prop := ∀ b ∈ s, b < 128

theorem printable_ascii {s : Bytes} (h : ∀ x ∈ s, vchar x = true ∨ wsp x = true) : Ascii s := by
  have : ∀ x : UInt8, vchar x = true ∨ wsp x = true → x < 128 := by decide +kernel
  exact fun x hx => this x (h x hx)

theorem strOk_utf8 : StrOk c Utf8 where
  append := Utf8.append
  printable h := (utf8Valid_iff _).1 (utf8Valid_of_ascii _ (printable_ascii h))
  encoded _ _ _ _ h := by
    rcases h with ⟨-, hv, rfl⟩ | ⟨t, -, rfl⟩
    · exact (utf8Valid_iff _).1 hv
    · exact (utf8Valid_iff _).1 (c.textcode_valid t _)

theorem strOk_ascii (hm : c.feat.mime = false) : StrOk c Ascii where
  append hu hv b hb := by
    rcases List.mem_append.1 hb with h | h
    · exact hu b h
    · exact hv b h
  printable h := printable_ascii h
  encoded h := by simp [hm] at h

/-- The text of a body is ASCII. -/
theorem body_ascii (hc : c.feat.compiles) {i : Bytes} {e : Email} (h : Email.parse c i = .ok e) :
    ∀ v, e.body = some v → Ascii v := by
  obtain ⟨fs, b, -, hm, -, -, he⟩ := parse_ok c hc h
  obtain ⟨w₁, w₂, gs, rfl, h1, h2⟩ := hm
  intro v hv
  rw [he.body] at hv
  split at hv
  · cases hv
  · rename_i hm
    rcases h2 with ⟨-, h⟩ | ⟨_, _, _, -, -, h, hb⟩
    · cases h; cases hv
    · cases h; cases hv
      obtain ⟨ls, -, rfl, hl⟩ := hb (by simpa using hm)
      clear hb he
      have : ∀ ls : List Bytes, (∀ l ∈ ls, BodyLine l) → ∀ x ∈ joinLines ls, x < 128 := by
        intro ls
        induction ls with
        | nil => intro _ x hx; cases hx
        | cons l ls ih =>
          intro hl x hx
          have hl1 : ∀ x ∈ l, x < 128 := fun x hx => by
            have := (hl l (by simp)).2 x hx
            simp only [text, Bool.and_eq_true, decide_eq_true_eq] at this
            exact this.1.1.2
          cases ls with
          | nil => exact hl1 x hx
          | cons l' ls =>
            simp only [joinLines, List.append_assoc, List.mem_append] at hx
            rcases hx with hx | hx | hx
            · exact hl1 x hx
            · have : ∀ x ∈ CRLF, x < 128 := by decide +kernel
              exact this x hx
            · exact ih (fun m hm => hl m (by simp_all)) x hx
      exact this ls hl

/-- Strings of the result other than the body come from the fields. -/
theorem strings_email {V : Bytes → Prop} (hV : StrOk c V) (hc : c.feat.compiles) {i : Bytes} {e : Email}
    (h : Email.parse c i = .ok e) : Strings.All V { e with body := none } := by
  obtain ⟨fs, b, -, hm, -, -, he⟩ := parse_ok c hc h
  obtain ⟨w₁, w₂, gs, rfl, h1, h2⟩ := hm
  have hfs : ∀ f ∈ fs, Strings.All V f := by
    have := (lines_headerBlock hV hc.2 _ _ h1).2
    rcases h2 with ⟨-, h⟩ | ⟨_, _, _, -, -, h, -⟩
    · cases h; exact this
    · cases h; exact this
  have one : ∀ {α : Type} [Strings α] {g : Field → Option α},
      (∀ f v, g f = some v → Strings.All V f → Strings.All V v) →
      ∀ v, fs.findSome? g = some v → Strings.All V v := by
    intro α _ g hg v hv
    obtain ⟨f, hf, h⟩ := List.exists_of_findSome?_eq_some hv
    exact hg f v h (hfs f hf)
  have many : ∀ {α : Type} [Strings α] {g : Field → Option α},
      (∀ f v, g f = some v → Strings.All V f → Strings.All V v) →
      ∀ v ∈ fs.filterMap g, Strings.All V v := by
    intro α _ g hg v hv
    obtain ⟨f, hf, h⟩ := List.mem_filterMap.1 hv
    exact hg f v h (hfs f hf)
  have hfrom : ∀ v, fs.findSome? fromOf = some v → Strings.All V v :=
    one fun f v hv ha => by cases f <;> cases hv; exact ha
  have hsender : ∀ v, fs.findSome? senderOf = some v → Strings.All V v :=
    one fun f v hv ha => by cases f <;> cases hv; exact ha
  refine ⟨?_, ?_, ?_, ?_, ?_, ?_, ?_, ?_, ?_, ?_, ?_, ?_, ?_, ?_, ?_, ?_⟩
  · intro v hv; cases hv
  · intro v hv
    rw [he.from] at hv
    split at hv
    · exact hfrom v hv
    · cases hv
  · intro v hv
    rw [he.sender] at hv
    split at hv
    · cases hs : fs.findSome? senderOf with
      | some s => rw [hs] at hv; cases hv; exact hsender _ hs
      | none =>
        rw [hs, Option.none_or] at hv
        obtain ⟨as, ha, hv⟩ := Option.bind_eq_some_iff.1 hv
        exact hfrom as ha v (List.mem_of_mem_head? hv)
    · cases hv
  · rw [he.subject]; exact one fun f v hv ha => by cases f <;> cases hv; exact ha
  · rw [he.to]; exact one fun f v hv ha => by cases f <;> cases hv; exact ha
  · rw [he.cc]; exact one fun f v hv ha => by cases f <;> cases hv; exact ha
  · rw [he.bcc]; exact one fun f v hv ha => by cases f <;> cases hv; exact ha
  · rw [he.messageId]; exact one fun f v hv ha => by cases f <;> cases hv; exact ha
  · rw [he.inReplyTo]; exact one fun f v hv ha => by cases f <;> cases hv; exact ha
  · rw [he.references]; exact one fun f v hv ha => by cases f <;> cases hv; exact ha
  · rw [he.replyTo]; exact one fun f v hv ha => by cases f <;> cases hv; exact ha
  · rw [he.comments]; exact many fun f v hv ha => by cases f <;> cases hv; exact ha
  · rw [he.keywords]
    intro v hv
    obtain ⟨f, hf, h⟩ := List.mem_flatMap.1 hv
    have := hfs f hf
    cases f <;> simp only [keywordsOf, List.not_mem_nil] at h
    exact this v h
  · rw [he.trace]; exact many fun f v hv ha => by cases f <;> cases hv; exact ha
  · intro raw hraw
    by_cases hmime : c.feat.mime = true
    · obtain ⟨raw', hr, ht, hd, hi, hdi, ha, -, -⟩ := he.entity hmime
      rw [hr] at hraw; cases hraw
      have ht' : Strings.All V (raw.mimeType, raw.subtype, raw.parameters) := by
        rw [ht]
        cases hct : fs.findSome? contentTypeOf with
        | none =>
          refine ⟨fun _ h => (by cases h), hV.printable (by decide +kernel), fun name value h => ?_⟩
          simp only [Option.getD_none, plainText] at h
          split at h
          · cases h
            subst name
            exact ⟨hV.printable (by decide +kernel), hV.printable (by decide +kernel)⟩
          · cases h
        | some t => exact one (fun f v hv ha => by cases f <;> cases hv; exact ha) t hct
      refine ⟨ht'.1, ht'.2.1, ?_, ?_, ht'.2.2, ?_, ?_⟩
      · rw [hd]; exact one fun f v hv ha => by cases f <;> cases hv; exact ha
      · rw [hi]; exact one fun f v hv ha => by cases f <;> cases hv; exact ha
      · rw [hdi]; exact one fun f v hv ha => by cases f <;> cases hv; exact ha
      · rw [ha]; intro v hv; cases hv
    · rw [he.noEntity (by simpa using hmime)] at hraw; cases hraw
  · rw [he.unknownFields]; exact many fun f v hv ha => by cases f <;> cases hv; exact ha

/-- Every string of a parsed e-mail is UTF-8. -/
theorem C04_strings_are_utf8 (hc : c.feat.compiles) (i : Bytes) (e : Email)
    (h : Email.parse c i = .ok e) : Strings.All Utf8 e :=
  ⟨fun v hv => (utf8Valid_iff _).1 (utf8Valid_of_ascii _ (body_ascii c hc h v hv)),
    (strings_email c (strOk_utf8 c) hc h).2⟩

/-- Without the feature `mime` every string of a parsed e-mail is ASCII, whatever the input. -/
theorem C04_ascii_without_mime (hc : c.feat.compiles) (hm : c.feat.mime = false) (i : Bytes) (e : Email)
    (h : Email.parse c i = .ok e) : Strings.All Ascii e :=
  ⟨body_ascii c hc h, (strings_email c (strOk_ascii c hm) hc h).2⟩

theorem rawEntity_strings (hc : c.feat.compiles) (hm : c.feat.mime = true) {p : Bytes} {x : RawEntity}
    (he : rawEntity c p = .ok x) : Strings.All Utf8 x := by
  have hV := strOk_utf8 c
  obtain ⟨hs, body, val, ⟨head, hp, -⟩, -, rfl⟩ := (rawEntity_sat hm p).of_ok he
  have hh : ∀ (hs : List EntityHeader) (head : Bytes), Gram.star (EntityHeaderG c) head hs →
      ∀ a : EntityHeaders, Strings.All Utf8 (entityOf a val) →
        Strings.All Utf8 (entityOf (hs.foldl EntityHeaders.add a) val) := by
    intro hs head h
    induction h with
    | nil => exact fun a ha => ha
    | cons hg _ ih =>
      rename_i w₁ w₂ a as _
      intro acc hacc
      refine ih _ ?_
      obtain ⟨a1, a2, a3, a4, a5, a6, a7⟩ := hacc
      cases a with
      | encoding v => exact ⟨a1, a2, a3, a4, a5, a6, a7⟩
      | type v =>
        have := (lines_header (ens_contentType hV hm) (by decide +kernel) (by decide +kernel)
          _ _ hg).2
        exact ⟨this.1, this.2.1, a3, a4, this.2.2, a6, a7⟩
      | id v =>
        have := (lines_header (ens_messageId hV) (by decide +kernel) (by decide +kernel) _ _ hg).2
        exact ⟨a1, a2, a3, fun x hx => by cases hx; exact this, a5, a6, a7⟩
      | description v =>
        have := (lines_header (ens_mimeUnstructured hV hm) (by decide +kernel) (by decide +kernel)
          _ _ hg).2
        exact ⟨a1, a2, fun x hx => by cases hx; exact this, a4, a5, a6, a7⟩
      | disposition v =>
        have := (lines_header (ens_disposition hV hm) (by decide +kernel) (by decide +kernel)
          _ _ hg).2
        exact ⟨a1, a2, a3, a4, a5, fun x hx => by cases hx; exact this, a7⟩
      | other n v =>
        have := (lines_optionalField hV hc.2 _ _ hg).2
        refine ⟨a1, a2, a3, a4, a5, a6, fun x hx => ?_⟩
        rcases List.mem_append.1 hx with hx | hx
        · exact a7 x hx
        · rw [List.mem_singleton.1 hx]; exact this
  refine hh hs head hp {} ⟨fun _ h => (by cases h), hV.printable (s := b! "plain") (by decide +kernel), fun _ h => (by cases h),
    fun _ h => (by cases h), fun name value h => ?_, fun _ h => (by cases h),
    fun _ h => (by cases h)⟩
  simp only [entityOf, Option.getD_none, defaultType, Params.insert, Params.empty] at h
  split at h
  · cases h
    subst name
    exact ⟨hV.printable (by decide +kernel), hV.printable (by decide +kernel)⟩
  · cases h

theorem rawEntities_strings (hc : c.feat.compiles) (hm : c.feat.mime = true) : ∀ (ps : List Bytes)
    (es : List RawEntity), rawEntities c ps = .ok es → Strings.All Utf8 es
  | [], es, h => by cases h; intro v hv; cases hv
  | p :: ps, es, h => by
    unfold rawEntities at h
    obtain ⟨e, he, h1⟩ := bind_eq_ok.1 h
    obtain ⟨es', hes, h2⟩ := bind_eq_ok.1 h1
    cases h2
    intro x hx
    rcases List.mem_cons.1 hx with rfl | hx
    · exact rawEntity_strings c hc hm he
    · exact rawEntities_strings hc hm ps es' hes x hx

/-- Every string of the parsed parts of an entity is UTF-8, provided those of the entity are. -/
theorem C04_entity_strings_are_utf8 (hc : c.feat.compiles) (hm : c.feat.mime = true) (raw : RawEntity)
    (v : Entity) (hr : Strings.All Utf8 raw) (h : raw.parse c = .ok v) : Strings.All Utf8 v := by
  have hV := strOk_utf8 c
  unfold RawEntity.parse at h
  split at h
  · obtain ⟨es, h1, h⟩ := bind_eq_ok.1 h
    cases h
    refine ⟨hr.2.1, ?_⟩
    unfold parseMultipart at h1
    split at h1
    · cases h1
    · obtain ⟨ps, -, h2⟩ := bind_eq_ok.1 h1
      exact rawEntities_strings c hc hm ps es h2
  · split at h
    · split at h
      · rename_i cs _
        have hd := decodeCharset_spec (c := c) (name := c.toLowercase cs) (bytes := raw.value)
        split at h
        · rename_i t ht
          rw [ht] at hd
          obtain ⟨s, hs, h⟩ := bind_eq_ok.1 h
          cases h
          subst hs
          exact ⟨hr.2.1, hV.encoded hm hd⟩
        · cases h; trivial
      · cases h; trivial
    · cases h; trivial

/-- The subject of a message with an encoded word contains a character outside of ASCII. -/
example : ((outcomeValue (Email.parse (Cfg.concrete .full)
    (b! "From: a@b\r\nDate: 1 Jan 2024 00:00 +0000\r\nSubject: =?utf-8?q?caf=C3=A9?=\r\n"))).bind
      (·.subject)).map (fun s => decide (∀ b ∈ s, b < 128)) = some false := by
  decide +kernel

/-- A string that is not UTF-8: a surrogate. -/
example : ¬ Utf8 [0xED, 0xA0, 0x80] := by rw [← utf8Valid_iff]; decide +kernel

/-- An encoded word that is not UTF-8 stays literal text. -/
example : ((outcomeValue (Email.parse (Cfg.concrete .full)
    (b! "From: a@b\r\nDate: 1 Jan 2024 00:00 +0000\r\nSubject: =?utf-8?q?=FF?=\r\n"))).bind
      (·.subject)) = some (b! " =?utf-8?q?=FF?=") := by
  decide +kernel

end EmailParser
