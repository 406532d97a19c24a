import Verif.Proofs.ExactPart
import Verif.Props.ExactMime
/-
C78: `Content-Disposition` header lines, and the header lines of the parts of messages, are read as the grammar says.
-/
namespace EmailParser
open Spec

variable (c : Cfg)

/-! ### C78: dispositions -/

/-- A `Content-Disposition` line is read to its end exactly when it is in the grammar, with the value of the reading in
which the parameters that can be dates are. -/
theorem C78_disposition (hm : c.feat.mime = true) (name x w l t : Bytes) (v : Disposition) (h : HeaderText name x w l)
    (hf : Fits c w) (hn : name.map asciiLower = b! "content-disposition") (ht : Stops wsp t) :
    field c (l ++ t) = .ok (t, .contentDisposition v) ↔ DispositionL c w v := by
  constructor
  · intro hx
    rw [h.text, List.append_assoc, List.append_assoc, field_disposition hm hn] at hx
    exact dispositionValue_sound hx hf.depth
  · intro hv
    have hx := dispositionValue_reads hv hf (folding_noWhiteLine h.folding)
    have h0 : field c (name ++ b! ":" ++ w ++ CRLF ++ []) = .ok ([], .contentDisposition v) := by
      rw [List.append_assoc, List.append_assoc, field_disposition hm hn]
      simpa using hx
    obtain ⟨r', h1, u, -, -, h2⟩ := (C10_same_outcome c (name ++ b! ":" ++ w) [] t stops_nil ht).2.2 [] _ h0
    rw [h.text, h1, h2]
    simp

/-- A text has at most one such reading. -/
theorem C78_unique (hm : c.feat.mime = true) (name x w l : Bytes) (v v' : Disposition) (h : HeaderText name x w l)
    (hf : Fits c w) (hn : name.map asciiLower = b! "content-disposition") (hv : DispositionL c w v)
    (hv' : DispositionL c w v') : v = v' := by
  have h1 := (C78_disposition c hm name x w l [] v h hf hn stops_nil).mpr hv
  rw [(C78_disposition c hm name x w l [] v' h hf hn stops_nil).mpr hv'] at h1
  cases h1
  rfl

/-- It is one of the readings of the grammar. -/
theorem C78_grammar (hm : c.feat.mime = true) (name x w l : Bytes) (v : Disposition) (h : HeaderText name x w l)
    (hf : Fits c w) (hn : name.map asciiLower = b! "content-disposition") (hv : DispositionL c w v) :
    FieldG c l (.contentDisposition v) := by
  have hx := (C78_disposition c hm name x w l [] v h hf hn stops_nil).mpr hv
  have hs := field_parses (c := c) (l ++ [])
  rw [hx] at hs
  obtain ⟨l', e, hg⟩ := hs
  rwa [← List.append_cancel_right e] at hg

/-- Otherwise the text is reported, or only a beginning of the line is read, which is a disposition. -/
theorem C78_otherwise (hm : c.feat.mime = true) (name x w l t : Bytes) (h : HeaderText name x w l) (hf : Fits c w)
    (hn : name.map asciiLower = b! "content-disposition") (hg : ∀ v, ¬ DispositionL c w v) (ht : Stops wsp t) :
    (∃ v, field c (l ++ t) = .ok (t, .unknown name v) ∧ TextL c c.feat.unrecognizedHeaders w v) ∨
    ∃ w₁ l₂ v, l = name ++ b! ":" ++ w₁ ++ CRLF ++ l₂ ∧ l₂ ≠ [] ∧ DispositionL c w₁ v ∧
      field c (l ++ t) = .ok (l₂ ++ t, .contentDisposition v) := by
  have hl := lineText_eq h (t := t)
  rcases field_line (c := c) h.name_ne h.name_chars h.folding ht with ⟨k, h'⟩ | ⟨r, f, h', -, -, -, ho⟩ | ⟨v, h', -⟩ <;>
    rw [← hl] at h'
  · exact absurd h' (fits_no_abort c h hf.depth (fun _ => hf.stars) ht k)
  · right
    rw [hn] at ho
    have hv : ∃ v, f = .contentDisposition v := by
      cases f with
      | contentDisposition v => exact ⟨v, rfl⟩
      | unknown => cases ho
      | trace => cases ho
      | _ => exact absurd (Option.some.inj ho) (by decide)
    obtain ⟨v, rfl⟩ := hv
    have h0 := h'
    rw [h.text] at h0
    obtain ⟨-, -, u, hu, hr, -⟩ := (C10_same_outcome c (name ++ b! ":" ++ w) t [] ht stops_nil).2.2 r _ h0
    rw [← h.text] at hu
    generalize r.take (r.length - t.length) = l₂ at hu hr
    subst hr
    rw [List.append_assoc, List.append_assoc, field_disposition hm hn] at h0
    have hs := contentDispositionValue_parses (c := c) hm (w ++ (CRLF ++ t))
    rw [h0] at hs
    obtain ⟨w₁, e, -⟩ := hs
    have e' : w ++ CRLF = w₁ ++ (CRLF ++ l₂) := by
      have : (w ++ CRLF) ++ t = (w₁ ++ (CRLF ++ l₂)) ++ t := by simpa using e
      exact List.append_cancel_right this
    have hd : w₁.count 40 ≤ c.stack := by
      have : (w ++ CRLF).count 40 = w.count 40 := by simp [List.count_append, CRLF]
      rw [e', List.count_append] at this
      have := hf.depth
      omega
    rw [e] at h0
    have hv := dispositionValue_sound h0 hd
    refine ⟨w₁, l₂, v, ?_, fun h2 => ?_, hv, h'⟩
    · rw [h.text, List.append_assoc, e']
      simp
    · rw [h2, List.append_nil] at e'
      exact hg v (List.append_cancel_right e' ▸ hv)
  · exact .inl ⟨v, h', (unknown_textL c h ht h').2.2⟩

theorem disposition_text (hm : c.feat.mime = true) {name x w l t v : Bytes} (h : HeaderText name x w l) (hf : Fits c w)
    (hn : name.map asciiLower = b! "content-disposition") (hb : ¬ BeginsWithDisposition c name l)
    (hv : TextL c c.feat.unrecognizedHeaders w v) (ht : Stops wsp t) : field c (l ++ t) = .ok (t, .unknown name v) := by
  rcases C78_otherwise c hm name x w l t h hf hn (fun v hv => hb ⟨w, [], v, by rw [h.text]; simp, hv⟩) ht with
    ⟨v', h1, h2⟩ | ⟨w₁, l₂, v, h1, -, h2, -⟩
  · rw [h1, textL_unique c h2 hv]
  · exact absurd ⟨w₁, l₂, v, h1, h2⟩ hb

/-- Every line denotes what is read from it, unless only a beginning of it is in the grammar. -/
theorem C78_denotes (hm : c.feat.mime = true) (name x w l t : Bytes) (h : HeaderText name x w l) (hf : Fits c w)
    (hn : name.map asciiLower = b! "content-disposition")
    (hb : BeginsWithDisposition c name l → ∃ v, DispositionL c w v) (ht : Stops wsp t) :
    ∃ f, field c (l ++ t) = .ok (t, f) ∧ DenotesHeader c l f := by
  by_cases hg : ∃ v, DispositionL c w v
  · obtain ⟨v, hv⟩ := hg
    exact ⟨_, (C78_disposition c hm name x w l t v h hf hn ht).mpr hv, .disposition h hm hf hn hv⟩
  · obtain ⟨v, hv⟩ := textL_exists c c.feat.unrecognizedHeaders h.folding
    exact ⟨_, disposition_text c hm h hf hn (fun h => hg (hb h)) hv ht, .text h hm hf hn (fun h => hg (hb h)) hv⟩

/-! ### Messages -/

theorem denotesHeader_field (hc : c.feat.compiles) : ReadsAs c (DenotesHeader c) := by
  intro l f h
  cases h with
  | mime h => exact denotesMime_field c hc l f h
  | disposition h hm hf hn hv =>
    have := (C78_disposition c hm _ _ _ l [] _ h hf hn stops_nil).mpr hv
    rw [List.append_nil] at this
    exact ⟨_, this, rfl⟩
  | text h hm hf hn hb hv =>
    have := disposition_text c hm h hf hn hb hv stops_nil
    rw [List.append_nil] at this
    exact ⟨_, this, rfl⟩

/-- The result for a message with any headers. -/
theorem C78_message (hc : c.feat.compiles) (s tail : Bytes) (fs : List Field) (content : Option Bytes)
    (h : LinesL (DenotesHeader c) s fs) (hb : BodyL c tail content) (hn : c.feat.trace = true → NoTraceName (s ++ tail)) :
    ∃ fs', fs'.map joinWords = fs.map joinWords ∧ EmailResult c fs' content (Email.parse c (s ++ tail)) :=
  denoted_message c hc (denotesHeader_field c hc) h hb hn

/-- Which messages are accepted. -/
theorem C78_accepted (hc : c.feat.compiles) (s b : Bytes) (fs : List Field)
    (h : LinesL (DenotesHeader c) s fs) (hn : c.feat.trace = true → NoTraceName (s ++ (CRLF ++ b))) :
    (∃ e, Email.parse c (s ++ (CRLF ++ b)) = .ok e) ↔
      (c.feat.mime = false → Body b) ∧ NoDuplicate fs ∧ (∀ name, ¬ Missing c fs name) ∧
        (c.feat.mime = true → ∃ v, Decoded (fs.findSome? encodingOf) b v) :=
  denoted_accepted c hc (denotesHeader_field c hc) h hn

/-! ### Parts -/

theorem joinWords_part {f : Field} {h : EntityHeader} (e : joinWords f = joinWords (partField h)) : f = partField h := by
  cases h <;> cases f <;> simp [joinWords, partField] at e <;> simp [partField, e]

theorem denotesPart_line (hc : c.feat.compiles) (hm : c.feat.mime = true) {l t : Bytes} {h : EntityHeader}
    (hl : DenotesPart c l h) (ht : Stops wsp t) : entityHeader c (l ++ t) = .ok (t, h) := by
  cases hl with
  | other hx hn hv =>
    rw [hx.text]
    exact partHeaderL_line (.other hx.name_ne hx.name_chars hn hv) ht
  | @known name x w l h hx hn hd =>
    obtain ⟨f', h1, h2⟩ := denotesHeader_field c hc l _ hd
    rw [joinWords_part h2, hx.text, ← List.append_nil (name ++ b! ":" ++ w ++ CRLF)] at h1
    obtain ⟨r', h3, u, -, -, h4⟩ := (C10_same_outcome c (name ++ b! ":" ++ w) [] t stops_nil ht).2.2 [] _ h1
    rw [hx.text]
    rw [List.append_assoc, List.append_assoc] at h3 ⊢
    rw [entityHeader_field hm hn, h3, h4]
    simp

theorem denotesPart_start {l : Bytes} {h : EntityHeader} (hl : DenotesPart c l h) : ∃ b t, l = b :: t ∧ wsp b = false := by
  have key : ∀ {name x w l : Bytes}, HeaderText name x w l → ∃ b t, l = b :: t ∧ wsp b = false := by
    intro name x w l h
    have h1 := h.name_ne
    have h2 := h.name_chars
    rw [h.text]
    cases name with
    | nil => exact absurd rfl h1
    | cons b n => exact ⟨b, _, rfl, (by decide +kernel : ∀ b, ftext b = true → wsp b = false) b (h2 b (by simp))⟩
  cases hl with
  | known h => exact key h
  | other h => exact key h

theorem denotedPart_many (hc : c.feat.compiles) (hm : c.feat.mime = true) {s t : Bytes} {hs : List EntityHeader}
    (h : LinesL (DenotesPart c) s hs) (ht : Stops wsp t) (he : ∃ e, entityHeader c t = .err e) :
    many (s ++ t) (entityHeader c) = .ok (t, hs) := by
  induction h with
  | nil => exact many_err he
  | @cons l h s hs hl hs' ih =>
    have hst : Stops wsp (s ++ t) := by
      cases hs' with
      | nil => exact ht
      | cons h _ =>
        obtain ⟨b, l, rfl, hb⟩ := denotesPart_start c h
        exact stops_cons.mpr hb
    rw [List.append_assoc]
    refine many_cons (denotesPart_line c hc hm hl hst) ?_ ih
    obtain ⟨b, l, rfl, -⟩ := denotesPart_start c hl
    simp only [List.length_append, List.length_cons]
    omega

theorem denotedPart_rawEntity (hc : c.feat.compiles) (hm : c.feat.mime = true) {s tail body : Bytes}
    {hs : List EntityHeader} (h : LinesL (DenotesPart c) s hs) (ht : PartEnd tail body) :
    rawEntity c (s ++ tail) = (decodeValue body ((partEncoding hs).getD .sevenBit)).bind fun v => .ok (partValue hs v) := by
  simp only [← entityOf_partValue, ← encoding_foldl]
  cases ht with
  | none =>
    have := denotedPart_many c hc hm h stops_nil entityHeader_empty
    refine rawEntity_eq ?_ List.nil_suffix
    unfold headerPart
    rw [this]
    rfl
  | body => exact rawEntity_of_headers c (denotedPart_many c hc hm h (stops_cons.mpr (by decide)) (entityHeader_end c _))

theorem part_kind {name : Bytes} {f : Field} (hn : name ∈ partNames) (ho : headerOf f = some name) : ∃ h, f = partField h := by
  cases f with
  | contentTransferEncoding v => exact ⟨.encoding v, rfl⟩
  | contentType t st q => exact ⟨.type (t, st, q), rfl⟩
  | contentId v => exact ⟨.id v, rfl⟩
  | contentDescription v => exact ⟨.description v, rfl⟩
  | contentDisposition v => exact ⟨.disposition v, rfl⟩
  | unknown => cases ho
  | trace => cases ho
  | _ =>
    rw [← Option.some.inj ho] at hn
    exact absurd hn (by decide)

/-- Every header line of a part denotes what is read from it, unless only a beginning of it is in the grammar. -/
theorem C78_part_header (hc : c.feat.compiles) (hm : c.feat.mime = true) (name x w l t : Bytes) (h : HeaderText name x w l)
    (hp : Plain c name w ∨ (Fits c w ∧ name.map asciiLower ∈ mimeHeaders ∧
        (BeginsInGrammar c name l → ∃ f, FieldG c l f ∧ headerOf f = some (name.map asciiLower))) ∨
      (Fits c w ∧ name.map asciiLower = b! "content-disposition" ∧
        (BeginsWithDisposition c name l → ∃ v, DispositionL c w v)) ∨
      name.map asciiLower = b! "content-description" ∨ name.map asciiLower ∉ partNames)
    (ht : Stops wsp t) : ∃ h, entityHeader c (l ++ t) = .ok (t, h) ∧ DenotesPart c l h := by
  by_cases hn : name.map asciiLower ∈ partNames
  · have hd : ∃ f, field c (l ++ t) = .ok (t, f) ∧ DenotesHeader c l f := by
      have mime : ∀ hp, ∃ f, field c (l ++ t) = .ok (t, f) ∧ DenotesHeader c l f := fun hp =>
        (C76_denotes c hc name x w l t h ht hp).imp fun _ h => ⟨h.1, .mime h.2⟩
      rcases hp with hp | hp | ⟨h1, h2, h3⟩ | hp | hp
      · exact mime (.inl hp)
      · exact mime (.inr (.inl hp))
      · exact C78_denotes c hm name x w l t h h1 h2 h3 ht
      · exact mime (.inr (.inr (.inl (by rw [hp]; decide))))
      · exact absurd hn hp
    obtain ⟨f, hf, hd⟩ := hd
    have hk : ∃ h, f = partField h := by
      rw [lineText_eq h (t := t)] at hf
      rcases field_line (c := c) h.name_ne h.name_chars h.folding ht with ⟨k, h'⟩ | ⟨r, f', h', -, -, -, ho⟩ | ⟨v, h', -⟩ <;>
        rw [hf] at h' <;> cases h'
      · exact part_kind hn ho
      · exact ⟨.other name v, rfl⟩
    obtain ⟨k, rfl⟩ := hk
    exact ⟨k, denotesPart_line c hc hm (.known h hn hd) ht, .known h hn hd⟩
  · obtain ⟨v, hv⟩ := textL_exists c c.feat.unrecognizedHeaders h.folding
    exact ⟨_, denotesPart_line c hc hm (.other h hn hv) ht, .other h hn hv⟩

theorem fieldG_ended {l n : Bytes} {f : Field} (h : FieldG c l f) (ho : headerOf f = some n) : ∃ u, l = u ++ CRLF := by
  have key : ∀ {α : Type} {m : Bytes} {G : Gram α} {v : α}, HeaderLine m G l v → ∃ u, l = u ++ CRLF := by
    rintro α m G v ⟨w₁, _, _, rfl, -, w₂, _, _, rfl, -, w₃, w₄, _, rfl, h3, h4, -⟩
    exact ⟨w₁ ++ w₂, by rw [show w₃ = CRLF from h3, show w₄ = [] from h4]; simp⟩
  cases f with
  | unknown => cases ho
  | trace => cases ho
  | _ => exact key h.2

theorem unfolded_whole {name x w l l₁ l₂ : Bytes} (h : HeaderText name x w l) (hw : 10 ∉ w) (e : l = l₁ ++ l₂)
    (hl : ∃ u, l₁ = u ++ CRLF) : l₂ = [] := by
  obtain ⟨u, rfl⟩ := hl
  have hn : 10 ∉ name := fun hm => absurd (h.name_chars 10 hm) (by decide)
  have hc : l.count 10 = 1 := by
    rw [h.text]
    simp [List.count_append, List.count_eq_zero.mpr hn, List.count_eq_zero.mpr hw, CRLF]
  rw [e, List.count_append, List.count_append, show CRLF.count 10 = 1 from rfl] at hc
  have h0 : 10 ∉ l₂ := List.count_eq_zero.mp (by omega)
  rcases List.eq_nil_or_concat l₂ with h2 | ⟨s, b, rfl⟩
  · exact h2
  · have h3 := h.text.symm.trans e
    rw [show CRLF = [13] ++ [10] from rfl, List.concat_eq_append, ← List.append_assoc, ← List.append_assoc] at h3
    have h4 := List.append_inj_right' h3 rfl
    exact absurd (by simp [List.singleton_inj.mp h4]) h0

/-- A header line of a part that is not folded always denotes what is read from it. -/
theorem C78_unfolded (hc : c.feat.compiles) (hm : c.feat.mime = true) (name x w l t : Bytes) (h : HeaderText name x w l)
    (hw : 10 ∉ w) (hf : Fits c w) (hi : name.map asciiLower = b! "content-id" → ¬ b! "=?" <:+: w) (ht : Stops wsp t) :
    ∃ h, entityHeader c (l ++ t) = .ok (t, h) ∧ DenotesPart c l h := by
  refine C78_part_header c hc hm name x w l t h ?_ ht
  have whole : BeginsInGrammar c name l → ∃ f, FieldG c l f ∧ headerOf f = some (name.map asciiLower) := by
    rintro ⟨l₁, l₂, f, e, hg, ho⟩
    have h2 := unfolded_whole h hw e (fieldG_ended c hg ho)
    rw [h2, List.append_nil] at e
    exact ⟨f, e ▸ hg, ho⟩
  by_cases hn : name.map asciiLower ∈ partNames
  · simp only [partNames, List.mem_cons, List.not_mem_nil, or_false] at hn
    rcases hn with hn | hn | hn | hn | hn
    · exact .inr (.inl ⟨hf, by rw [hn]; decide, whole⟩)
    · exact .inr (.inl ⟨hf, by rw [hn]; decide, whole⟩)
    · exact .inl ⟨hf.depth, fun _ => ⟨by rw [hn]; decide, hi hn, hf.stars⟩⟩
    · exact .inr (.inr (.inr (.inl hn)))
    · refine .inr (.inr (.inl ⟨hf, hn, ?_⟩))
      rintro ⟨w₁, l₂, v, e, hv⟩
      have h2 := unfolded_whole h hw e ⟨_, rfl⟩
      have e2 := h.text.symm.trans e
      rw [h2, List.append_nil] at e2
      rw [List.append_cancel_left (List.append_cancel_right e2)]
      exact ⟨v, hv⟩
  · exact .inr (.inr (.inr (.inr hn)))

/-- What is made of a part: if its body can be decoded with the encoding that its headers denote, the value of the
headers and the decoded body, and otherwise it is rejected. -/
theorem C78_part (hc : c.feat.compiles) (hm : c.feat.mime = true) (s tail body : Bytes) (hs : List EntityHeader)
    (h : LinesL (DenotesPart c) s hs) (ht : PartEnd tail body) :
    (∀ e, rawEntity c (s ++ tail) = .ok e ↔ ∃ v, Decoded (partEncoding hs) body v ∧ e = partValue hs v) ∧
    ((∃ x, rawEntity c (s ++ tail) = .err x) ↔ ¬ ∃ v, Decoded (partEncoding hs) body v) := by
  rw [denotedPart_rawEntity c hc hm h ht]
  have key := decodeValue_iff (partEncoding hs) body
  cases hd : decodeValue body ((partEncoding hs).getD .sevenBit) with
  | abort k => exact absurd hd (decodeValue_no_abort _ _ k)
  | err x =>
    rw [hd] at key
    refine ⟨fun e => ⟨nofun, ?_⟩, ⟨fun _ ⟨v, hv⟩ => ?_, fun _ => ⟨x, rfl⟩⟩⟩
    · rintro ⟨v, hv, -⟩
      cases (key v).mpr hv
    · cases (key v).mpr hv
  | ok v =>
    rw [hd] at key
    have hv := (key v).mp rfl
    refine ⟨fun e => ⟨?_, ?_⟩, ⟨nofun, fun hn => absurd ⟨v, hv⟩ hn⟩⟩
    · intro h
      cases h
      exact ⟨v, hv, rfl⟩
    · rintro ⟨v', hv', rfl⟩
      cases (key v').mpr hv'
      rfl

/-! ### Examples -/

/-- What is read from a line: the rest, the year of creation, the file name and a parameter. -/
def dispositionRead (r : Res Field) (name : Bytes) : Option (Bytes × Option Nat × Option Bytes × Option Bytes) :=
  match r with
  | .ok (r, .contentDisposition v) => some (r, v.creationDate.map (·.date.year), v.filename, v.unstructured name)
  | _ => none

theorem dispositionRead_some {r : Res Field} {name rest : Bytes} {y f p} (h : dispositionRead r name = some (rest, y, f, p)) :
    ∃ v, r = .ok (rest, .contentDisposition v) ∧ v.creationDate.map (·.date.year) = y ∧ v.filename = f ∧ v.unstructured name = p := by
  unfold dispositionRead at h
  split at h <;> simp at h
  obtain ⟨rfl, h1, h2, h3⟩ := h
  exact ⟨_, rfl, h1, h2, h3⟩

/-- Two texts that begin alike.  In the first the date has a comment that goes on to the end of the text, so there is no
parameter `x`.  In the second it would not be closed, so there is no date. -/
example :
    (∃ v, DispositionL (Cfg.concrete .full) (b! " inline; filename=f; creation-date=\"21 Nov 1997 10:01:22 -0600 (a\"; x=y; z=\"b)\"") v ∧
      v.creationDate.map (·.date.year) = some 1997 ∧ v.filename = some (b! "f") ∧ v.unstructured (b! "x") = none) ∧
    ∃ v, DispositionL (Cfg.concrete .full) (b! " inline; filename=f; creation-date=\"21 Nov 1997 10:01:22 -0600 (a\"; x=y; z=\"b\"") v ∧
      v.creationDate.map (·.date.year) = none ∧ v.filename = some (b! "f") ∧ v.unstructured (b! "x") = some (b! "y") := by
  have key : ∀ x y f p, (b! "Content-Disposition" ≠ [] ∧ (∀ b ∈ b! "Content-Disposition", ftext b = true) ∧ ∀ b ∈ x, vchar b = true ∨ wsp b = true) →
      Fits (Cfg.concrete .full) x →
      dispositionRead (field (Cfg.concrete .full) (b! "Content-Disposition" ++ b! ":" ++ x ++ CRLF ++ [])) (b! "x") = some ([], y, f, p) →
      ∃ v, DispositionL (Cfg.concrete .full) x v ∧ v.creationDate.map (·.date.year) = y ∧ v.filename = f ∧ v.unstructured (b! "x") = p := by
    intro x y f p h1 h2 h3
    obtain ⟨v, h4, h5⟩ := dispositionRead_some h3
    exact ⟨v, (C78_disposition (Cfg.concrete .full) rfl _ _ _ _ [] v (exact_line _ _ h1) h2 (by decide +kernel) stops_nil).mp h4, h5⟩
  exact ⟨key _ _ _ _ (by decide +kernel) ⟨by decide +kernel, fun _ => by decide +kernel⟩ (by decide +kernel),
    key _ _ _ _ (by decide +kernel) ⟨by decide +kernel, fun _ => by decide +kernel⟩ (by decide +kernel)⟩

/-- A disposition without type and one with text after the parameters are not in the grammar. -/
example : (∀ v, ¬ DispositionL (Cfg.concrete .full) (b! " ; filename=f") v) ∧
    ∀ v, ¬ DispositionL (Cfg.concrete .full) (b! " inline; filename=f g") v := by
  have key : ∀ x, (b! "Content-Disposition" ≠ [] ∧ (∀ b ∈ b! "Content-Disposition", ftext b = true) ∧ ∀ b ∈ x, vchar b = true ∨ wsp b = true) →
      Fits (Cfg.concrete .full) x →
      dispositionRead (field (Cfg.concrete .full) (b! "Content-Disposition" ++ b! ":" ++ x ++ CRLF ++ [])) (b! "x") = none →
      ∀ v, ¬ DispositionL (Cfg.concrete .full) x v := by
    intro x h1 h2 h3 v hv
    rw [(C78_disposition (Cfg.concrete .full) rfl _ _ _ _ [] v (exact_line _ _ h1) h2 (by decide +kernel) stops_nil).mpr hv] at h3
    cases h3
  exact ⟨key _ (by decide +kernel) ⟨by decide +kernel, fun _ => by decide +kernel⟩ (by decide +kernel),
    key _ (by decide +kernel) ⟨by decide +kernel, fun _ => by decide +kernel⟩ (by decide +kernel)⟩

/-- The type, the names of the headers of its own and the value of a part that was read. -/
def partRead (r : Outcome RawEntity) : Option (Bytes × List (Bytes × Bytes) × Bytes) :=
  match r with
  | .ok e => some (e.subtype, e.additionalHeaders, e.value)
  | _ => none

/-- A part with a type that is not in the grammar, which is kept as a header, so that the part is plain text. -/
example : ∃ hs, LinesL (DenotesPart (Cfg.concrete .full))
      (b! "Content-Type: text\r\nTo: a\r\nContent-Transfer-Encoding: base64\r\n") hs ∧
    ∃ v, Decoded (partEncoding hs) (b! "Ym9keQ==") v ∧ v = b! "body" ∧ (partValue hs v).subtype = b! "plain" ∧
      (partValue hs v).additionalHeaders = [(b! "Content-Type", b! " text"), (b! "To", b! " a")] := by
  have hc : (Cfg.concrete .full).feat.compiles := ⟨fun _ => rfl, fun _ => rfl⟩
  obtain ⟨h1, -, d1⟩ := C78_unfolded (Cfg.concrete .full) hc rfl (b! "Content-Type") (b! " text") _ _ []
    (exact_line _ _ (by decide +kernel)) (by decide) ⟨by decide +kernel, fun _ => by decide +kernel⟩ (by decide +kernel) stops_nil
  obtain ⟨h2, -, d2⟩ := C78_unfolded (Cfg.concrete .full) hc rfl (b! "To") (b! " a") _ _ []
    (exact_line _ _ (by decide +kernel)) (by decide) ⟨by decide +kernel, fun _ => by decide +kernel⟩ (by decide +kernel) stops_nil
  obtain ⟨h3, -, d3⟩ := C78_unfolded (Cfg.concrete .full) hc rfl (b! "Content-Transfer-Encoding") (b! " base64") _ _ []
    (exact_line _ _ (by decide +kernel)) (by decide) ⟨by decide +kernel, fun _ => by decide +kernel⟩ (by decide +kernel) stops_nil
  have h : LinesL (DenotesPart (Cfg.concrete .full))
      (b! "Content-Type: text\r\nTo: a\r\nContent-Transfer-Encoding: base64\r\n") [h1, h2, h3] :=
    .cons d1 (.cons d2 (.cons d3 .nil))
  refine ⟨_, h, ?_⟩
  have hp := (C78_part (Cfg.concrete .full) hc rfl _ _ _ _ h (.body (b := b! "Ym9keQ=="))).1
  have hr : partRead (rawEntity (Cfg.concrete .full)
      (b! "Content-Type: text\r\nTo: a\r\nContent-Transfer-Encoding: base64\r\n" ++ (CRLF ++ b! "Ym9keQ=="))) =
      some (b! "plain", [(b! "Content-Type", b! " text"), (b! "To", b! " a")], b! "body") := by decide +kernel
  generalize rawEntity (Cfg.concrete .full) _ = r at hp hr
  cases r with
  | err => cases hr
  | abort => cases hr
  | ok e =>
    obtain ⟨v, hv, he⟩ := (hp e).mp rfl
    simp only [partRead, Option.some.injEq, Prod.mk.injEq] at hr
    rw [he] at hr
    exact ⟨v, hv, hr.2.2, hr.1, hr.2.1⟩

end EmailParser
