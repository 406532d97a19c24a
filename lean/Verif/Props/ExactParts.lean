import Verif.Spec.ExactParts
import Verif.Props.ExactCut
import Verif.Props.ExactPart
/-
C82: every MIME part made of header lines is decided, and so is every multipart body made of such parts.
-/
namespace EmailParser
open Spec

variable (c : Cfg)

/-! ### Lines -/

theorem entityHeader_white {b : UInt8} {t : Bytes} (hb : wsp b = true) : ∃ e, entityHeader c (b :: t) = .err e := by
  have key : ∀ b : UInt8, wsp b = true → ftext b = false ∧ asciiLower b ≠ 99 := by decide +kernel
  obtain ⟨h1, h2⟩ := key b hb
  rw [entityHeader_table, matchParsers_append]
  have : ∃ e, matchParsers (b :: t) ((partTable c).map (·.2)) = .err e := by
    refine matchParsers_all_err fun p hp => ?_
    obtain ⟨e, he, rfl⟩ := List.mem_map.mp hp
    refine partTable_other e he fun hpre => ?_
    simp only [partTable, List.mem_cons, List.not_mem_nil, or_false] at he
    rcases he with rfl | rfl | rfl | rfl | rfl <;>
      (rw [List.map_cons] at hpre; exact h2 ((List.cons_prefix_cons.mp hpre).1.symm))
  obtain ⟨e, he⟩ := this
  obtain ⟨e', he'⟩ := takeWhile1_err (p := ftext) (r := b :: t) (stops_cons.mpr h1)
  simp only [he, matchParsers, mapValue, unknown, isFtext_eq, he', err_bind]
  exact ⟨_, rfl⟩

/-- What a header line of a part means is what is read from it, whatever line follows. -/
theorem C82_reads (hm : c.feat.mime = true) (l t : Bytes) (h : EntityHeader) (hl : MeansPart c l h) (ht : Stops wsp t) :
    entityHeader c (l ++ t) = .ok (t, h) := by
  cases hl with
  | other hx hn hv =>
    rw [hx.text]
    exact partHeaderL_line (.other hx.name_ne hx.name_chars hn hv) ht
  | @known name x w l h hx hn hd =>
    have := C80_reads c l t _ hd ht
    rw [hx.text, List.append_assoc, List.append_assoc] at this ⊢
    exact (entityHeader_field hm hn).mpr this

/-- A header line of a part means one thing at most. -/
theorem C82_functional (hm : c.feat.mime = true) (l : Bytes) (h h' : EntityHeader) (hl : MeansPart c l h)
    (hl' : MeansPart c l h') : h = h' := by
  have h1 := C82_reads c hm l [] h hl stops_nil
  rw [C82_reads c hm l [] h' hl' stops_nil] at h1
  cases h1
  rfl

/-- Only a beginning of the line is read, in a part. -/
theorem part_cut (hm : c.feat.mime = true) {name x w l : Bytes} (h : HeaderText name x w l) (hf : Fits c w)
    (hn : name.map asciiLower ∈ partNames) (hcut : IsCut c name l) {t : Bytes} (ht : Stops wsp t) :
    ∃ w₁ b r k, l = name ++ b! ":" ++ w₁ ++ CRLF ++ b :: r ∧ wsp b = true ∧
      entityHeader c (l ++ t) = .ok (b :: r ++ t, k) := by
  obtain ⟨w₁, b, r, f, e, hb, hv⟩ := hcut
  have hx := (C80_cut c name x w l t w₁ r b f h hf e ht).mpr hv
  obtain ⟨k, rfl⟩ := part_kind hn hv.2.1
  refine ⟨w₁, b, r, k, e, hb, ?_⟩
  rw [h.text, List.append_assoc, List.append_assoc] at hx ⊢
  exact (entityHeader_field hm hn).mpr hx

/-- Every header line of a part that is within the limits means something or is cut, and not both. -/
theorem C82_total (hm : c.feat.mime = true) (name x w l : Bytes) (h : HeaderText name x w l)
    (hf : Fits c w ∨ name.map asciiLower = b! "content-description" ∨ name.map asciiLower ∉ partNames) :
    (∃ k, MeansPart c l k) ↔ ¬ (Fits c w ∧ name.map asciiLower ∈ partNames ∧ IsCut c name l) := by
  constructor
  · rintro ⟨k, hk⟩ ⟨hf, hn, hcut⟩
    obtain ⟨w₁, b, r, k', -, -, hx⟩ := part_cut c hm h hf hn hcut stops_nil
    rw [C82_reads c hm l [] k hk stops_nil] at hx
    cases hx
  · intro hno
    by_cases hn : name.map asciiLower ∈ partNames
    · have hf' : Fits c w ∨ name.map asciiLower ∈ textHeaders ∨ ¬ Recognized c.feat (name.map asciiLower) := by
        rcases hf with hf | hf | hf
        · exact .inl hf
        · exact .inr (.inl (by rw [hf]; decide))
        · exact absurd hn hf
      obtain ⟨f, hl⟩ := (C80_total c name x w l h hf').mpr fun hc => hno ⟨hc.1, hn, hc.2⟩
      have hk : ∃ k, f = partField k := by
        have hx := C80_reads c l [] f hl stops_nil
        rw [lineText_eq h (t := [])] at hx
        rcases field_line (c := c) h.name_ne h.name_chars h.folding stops_nil with ⟨k, h'⟩ | ⟨r, f', h', -, -, -, ho⟩ | ⟨v, h', -⟩ <;>
          rw [hx] at h' <;> cases h'
        · exact part_kind hn ho
        · exact ⟨.other name v, rfl⟩
      obtain ⟨k, rfl⟩ := hk
      exact ⟨k, .known h hn hl⟩
    · obtain ⟨v, hv⟩ := textL_exists c c.feat.unrecognizedHeaders h.folding
      exact ⟨_, .other h hn hv⟩

/-! ### Parts -/

theorem meansPart_starts {l : Bytes} {h : EntityHeader} (hl : MeansPart c l h) (t : Bytes) : Stops wsp (l ++ t) := by
  cases hl with
  | known h => exact line_starts h t
  | other h => exact line_starts h t

theorem meansParts_starts {s t : Bytes} {hs : List EntityHeader} (h : LinesL (MeansPart c) s hs) (ht : Stops wsp t) :
    Stops wsp (s ++ t) := by
  cases h with
  | nil => exact ht
  | cons h _ =>
    rw [List.append_assoc]
    exact meansPart_starts c h _

theorem meansParts_many (hm : c.feat.mime = true) {s t rest : Bytes} {hs ks : List EntityHeader}
    (h : LinesL (MeansPart c) s hs) (ht : Stops wsp t) (hx : many t (entityHeader c) = .ok (rest, ks)) :
    many (s ++ t) (entityHeader c) = .ok (rest, hs ++ ks) := by
  induction h with
  | nil => exact hx
  | @cons l h s hs hl hs' ih =>
    rw [List.append_assoc]
    refine many_cons (C82_reads c hm l _ h hl (meansParts_starts c hs' ht)) ?_ ih
    have hne : l ≠ [] := by
      rintro rfl
      obtain ⟨e, he⟩ := entityHeader_empty (c := c)
      have := C82_reads c hm [] [] h hl stops_nil
      rw [List.append_nil, he] at this
      cases this
    have := List.length_pos_iff.mpr hne
    simp only [List.length_append]
    omega

theorem meansParts_rawEntity (hm : c.feat.mime = true) {s tail body : Bytes} {hs : List EntityHeader}
    (h : LinesL (MeansPart c) s hs) (ht : PartEnd tail body) :
    rawEntity c (s ++ tail) = (decodeValue body ((partEncoding hs).getD .sevenBit)).bind fun v => .ok (partValue hs v) := by
  simp only [← entityOf_partValue, ← encoding_foldl]
  cases ht with
  | none =>
    have := meansParts_many c hm h stops_nil (many_err entityHeader_empty)
    refine rawEntity_eq ?_ List.nil_suffix
    unfold headerPart
    rw [this, List.append_nil]
    rfl
  | body =>
    have := meansParts_many c hm (t := CRLF ++ body) h (stops_cons.mpr (by decide)) (many_err (entityHeader_end c body))
    rw [List.append_nil] at this
    exact rawEntity_of_headers c this

/-- A part with a line that is cut is refused, whatever follows. -/
theorem C82_rejected (hm : c.feat.mime = true) (s name x w l tail : Bytes) (hs : List EntityHeader)
    (h : LinesL (MeansPart c) s hs) (hl : HeaderText name x w l) (hf : Fits c w) (hn : name.map asciiLower ∈ partNames)
    (hcut : IsCut c name l) (ht : Stops wsp tail) :
    rawEntity c (s ++ (l ++ tail)) =
      .err (.explicit "TAG ERROR: A MIME entity header part must be followed by a CRLF sequence.") := by
  obtain ⟨w₁, b, r, k, e, hb, hx⟩ := part_cut c hm hl hf hn hcut ht
  have hmany : many (s ++ (l ++ tail)) (entityHeader c) = .ok (b :: r ++ tail, hs ++ [k]) := by
    refine meansParts_many c hm h (line_starts hl tail) (many_cons hx ?_ (many_err (entityHeader_white c hb)))
    rw [e]
    simp only [List.length_append, List.length_cons]
    omega
  have hno : ¬ b! "\r\n" <+: b :: r ++ tail := by
    intro hp
    have := (List.cons_prefix_cons.mp hp).1
    rw [← this] at hb
    exact absurd hb (by decide)
  unfold rawEntity headerPart
  simp only [hmany, ok_bind, tag_err hno, err_bind]
  rfl

/-- All lines mean something, or there is a first one that is cut. -/
theorem partLines_decided (hm : c.feat.mime = true) {s : Bytes} (h : PartLinesWithin c s) (tail : Bytes) (ht : Stops wsp tail) :
    (∃ hs, LinesL (MeansPart c) s hs) ∨
    ∃ s₁ hs name x w l s₂, s = s₁ ++ (l ++ s₂) ∧ LinesL (MeansPart c) s₁ hs ∧ HeaderText name x w l ∧ Fits c w ∧
      name.map asciiLower ∈ partNames ∧ IsCut c name l ∧ Stops wsp (s₂ ++ tail) := by
  induction h with
  | nil => exact .inl ⟨[], .nil⟩
  | @cons l s hl hs ih =>
    obtain ⟨name, x, w, h, hf⟩ := hl
    by_cases hc : Fits c w ∧ name.map asciiLower ∈ partNames ∧ IsCut c name l
    · refine .inr ⟨[], [], name, x, w, l, s, rfl, .nil, h, hc.1, hc.2.1, hc.2.2, ?_⟩
      cases hs with
      | nil => exact ht
      | @cons l' s' hl' _ =>
        obtain ⟨_, _, _, h', -⟩ := hl'
        rw [List.append_assoc]
        exact line_starts h' _
    · obtain ⟨k, hk⟩ := (C82_total c hm name x w l h hf).mpr hc
      rcases ih with ⟨ks, hks⟩ | ⟨s₁, ks, name', x', w', l', s₂, rfl, h1, h2⟩
      · exact .inl ⟨k :: ks, .cons hk hks⟩
      · exact .inr ⟨l ++ s₁, k :: ks, name', x', w', l', s₂, by simp, .cons hk h1, h2⟩

/-- What is made of a part, among all those whose header lines are of the general form and within the limits: it is read
as what it means, and refused if it means nothing. -/
theorem C82_part (hm : c.feat.mime = true) (i : Bytes) (hi : PartWithin c i) :
    (∀ e, rawEntity c i = .ok e ↔ MeansEntity c i e) ∧
    ((∃ x, rawEntity c i = .err x) ↔ ¬ ∃ e, MeansEntity c i e) := by
  have sound : ∀ e, MeansEntity c i e → rawEntity c i = .ok e := by
    rintro e ⟨s, tail, body, hs, v, rfl, h, ht, hd, rfl⟩
    rw [meansParts_rawEntity c hm h ht, (decodeValue_iff _ _ _).mpr hd]
    rfl
  obtain ⟨s, tail, body, rfl, hs, ht⟩ := hi
  have hst : Stops wsp tail := by
    cases ht with
    | none => exact stops_nil
    | body => exact stops_cons.mpr (by decide)
  have complete : (∃ e, rawEntity c (s ++ tail) = .ok e ∧ MeansEntity c (s ++ tail) e) ∨ ∃ x, rawEntity c (s ++ tail) = .err x := by
    rcases partLines_decided c hm hs tail hst with ⟨ks, h⟩ | ⟨s₁, ks, name, x, w, l, s₂, rfl, h1, h2, h3, h4, h5, h6⟩
    · have hr := meansParts_rawEntity c hm h ht
      cases hd : decodeValue body ((partEncoding ks).getD .sevenBit) with
      | abort k => exact absurd hd (decodeValue_no_abort _ _ k)
      | err x =>
        rw [hd] at hr
        exact .inr ⟨x, hr⟩
      | ok v =>
        rw [hd] at hr
        exact .inl ⟨_, hr, s, tail, body, ks, v, rfl, h, ht, (decodeValue_iff _ _ _).mp hd, rfl⟩
    · have := C82_rejected c hm s₁ name x w l (s₂ ++ tail) ks h1 h2 h3 h4 h5 h6
      simp only [List.append_assoc] at this ⊢
      exact .inr ⟨_, this⟩
  rcases complete with ⟨e, h1, h2⟩ | ⟨x, hx⟩
  · refine ⟨fun e' => ⟨fun h => ?_, sound e'⟩, ⟨?_, fun h => absurd ⟨e, h2⟩ h⟩⟩
    · rw [h1] at h
      cases h
      exact h2
    · rintro ⟨x, hx⟩
      rw [h1] at hx
      cases hx
  · refine ⟨fun e' => ⟨fun h => ?_, sound e'⟩, ⟨?_, fun _ => ⟨x, hx⟩⟩⟩
    · rw [hx] at h
      cases h
    · rintro - ⟨e, he⟩
      rw [sound e he] at hx
      cases hx

/-! ### Multipart bodies -/

theorem means_rawEntities (hm : c.feat.mime = true) {parts : List Bytes} (hp : ∀ p ∈ parts, PartWithin c p) :
    (∃ es, rawEntities c parts = .ok es ∧ MeansEntities c parts es) ∨
    ((∃ x, rawEntities c parts = .err x) ∧ ∀ es, ¬ MeansEntities c parts es) := by
  induction parts with
  | nil => exact .inl ⟨[], rfl, .nil⟩
  | cons p ps ih =>
    obtain ⟨h1, h2⟩ := C82_part c hm p (hp p (by simp))
    by_cases he : ∃ e, MeansEntity c p e
    · obtain ⟨e, he⟩ := he
      have hr := (h1 e).mpr he
      rcases ih fun q hq => hp q (by simp [hq]) with ⟨es, h3, h4⟩ | ⟨⟨x, h3⟩, h4⟩
      · exact .inl ⟨e :: es, by simp only [rawEntities, hr, h3, ok_bind], .cons he h4⟩
      · refine .inr ⟨⟨x, by simp only [rawEntities, hr, h3, ok_bind, err_bind]⟩, fun es h => ?_⟩
        cases h with
        | cons _ h => exact h4 _ h
    · obtain ⟨x, hx⟩ := h2.mpr he
      refine .inr ⟨⟨x, by simp only [rawEntities, hx, err_bind]⟩, fun es h => ?_⟩
      cases h with
      | cons h _ => exact he ⟨_, h⟩

/-- A multipart body that is made of such parts: exactly what they mean is returned, in their order, and if one of them
means nothing then the body is refused. -/
theorem C82_multipart (hm : c.feat.mime = true) (raw : RawEntity) (boundary : Bytes) (parts : List Bytes)
    (ht : raw.mimeType = .multipart) (hb : raw.parameters (b! "boundary") = some boundary)
    (hp : MultipartText boundary raw.value parts) (hw : ∀ p ∈ parts, PartWithin c p) :
    (∀ e, raw.parse c = .ok e ↔ ∃ es, MeansEntities c parts es ∧ e = .multipart raw.subtype es) ∧
    ((∃ x, raw.parse c = .err x) ↔ ¬ ∃ es, MeansEntities c parts es) := by
  unfold RawEntity.parse parseMultipart
  rw [if_pos ht, hb]
  simp only [(multipartParts_iff _ _ _).mpr hp, ok_bind]
  have hu : ∀ es es', MeansEntities c parts es → MeansEntities c parts es' → es = es' := by
    intro es es' h h'
    clear hp
    induction h generalizing es' with
    | nil => cases h'; rfl
    | @cons p e ps es h _ ih =>
      cases h' with
      | cons h' hs' =>
        have hp := (C82_part c hm p (hw p (by simp))).1
        have e1 := (hp _).mpr h
        rw [(hp _).mpr h'] at e1
        cases e1
        rw [ih (fun q hq => hw q (by simp [hq])) _ hs']
  rcases means_rawEntities c hm hw with ⟨es, h1, h2⟩ | ⟨⟨x, h1⟩, h2⟩
  · simp only [h1, ok_bind]
    refine ⟨fun e => ⟨fun h => ?_, ?_⟩, ⟨?_, fun h => absurd ⟨es, h2⟩ h⟩⟩
    · cases h
      exact ⟨es, h2, rfl⟩
    · rintro ⟨es', h, rfl⟩
      rw [hu _ _ h h2]
    · rintro ⟨x, hx⟩
      cases hx
  · simp only [h1, err_bind]
    refine ⟨fun e => ⟨nofun, ?_⟩, ⟨?_, fun _ => ⟨x, rfl⟩⟩⟩
    · rintro ⟨es, h, -⟩
      exact absurd h (h2 es)
    · rintro - ⟨es, h⟩
      exact h2 es h

/-! ### Examples -/

/-- In a part the line means its text; the folded line after a parameter without quotes makes the part be refused. -/
example : (∃ k, MeansPart (Cfg.concrete .full) (b! "Keywords: =?utf-8?q?a?=\r\n (c)\r\n") k) ∧
    rawEntity (Cfg.concrete .full)
      (b! "Keywords: =?utf-8?q?a?=\r\n (c)\r\n" ++ (b! "Content-Type: a/b;c=d\r\n x\r\n" ++ b! "\r\nbody")) =
      .err (.explicit "TAG ERROR: A MIME entity header part must be followed by a CRLF sequence.") := by
  have h1 := folded_line (b! "Keywords") (b! "=?utf-8?q?a?=") (b! "(c)") (by decide +kernel)
  have h2 : HeaderText _ _ (b! " a/b;c=d\r\n x") (b! "Content-Type: a/b;c=d\r\n x\r\n") :=
    folded_line (b! "Content-Type") (b! "a/b;c=d") (b! "x") (by decide +kernel)
  have f2 : Fits (Cfg.concrete .full) (b! " a/b;c=d\r\n x") := ⟨by decide +kernel, fun _ => by decide +kernel⟩
  obtain ⟨k, hk⟩ := (C82_total (Cfg.concrete .full) rfl _ _ _ _ h1 (.inr (.inr (by decide +kernel)))).mpr
    fun h => absurd h.2.1 (by decide +kernel)
  refine ⟨⟨k, hk⟩, ?_⟩
  obtain ⟨t, st, q, h⟩ := typeRest_eq (x := field (Cfg.concrete .full) (b! "Content-Type: a/b;c=d\r\n x\r\n" ++ []))
    (r := b! " x\r\n") (by decide +kernel)
  have hcut : IsCut (Cfg.concrete .full) (b! "Content-Type") (b! "Content-Type: a/b;c=d\r\n x\r\n") :=
    ⟨b! " a/b;c=d", 32, b! "x\r\n", .contentType t st q, rfl, by decide,
      (C80_cut (Cfg.concrete .full) _ _ _ _ [] (b! " a/b;c=d") (b! "x\r\n") 32 _ h2 f2 rfl stops_nil).mp h⟩
  exact C82_rejected (Cfg.concrete .full) rfl _ _ _ _ _ _ _ (.cons hk .nil) h2 f2 (by decide +kernel) hcut
    (stops_cons.mpr (by decide))

/-- A multipart body with two parts, one of them with a header line and one without. -/
def twoParts : RawEntity where
  mimeType := .multipart
  subtype := b! "mixed"
  description := none
  id := none
  parameters := Params.empty.insert (b! "boundary") (b! "b")
  disposition := none
  value := b! "--b\r\nContent-Transfer-Encoding: base64\r\n\r\naGk=\r\n--b\r\n\r\nhello\r\n--b--\r\n"
  additionalHeaders := []

def multipartValues : Outcome Entity → Option (List Bytes)
  | .ok (.multipart _ es) => some (es.map (·.value))
  | _ => none

example : ∃ es, MeansEntities (Cfg.concrete .full)
    [b! "Content-Transfer-Encoding: base64\r\n\r\naGk=", b! "\r\nhello"] es ∧ es.map (·.value) = [b! "hi", b! "hello"] := by
  have h1 : PartWithin (Cfg.concrete .full) (b! "Content-Transfer-Encoding: base64\r\n\r\naGk=") :=
    ⟨b! "Content-Transfer-Encoding: base64\r\n", CRLF ++ b! "aGk=", _, by decide +kernel,
      .cons (s := []) ⟨b! "Content-Transfer-Encoding", b! " base64", b! " base64", exact_line _ _ (by decide +kernel),
        .inl ⟨by decide +kernel, fun _ => by decide +kernel⟩⟩ .nil, .body⟩
  have h2 : PartWithin (Cfg.concrete .full) (b! "\r\nhello") := ⟨[], CRLF ++ b! "hello", _, by decide +kernel, .nil, .body⟩
  have hp := (C82_multipart (Cfg.concrete .full) rfl twoParts (b! "b")
    [b! "Content-Transfer-Encoding: base64\r\n\r\naGk=", b! "\r\nhello"] rfl (by decide +kernel)
    ((multipartParts_iff _ _ _).mp (by decide +kernel)) (by simp [h1, h2])).1
  have hr : multipartValues (twoParts.parse (Cfg.concrete .full)) = some [b! "hi", b! "hello"] := by decide +kernel
  cases hx : twoParts.parse (Cfg.concrete .full) with
  | err => rw [hx] at hr; cases hr
  | abort => rw [hx] at hr; cases hr
  | ok e =>
    obtain ⟨es, h, rfl⟩ := (hp e).mp hx
    rw [hx] at hr
    exact ⟨es, h, Option.some.inj hr⟩

end EmailParser
