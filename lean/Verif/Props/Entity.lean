import Verif.Proofs.Complete.Mime
import Verif.Proofs.Entity
import Verif.Props.Base64
import Verif.Props.QuotedPrintable
import Verif.Props.Email
/-
C40, C41, C42, C43, C44: MIME entities.
-/
namespace EmailParser
open Spec

variable (c : Cfg)

/-! ### C40 -/

/-- A text without CR that starts before a CR ends before it. -/
theorem prefix_before_cr {s t u : Bytes} (hs : (13 : UInt8) ∉ s) (h : s <+: t ++ 13 :: u) : s <+: t := by
  induction t generalizing s with
  | nil =>
    cases s with
    | nil => exact List.nil_prefix
    | cons x s =>
      rw [List.nil_append, List.cons_prefix_cons] at h
      exact absurd (by simp [h.1]) hs
  | cons y t ih =>
    cases s with
    | nil => exact List.nil_prefix
    | cons x s =>
      rw [List.cons_append, List.cons_prefix_cons] at h
      rw [List.cons_prefix_cons]
      exact ⟨h.1, ih (fun hx => hs (by simp [hx])) h.2⟩

theorem dashBoundary_no_cr {b : Bytes} (hb : (13 : UInt8) ∉ b) : (13 : UInt8) ∉ dashBoundary b := by
  unfold dashBoundary
  simp [hb]

/-- In a text without boundary line followed by a line break, no boundary line starts in the text. -/
theorem noBoundary_occurs {b t u w : Bytes} (hb : (13 : UInt8) ∉ b) (ht : NoBoundaryLine b t) {k : Nat}
    (hk : k < t.length) : ¬ OccursAt (CRLF ++ dashBoundary b ++ w) (t ++ 13 :: u) k := by
  intro h
  have h := (List.prefix_append _ w).trans h
  rw [List.drop_append_of_le_length (by omega)] at h
  obtain ⟨x, t', e⟩ : ∃ x t', t.drop k = x :: t' := by
    cases h' : t.drop k with
    | nil => have := congrArg List.length h'; simp at this; omega
    | cons x t' => exact ⟨x, t', rfl⟩
  rw [e] at h
  change 13 :: (10 :: dashBoundary b) <+: x :: (t' ++ 13 :: u) at h
  rw [List.cons_prefix_cons] at h
  have h2 := prefix_before_cr (by simp [dashBoundary_no_cr hb]) h.2
  refine ht (List.IsInfix.trans ?_ (List.suffix_append CRLF t).isInfix)
  refine List.IsInfix.trans (List.IsPrefix.isInfix ?_) (List.drop_suffix k t).isInfix
  rw [e, ← h.1]
  exact List.cons_prefix_cons.mpr ⟨rfl, h2⟩

theorem noBoundary_start {b t u w : Bytes} (hb : (13 : UInt8) ∉ b) (ht : NoBoundaryLine b t) :
    ¬ (dashBoundary b ++ w <+: t ++ 13 :: u) := by
  intro h
  have h := prefix_before_cr (dashBoundary_no_cr hb) ((List.prefix_append _ w).trans h)
  exact ht (List.prefix_append_right_inj CRLF |>.mpr h).isInfix

theorem firstOccurrence_join {b t u w : Bytes} (hb : (13 : UInt8) ∉ b) (ht : NoBoundaryLine b t) :
    FirstOccurrence (CRLF ++ dashBoundary b ++ w) (t ++ (CRLF ++ dashBoundary b ++ w ++ u)) t u :=
  ⟨by simp, fun k hk => noBoundary_occurs hb ht hk⟩

/-- After the last part there is no further delimiter. -/
theorem no_delimiter_after {b t epi : Bytes} (hb : (13 : UInt8) ∉ b) (ht : NoBoundaryLine b t)
    (he : NoBoundaryLine b epi) : ¬ Occurs (delimiter b) (t ++ (closeDelimiter b ++ epi)) := by
  rintro ⟨k, h⟩
  by_cases hk : k < t.length
  · exact noBoundary_occurs hb ht hk h
  · unfold OccursAt at h
    rw [List.drop_append, List.drop_eq_nil_of_le (by omega), List.nil_append] at h
    generalize k - t.length = j at h
    cases j with
    | zero =>
      have h : CRLF ++ dashBoundary b ++ CRLF <+: CRLF ++ dashBoundary b ++ (45 :: 45 :: (CRLF ++ epi)) := by
        simp [delimiter, closeDelimiter] at h
      rw [List.prefix_append_right_inj] at h
      exact absurd h (not_prefix_cons (by decide))
    | succ j =>
      -- the text after the first CR
      have e : (closeDelimiter b ++ epi).drop (j + 1) =
          (10 :: (dashBoundary b ++ [45, 45]) ++ (CRLF ++ epi)).drop j := by
        simp [closeDelimiter, CRLF]
      rw [e] at h
      have hcr : (13 : UInt8) ∉ 10 :: (dashBoundary b ++ [45, 45]) := by
        simp [dashBoundary_no_cr hb]
      by_cases hj : j < (10 :: (dashBoundary b ++ [45, 45])).length
      · rw [List.drop_append_of_le_length (by omega)] at h
        obtain ⟨x, t', e⟩ : ∃ x t', (10 :: (dashBoundary b ++ [45, 45])).drop j = x :: t' := by
          cases h' : (10 :: (dashBoundary b ++ [45, 45])).drop j with
          | nil => have := congrArg List.length h'; simp at this hj; omega
          | cons x t' => exact ⟨x, t', rfl⟩
        have hx : x ∈ 10 :: (dashBoundary b ++ [45, 45]) :=
          List.mem_of_mem_drop (i := j) (by rw [e]; simp)
        rw [e] at h
        change 13 :: _ <+: x :: _ at h
        rw [List.cons_prefix_cons] at h
        exact hcr (h.1 ▸ hx)
      · rw [List.drop_append, List.drop_eq_nil_of_le (by omega), List.nil_append] at h
        exact he (List.IsInfix.trans (List.IsPrefix.isInfix ((List.prefix_append _ CRLF).trans h))
          (List.drop_suffix _ _).isInfix)

theorem cut_joinRest {b epi : Bytes} (hb : (13 : UInt8) ∉ b) (he : NoBoundaryLine b epi) :
    ∀ (ps : List Bytes) (p : Bytes), NoBoundaryLine b p → (∀ q ∈ ps, NoBoundaryLine b q) →
    ∃ pieces last, Cut b (joinRest b p ps epi) pieces (last ++ (closeDelimiter b ++ epi)) ∧
      pieces ++ [last] = p :: ps ∧ NoBoundaryLine b last
  | [], p, hp, _ =>
    ⟨[], p, .stop (noBoundary_start hb hp) (no_delimiter_after hb hp he), rfl, hp⟩
  | q :: ps, p, hp, hq => by
    obtain ⟨pieces, last, hc, e, hl⟩ := cut_joinRest hb he ps q (hq q (by simp))
      fun x hx => hq x (by simp [hx])
    refine ⟨p :: pieces, last, .next ?_ (firstOccurrence_join hb hp) hc, by simp [e], hl⟩
    exact noBoundary_start hb hp

/-- Joining parts and splitting the result gives the parts back. -/
theorem C40_split_join (b : Bytes) (preamble : Option Bytes) (part : Bytes) (parts : List Bytes)
    (epilogue : Bytes) (hb : (13 : UInt8) ∉ b) (hpre : ∀ p, preamble = some p → NoBoundaryLine b p)
    (hp : ∀ p ∈ part :: parts, NoBoundaryLine b p) (he : NoBoundaryLine b epilogue) :
    multipartParts (joinParts b preamble part parts epilogue) b = .ok (part :: parts) := by
  rw [multipartParts_iff]
  obtain ⟨pieces, last, hc, e, hl⟩ := cut_joinRest hb he parts part (hp part (by simp))
    fun x hx => hp x (by simp [hx])
  have hfo : FirstOccurrence (closeDelimiter b) (last ++ (closeDelimiter b ++ epilogue)) last
      epilogue := by
    have := firstOccurrence_join (u := epilogue) (w := [45, 45] ++ CRLF) hb hl
    simpa [closeDelimiter] using this
  unfold joinParts
  cases preamble with
  | none =>
    exact ⟨[], _, _, last, epilogue, .start hc, hfo, by rw [List.cons_append, e]⟩
  | some p =>
    refine ⟨p, _, _, last, epilogue, .next ?_ (firstOccurrence_join hb (hpre p rfl)) hc, hfo,
      by rw [List.cons_append, e]⟩
    exact noBoundary_start hb (hpre p rfl)

theorem rawEntities_ok {ps : List Bytes} {es : List RawEntity}
    (h : ps.map (rawEntity c) = es.map .ok) : rawEntities c ps = .ok es := by
  induction ps generalizing es with
  | nil =>
    cases es with
    | nil => rfl
    | cons e es => simp at h
  | cons p ps ih =>
    cases es with
    | nil => simp at h
    | cons e es =>
      simp only [List.map_cons, List.cons.injEq] at h
      unfold rawEntities
      rw [h.1, ok_bind, ih h.2, ok_bind]

/-- Joining parts and parsing the multipart entity gives the parsed parts. -/
theorem C40_parse_join (raw : RawEntity) (b : Bytes) (preamble : Option Bytes) (part : Bytes)
    (parts : List Bytes) (epilogue : Bytes) (hb : (13 : UInt8) ∉ b)
    (hpre : ∀ p, preamble = some p → NoBoundaryLine b p)
    (hp : ∀ p ∈ part :: parts, NoBoundaryLine b p) (he : NoBoundaryLine b epilogue)
    (hm : raw.mimeType = .multipart) (hpar : raw.parameters (b! "boundary") = some b)
    (hv : raw.value = joinParts b preamble part parts epilogue) (entities : List RawEntity)
    (hes : (part :: parts).map (rawEntity c) = entities.map .ok) :
    raw.parse c = .ok (.multipart raw.subtype entities) := by
  unfold RawEntity.parse parseMultipart
  rw [if_pos hm, hpar]
  simp only [hv, C40_split_join b preamble part parts epilogue hb hpre hp he, ok_bind,
    rawEntities_ok c hes]

example : joinParts (b! "b") (some (b! "pre")) (b! "1") [b! "2\r\n"] (b! "epi") =
    b! "pre\r\n--b\r\n1\r\n--b\r\n2\r\n\r\n--b--\r\nepi" := by decide +kernel

example : multipartParts (b! "pre\r\n--b\r\n1\r\n--b\r\n2\r\n\r\n--b--\r\nepi") (b! "b") =
    .ok [b! "1", b! "2\r\n"] := by decide +kernel

/-- The boundary may not be the beginning of a line of a part: this part is cut. -/
example : multipartParts (joinParts (b! "b") none (b! "x\r\n--b\r\ny") [] []) (b! "b") =
    .ok [b! "x", b! "y"] := by decide +kernel

/-- A delimiter in the epilogue changes the parts. -/
example : multipartParts (joinParts (b! "b") none (b! "x") [] (b! "\r\n--b\r\ny\r\n--b--\r\n")) (b! "b") =
    .ok [b! "x\r\n--b--\r\n", b! "y"] := by decide +kernel

/-! ### C41 -/

theorem FirstOccurrence.no_infix {w i p rest : Bytes} (hw : w ≠ []) (h : FirstOccurrence w i p rest) :
    ¬ (w <:+: p) := by
  rintro ⟨s, t, e⟩
  have hk : s.length < p.length := by
    rw [← e]
    have := List.length_pos_iff.2 hw
    simp only [List.length_append]
    omega
  refine h.2 s.length hk ?_
  rw [h.1, ← e]
  exact ⟨t ++ (w ++ rest), by simp⟩

theorem no_occurs_infix {w i : Bytes} (h : ¬ Occurs w i) : ¬ (w <:+: i) := by
  rintro ⟨s, t, rfl⟩
  exact h ⟨s.length, t, by simp⟩

theorem Cut.cover {b i rest : Bytes} {ps : List Bytes} (h : Cut b i ps rest) :
    (∃ seps : List Bytes, seps.length = ps.length ∧
      (∀ s ∈ seps, s = delimiter b ∨ s = dashBoundary b ++ CRLF) ∧
      i = (List.zipWith (· ++ ·) ps seps).flatten ++ rest) ∧
    (∀ p ∈ ps, ¬ (delimiter b <:+: p) ∧ ¬ (dashBoundary b ++ CRLF <+: p)) ∧
    ¬ (delimiter b <:+: rest) ∧ ¬ (dashBoundary b ++ CRLF <+: rest) := by
  induction h with
  | stop hn ho => exact ⟨⟨[], rfl, by simp, by simp⟩, by simp, no_occurs_infix ho, hn⟩
  | start hc ih =>
    obtain ⟨⟨seps, h1, h2, h3⟩, h4, h5⟩ := ih
    refine ⟨⟨(dashBoundary b ++ CRLF) :: seps, by simp [h1], ?_, ?_⟩, ?_, h5⟩
    · intro s hs
      rcases List.mem_cons.mp hs with rfl | hs
      · exact .inr rfl
      · exact h2 s hs
    · simp only [List.zipWith_cons_cons, List.flatten_cons, List.nil_append, List.append_assoc]
      rw [← h3]
    · intro p hp
      rcases List.mem_cons.mp hp with rfl | hp
      · simp [delimiter, CRLF, dashBoundary]
      · exact h4 p hp
  | next hn hfo hc ih =>
    rename_i i p i' ps rest
    obtain ⟨⟨seps, h1, h2, h3⟩, h4, h5⟩ := ih
    refine ⟨⟨delimiter b :: seps, by simp [h1], ?_, ?_⟩, ?_, h5⟩
    · intro s hs
      rcases List.mem_cons.mp hs with rfl | hs
      · exact .inl rfl
      · exact h2 s hs
    · simp only [List.zipWith_cons_cons, List.flatten_cons, List.append_assoc]
      rw [← h3, hfo.1]
      simp
    · intro q hq
      rcases List.mem_cons.mp hq with rfl | hq
      · refine ⟨FirstOccurrence.no_infix (by simp [delimiter, CRLF]) hfo, fun hp => hn ?_⟩
        rw [hfo.1, List.append_assoc]
        exact hp.trans (List.prefix_append _ _)
      · exact h4 q hq

/-- A multipart body that was split is the preamble, then each part after a delimiter, then the
closing delimiter and the epilogue.  Neither the preamble, nor a part, nor the epilogue contains a
delimiter. -/
theorem C41_parts_cover_body (i b : Bytes) (parts : List Bytes)
    (h : multipartParts i b = .ok parts) :
    ∃ preamble epilogue seps, seps.length = parts.length ∧
      (∀ s ∈ seps, s = delimiter b ∨ s = dashBoundary b ++ CRLF) ∧
      i = preamble ++ (List.zipWith (· ++ ·) seps parts).flatten ++ closeDelimiter b ++ epilogue ∧
      (∀ p ∈ preamble :: parts, ¬ (delimiter b <:+: p) ∧ ¬ (dashBoundary b ++ CRLF <+: p)) ∧
      (∀ p ∈ (preamble :: parts).getLast?, ¬ (closeDelimiter b <:+: p)) ∧
      ¬ (delimiter b <:+: epilogue) := by
  obtain ⟨preamble, pieces, rest, last, epilogue, hc, hfo, e⟩ := (multipartParts_iff i b parts).mp h
  obtain ⟨⟨seps, h1, h2, h3⟩, h4, h5, h6⟩ := Cut.cover hc
  have hrest := hfo.1
  have hlast : ¬ (delimiter b <:+: last) ∧ ¬ (dashBoundary b ++ CRLF <+: last) := by
    refine ⟨fun hi => h5 (hi.trans ?_), fun hp => h6 (hp.trans ?_)⟩
    · rw [hrest, List.append_assoc]; exact (List.prefix_append _ _).isInfix
    · rw [hrest, List.append_assoc]; exact List.prefix_append _ _
  have key : ∀ (pieces seps : List Bytes), seps.length = pieces.length → ∀ preamble parts,
      pieces ++ [last] = preamble :: parts →
      seps.length = parts.length ∧
      (List.zipWith (· ++ ·) pieces seps).flatten ++ last =
        preamble ++ (List.zipWith (· ++ ·) seps parts).flatten := by
    intro pieces
    induction pieces with
    | nil =>
      intro seps hs preamble parts e
      cases seps with
      | cons => simp at hs
      | nil =>
        simp only [List.nil_append, List.cons.injEq] at e
        obtain ⟨rfl, rfl⟩ := e
        simp
    | cons q pieces ih =>
      intro seps hs preamble parts e
      cases seps with
      | nil => simp at hs
      | cons s seps =>
        simp only [List.cons_append, List.cons.injEq] at e
        obtain ⟨rfl, e⟩ := e
        cases parts with
        | nil => simp at e
        | cons r parts =>
          obtain ⟨h1, h2⟩ := ih seps (by simpa using hs) r parts e
          simp [h1, h2]
  obtain ⟨k1, k2⟩ := key pieces seps h1 preamble parts e
  refine ⟨preamble, epilogue, seps, k1, h2, ?_, ?_, ?_, ?_⟩
  · rw [h3, hrest, ← k2]
    simp
  · intro p hp
    rw [← e] at hp
    rcases List.mem_append.mp hp with hp | hp
    · exact h4 p hp
    · rw [List.mem_singleton.mp hp]
      exact hlast
  · intro p hp
    rw [← e] at hp
    rw [List.getLast?_append] at hp
    have hp : some last = some p := hp
    cases hp
    exact FirstOccurrence.no_infix (by simp [closeDelimiter, CRLF]) hfo
  · intro hi
    refine h5 (hi.trans ?_)
    rw [hrest]
    exact (List.suffix_append _ _).isInfix

/-- A body is rejected exactly if no closing delimiter follows the last delimiter. -/
theorem C41_rejected_iff (i b : Bytes) :
    (∃ e, multipartParts i b = .err e) ↔
      ∃ pieces rest, Cut b i pieces rest ∧ ¬ Occurs (closeDelimiter b) rest := by
  obtain ⟨ps, rest, hm, hc⟩ := manyLoop_cut b (i.length + 1) i (by omega)
  constructor
  · rintro ⟨e, he⟩
    refine ⟨ps, rest, hc, fun ho => ?_⟩
    unfold multipartParts many at he
    rcases beforeClosingBoundary_cases b rest with ⟨last, epi, hfo, hb⟩ | ⟨hn, -⟩
    · simp only [hm, ok_bind, hb] at he
      cases ps <;> cases he
    · exact hn ho
  · rintro ⟨ps', rest', hc', ho⟩
    obtain ⟨rfl, rfl⟩ := Cut.unique hc hc'
    unfold multipartParts many
    rcases beforeClosingBoundary_cases b rest with ⟨last, epi, hfo, hb⟩ | ⟨-, hb⟩
    · exact absurd ⟨_, hfo.occurs⟩ ho
    · simp only [hm, ok_bind, hb, err_bind]
      exact ⟨_, rfl⟩

/-- A boundary that overlaps itself. -/
example : multipartParts (b! "\r\n--\r\n--\r\n1\r\n--\r\n----\r\n") (b! "\r\n--") =
    .ok [b! "1"] := by decide +kernel

/-! ### C42 -/

/-- The end of the headers. -/
theorem entityHeader_end (r : Bytes) : ∃ e, entityHeader c (CRLF ++ r) = .err e := by
  have miss : ∀ {α : Type} (name name2 : Bytes) (m m' : String) (p : Bytes → Res α)
      (f : α → EntityHeader), name2 = name.map swapCase →
      (name.map asciiLower).head? ≠ some 13 → name ≠ [] →
      ∃ e, mapValue f (headerLine name name2 m m' p) (CRLF ++ r) = .err e := by
    intro α name name2 m m' p f h1 h2 h3
    refine mapValue_err (headerLine_other h1 ?_)
    cases name with
    | nil => exact absurd rfl h3
    | cons x name =>
      simp only [List.map_cons, List.head?_cons, ne_eq, Option.some.injEq] at h2
      exact not_prefix_cons h2
  obtain ⟨e1, h1⟩ := miss (b! "Content-Transfer-Encoding:") _
    "TAG NO CASE ERROR: Header name (Content-Transfer-Encoding) does not match."
    "TAG ERROR: A header (`Content-Transfer-Encoding` in this case) must end with a CRLF sequence."
    (transferEncodingValue c) .encoding rfl (by decide) (by decide)
  obtain ⟨e2, h2⟩ := miss (b! "Content-Type:") _
    "TAG NO CASE ERROR: Header name (Content-Type) does not match."
    "TAG ERROR: A header (`Content-Type` in this case) must end with a CRLF sequence."
    (contentTypeValue c) .type rfl (by decide) (by decide)
  obtain ⟨e3, h3⟩ := miss (b! "Content-ID:") _
    "TAG NO CASE ERROR: Header name (Content-ID) does not match."
    "TAG ERROR: A header (`Content-ID` in this case) must end with a CRLF sequence."
    (messageId c) .id rfl (by decide) (by decide)
  obtain ⟨e4, h4⟩ := miss (b! "Content-Description:") _
    "TAG NO CASE ERROR: Header name (Content-Description) does not match."
    "TAG ERROR: A header (`Content-Description` in this case) must end with a CRLF sequence."
    (mimeUnstructured c) .description rfl (by decide) (by decide)
  obtain ⟨e5, h5⟩ := miss (b! "Content-Disposition:") _
    "TAG NO CASE ERROR: Header name (Content-Disposition) does not match."
    "TAG ERROR: A header (`Content-Disposition` in this case) must end with a CRLF sequence."
    (contentDispositionValue c) .disposition rfl (by decide) (by decide)
  have h6 : ∃ e, mapValue (fun (name, value) => EntityHeader.other name value) (unknown c)
      (CRLF ++ r) = .err e := by
    refine mapValue_err ?_
    unfold unknown
    rw [isFtext_eq]
    obtain ⟨e, he⟩ := takeWhile1_err (p := Spec.ftext) (r := CRLF ++ r) (stops_cons.mpr (by decide))
    rw [he]
    exact ⟨_, rfl⟩
  obtain ⟨e6, h6⟩ := h6
  unfold entityHeader
  refine ⟨.unknown "No match arm is matching the data", ?_⟩
  rw [matchParsers, show mapValue EntityHeader.encoding (contentTransferEncoding c) (CRLF ++ r) = _ from h1]
  dsimp only
  rw [matchParsers, show mapValue EntityHeader.type (contentType c) (CRLF ++ r) = _ from h2]
  dsimp only
  rw [matchParsers, show mapValue EntityHeader.id (contentId c) (CRLF ++ r) = _ from h3]
  dsimp only
  rw [matchParsers, show mapValue EntityHeader.description (contentDescription c) (CRLF ++ r) = _ from h4]
  dsimp only
  rw [matchParsers, show mapValue EntityHeader.disposition (contentDisposition c) (CRLF ++ r) = _ from h5]
  dsimp only
  rw [matchParsers, h6]
  rfl

/-- A part whose headers are read. -/
theorem rawEntity_of_headers {head body : Bytes} {hs : List EntityHeader}
    (h : many (head ++ (CRLF ++ body)) (entityHeader c) = .ok (CRLF ++ body, hs)) :
    rawEntity c (head ++ (CRLF ++ body)) =
      (decodeValue body ((hs.foldl EntityHeaders.add {}).encoding.getD .sevenBit)).bind fun v =>
        .ok (entityOf (hs.foldl EntityHeaders.add {}) v) := by
  refine rawEntity_eq ?_ ⟨head ++ CRLF, by simp⟩
  unfold headerPart
  rw [h]
  simp only [ok_bind]
  rw [if_neg (by simp [CRLF]), show (b! "\r\n") = CRLF from rfl, tag_append]
  rfl

/-- A part with one header field, the transfer encoding: its name in any case, comments and white
space around the value. -/
def encodedPart (name w encoding w' body : Bytes) : Bytes :=
  name ++ (w ++ encoding ++ w' ++ (CRLF ++ (CRLF ++ body)))

theorem rawEntity_encodedPart {name w t w' body : Bytes} {e : ContentTransferEncoding}
    (hn : name.map asciiLower = b! "content-transfer-encoding:") (hw : OptCfws w ())
    (hw' : InlineCfws w' ()) (hs : w.count 40 ≤ c.stack) (hs' : w'.count 40 ≤ c.stack)
    (hne : t ≠ []) (ht : ∀ b ∈ t, tokenChar b = true)
    (he : ∀ r, Stops tokenChar r → transferEncoding (t ++ r) = .ok (r, e)) :
    rawEntity c (encodedPart name w t w' body) =
      (decodeValue body e).bind fun v => .ok (entityOf { encoding := some e } v) := by
  have h1 := contentTransferEncoding_append (c := c) (r := CRLF ++ body) hn hw hw' hs hs' hne ht he
  have h2 : entityHeader c (encodedPart name w t w' body) = .ok (CRLF ++ body, .encoding e) := by
    unfold entityHeader encodedPart
    rw [matchParsers, mapValue, h1]
    rfl
  have h3 : many (encodedPart name w t w' body) (entityHeader c) =
      .ok (CRLF ++ body, [.encoding e]) := by
    refine many_cons h2 ?_ (many_err (entityHeader_end c body))
    have : 0 < t.length := List.length_pos_iff.2 hne
    simp only [encodedPart, List.length_append]
    omega
  have e1 : encodedPart name w t w' body = name ++ (w ++ t ++ w' ++ CRLF) ++ (CRLF ++ body) := by
    simp [encodedPart]
  rw [e1] at h3 ⊢
  rw [rawEntity_of_headers c h3]
  rfl

theorem tokenChar_of_lower {t : Bytes} (h : ∀ b ∈ t.map asciiLower, tokenChar b = true) :
    ∀ b ∈ t, tokenChar b = true := by
  have key : ∀ x : UInt8, tokenChar (asciiLower x) = tokenChar x := by decide +kernel
  intro b hb
  rw [← key]
  exact h _ (List.mem_map_of_mem hb)

theorem rawEntity_namedPart {name w t w' body : Bytes} {e : ContentTransferEncoding}
    (hn : name.map asciiLower = b! "content-transfer-encoding:") (hw : OptCfws w ())
    (hw' : InlineCfws w' ()) (hs : w.count 40 ≤ c.stack) (hs' : w'.count 40 ≤ c.stack)
    (he : (t.map asciiLower, e) ∈ encodingNames) :
    rawEntity c (encodedPart name w t w' body) =
      (decodeValue body e).bind fun v => .ok (entityOf { encoding := some e } v) := by
  have h1 : ∀ x ∈ encodingNames, x.1 ≠ [] ∧ ∀ b ∈ x.1, tokenChar b = true := by decide +kernel
  obtain ⟨h2, h3⟩ := h1 _ he
  refine rawEntity_encodedPart c hn hw hw' hs hs' ?_ (tokenChar_of_lower h3)
    fun r _ => transferEncoding_named he rfl
  rintro rfl
  exact h2 rfl

/-- With one of the encodings that mean no encoding, the value is the body. -/
theorem C42_identity (name w encoding w' body : Bytes)
    (hn : name.map asciiLower = b! "content-transfer-encoding:") (hw : OptCfws w ())
    (hw' : InlineCfws w' ()) (hs : w.count 40 ≤ c.stack) (hs' : w'.count 40 ≤ c.stack)
    (he : encoding.map asciiLower ∈ [b! "7bit", b! "8bit", b! "binary"]) :
    ∃ entity, rawEntity c (encodedPart name w encoding w' body) = .ok entity ∧
      entity.value = body := by
  have key : ∀ t ∈ [b! "7bit", b! "8bit", b! "binary"], ∃ e, (t, e) ∈ encodingNames ∧
      (e = .sevenBit ∨ e = .heightBit ∨ e = .binary) := by
    intro t ht
    simp only [List.mem_cons, List.not_mem_nil, or_false] at ht
    rcases ht with rfl | rfl | rfl
    · exact ⟨.sevenBit, by decide +kernel, .inl rfl⟩
    · exact ⟨.heightBit, by decide +kernel, .inr (.inl rfl)⟩
    · exact ⟨.binary, by decide +kernel, .inr (.inr rfl)⟩
  obtain ⟨e, h1, h2⟩ := key _ he
  rw [rawEntity_namedPart c hn hw hw' hs hs' h1]
  refine ⟨entityOf { encoding := some e } body, ?_, rfl⟩
  rcases h2 with rfl | rfl | rfl <;> rfl

/-- A body produced by the base64 encoder is decoded to the original. -/
theorem C42_base64 (name w encoding w' body data : Bytes)
    (hn : name.map asciiLower = b! "content-transfer-encoding:") (hw : OptCfws w ())
    (hw' : InlineCfws w' ()) (hs : w.count 40 ≤ c.stack) (hs' : w'.count 40 ≤ c.stack)
    (he : encoding.map asciiLower = b! "base64") (hb : encodeBase64 data = .ok body) :
    ∃ entity, rawEntity c (encodedPart name w encoding w' body) = .ok entity ∧
      entity.value = data := by
  rw [rawEntity_namedPart c (e := .base64) hn hw hw' hs hs' (by rw [he]; decide +kernel)]
  obtain ⟨body', h1, h2⟩ := C30_base64_round_trip data
  rw [hb] at h1
  cases h1
  refine ⟨entityOf { encoding := some .base64 } data, ?_, rfl⟩
  simp only [decodeValue, h2]
  rfl

/-- A body produced by the quoted-printable encoder is decoded to the original. -/
theorem C42_quoted_printable (name w encoding w' body data : Bytes)
    (hn : name.map asciiLower = b! "content-transfer-encoding:") (hw : OptCfws w ())
    (hw' : InlineCfws w' ()) (hs : w.count 40 ≤ c.stack) (hs' : w'.count 40 ≤ c.stack)
    (he : encoding.map asciiLower = b! "quoted-printable") (hb : encodeQp data = .ok body) :
    ∃ entity, rawEntity c (encodedPart name w encoding w' body) = .ok entity ∧
      entity.value = data := by
  rw [rawEntity_namedPart c (e := .quotedPrintable) hn hw hw' hs hs' (by rw [he]; decide +kernel)]
  obtain ⟨body', h1, h2⟩ := C33_qp_round_trip data
  rw [hb] at h1
  cases h1
  refine ⟨entityOf { encoding := some .quotedPrintable } data, ?_, rfl⟩
  simp only [decodeValue, h2]
  rfl

/-- A part with an encoding that the library does not know is rejected, unless the name of the
encoding starts with the name of a known one (see the last example below). -/
theorem C42_unknown (name w encoding w' body : Bytes)
    (hn : name.map asciiLower = b! "content-transfer-encoding:") (hw : OptCfws w ())
    (hw' : InlineCfws w' ()) (hs : w.count 40 ≤ c.stack) (hs' : w'.count 40 ≤ c.stack)
    (hne : encoding ≠ []) (ht : ∀ b ∈ encoding, tokenChar b = true)
    (he : ∀ x ∈ encodingNames, ¬ (x.1 <+: encoding.map asciiLower)) :
    ∃ e, rawEntity c (encodedPart name w encoding w' body) = .err e := by
  rw [rawEntity_encodedPart c hn hw hw' hs hs' hne ht
    fun r hr => transferEncoding_other hne ht hr he]
  exact ⟨_, rfl⟩

example : encodedPart (b! "CONTENT-Transfer-encoding:") (b! " (a) ") (b! "Base64") (b! " ") (b! "eA==") =
    b! "CONTENT-Transfer-encoding: (a) Base64 \r\n\r\neA==" := by decide +kernel
example : (outcomeValue (rawEntity (Cfg.concrete .full)
    (b! "CONTENT-Transfer-encoding: (a) Base64 \r\n\r\neA=="))).map (·.value) = some (b! "x") := by
  decide +kernel
example : (outcomeValue (rawEntity (Cfg.concrete .full)
    (b! "Content-Transfer-Encoding: uuencode\r\n\r\neA=="))).map (·.value) = none := by
  decide +kernel

/-- The known encoding is read first, the header is then malformed and kept as text, and the body is
not decoded. -/
example : (outcomeValue (rawEntity (Cfg.concrete .full)
    (b! "Content-Transfer-Encoding: base64url\r\n\r\neA=="))).map
      (fun e => (e.value, e.additionalHeaders)) =
    some (b! "eA==", [(b! "Content-Transfer-Encoding", b! " base64url")]) := by
  decide +kernel

/-! ### C43 -/

/-- What a part without any header is. -/
def plainPart (body : Bytes) : RawEntity :=
  { mimeType := .text, subtype := b! "plain", description := none, id := none
    parameters := fun name => if name = b! "charset" then some (b! "us-ascii") else none
    disposition := none, value := body, additionalHeaders := [] }

theorem entityOf_default (body : Bytes) : entityOf {} body = plainPart body := by
  unfold entityOf plainPart defaultType Params.insert Params.empty
  simp only [Option.getD_none]

/-- A part without headers is plain ASCII text. -/
theorem C43_no_headers (body : Bytes) : rawEntity c (CRLF ++ body) = .ok (plainPart body) := by
  have := rawEntity_of_headers c (head := []) (body := body) (hs := [])
    (by simpa using many_err (entityHeader_end c body))
  rw [List.nil_append] at this
  rw [this, ← entityOf_default]
  rfl

/-- So is an empty part. -/
theorem C43_empty : rawEntity c [] = .ok (plainPart []) := by
  have h : ∃ e, entityHeader c [] = .err e := by
    have hh : ∀ {α : Type} (name name2 : Bytes) (m m' : String) (p : Bytes → Res α)
        (f : α → EntityHeader), name2 = name.map swapCase → name ≠ [] →
        ∃ e, mapValue f (headerLine name name2 m m' p) [] = .err e := by
      intro α name name2 m m' p f h1 h2
      refine mapValue_err (headerLine_other h1 ?_)
      cases name with
      | nil => exact absurd rfl h2
      | cons x name => simp
    obtain ⟨e, he⟩ := takeWhile1_err (p := Spec.ftext) (r := []) stops_nil
    obtain ⟨e1, h1⟩ : ∃ e, mapValue EntityHeader.encoding (contentTransferEncoding c) [] = .err e :=
      hh _ _ _ _ _ _ (by decide +kernel) (by decide)
    obtain ⟨e2, h2⟩ : ∃ e, mapValue EntityHeader.type (contentType c) [] = .err e :=
      hh _ _ _ _ _ _ (by decide +kernel) (by decide)
    obtain ⟨e3, h3⟩ : ∃ e, mapValue EntityHeader.id (contentId c) [] = .err e :=
      hh _ _ _ _ _ _ (by decide +kernel) (by decide)
    obtain ⟨e4, h4⟩ : ∃ e, mapValue EntityHeader.description (contentDescription c) [] = .err e :=
      hh _ _ _ _ _ _ (by decide +kernel) (by decide)
    obtain ⟨e5, h5⟩ : ∃ e, mapValue EntityHeader.disposition (contentDisposition c) [] = .err e :=
      hh _ _ _ _ _ _ (by decide +kernel) (by decide)
    unfold entityHeader
    simp only [matchParsers, h1, h2, h3, h4, h5]
    simp only [mapValue, unknown, isFtext_eq, he, err_bind]
    exact ⟨_, rfl⟩
  have h2 : headerPart c [] = .ok (([] : Bytes).length, {}) := by
    unfold headerPart
    rw [many_err h]
    rfl
  rw [rawEntity_eq h2 List.suffix_rfl, ← entityOf_default]
  rfl

/-- The values of one kind of header, in order. -/
def headerTypes : List EntityHeader → List (ContentType × Bytes × Params) :=
  List.filterMap fun | .type v => some v | _ => none
def headerIds : List EntityHeader → List (Bytes × Bytes) :=
  List.filterMap fun | .id v => some v | _ => none
def headerDescriptions : List EntityHeader → List Bytes :=
  List.filterMap fun | .description v => some v | _ => none
def headerDispositions : List EntityHeader → List Disposition :=
  List.filterMap fun | .disposition v => some v | _ => none
def headerEncodings : List EntityHeader → List ContentTransferEncoding :=
  List.filterMap fun | .encoding v => some v | _ => none
def otherHeaders : List EntityHeader → List (Bytes × Bytes) :=
  List.filterMap fun | .other n v => some (n, v) | _ => none

theorem entityHeaders_foldl (hs : List EntityHeader) : ∀ h : EntityHeaders,
    hs.foldl EntityHeaders.add h =
      { encoding := (headerEncodings hs).getLast?.or h.encoding
        mimeType := (headerTypes hs).getLast?.or h.mimeType
        id := (headerIds hs).getLast?.or h.id
        description := (headerDescriptions hs).getLast?.or h.description
        disposition := (headerDispositions hs).getLast?.or h.disposition
        additionalHeaders := h.additionalHeaders ++ otherHeaders hs } := by
  have key : ∀ {α : Type} (v : α) (l : List α) (o : Option α),
      l.getLast?.or (some v) = (v :: l).getLast?.or o := by
    intro α v l o
    rw [List.getLast?_cons]
    cases l.getLast? <;> rfl
  induction hs with
  | nil => intro h; simp [headerEncodings, headerTypes, headerIds, headerDescriptions,
      headerDispositions, otherHeaders]
  | cons x hs ih =>
    intro h
    rw [List.foldl_cons, ih]
    cases x <;>
      simp only [EntityHeaders.add, headerEncodings, headerTypes, headerIds, headerDescriptions,
        headerDispositions, otherHeaders, List.filterMap_cons, List.append_assoc, List.singleton_append,
        key _ _ h.encoding, key _ _ h.mimeType, key _ _ h.id, key _ _ h.description,
        key _ _ h.disposition]

/-- Of a repeated header the last one counts, a missing one has its default, and the other headers
are kept in order. -/
theorem C43_last_counts (hm : c.feat.mime = true) (i : Bytes) (e : RawEntity)
    (h : rawEntity c i = .ok e) :
    ∃ hs body, PartText c i hs body ∧
      (e.mimeType, e.subtype, e.parameters) = (headerTypes hs).getLast?.getD
        ((plainPart []).mimeType, (plainPart []).subtype, (plainPart []).parameters) ∧
      e.id = (headerIds hs).getLast? ∧
      e.description = (headerDescriptions hs).getLast? ∧
      e.disposition = (headerDispositions hs).getLast? ∧
      e.additionalHeaders = otherHeaders hs ∧
      (match (headerEncodings hs).getLast? with
        | some .base64 => decodeBase64 body = .ok e.value
        | some .quotedPrintable => e.value = qpDecode body
        | some (.unknown _) => False
        | some _ => e.value = body
        | none => e.value = body) := by
  have hsat := rawEntity_sat hm i
  rw [h] at hsat
  obtain ⟨hs, body, v, hp, hd, rfl⟩ := hsat
  have hdef : ((plainPart []).mimeType, (plainPart []).subtype, (plainPart []).parameters) =
      defaultType := by
    rw [← entityOf_default]
    rfl
  rw [entityHeaders_foldl] at hd ⊢
  refine ⟨hs, body, hp, ?_, ?_, ?_, ?_, ?_, ?_⟩
  · rw [hdef]
    simp only [entityOf, Option.or_none]
  · simp [entityOf]
  · simp [entityOf]
  · simp [entityOf]
  · simp [entityOf]
  · simp only [Option.or_none] at hd
    simp only [entityOf]
    cases hl : (headerEncodings hs).getLast? with
    | none => rw [hl] at hd; cases hd; rfl
    | some x =>
      rw [hl] at hd
      cases x with
      | base64 => exact hd
      | quotedPrintable =>
        simp only [Option.getD_some, decodeValue, decodeQp_eq] at hd
        cases hd; rfl
      | unknown => cases hd
      | _ => cases hd; rfl

example : (outcomeValue (rawEntity (Cfg.concrete .full)
    (b! "Content-Type: a/b\r\nX: 1\r\nContent-Type: text/html\r\nY: 2\r\nContent-Description: d\r\n\r\nbody"))).map
      (fun e => decide (e.mimeType = .text ∧ e.subtype = b! "html" ∧ e.parameters (b! "charset") = none ∧
        e.description = some (b! " d") ∧ e.value = b! "body" ∧
        e.additionalHeaders = [(b! "X", b! " 1"), (b! "Y", b! " 2")])) = some true := by
  decide +kernel

/-! ### C44 -/

/-- The names of the charset that mean UTF-8. -/
theorem toLowercase_eq {charset : Bytes} (h : ∀ b ∈ charset.map asciiLower, b < 128) :
    c.toLowercase charset = charset.map asciiLower := by
  refine c.toLowercase_ascii charset fun b hb => ?_
  have key : ∀ x : UInt8, asciiLower x < 128 → x < 128 := by decide +kernel
  exact key b (h _ (List.mem_map_of_mem hb))

/-- Text in UTF-8 is returned as it is, if it is valid. -/
theorem C44_utf8_text (raw : RawEntity) (charset : Bytes) (ht : raw.mimeType = .text)
    (hp : raw.parameters (b! "charset") = some charset)
    (hc : charset.map asciiLower = b! "utf-8" ∨ charset.map asciiLower = b! "us-ascii") :
    (utf8Valid raw.value = true → raw.parse c = .ok (.text raw.subtype raw.value)) ∧
    (utf8Valid raw.value = false → ∃ e, raw.parse c = .err e) := by
  have hl : c.toLowercase charset = charset.map asciiLower := toLowercase_eq c (by
    rcases hc with h | h <;> rw [h] <;> decide +kernel)
  have hne : ¬ raw.mimeType = .multipart := by rw [ht]; decide
  have hd : ∀ v, decodeCharset c (charset.map asciiLower) v =
      some (if utf8Valid v then .ok v else .err (.unknown "Invalid text encoding")) := by
    intro v
    unfold decodeCharset
    rw [if_pos (by rcases hc with h | h <;> rw [h] <;> decide +kernel)]
  unfold RawEntity.parse
  rw [if_neg hne, if_pos ht, hp]
  dsimp only
  rw [hl, hd]
  dsimp only
  exact ⟨fun h => by rw [if_pos h]; rfl, fun h => by rw [if_neg (by simp [h])]; exact ⟨_, rfl⟩⟩

/-- Text in another known charset is converted. -/
theorem C44_other_text (raw : RawEntity) (charset : Bytes) (t : Textcode) (ht : raw.mimeType = .text)
    (hp : raw.parameters (b! "charset") = some charset)
    (hc : charset.map asciiLower = charsetName t) :
    raw.parse c = .ok (.text raw.subtype (c.textcode t raw.value)) := by
  have hl : c.toLowercase charset = charset.map asciiLower := toLowercase_eq c (by
    rw [hc]; cases t <;> decide +kernel)
  have hne : ¬ raw.mimeType = .multipart := by rw [ht]; decide
  have hd := decodeCharset_of_text (c := c) (name := charsetName t) (bytes := raw.value)
    (.inr ⟨t, rfl, rfl⟩)
  unfold RawEntity.parse
  rw [if_neg hne, if_pos ht, hp]
  dsimp only
  rw [hl, hc, hd]
  rfl

/-- Text without charset, or with one the library does not know, is not decoded. -/
theorem C44_unknown_text (raw : RawEntity) (ht : raw.mimeType = .text)
    (hp : ∀ charset, raw.parameters (b! "charset") = some charset →
      (∀ b ∈ charset, b < 128) ∧ ¬ KnownCharset (charset.map asciiLower)) :
    raw.parse c = .ok .unknown := by
  have hne : ¬ raw.mimeType = .multipart := by rw [ht]; decide
  unfold RawEntity.parse
  rw [if_neg hne, if_pos ht]
  cases hcs : raw.parameters (b! "charset") with
  | none => rfl
  | some charset =>
    obtain ⟨h1, h2⟩ := hp charset hcs
    rw [← knownCharset_iff] at h2
    have : decodeCharset c (charset.map asciiLower) raw.value = none := by
      simp only [knownCharset, Bool.or_eq_true, beq_iff_eq, not_or, Bool.not_eq_true,
        Option.isSome_eq_false_iff, Option.isNone_iff_eq_none] at h2
      unfold decodeCharset
      rw [if_neg (by simp [h2.1]), h2.2]
    dsimp only
    rw [c.toLowercase_ascii charset h1, this]

/-- Other types are not decoded. -/
theorem C44_other_types (raw : RawEntity) (h : raw.mimeType ≠ .text) (h' : raw.mimeType ≠ .multipart) :
    raw.parse c = .ok .unknown := by
  unfold RawEntity.parse
  rw [if_neg h', if_neg h]

example : ((outcomeValue (rawEntity (Cfg.concrete .full)
    (b! "Content-Type: text/html; charset=UTF-8\r\n\r\né"))).map fun e =>
      match e.parse (Cfg.concrete .full) with
      | .ok (.text s v) => some (s, v)
      | _ => none) = some (some (b! "html", b! "é")) := by decide +kernel
example : ((outcomeValue (rawEntity (Cfg.concrete .full) (b! "\r\nhello"))).map fun e =>
      match e.parse (Cfg.concrete .full) with
      | .ok (.text s v) => some (s, v)
      | _ => none) = some (some (b! "plain", b! "hello")) := by decide +kernel

end EmailParser
