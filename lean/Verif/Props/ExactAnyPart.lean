import Verif.Spec.ExactAnyPart
import Verif.Props.ExactAll
import Verif.Props.ExactParts
/-
C84: what is returned for any MIME part at all and for any multipart body, to the letter.  `Spec.ReturnedPart`,
`Spec.ReturnedParts` and `Spec.ReturnedMultipart` are in Verif/Spec/ExactAnyPart.lean.
-/
namespace EmailParser
open Spec

variable (c : Cfg)

/-! ### The header block of a part -/

theorem entityHeader_local : LocalLine (entityHeader c) := by
  refine matchLines_local fun p hp => ?_
  simp only [List.mem_cons, List.not_mem_nil, or_false] at hp
  rcases hp with rfl | rfl | rfl | rfl | rfl | rfl
  · exact mapLine_local (headerLine_local rfl (by decide) transferEncodingValue_local)
  · exact mapLine_local (headerLine_local rfl (by decide) contentTypeValue_local)
  · exact mapLine_local (headerLine_local rfl (by decide) messageId_local)
  · exact mapLine_local (headerLine_local rfl (by decide) mimeUnstructured_local)
  · exact mapLine_local (headerLine_local rfl (by decide) contentDispositionValue_local)
  · exact mapLine_local unknown_local

theorem entityHeader_ended {t : Bytes} (h : Ended t) : ∃ e, entityHeader c t = .err e := by
  refine matchParsers_all_err fun p hp => ?_
  simp only [List.mem_cons, List.not_mem_nil, or_false] at hp
  rcases hp with rfl | rfl | rfl | rfl | rfl | rfl
  · exact mapValue_ended (headerLine_ended h rfl rfl (by decide))
  · exact mapValue_ended (headerLine_ended h rfl rfl (by decide))
  · exact mapValue_ended (headerLine_ended h rfl rfl (by decide))
  · exact mapValue_ended (headerLine_ended h rfl rfl (by decide))
  · exact mapValue_ended (headerLine_ended h rfl rfl (by decide))
  · exact mapValue_ended (unknown_ended h)

theorem entityHeaders_block (hm : c.feat.mime = true) {t t' : Bytes} (h : Ended t) (h' : Ended t') :
    Block t t' fun i => many i (entityHeader c) :=
  many_block ((entityHeader_local c).block ⟨h.stops, h'.stops⟩ (entityHeader_ended c h) (entityHeader_ended c h'))
    (shrinks_of entityHeader_progress (entityHeader_parses hm))

theorem lines_entityHeader (hm : c.feat.mime = true) : Lines (fun _ => True) (EntityHeaderG c) := by
  have hV := strOk_utf8 c
  intro w h hw
  refine ⟨?_, trivial⟩
  cases h with
  | encoding v => exact (lines_header (ens_transferEncoding hV) (by decide +kernel) (by decide +kernel) _ _ hw).1
  | type v => exact (lines_header (ens_contentType hV hm) (by decide +kernel) (by decide +kernel) _ _ hw).1
  | id v => exact (lines_header (ens_messageId hV) (by decide +kernel) (by decide +kernel) _ _ hw).1
  | description v => exact (lines_header (ens_mimeUnstructured hV hm) (by decide +kernel) (by decide +kernel) _ _ hw).1
  | disposition v => exact (lines_header (ens_disposition hV hm) (by decide +kernel) (by decide +kernel) _ _ hw).1
  | other n v => exact (lines_optionalField hV (fun _ => hm) _ _ hw).1

theorem entityHeaders_abort (hm : c.feat.mime = true) {head tail : Bytes} {k : Abort} (ht : Ended tail)
    (hh : tail = [] ∨ head = [] ∨ ∃ p, head = p ++ [13, 10]) (hf : Fits c head) :
    many (head ++ tail) (entityHeader c) ≠ .abort k := by
  have key : ∀ k, many head (entityHeader c) ≠ .abort k := by
    intro k h
    rcases (many_parses entityHeader_progress (entityHeader_parses hm) head).of_abort h with ⟨-, h⟩ | ⟨-, ho, -, h⟩
    · have := hf.depth
      omega
    · have := hf.stars ho
      omega
  intro h
  rcases hh with rfl | hh
  · rw [List.append_nil] at h
    exact key k h
  have hat : At [] tail head (head ++ tail) := by
    rcases hh with rfl | ⟨p, rfl⟩
    · exact .done
    · simpa using At.inside (t := []) (t' := tail) p
  rcases (entityHeaders_block c hm .nil ht).cases hat with ⟨s, s', v, -, -, h2⟩ | ⟨e, e', -, h2⟩ | ⟨k', h1, -⟩
  · rw [h] at h2; cases h2
  · rw [h] at h2; cases h2
  · exact key k' h1

/-- Whatever part is read has the header block before its first empty line; it consists of lines that begin with a name and
a colon, and if none of these is white, it is made of header lines. -/
theorem C84_read_lines (hm : c.feat.mime = true) (i head tail : Bytes) (e : RawEntity) (hs : Split i head tail)
    (h : rawEntity c i = .ok e) : HeaderLines head ∧ (¬ WhiteLine head → ∃ ls, MadeOf head ls) := by
  obtain ⟨r, hr, -⟩ := bind_eq_ok.1 h
  have hp := headerPart_sat hm i
  rw [hr] at hp
  obtain ⟨ks, body, ⟨w, hw, hi⟩, -⟩ := hp
  have hl := (lines_star (lines_entityHeader c hm) _ _ hw).1
  obtain ⟨_, _, -, hu⟩ := C83_split i
  have h1 : ∃ t, Split i w t := by
    rcases hi with ⟨rfl, -⟩ | rfl
    · exact ⟨[], by simpa using split_lines hl .nil⟩
    · exact ⟨CRLF ++ body, by simpa using split_lines hl (.crlf body)⟩
  obtain ⟨t, h1⟩ := h1
  obtain ⟨rfl, rfl⟩ := hu _ _ h1
  obtain ⟨rfl, rfl⟩ := hu _ _ hs
  exact ⟨hl, madeOf_lines hl⟩

/-! ### What is returned for a part -/

theorem eachPart_lines {ls : List Bytes} {hs : List EntityHeader} (h : EachPart c ls hs) :
    LinesL (MeansPart c) ls.flatten hs := by
  induction h with
  | nil => exact .nil
  | cons h _ ih =>
    rw [List.flatten_cons]
    exact .cons h ih

theorem partEnd_of {tail : Bytes} (ht : Ended tail) : ∃ body, PartEnd tail body := by
  cases ht with
  | nil => exact ⟨_, .none⟩
  | crlf b => exact ⟨b, .body⟩

/-- All lines mean something, or there is a first one that is cut. -/
theorem eachPart_decided (hm : c.feat.mime = true) {ls : List Bytes} (h : ∀ l ∈ ls, ∃ name x w, HeaderText name x w l ∧ Fits c w) :
    (∃ hs, EachPart c ls hs) ∨
    ∃ ls₁ hs name x w l ls₂, ls = ls₁ ++ l :: ls₂ ∧ EachPart c ls₁ hs ∧ HeaderText name x w l ∧ Fits c w ∧
      name.map asciiLower ∈ partNames ∧ IsCut c name l := by
  induction ls with
  | nil => exact .inl ⟨[], .nil⟩
  | cons l ls ih =>
    obtain ⟨name, x, w, hx, hf⟩ := h l (by simp)
    by_cases hc : Fits c w ∧ name.map asciiLower ∈ partNames ∧ IsCut c name l
    · exact .inr ⟨[], [], name, x, w, l, ls, rfl, .nil, hx, hc.1, hc.2.1, hc.2.2⟩
    · obtain ⟨k, hk⟩ := (C82_total c hm name x w l hx (.inl hf)).mpr hc
      rcases ih fun l hl => h l (by simp [hl]) with ⟨ks, hks⟩ | ⟨ls₁, ks, name', x', w', l', ls₂, rfl, h1, h2⟩
      · exact .inl ⟨k :: ks, .cons hk hks⟩
      · exact .inr ⟨l :: ls₁, k :: ks, name', x', w', l', ls₂, rfl, .cons hk h1, h2⟩

theorem madeOf_fits {head : Bytes} {ls : List Bytes} (h : MadeOf head ls) (hf : Fits c head) :
    ∀ l ∈ ls, ∃ name x w, HeaderText name x w l ∧ Fits c w := by
  intro l hl
  obtain ⟨name, x, w, hx⟩ := h.2 l hl
  have hi : w <:+: head := by
    have h1 : w <:+: l := ⟨name ++ b! ":", CRLF, by rw [hx.text]⟩
    rw [h.1]
    exact h1.trans (List.infix_of_mem_flatten hl)
  exact ⟨name, x, w, hx, Nat.le_trans (hi.sublist.count_le 40) hf.depth, fun ho =>
    Nat.lt_of_le_of_lt (hi.sublist.count_le 42) (hf.stars ho)⟩

theorem flatten_starts {ls : List Bytes} (h : ∀ l ∈ ls, ∃ name x w, HeaderText name x w l) {t : Bytes} (ht : Stops wsp t) :
    Stops wsp (ls.flatten ++ t) := by
  cases ls with
  | nil => exact ht
  | cons l ls =>
    obtain ⟨name, x, w, hx⟩ := h l (by simp)
    rw [List.flatten_cons, List.append_assoc]
    exact line_starts hx _

/-- What must be returned is returned, if a header block that is read in full is made of header lines. -/
theorem returnedPart_sound (hm : c.feat.mime = true) {i head tail : Bytes} (hs : Split i head tail)
    (hw : ∀ ks, Gram.star (EntityHeaderG c) head ks → ∃ ls, MadeOf head ls) (hf : Fits c head) {r : Outcome RawEntity} (h : ReturnedPart c head tail r) : rawEntity c i = r := by
  obtain ⟨rfl, ht, hh⟩ := split_ended hs
  cases h with
  | read h1 h2 h3 h4 =>
    rw [h1.1, meansParts_rawEntity c hm (eachPart_lines c h2) h3, decodeValue_eq, h4]
    rfl
  | undecodable h1 h2 h3 h4 =>
    rw [h1.1, meansParts_rawEntity c hm (eachPart_lines c h2) h3, decodeValue_eq, h4]
    rfl
  | @cut ls h1 h2 =>
    rcases eachPart_decided c hm (madeOf_fits c h1 hf) with ⟨ks, h⟩ | ⟨ls₁, ks, name, x, w, l, ls₂, rfl, h3, h4, h5, h6, h7⟩
    · exact absurd h (h2 ks)
    · have := C82_rejected c hm ls₁.flatten name x w l (ls₂.flatten ++ tail) ks (eachPart_lines c h3) h4 h5 h6 h7
        (flatten_starts (fun l hl => h1.2 l (by simp [hl])) ht.stops)
      rw [h1.1]
      simpa using this
  | other h1 =>
    cases hx : many (head ++ tail) (entityHeader c) with
    | abort k => exact absurd hx (entityHeaders_abort c hm ht hh hf)
    | err e => exact absurd hx (many_no_err _ _)
    | ok r =>
      obtain ⟨t, ks⟩ := r
      have hend : ¬ (t = [] ∨ CRLF <+: t) := by
        intro hend
        obtain ⟨w, e, hw'⟩ := (many_parses entityHeader_progress (entityHeader_parses hm) (head ++ tail)).of_ok hx
        have hl := (lines_star (lines_entityHeader c hm) _ _ hw').1
        obtain ⟨_, _, -, hu⟩ := C83_split (head ++ tail)
        have h2 := split_lines hl (ended_of hend)
        rw [← e] at h2
        obtain ⟨rfl, rfl⟩ := hu _ _ h2
        obtain ⟨rfl, rfl⟩ := hu _ _ hs
        obtain ⟨ls, hls⟩ := hw _ hw'
        exact h1 ls hls
      have hne : t.isEmpty = false := by
        cases t with
        | nil => exact absurd (.inl rfl) hend
        | cons => rfl
      unfold rawEntity headerPart
      simp only [hx, ok_bind, hne, tag_err (fun h => hend (.inr h)), err_bind]
      rfl

theorem returnedPart_exists {i head tail : Bytes} (hs : Split i head tail) : ∃ r, ReturnedPart c head tail r := by
  obtain ⟨rfl, ht, -⟩ := split_ended hs
  by_cases h1 : ∃ ls, MadeOf head ls
  · obtain ⟨ls, h1⟩ := h1
    by_cases h2 : ∃ ks, EachPart c ls ks
    · obtain ⟨ks, h2⟩ := h2
      obtain ⟨body, h3⟩ := partEnd_of ht
      cases h4 : decoding (partEncoding ks) body with
      | ok v => exact ⟨_, .read h1 h2 h3 h4⟩
      | err e => exact ⟨_, .undecodable h1 h2 h3 h4⟩
      | abort k =>
        rw [← decodeValue_eq] at h4
        exact absurd h4 (decodeValue_no_abort _ _ k)
    · exact ⟨_, .cut h1 fun ks h => h2 ⟨ks, h⟩⟩
  · exact ⟨_, .other fun ls h => h1 ⟨ls, h⟩⟩

/-- What is returned for a part, whatever it is: its header block has no white line and is within the limits. -/
theorem C84_part (hm : c.feat.mime = true) (i head tail : Bytes) (hs : Split i head tail) (hw : ¬ WhiteLine head)
    (hf : Fits c head) (r : Outcome RawEntity) : rawEntity c i = r ↔ ReturnedPart c head tail r := by
  have hw' : ∀ ks, Gram.star (EntityHeaderG c) head ks → ∃ ls, MadeOf head ls := fun _ h =>
    madeOf_lines (lines_star (lines_entityHeader c hm) _ _ h).1 hw
  constructor
  · rintro rfl
    obtain ⟨r, hr⟩ := returnedPart_exists c hs
    rw [returnedPart_sound c hm hs hw' hf hr]
    exact hr
  · exact returnedPart_sound c hm hs hw' hf

/-! ### Multipart bodies -/

/-- What is returned for a part is known, whatever it is. -/
def KnownPart (p : Bytes) : Prop :=
  ∀ head tail, Split p head tail → ∀ r, rawEntity c p = r ↔ ReturnedPart c head tail r

theorem rawEntities_iff {ps : List Bytes} (hp : ∀ p ∈ ps, KnownPart c p) (r : Outcome (List RawEntity)) :
    rawEntities c ps = r ↔ ReturnedParts c ps r := by
  have key : ReturnedParts c ps (rawEntities c ps) ∧ ∀ r, ReturnedParts c ps r → rawEntities c ps = r := by
    clear r
    induction ps with
    | nil => exact ⟨.nil, fun r h => by cases h; rfl⟩
    | cons p ps ih =>
      obtain ⟨ih1, ih2⟩ := ih fun q hq => hp q (by simp [hq])
      have hpart := hp p (by simp)
      obtain ⟨head, tail, hs, -⟩ := C83_split p
      have h1 := (hpart head tail hs _).mp rfl
      constructor
      · cases hx : rawEntity c p with
        | abort k =>
          rw [hx] at h1
          cases h1
        | err e =>
          rw [hx] at h1
          simp only [rawEntities, hx, err_bind]
          exact .first hs h1
        | ok e =>
          rw [hx] at h1
          cases hy : rawEntities c ps with
          | abort k =>
            rw [hy] at ih1
            cases ih1
          | err x =>
            rw [hy] at ih1
            simp only [rawEntities, hx, hy, ok_bind, err_bind]
            exact .later hs h1 ih1
          | ok es =>
            rw [hy] at ih1
            simp only [rawEntities, hx, hy, ok_bind]
            exact .cons hs h1 ih1
      · intro r hr
        cases hr with
        | cons hs h1 h2 => simp only [rawEntities, (hpart _ _ hs _).mpr h1, ih2 _ h2, ok_bind]
        | later hs h1 h2 => simp only [rawEntities, (hpart _ _ hs _).mpr h1, ih2 _ h2, ok_bind, err_bind]
        | first hs h1 => simp only [rawEntities, (hpart _ _ hs _).mpr h1, err_bind]
  constructor
  · rintro rfl
    exact key.1
  · exact key.2 r

theorem multipart_iff {raw : RawEntity} (ht : raw.mimeType = .multipart)
    (hp : ∀ b ps, raw.parameters (b! "boundary") = some b → MultipartText b raw.value ps → ∀ p ∈ ps, KnownPart c p)
    (r : Outcome Entity) : raw.parse c = r ↔ ReturnedMultipart c raw r := by
  unfold RawEntity.parse parseMultipart
  rw [if_pos ht]
  cases hb : raw.parameters (b! "boundary") with
  | none =>
    simp only [err_bind]
    constructor
    · rintro rfl
      exact .boundary hb
    · intro h
      cases h with
      | boundary => rfl
      | parts h => rw [hb] at h; cases h
      | part h => rw [hb] at h; cases h
      | text h => rw [hb] at h; cases h
  | some b =>
    dsimp only
    rcases multipartParts_cases raw.value b with ⟨ps, h1, h2⟩ | ⟨h1, h2⟩
    · have key := rawEntities_iff c (hp b ps hb h2)
      simp only [h1, ok_bind]
      constructor
      · rintro rfl
        have := (key _).mp rfl
        cases hx : rawEntities c ps with
        | ok es => rw [hx] at this; exact .parts hb h2 this
        | err x => rw [hx] at this; exact .part hb h2 this
        | abort k => rw [hx] at this; cases this
      · intro h
        cases h with
        | boundary h => rw [hb] at h; cases h
        | parts h h3 h4 =>
          rw [hb] at h
          cases h
          obtain rfl := MultipartText.unique h2 h3
          rw [(key _).mpr h4]
          rfl
        | part h h3 h4 =>
          rw [hb] at h
          cases h
          obtain rfl := MultipartText.unique h2 h3
          rw [(key _).mpr h4]
          rfl
        | text h h3 =>
          rw [hb] at h
          cases h
          exact absurd h2 (h3 ps)
    · simp only [h1, err_bind]
      constructor
      · rintro rfl
        exact .text hb h2
      · intro h
        cases h with
        | boundary h => rw [hb] at h; cases h
        | parts h h3 =>
          rw [hb] at h
          cases h
          exact absurd h3 (h2 _)
        | part h h3 =>
          rw [hb] at h
          cases h
          exact absurd h3 (h2 _)
        | text => rfl

theorem known_plain (hm : c.feat.mime = true) {p : Bytes} (h : PlainPart c p) : KnownPart c p := fun head tail hs =>
  C84_part c hm p head tail hs (h head tail hs).1 (h head tail hs).2

/-- What is returned for a list of parts, whatever they are. -/
theorem C84_parts (hm : c.feat.mime = true) (ps : List Bytes) (hp : ∀ p ∈ ps, PlainPart c p) (r : Outcome (List RawEntity)) :
    rawEntities c ps = r ↔ ReturnedParts c ps r := rawEntities_iff c (fun p h => known_plain c hm (hp p h)) r

/-- What is returned for a multipart entity, whatever its body is. -/
theorem C84_multipart (hm : c.feat.mime = true) (raw : RawEntity) (ht : raw.mimeType = .multipart)
    (hp : ∀ b ps, raw.parameters (b! "boundary") = some b → MultipartText b raw.value ps → ∀ p ∈ ps, PlainPart c p)
    (r : Outcome Entity) : raw.parse c = r ↔ ReturnedMultipart c raw r :=
  multipart_iff c ht (fun b ps h h' p hp' => known_plain c hm (hp b ps h h' p hp')) r

/-! ### Examples -/

/-- Without a colon there is no header line: the part is refused, whatever follows the empty line. -/
theorem hello_refused (hm : c.feat.mime = true) (b : Bytes) : rawEntity c (b! "hello\r\n\r\n" ++ b) =
    .err (.explicit "TAG ERROR: A MIME entity header part must be followed by a CRLF sequence.") := by
  have hs : Split (b! "hello\r\n\r\n" ++ b) (b! "hello\r\n") (CRLF ++ b) := by
    refine .later (p := b! "hello") (by simp [CRLF]) ⟨rfl, fun k hk => ?_⟩
    have hk : k < 5 := hk
    rcases (by omega : k = 0 ∨ k = 1 ∨ k = 2 ∨ k = 3 ∨ k = 4) with rfl | rfl | rfl | rfl | rfl <;> simp [OccursAt, CRLF]
  refine (C84_part c hm _ _ _ hs (no_whiteLine (by decide +kernel)) ⟨Nat.zero_le _, fun _ => by decide⟩ _).mpr (.other ?_)
  rintro ls ⟨e, h⟩
  cases ls with
  | nil => cases e
  | cons l ls =>
    obtain ⟨name, x, t, h⟩ := h l (by simp)
    have : (58 : UInt8) ∈ b! "hello\r\n" := by
      rw [e, h.text]
      simp
    exact absurd this (by decide +kernel)

theorem plain_of {p head tail : Bytes} (hs : Split p head tail) (h1 : ¬ WhiteLine head) (h2 : Fits c head) : PlainPart c p := by
  intro head' tail' hs'
  obtain ⟨_, _, -, hu⟩ := C83_split p
  obtain ⟨rfl, rfl⟩ := hu _ _ hs
  obtain ⟨rfl, rfl⟩ := hu _ _ hs'
  exact ⟨h1, h2⟩

/-- The part with `+` for its body cannot be decoded, and is refused for that. -/
example : ReturnedPart (Cfg.concrete .full) (b! "Content-Transfer-Encoding: base64\r\n") (b! "\r\n+")
    (.err (.unknown "Missing at least 3 bytes")) := by
  have hs : Split (b! "Content-Transfer-Encoding: base64\r\n\r\n+") (b! "Content-Transfer-Encoding: base64\r\n") (b! "\r\n+") :=
    .later (p := b! "Content-Transfer-Encoding: base64") (b := b! "+") (by decide +kernel) ⟨rfl, by unfold OccursAt; decide +kernel⟩
  refine (C84_part (Cfg.concrete .full) rfl _ _ _ hs (no_whiteLine (by decide +kernel)) (small_fits (by decide +kernel)) _).mp ?_
  have key : ∀ {x : Outcome RawEntity}, outcomeError x = some (.unknown "Missing at least 3 bytes") →
      x = .err (.unknown "Missing at least 3 bytes") := by
    intro x h
    cases x <;> simp_all [outcomeError]
  exact key (by decide +kernel)

/-- A multipart body with a part that is fine and one that is not: the error of the second. -/
example : ReturnedParts (Cfg.concrete .full) [b! "\r\nfine", b! "hello\r\n\r\nnot fine"]
    (.err (.explicit "TAG ERROR: A MIME entity header part must be followed by a CRLF sequence.")) := by
  have h1 : PlainPart (Cfg.concrete .full) (b! "\r\nfine") :=
    plain_of _ (.first rfl) (no_whiteLine (by decide +kernel)) (small_fits (by decide +kernel))
  have h2 : PlainPart (Cfg.concrete .full) (b! "hello\r\n\r\nnot fine") :=
    plain_of _ (.later (p := b! "hello") (b := b! "not fine") (by decide +kernel) ⟨rfl, by unfold OccursAt; decide +kernel⟩)
      (no_whiteLine (by decide +kernel)) (small_fits (by decide +kernel))
  refine (C84_parts (Cfg.concrete .full) rfl _ (by simp [h1, h2]) _).mp ?_
  obtain ⟨e, he⟩ : ∃ e, rawEntity (Cfg.concrete .full) (b! "\r\nfine") = .ok e := isOk_iff.mp (by decide +kernel)
  have := hello_refused (Cfg.concrete .full) rfl (b! "not fine")
  simp only [rawEntities, he, ok_bind]
  rw [show b! "hello\r\n\r\nnot fine" = b! "hello\r\n\r\n" ++ b! "not fine" from rfl, this]
  rfl

/-- A white line is accepted after an identifier, and such a header block is not made of header lines. -/
example : (∃ e, rawEntity (Cfg.concrete .full) (b! "Content-ID: <a@b>\r\n \r\n") = .ok e) ∧
    WhiteLine (b! "Content-ID: <a@b>\r\n \r\n") :=
  ⟨isOk_iff.mp (by decide +kernel), b! "Content-ID: <a@b>", b! " ", _, rfl, by decide +kernel⟩

end EmailParser
