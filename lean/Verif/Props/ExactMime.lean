import Verif.Proofs.ExactMime
import Verif.Props.Exact
/-
C76: MIME header lines and lines with unstructured text are read as the grammar says, encoded words included, and the
grammar decides which MIME messages are accepted.
-/
namespace EmailParser
open Spec

variable (c : Cfg)

/-! ### Text -/

theorem textL_exists {x w : Bytes} (encoded : Bool) (h : Folding x w) : ∃ v, TextL c encoded w v := by
  cases encoded with
  | false => exact ⟨_, x, h, rfl⟩
  | true =>
    obtain ⟨s, t, ps, h1, h2, h3⟩ := C45_pieces_exist c w _ (folding_unstructured h)
    exact ⟨_, s, t, ps, h1, h2, h3, rfl⟩

theorem textL_unique {w v v' : Bytes} {encoded : Bool} (h : TextL c encoded w v) (h' : TextL c encoded w v') : v = v' := by
  have h1 := text_value (r := []) h stops_nil
  rw [text_value (r := []) h' stops_nil] at h1
  cases h1
  rfl

/-- The text of a field that is not of the kind of its header. -/
theorem unknown_textL {name x w l t r n v : Bytes} (h : HeaderText name x w l) (ht : Stops wsp t)
    (hf : field c (l ++ t) = .ok (r, .unknown n v)) : r = t ∧ n = name ∧ TextL c c.feat.unrecognizedHeaders w v := by
  obtain ⟨v', hv'⟩ := textL_exists c c.feat.unrecognizedHeaders h.folding
  have hu := unknown_text h.name_ne h.name_chars hv' ht
  rw [← h.text] at hu
  obtain ⟨ps, hps, hk⟩ := fieldParsers_known (c := c)
  unfold field at hf
  rw [hps] at hf
  rcases matchParsers_snoc (i := l ++ t) (ps := ps)
      (q := mapValue (fun (name, value) => .unknown name value) (unknown c)) with
    ⟨k, h1⟩ | ⟨p, hp, a, h1, h2⟩ | ⟨-, ⟨a, h1, h2⟩ | ⟨e, e', h1, h2⟩⟩
  · rw [h1] at hf; cases hf
  · rw [h2] at hf
    cases hf
    obtain ⟨n', _, _, hh, -, -, -, hu'⟩ := hk p hp
    cases hu' _ _ _ h1
  · rw [h2] at hf
    cases hf
    unfold mapValue at h1
    rw [hu] at h1
    cases h1
    exact ⟨rfl, rfl, hv'⟩
  · rw [h2] at hf; cases hf

/-! ### C76 -/

/-- The text of a header with unstructured text is read, with its encoded words. -/
theorem C76_text (name x w l t : Bytes) (f : Field) (h : HeaderText name x w l) (hn : name.map asciiLower ∈ textHeaders)
    (hr : Recognized c.feat (name.map asciiLower)) (ht : Stops wsp t) :
    field c (l ++ t) = .ok (t, f) ↔ headerOf f = some (name.map asciiLower) ∧ ValueL c w f := by
  have key : ∃ f', headerOf f' = some (name.map asciiLower) ∧ ValueL c w f' := by
    obtain ⟨v, hv⟩ := textL_exists c c.feat.mime h.folding
    obtain ⟨v', hv'⟩ := textL_exists c true h.folding
    simp only [textHeaders, List.mem_cons, List.not_mem_nil, or_false] at hn
    rcases hn with e | e | e <;> rw [e]
    · exact ⟨.subject v, rfl, hv⟩
    · exact ⟨.comments v, rfl, hv⟩
    · exact ⟨.contentDescription v', rfl, hv'⟩
  have read : ∀ f', headerOf f' = some (name.map asciiLower) → ValueL c w f' → field c (l ++ t) = .ok (t, f') := fun f' h1 h2 => by
    have := known_field (r := t) h1 hr rfl h2 ht
    rwa [← h.text] at this
  constructor
  · intro hf
    obtain ⟨f', h1, h2⟩ := key
    rw [read f' h1 h2] at hf
    cases hf
    exact ⟨h1, h2⟩
  · exact fun hf => read f hf.1 hf.2

/-- The text of a header that is not recognised is reported, and with it the name. -/
theorem C76_unknown (name x w l t : Bytes) (f : Field) (h : HeaderText name x w l)
    (hr : ¬ Recognized c.feat (name.map asciiLower)) (ht : Stops wsp t) :
    field c (l ++ t) = .ok (t, f) ↔ ∃ v, f = .unknown name v ∧ TextL c c.feat.unrecognizedHeaders w v := by
  obtain ⟨v, hv, -⟩ := C11_unknown c name x w l t h hr ht
  obtain ⟨-, -, hv'⟩ := unknown_textL c h ht hv
  rw [hv]
  constructor
  · intro hf
    cases hf
    exact ⟨v, rfl, hv'⟩
  · rintro ⟨v'', rfl, h''⟩
    rw [textL_unique c hv' h'']

/-- Every text has one meaning. -/
theorem C76_text_unique (encoded : Bool) (x w : Bytes) (h : Folding x w) :
    ∃ v, TextL c encoded w v ∧ ∀ v', TextL c encoded w v' → v' = v := by
  obtain ⟨v, hv⟩ := textL_exists c encoded h
  exact ⟨v, hv, fun v' hv' => textL_unique c hv' hv⟩

theorem mimeHeader_reads {name x w l t : Bytes} {f : Field} (h : HeaderText name x w l) (hf : Fits c w)
    (hn : name.map asciiLower ∈ mimeHeaders) (hg : FieldG c l f) (ho : headerOf f = some (name.map asciiLower))
    (ht : Stops wsp t) : field c (l ++ t) = .ok (t, f) := by
  have hr := fieldG_recognized hg ho
  have key : ∀ {α : Type} (nm : Bytes) {G : Gram α} {v : α}, HeaderLine (nm ++ b! ":") G l v →
      headerOf f = some (nm.map asciiLower) → G w v := fun nm _ _ h' e =>
    header_value h' h.text (Option.some.inj (ho.symm.trans e))
  have read : ValueL c w f → field c (l ++ t) = .ok (t, f) := fun h2 => by
    have := known_field (r := t) ho hr rfl h2 ht
    rwa [← h.text] at this
  cases f with
  | mimeVersion mj mn => exact read (mimeVersion_exact (key (b! "MIME-Version") hg.2 rfl) hf.depth)
  | contentTransferEncoding e => exact read (encoding_exact (key (b! "Content-Transfer-Encoding") hg.2 rfl) hf.depth)
  | contentType ty st q =>
    have hm : c.feat.mime = true := hg.1
    have hc := key (b! "Content-Type") hg.2 rfl
    rw [h.text]
    have hn' : name.map asciiLower = b! "content-type" := (Option.some.inj ho).symm
    exact entry_line (K := fun (t, st, p) => .contentType t st p) (q := contentType c) (v := (ty, st, q))
      (by simp [headerTable, enabled, hm]) hn' fun n' hn' =>
        contentType_reads hc hf.depth (folding_noWhiteLine h.folding) hf.stars ht hn'
  | unknown => cases ho
  | trace => cases ho
  | _ =>
    rw [← Option.some.inj ho] at hn
    exact absurd hn (by decide)

/-- A line of a MIME header is read to its end exactly when it is in the grammar, with the value of the grammar. -/
theorem C76_mime (name x w l t : Bytes) (f : Field) (h : HeaderText name x w l) (hf : Fits c w)
    (hn : name.map asciiLower ∈ mimeHeaders) (ho : headerOf f = some (name.map asciiLower)) (ht : Stops wsp t) :
    field c (l ++ t) = .ok (t, f) ↔ FieldG c l f := by
  constructor
  · intro hx
    have hs := field_parses (c := c) (l ++ t)
    rw [hx] at hs
    obtain ⟨l', e, hg⟩ := hs
    rwa [← List.append_cancel_right e] at hg
  · exact fun hg => mimeHeader_reads c h hf hn hg ho ht

/-- The grammar of these headers has one reading. -/
theorem C76_unambiguous (name x w l : Bytes) (f f' : Field) (h : HeaderText name x w l) (hf : Fits c w)
    (hn : name.map asciiLower ∈ mimeHeaders) (hg : FieldG c l f) (hg' : FieldG c l f')
    (ho : headerOf f = some (name.map asciiLower)) (ho' : headerOf f' = some (name.map asciiLower)) : f = f' := by
  have h1 := mimeHeader_reads c (t := []) h hf hn hg ho stops_nil
  rw [mimeHeader_reads c (t := []) h hf hn hg' ho' stops_nil] at h1
  cases h1
  rfl

/-- Otherwise the text is reported, or only a beginning of the line is read, which is in the grammar. -/
theorem C76_otherwise (name x w l t : Bytes) (h : HeaderText name x w l) (hf : Fits c w)
    (hg : ∀ f, FieldG c l f → headerOf f ≠ some (name.map asciiLower)) (ht : Stops wsp t) :
    (∃ v, field c (l ++ t) = .ok (t, .unknown name v) ∧ TextL c c.feat.unrecognizedHeaders w v) ∨
    ∃ l₁ l₂ f, l = l₁ ++ l₂ ∧ l₂ ≠ [] ∧ FieldG c l₁ f ∧ headerOf f = some (name.map asciiLower) ∧
      field c (l ++ t) = .ok (l₂ ++ t, f) := by
  have hl := lineText_eq h (t := t)
  rcases field_line (c := c) h.name_ne h.name_chars h.folding ht with ⟨k, h'⟩ | ⟨r, f, h', -, -, -, ho⟩ | ⟨v, h', -⟩ <;>
    rw [← hl] at h'
  · exact absurd h' (fits_no_abort c h hf.depth (fun _ => hf.stars) ht k)
  · have hs := field_parses (c := c) (l ++ t)
    rw [h'] at hs
    obtain ⟨l₁, e, hfg⟩ := hs
    have h0 := h'
    rw [h.text] at h0
    obtain ⟨-, -, u, hu, hr, -⟩ := (C10_same_outcome c (name ++ b! ":" ++ w) t [] ht stops_nil).2.2 r f h0
    rw [← h.text] at hu
    generalize r.take (r.length - t.length) = l₂ at hu hr
    subst hr
    rw [← List.append_assoc] at e
    have e := List.append_cancel_right e
    refine .inr ⟨l₁, l₂, f, e, fun h2 => ?_, hfg, ho, h'⟩
    rw [h2, List.append_nil] at e
    exact hg f (e ▸ hfg) ho
  · exact .inl ⟨v, h', (unknown_textL c h ht h').2.2⟩

/-- Every such line denotes what is read from it, unless only a beginning of it is in the grammar. -/
theorem C76_denotes (hc : c.feat.compiles) (name x w l t : Bytes) (h : HeaderText name x w l) (ht : Stops wsp t)
    (hp : Plain c name w ∨ (Fits c w ∧ name.map asciiLower ∈ mimeHeaders ∧
        (BeginsInGrammar c name l → ∃ f, FieldG c l f ∧ headerOf f = some (name.map asciiLower))) ∨
      name.map asciiLower ∈ textHeaders ∨ ¬ Recognized c.feat (name.map asciiLower)) :
    ∃ f, field c (l ++ t) = .ok (t, f) ∧ DenotesMime c l f := by
  rcases hp with hp | ⟨hf, hn, hb⟩ | hn
  · obtain ⟨f, h1, h2⟩ := C74_denotes c hc name x w l t h hp ht
    exact ⟨f, h1, .plain h2⟩
  · by_cases hg : ∃ f, FieldG c l f ∧ headerOf f = some (name.map asciiLower)
    · obtain ⟨f, hg, ho⟩ := hg
      exact ⟨f, mimeHeader_reads c h hf hn hg ho ht, .typed h hf hn hg ho⟩
    · rcases C76_otherwise c name x w l t h hf (fun f h1 h2 => hg ⟨f, h1, h2⟩) ht with ⟨v, h1, h2⟩ | ⟨l₁, l₂, f, h1, -, h2, h3, -⟩
      · exact ⟨_, h1, .untyped h hf hn (fun hb' => hg (hb hb')) h2⟩
      · exact absurd (hb ⟨l₁, l₂, f, h1, h2, h3⟩) hg
  · by_cases hr : Recognized c.feat (name.map asciiLower)
    · have hn := hn.resolve_right (fun h => h hr)
      obtain ⟨f, hf, ho, hv⟩ : ∃ f, field c (l ++ t) = .ok (t, f) ∧ headerOf f = some (name.map asciiLower) ∧ ValueL c w f := by
        have hk : ∃ f, headerOf f = some (name.map asciiLower) ∧ ValueL c w f := by
          obtain ⟨v, hv⟩ := textL_exists c c.feat.mime h.folding
          obtain ⟨v', hv'⟩ := textL_exists c true h.folding
          have hn' := hn
          simp only [textHeaders, List.mem_cons, List.not_mem_nil, or_false] at hn'
          rcases hn' with e | e | e <;> rw [e]
          · exact ⟨.subject v, rfl, hv⟩
          · exact ⟨.comments v, rfl, hv⟩
          · exact ⟨.contentDescription v', rfl, hv'⟩
        obtain ⟨f, hf⟩ := hk
        exact ⟨f, (C76_text c name x w l t f h hn hr ht).mpr hf, hf⟩
      exact ⟨f, hf, .text h hn hr ho hv⟩
    · obtain ⟨v, hv, -⟩ := C11_unknown c name x w l t h hr ht
      exact ⟨_, hv, .unknown h hr (unknown_textL c h ht hv).2.2⟩

/-! ### Messages -/

theorem denotesMime_field (hc : c.feat.compiles) : ReadsAs c (DenotesMime c) := by
  intro l f h
  suffices (∃ f', field c l = .ok ([], f') ∧ joinWords f' = joinWords f) ∨ field c (l ++ []) = .ok ([], f) by
    rcases this with h | h
    · exact h
    · rw [List.append_nil] at h
      exact ⟨f, h, rfl⟩
  cases h with
  | plain h => exact .inl (denotes_field c hc h)
  | typed h hf hn hg ho => exact .inr (mimeHeader_reads c h hf hn hg ho stops_nil)
  | untyped h hf hn hb hv =>
    right
    rcases C76_otherwise c _ _ _ l [] h hf (fun f h1 h2 => hb ⟨l, [], f, by simp, h1, h2⟩) stops_nil with
      ⟨v, h1, h2⟩ | ⟨l₁, l₂, f, h1, -, h2, h3, -⟩
    · rw [h1, textL_unique c h2 hv]
    · exact absurd ⟨l₁, l₂, f, h1, h2, h3⟩ hb
  | text h hn hr ho hv => exact .inr ((C76_text c _ _ _ l [] f h hn hr stops_nil).mpr ⟨ho, hv⟩)
  | unknown h hr hv => exact .inr ((C76_unknown c _ _ _ l [] _ h hr stops_nil).mpr ⟨_, rfl, hv⟩)

/-- The result for a message with MIME headers. -/
theorem C76_message (hc : c.feat.compiles) (s tail : Bytes) (fs : List Field) (content : Option Bytes)
    (h : LinesL (DenotesMime c) s fs) (hb : BodyL c tail content) (hn : c.feat.trace = true → NoTraceName (s ++ tail)) :
    ∃ fs', fs'.map joinWords = fs.map joinWords ∧ EmailResult c fs' content (Email.parse c (s ++ tail)) :=
  denoted_message c hc (denotesMime_field c hc) h hb hn

/-- Which messages with MIME headers are accepted: besides the conditions of RFC 5322, the body must be decodable with the
transfer encoding that the headers denote. -/
theorem C76_accepted (hc : c.feat.compiles) (s b : Bytes) (fs : List Field)
    (h : LinesL (DenotesMime c) s fs) (hn : c.feat.trace = true → NoTraceName (s ++ (CRLF ++ b))) :
    (∃ e, Email.parse c (s ++ (CRLF ++ b)) = .ok e) ↔
      (c.feat.mime = false → Body b) ∧ NoDuplicate fs ∧ (∀ name, ¬ Missing c fs name) ∧
        (c.feat.mime = true → ∃ v, Decoded (fs.findSome? encodingOf) b v) :=
  denoted_accepted c hc (denotesMime_field c hc) h hn

/-! ### Examples -/

/-- What is read from a line: the rest, the header, the text or the version or the subtype, and one parameter. -/
def lineValue (r : Res Field) : Option (Bytes × Bytes × Bytes × Option Bytes) :=
  match r with
  | .ok (r, .contentType _ st q) => some (r, b! "type", st, q (b! "charset"))
  | .ok (r, .mimeVersion mj mn) => some (r, b! "version", List.replicate mj 1, some (List.replicate mn 1))
  | .ok (r, .subject v) => some (r, b! "subject", v, none)
  | .ok (r, .contentTransferEncoding .base64) => some (r, b! "base64", [], none)
  | _ => none

theorem lineValue_type {r : Res Field} {rest st : Bytes} {p} (h : lineValue r = some (rest, b! "type", st, p)) :
    ∃ t q, r = .ok (rest, .contentType t st q) ∧ q (b! "charset") = p := by
  unfold lineValue at h
  split at h <;> simp at h
  obtain ⟨rfl, rfl, rfl⟩ := h
  exact ⟨_, _, rfl, rfl⟩

theorem lineValue_version {r : Res Field} {rest : Bytes} {mj mn : Nat}
    (h : lineValue r = some (rest, b! "version", List.replicate mj 1, some (List.replicate mn 1))) :
    r = .ok (rest, .mimeVersion mj mn) := by
  unfold lineValue at h
  split at h <;> simp at h
  obtain ⟨rfl, rfl, rfl⟩ := h
  rfl

theorem lineValue_subject {r : Res Field} {rest v : Bytes} (h : lineValue r = some (rest, b! "subject", v, none)) :
    r = .ok (rest, .subject v) := by
  unfold lineValue at h
  split at h <;> simp at h
  obtain ⟨rfl, rfl⟩ := h
  rfl

theorem lineValue_base64 {r : Res Field} {rest : Bytes} (h : lineValue r = some (rest, b! "base64", [], none)) :
    r = .ok (rest, .contentTransferEncoding .base64) := by
  unfold lineValue at h
  split at h <;> simp at h
  rw [h]

/-- A `Content-Type` with comments, a quoted value and the segments of a value is in the grammar, with these values. -/
example : ∃ t q, FieldG (Cfg.concrete .full) (b! "content-TYPE: (t) text/plain (a) (b);charset*1=\"b c\"; charset*0=a (x)\r\n")
      (.contentType t (b! "plain") q) ∧ q (b! "charset") = some (b! "ab c") := by
  obtain ⟨t, q, hx, hq⟩ := lineValue_type (rest := []) (st := b! "plain") (p := some (b! "ab c"))
    (r := field (Cfg.concrete .full)
      (b! "content-TYPE: (t) text/plain (a) (b);charset*1=\"b c\"; charset*0=a (x)\r\n" ++ [])) (by decide +kernel)
  exact ⟨t, q, (C76_mime (Cfg.concrete .full) (b! "content-TYPE")
    (b! " (t) text/plain (a) (b);charset*1=\"b c\"; charset*0=a (x)") _ _ [] _ (exact_line _ _ (by decide +kernel))
    ⟨by decide +kernel, fun _ => by decide +kernel⟩ (by decide +kernel) rfl stops_nil).mp hx, hq⟩

/-- A second comment after a token, a version that is no number below 256 and a type without subtype are not in the
grammar. -/
example :
    (∀ f, FieldG (Cfg.concrete .full) (b! "Content-Type: text/plain; a=b (x) (y)\r\n") f → headerOf f ≠ some (b! "content-type")) ∧
    (∀ f, FieldG (Cfg.concrete .full) (b! "MIME-Version: 300.0\r\n") f → headerOf f ≠ some (b! "mime-version")) ∧
    (∀ f, FieldG (Cfg.concrete .full) (b! "Content-Type: text\r\n") f → headerOf f ≠ some (b! "content-type")) := by
  have key : ∀ name x : Bytes, (name ≠ [] ∧ (∀ b ∈ name, ftext b = true) ∧ ∀ b ∈ x, vchar b = true ∨ wsp b = true) →
      x.count 40 ≤ 100 → x.count 42 < 256 → name.map asciiLower ∈ mimeHeaders →
      readAs name (field (Cfg.concrete .full) (name ++ b! ":" ++ x ++ CRLF)) = false →
      ∀ f, FieldG (Cfg.concrete .full) (name ++ b! ":" ++ x ++ CRLF) f → headerOf f ≠ some (name.map asciiLower) := by
    intro name x h1 h2 h3 h4 h5 f hg ho
    have hx := (C76_mime (Cfg.concrete .full) name x x _ [] f (exact_line _ _ h1) ⟨h2, fun _ => h3⟩ h4 ho stops_nil).mpr hg
    rw [List.append_nil] at hx
    rw [hx] at h5
    simp [readAs, ho] at h5
  exact ⟨key (b! "Content-Type") (b! " text/plain; a=b (x) (y)") (by decide +kernel) (by decide +kernel) (by decide +kernel)
      (by decide +kernel) (by decide +kernel),
    key (b! "MIME-Version") (b! " 300.0") (by decide +kernel) (by decide +kernel) (by decide +kernel)
      (by decide +kernel) (by decide +kernel),
    key (b! "Content-Type") (b! " text") (by decide +kernel) (by decide +kernel) (by decide +kernel)
      (by decide +kernel) (by decide +kernel)⟩

/-- A beginning of a folded line may be read alone, after which the rest of the line is no header: the second case of
`C76_otherwise`. -/
example : HeaderText (b! "MIME-Version") (b! " 1.0 x") (b! " 1.0\r\n x") (b! "MIME-Version: 1.0\r\n x\r\n") ∧
    field (Cfg.concrete .full) (b! "MIME-Version: 1.0\r\n x\r\n") = .ok (b! " x\r\n", .mimeVersion 1 0) := by
  refine ⟨⟨rfl, by decide, by decide +kernel, ?_⟩, lineValue_version (by decide +kernel)⟩
  have hx : ∀ b y, wsp b = false → NotBefore wsp (b :: y) := fun b y h b' s' e => by cases e; exact h
  exact .space (s := b! " ") (by decide +kernel) (hx _ _ (by decide +kernel)) (.char (by decide +kernel)
    (.char (by decide +kernel) (.char (by decide +kernel) (.fold (s := []) (s' := b! " ") (x := b! "x") (by simp) (by decide +kernel)
      (by decide) (by decide) (hx _ _ (by decide +kernel)) (.char (by decide +kernel) .nil)))))

/-- The text of a subject is that of its encoded words. -/
example : ∃ f, ValueL (Cfg.concrete .full) (b! " =?utf-8?Q?a=20b?= =?utf-8?B?Yw==?= d ") f ∧ f = .subject (b! " a bc d") := by
  have hv : field (Cfg.concrete .full) (b! "Subject: =?utf-8?Q?a=20b?= =?utf-8?B?Yw==?= d \r\n" ++ []) = .ok ([], .subject (b! " a bc d")) :=
    lineValue_subject (by decide +kernel)
  exact ⟨_, ((C76_text (Cfg.concrete .full) (b! "Subject") (b! " =?utf-8?Q?a=20b?= =?utf-8?B?Yw==?= d ") _ _ [] _
    (exact_line _ _ (by decide +kernel)) (by decide +kernel) (by unfold Recognized; decide +kernel) stops_nil).mp hv).2, rfl⟩

/-- A header that is not recognised is given with the text of its encoded words, and so is a MIME header that is not in the
grammar. -/
example : TextL (Cfg.concrete .full) true (b! " =?utf-8?Q?a=20b?= d ") (b! " a b d") ∧
    field (Cfg.concrete .full) (b! "X-Y: =?utf-8?Q?a=20b?= d \r\n" ++ []) = .ok ([], .unknown (b! "X-Y") (b! " a b d")) ∧
    field (Cfg.concrete .full) (b! "MIME-Version: =?utf-8?Q?a=20b?= d \r\n" ++ []) =
      .ok ([], .unknown (b! "MIME-Version") (b! " a b d")) := by
  have hv : TextL (Cfg.concrete .full) true (b! " =?utf-8?Q?a=20b?= d ") (b! " a b d") :=
    ((C76_text (Cfg.concrete .full) (b! "Subject") (b! " =?utf-8?Q?a=20b?= d ") _ _ [] (.subject (b! " a b d"))
      (exact_line _ _ (by decide +kernel)) (by decide +kernel) (by unfold Recognized; decide +kernel) stops_nil).mp
      (lineValue_subject (by decide +kernel))).2
  refine ⟨hv, ?_, ?_⟩
  · exact (C76_unknown (Cfg.concrete .full) (b! "X-Y") (b! " =?utf-8?Q?a=20b?= d ") _ _ [] _ (exact_line _ _ (by decide +kernel))
      (by unfold Recognized; decide +kernel) stops_nil).mpr ⟨_, rfl, hv⟩
  · have hx : readAs (b! "MIME-Version") (field (Cfg.concrete .full) (b! "MIME-Version: =?utf-8?Q?a=20b?= d \r\n" ++ [])) = false := by
      decide +kernel
    have hr : (match field (Cfg.concrete .full) (b! "MIME-Version: =?utf-8?Q?a=20b?= d \r\n" ++ []) with
      | .ok (r, f) => r == [] && (headerOf f).isNone | _ => false) = true := by decide +kernel
    have hl : HeaderText (b! "MIME-Version") (b! " =?utf-8?Q?a=20b?= d ") _ _ := exact_line _ _ (by decide +kernel)
    have hf : Fits (Cfg.concrete .full) (b! " =?utf-8?Q?a=20b?= d ") := ⟨by decide +kernel, fun _ => by decide +kernel⟩
    rcases C76_otherwise (Cfg.concrete .full) _ _ _ _ [] hl hf (fun f hg ho => by
        have := mimeHeader_reads (Cfg.concrete .full) (t := []) hl hf (by decide +kernel) hg ho stops_nil
        replace hx := hx
        erw [this] at hx
        simp [readAs, ho] at hx) stops_nil with ⟨v, h1, h2⟩ | ⟨l₁, l₂, f, -, h2, -, ho, h3⟩
    · rw [textL_unique _ hv h2]
      exact h1
    · erw [h3] at hr
      simp [ho] at hr

theorem isOk_iff {α : Type} {r : Outcome α} : isOk r = true ↔ ∃ e, r = .ok e := by
  cases r with
  | ok e => exact ⟨fun _ => ⟨e, rfl⟩, fun _ => rfl⟩
  | err e => exact ⟨nofun, nofun⟩
  | abort k => exact ⟨nofun, nofun⟩

/-- A message whose body is not base64 has headers that all denote something, and none missing or given twice, and is not
accepted. -/
example : ∃ fs, LinesL (DenotesMime (Cfg.concrete .full))
      (b! "From: ab<x@y>\r\nDate: 21 Nov 1997 10:01:22 -0600\r\nContent-Transfer-Encoding: (e) base64\r\n") fs ∧
    NoDuplicate fs ∧ (∀ name, ¬ Missing (Cfg.concrete .full) fs name) ∧ (∃ v, Decoded (fs.findSome? encodingOf) (b! "Ym9keQ==") v) ∧
    ¬ ∃ v, Decoded (fs.findSome? encodingOf) (b! "bodyx") v := by
  have hc : (Cfg.concrete .full).feat.compiles := ⟨fun _ => rfl, fun _ => rfl⟩
  obtain ⟨f1, -, h1⟩ := C76_denotes (Cfg.concrete .full) hc (b! "From") (b! " ab<x@y>") _ _ [] (exact_line _ _ (by decide +kernel)) stops_nil
    (.inl ⟨by decide +kernel, fun _ => ⟨by decide +kernel, by decide +kernel, fun _ => by decide +kernel⟩⟩)
  obtain ⟨f2, -, h2⟩ := C76_denotes (Cfg.concrete .full) hc (b! "Date") (b! " 21 Nov 1997 10:01:22 -0600") _ _ []
    (exact_line _ _ (by decide +kernel)) stops_nil
    (.inl ⟨by decide +kernel, fun _ => ⟨by decide +kernel, by decide +kernel, fun _ => by decide +kernel⟩⟩)
  have hx : field (Cfg.concrete .full) (b! "Content-Transfer-Encoding: (e) base64\r\n" ++ []) = .ok ([], .contentTransferEncoding .base64) :=
    lineValue_base64 (by decide +kernel)
  have hl : HeaderText (b! "Content-Transfer-Encoding") (b! " (e) base64") _ _ := exact_line _ _ (by decide +kernel)
  have hf : Fits (Cfg.concrete .full) (b! " (e) base64") := ⟨by decide +kernel, fun _ => by decide +kernel⟩
  have h3 : DenotesMime (Cfg.concrete .full) (b! "Content-Transfer-Encoding: (e) base64\r\n") (.contentTransferEncoding .base64) :=
    .typed hl hf (by decide +kernel) ((C76_mime _ _ _ _ _ [] _ hl hf (by decide +kernel) rfl stops_nil).mp hx) rfl
  have h : LinesL (DenotesMime (Cfg.concrete .full))
      (b! "From: ab<x@y>\r\nDate: 21 Nov 1997 10:01:22 -0600\r\nContent-Transfer-Encoding: (e) base64\r\n")
      [f1, f2, .contentTransferEncoding .base64] := .cons h1 (.cons h2 (.cons h3 .nil))
  have key : ∀ b, NoTraceName ((b! "From: ab<x@y>\r\nDate: 21 Nov 1997 10:01:22 -0600\r\nContent-Transfer-Encoding: (e) base64\r\n") ++ (CRLF ++ b)) → _ :=
    fun b hb => (isOk_iff (r := Email.parse (Cfg.concrete .full) _)).trans (C76_accepted _ hc _ b _ h fun _ => hb)
  have good := (key (b! "Ym9keQ==") (by unfold NoTraceName; decide +kernel)).mp (by decide +kernel)
  have bad := mt (key (b! "bodyx") (by unfold NoTraceName; decide +kernel)).mpr (by decide +kernel)
  exact ⟨_, h, good.2.1, good.2.2.1, good.2.2.2 rfl, fun hd => bad ⟨nofun, good.2.1, good.2.2.1, fun _ => hd⟩⟩

end EmailParser
