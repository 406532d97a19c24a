import Verif.Proofs.ExactAddress
import Verif.Props.ExactPart
/-
C79: header lines are read exactly as the grammar with the words of names says, encoded words included.
-/
namespace EmailParser
open Spec

variable (c : Cfg)

theorem recognized_cases {n : Bytes} (h : Recognized c.feat n) :
    n ∈ phraseHeaders ∨ n ∈ identifierHeaders ∨ n ∈ mimeHeaders ∨ n ∈ textHeaders ∨
      (n = b! "content-disposition" ∧ c.feat.mime = true) := by
  simp only [Recognized, List.mem_cons, List.not_mem_nil, or_false] at h
  rcases h with ⟨-, rfl⟩ | ⟨-, rfl⟩ | ⟨-, rfl⟩ | ⟨-, rfl⟩ | ⟨-, rfl⟩ | ⟨-, rfl⟩ | ⟨-, rfl⟩ | ⟨-, rfl⟩ | ⟨-, rfl⟩ |
    ⟨-, rfl⟩ | ⟨-, rfl⟩ | ⟨-, rfl⟩ | ⟨-, rfl⟩ | ⟨hm, rfl | rfl | rfl | rfl | rfl | rfl⟩ <;>
    first | exact .inl (by decide) | exact .inr (.inl (by decide)) | exact .inr (.inr (.inl (by decide))) |
      exact .inr (.inr (.inr (.inl (by decide)))) | exact .inr (.inr (.inr (.inr ⟨rfl, hm⟩)))

/-- The line read as a field has the name of the whole line. -/
theorem headerLine_cut {nm name i l₁ r : Bytes} {G : Gram α} {v : α} (h : HeaderLine (nm ++ b! ":") G l₁ v)
    (e : name ++ b! ":" ++ i = l₁ ++ r) (hn : name.map asciiLower = nm.map asciiLower) :
    ∃ w, l₁ = name ++ b! ":" ++ w ++ CRLF := by
  obtain ⟨n, _, _, rfl, hn', y, _, v, rfl, hy, _, _, _, rfl, rfl, rfl, rfl⟩ := h
  have hlen : (name ++ b! ":").length = n.length := by
    have h1 := congrArg List.length hn'
    have h2 := congrArg List.length hn
    simp only [List.length_map, List.length_append] at h1 h2 ⊢
    omega
  rw [List.append_assoc n] at e
  have := (List.append_inj e hlen).1
  exact ⟨y, by rw [← this]; simp⟩

theorem mime_cut {name i l₁ r : Bytes} {f : Field} (h : FieldG c l₁ f) (hn : name.map asciiLower ∈ mimeHeaders)
    (ho : headerOf f = some (name.map asciiLower)) (e : name ++ b! ":" ++ i = l₁ ++ r) :
    ∃ w, l₁ = name ++ b! ":" ++ w ++ CRLF := by
  have hn' : ∀ n, headerOf f = some n → n ∈ mimeHeaders := fun n e => by
    rw [← Option.some.inj (ho.symm.trans e)]
    exact hn
  cases f with
  | mimeVersion => exact headerLine_cut (nm := b! "MIME-Version") h.2 e (Option.some.inj ho).symm
  | contentType => exact headerLine_cut (nm := b! "Content-Type") h.2 e (Option.some.inj ho).symm
  | contentTransferEncoding => exact headerLine_cut (nm := b! "Content-Transfer-Encoding") h.2 e (Option.some.inj ho).symm
  | trace => cases ho
  | unknown => cases ho
  | _ => exact absurd (hn' _ rfl) (by decide)

/-- What is read from a line stands in it. -/
theorem typed_sound {name x w l r : Bytes} {f : Field} (h : HeaderText name x w l) (hf : Fits c w)
    (hn : name.map asciiLower ∉ textHeaders) (ho : headerOf f = some (name.map asciiLower))
    (hx : field c l = .ok (r, f)) :
    ∃ w₁, w ++ CRLF = w₁ ++ (CRLF ++ r) ∧ (r = [] ∨ CutName c name) ∧ TypedL c name (CRLF ++ r) w₁ f := by
  have hs := field_parses (c := c) l
  rw [hx] at hs
  obtain ⟨l₁, e, hg⟩ := hs
  dsimp only at e hg
  have hr := fieldG_recognized hg ho
  have hl := lineText_eq h (t := [])
  rw [List.append_nil] at hl
  obtain ⟨hcut, hsolid⟩ : (¬ CutName c name → r = []) ∧
      (name.map asciiLower ∈ structuredNames ∨ (c.feat.mime = false ∧ name.map asciiLower = b! "keywords") → SolidEnd w) := by
    rcases field_line (c := c) h.name_ne h.name_chars h.folding stops_nil with
      ⟨k, h'⟩ | ⟨r', f', h', h1, h2, -⟩ | ⟨v, h', -⟩ <;> rw [← hl, hx] at h' <;> cases h'
    · exact ⟨h1, h2⟩
    · cases ho
  have hcut' : r = [] ∨ CutName c name := by
    by_cases hc : CutName c name
    · exact .inr hc
    · exact .inl (hcut hc)
  rcases recognized_cases c hr with hp | hi | hm | ht | ⟨hd, hmi⟩
  · have hx' := hx
    rw [h.text, List.append_assoc] at hx'
    obtain ⟨w₁, e₁, hv⟩ := phraseField_sound hp hr ho (line_calm hf h.folding) hx'
    refine ⟨w₁, e₁, hcut', ho, hr, .inl ⟨hp, hv, ?_⟩⟩
    by_cases hk : name.map asciiLower = b! "keywords"
    · have hkw : ∃ v, f = .keywords v := by
        rw [hk] at ho
        cases f with
        | keywords v => exact ⟨v, rfl⟩
        | unknown => cases ho
        | trace => cases ho
        | _ => exact absurd (Option.some.inj ho) (by decide)
      obtain ⟨v, rfl⟩ := hkw
      rw [field_keywords ((phraseHeaders_recognized hr).2.2.2.2.2.2 hk) hk] at hx'
      obtain ⟨u, hu, -, hend⟩ := keywordList_end _ _ hx'
      rw [e₁] at hu
      obtain rfl := List.append_cancel_right hu
      rcases hend with hend | hend
      · exact hend
      · rcases hend r rfl with ⟨-, hend⟩ | ⟨y, ws, e₂, -, hws⟩
        · exact hend
        · exact absurd hws (folding_line h.folding y ws r (by rw [e₁, e₂]; simp [CRLF]))
    · have hst : name.map asciiLower ∈ structuredNames := by
        revert hk
        simp only [phraseHeaders, List.mem_cons, List.not_mem_nil, or_false] at hp
        rcases hp with hp | hp | hp | hp | hp | hp | hp <;> rw [hp] <;> decide
      have hnc : ¬ CutName c name := by
        rintro ⟨-, hc⟩
        revert hst
        simp only [List.mem_cons, List.not_mem_nil, or_false] at hc
        rcases hc with hc | hc | hc | hc | hc <;> rw [hc] <;> decide
      have := hcut hnc
      subst this
      rw [List.append_nil] at e₁
      rw [← List.append_cancel_right e₁]
      exact hsolid (.inl hst)
  · have hst : name.map asciiLower ∈ structuredNames := by
      simp only [identifierHeaders, List.mem_cons, List.not_mem_nil, or_false] at hi
      rcases hi with hi | hi | hi | hi | hi <;> rw [hi] <;> decide
    have hnc : ¬ CutName c name := by
      rintro ⟨-, hc⟩
      revert hst
      simp only [List.mem_cons, List.not_mem_nil, or_false] at hc
      rcases hc with hc | hc | hc | hc | hc <;> rw [hc] <;> decide
    have := hcut hnc
    subst this
    rw [List.append_nil] at e
    subst e
    exact ⟨w, by simp, .inl rfl, ho, hr, .inr (.inl ⟨hi, by rw [← h.text]; exact hg, hsolid (.inl hst)⟩)⟩
  · obtain ⟨w₁, rfl⟩ := mime_cut c hg hm ho (i := w ++ CRLF) (r := r) (by rw [← e, h.text]; simp)
    refine ⟨w₁, ?_, hcut', ho, hr, .inr (.inr (.inl ⟨hm, hg⟩))⟩
    rw [h.text] at e
    have : name ++ b! ":" ++ (w ++ CRLF) = name ++ b! ":" ++ (w₁ ++ (CRLF ++ r)) := by simpa using e
    exact List.append_cancel_left this
  · exact absurd ht hn
  · have hv : ∃ v, f = .contentDisposition v := by
      rw [hd] at ho
      cases f with
      | contentDisposition v => exact ⟨v, rfl⟩
      | unknown => cases ho
      | trace => cases ho
      | _ => exact absurd (Option.some.inj ho) (by decide)
    obtain ⟨v, rfl⟩ := hv
    have hx' := hx
    rw [h.text, List.append_assoc, field_disposition hmi hd] at hx'
    have hs := contentDispositionValue_parses (c := c) hmi (w ++ CRLF)
    rw [hx'] at hs
    obtain ⟨w₁, e₁, -⟩ := hs
    dsimp only at e₁
    refine ⟨w₁, e₁, hcut', ho, hr, .inr (.inr (.inr ⟨v, rfl, ?_⟩))⟩
    rw [e₁] at hx'
    refine dispositionValue_sound hx' ?_
    have : (w ++ CRLF).count 40 = w.count 40 := by simp [List.count_append, CRLF]
    rw [e₁, List.count_append] at this
    have := hf.depth
    omega

/-- A header with a date or with identifiers is read when it is in the grammar. -/
theorem identifier_reads {name x w l t : Bytes} {f : Field} (h : HeaderText name x w l) (hf : Fits c w)
    (hn : name.map asciiLower ∈ identifierHeaders) (hg : FieldG c l f) (ho : headerOf f = some (name.map asciiLower))
    (hs : Solid w) (ht : Stops wsp t) : field c (l ++ t) = .ok (t, f) := by
  have hr := fieldG_recognized hg ho
  have key : ∀ {α : Type} (nm : Bytes) {G : Gram α} {v : α}, HeaderLine (nm ++ b! ":") G l v →
      headerOf f = some (nm.map asciiLower) → G w v := fun nm _ _ h' e =>
    header_value h' h.text (Option.some.inj (ho.symm.trans e))
  have hn' : ∀ n, headerOf f = some n → n ∈ identifierHeaders := fun n e => by
    rw [← Option.some.inj (ho.symm.trans e)]
    exact hn
  have ids : ∀ {v}, MessageIds c.feat.compatibilityFixes w v → IdsL c w v := fun hv => by
    have := messageIds_exact (c := { c with feat := { c.feat with mime := false } }) hv
      ⟨hf.depth, folding_noWhiteLine h.folding, nofun⟩
    clear hv hf hs h key
    induction this with
    | one h => exact .one h
    | cons h hs _ ih => exact .cons h hs ih
  rw [h.text]
  refine known_field ho hr rfl ?_ ht
  cases f with
  | date v => exact ⟨dateTime_depth (key (b! "Date") hg.2 rfl) hf.depth, hs⟩
  | messageId v => exact ⟨messageId_depth (key (b! "Message-ID") hg.2 rfl) hf.depth, hs⟩
  | inReplyTo v => exact ⟨ids (key (b! "In-Reply-To") hg.2 rfl), hs⟩
  | references v => exact ⟨ids (key (b! "References") hg.2 rfl), hs⟩
  | contentId v => exact ⟨messageId_depth (key (b! "Content-ID") hg.2 rfl) hf.depth, hs⟩
  | trace => cases ho
  | unknown => cases ho
  | _ => exact absurd (hn' _ rfl) (by decide)

theorem typed_reads {name x w l t : Bytes} {f : Field} (h : HeaderText name x w l) (hf : Fits c w)
    (hv : TypedL c name CRLF w f) (ht : Stops wsp t) : field c (l ++ t) = .ok (t, f) := by
  obtain ⟨ho, hr, ⟨hn, hv, hs⟩ | ⟨hn, hv, hs⟩ | ⟨hn, hv⟩ | ⟨v, rfl, hv⟩⟩ := hv
  · have h0 := phraseField_complete (name := name) (r := []) hr ho (by simpa using line_calm hf h.folding) hs stops_nil
      (by simpa using hv)
    have h0 : field c (name ++ b! ":" ++ w ++ CRLF ++ []) = .ok ([], f) := by simpa using h0
    obtain ⟨r', h1, u, -, -, h2⟩ := (C10_same_outcome c (name ++ b! ":" ++ w) [] t stops_nil ht).2.2 [] _ h0
    rw [h.text, h1, h2]
    simp
  · rw [← h.text] at hv
    exact identifier_reads c h hf hn hv ho hs ht
  · rw [← h.text] at hv
    exact mimeHeader_reads c h hf hn hv ho ht
  · have hm : c.feat.mime = true := by
      have hn := (Option.some.inj ho).symm
      rw [hn] at hr
      simpa [Recognized] using hr
    exact (C78_disposition c hm name x w l t v h hf (Option.some.inj ho).symm ht).mpr hv

/-! ### C79: lines -/

/-- A line of a header that has a structure is read to its end as a field of its kind exactly when its text stands for
that field. -/
theorem C79_line (name x w l t : Bytes) (f : Field) (h : HeaderText name x w l) (hf : Fits c w)
    (hn : name.map asciiLower ∉ textHeaders) (ho : headerOf f = some (name.map asciiLower)) (ht : Stops wsp t) :
    field c (l ++ t) = .ok (t, f) ↔ TypedL c name CRLF w f := by
  constructor
  · intro hx
    rw [h.text] at hx
    obtain ⟨r', h1, u, -, h2, h3⟩ := (C10_same_outcome c (name ++ b! ":" ++ w) t [] ht stops_nil).2.2 t _ hx
    rw [Nat.sub_self, List.take_zero, List.nil_append] at h3
    subst h3
    rw [List.append_nil, ← h.text] at h1
    obtain ⟨w₁, e, -, hv⟩ := typed_sound c h hf hn ho h1
    rw [List.append_nil] at e hv
    rwa [List.append_cancel_right e]
  · exact fun hv => typed_reads c h hf hv ht

/-- The text stands for one field at most. -/
theorem C79_unique (name x w l : Bytes) (f f' : Field) (h : HeaderText name x w l) (hf : Fits c w)
    (hv : TypedL c name CRLF w f) (hv' : TypedL c name CRLF w f') : f = f' := by
  have h1 := typed_reads c (t := []) h hf hv stops_nil
  rw [typed_reads c (t := []) h hf hv' stops_nil] at h1
  cases h1
  rfl

/-- The field is one of the readings of the grammar. -/
theorem C79_grammar (name x w l : Bytes) (f : Field) (h : HeaderText name x w l) (hf : Fits c w)
    (hv : TypedL c name CRLF w f) : FieldG c l f := by
  have hx := typed_reads c (t := []) h hf hv stops_nil
  have hs := field_parses (c := c) (l ++ [])
  rw [hx] at hs
  obtain ⟨l', e, hg⟩ := hs
  rwa [← List.append_cancel_right e] at hg

/-- Otherwise the name and the text are reported or, for some headers, only a beginning of the line is read, which stands
for the field that is returned. -/
theorem C79_otherwise (name x w l t : Bytes) (h : HeaderText name x w l) (hf : Fits c w)
    (hn : name.map asciiLower ∉ textHeaders) (hg : ∀ f, ¬ TypedL c name CRLF w f) (ht : Stops wsp t) :
    (∃ v, field c (l ++ t) = .ok (t, .unknown name v) ∧ TextL c c.feat.unrecognizedHeaders w v) ∨
    ∃ w₁ l₂ f, CutName c name ∧ l = name ++ b! ":" ++ w₁ ++ CRLF ++ l₂ ∧ l₂ ≠ [] ∧ TypedL c name (CRLF ++ l₂) w₁ f ∧
      field c (l ++ t) = .ok (l₂ ++ t, f) := by
  have hl := lineText_eq h (t := t)
  rcases field_line (c := c) h.name_ne h.name_chars h.folding ht with ⟨k, h'⟩ | ⟨r, f, h', -, -, -, ho⟩ | ⟨v, h', -⟩ <;>
    rw [← hl] at h'
  · exact absurd h' (fits_no_abort c h hf.depth (fun _ => hf.stars) ht k)
  · right
    have h0 := h'
    rw [h.text] at h0
    obtain ⟨r', h1, u, -, hr, hr'⟩ := (C10_same_outcome c (name ++ b! ":" ++ w) t [] ht stops_nil).2.2 r _ h0
    rw [List.append_nil] at hr'
    rw [← hr'] at hr
    rw [List.append_nil, ← h.text] at h1
    obtain ⟨w₁, e, hcut, hv⟩ := typed_sound c h hf hn ho h1
    have hne : r' ≠ [] := by
      rintro rfl
      rw [List.append_nil] at e hv
      exact hg f (List.append_cancel_right e ▸ hv)
    refine ⟨w₁, r', f, hcut.resolve_left hne, ?_, hne, hv, by rw [h', hr]⟩
    rw [h.text, List.append_assoc, e]
    simp
  · exact .inl ⟨v, h', (unknown_textL c h ht h').2.2⟩

theorem untyped_reads {name x w l t v : Bytes} (h : HeaderText name x w l) (hf : Fits c w)
    (hn : name.map asciiLower ∉ textHeaders) (hb : ¬ BeginsTyped c name l)
    (hv : TextL c c.feat.unrecognizedHeaders w v) (ht : Stops wsp t) : field c (l ++ t) = .ok (t, .unknown name v) := by
  rcases C79_otherwise c name x w l t h hf hn
    (fun f hf => hb ⟨w, [], f, by rw [h.text]; simp, .inl rfl, by simpa using hf⟩) ht with
    ⟨v', h1, h2⟩ | ⟨w₁, l₂, f, h0, h1, -, h2, -⟩
  · rw [h1, textL_unique c h2 hv]
  · exact absurd ⟨w₁, l₂, f, h1, .inr h0, h2⟩ hb

/-- What a line denotes is what is read from it, whatever line follows. -/
theorem C79_reads (l t : Bytes) (f : Field) (h : DenotesLine c l f) (ht : Stops wsp t) :
    field c (l ++ t) = .ok (t, f) := by
  cases h with
  | typed h hf hv => exact typed_reads c h hf hv ht
  | untyped h hf _ hn hb hv => exact untyped_reads c h hf hn hb hv ht
  | text h hn hr ho hv => exact (C76_text c _ _ _ l t f h hn hr ht).mpr ⟨ho, hv⟩
  | unknown h hr hv => exact (C76_unknown c _ _ _ l t _ h hr ht).mpr ⟨_, rfl, hv⟩

/-- A line denotes one field at most. -/
theorem C79_functional (l : Bytes) (f f' : Field) (h : DenotesLine c l f) (h' : DenotesLine c l f') : f = f' := by
  have h1 := C79_reads c l [] f h stops_nil
  rw [C79_reads c l [] f' h' stops_nil] at h1
  cases h1
  rfl

/-- Every line within the limits of the program denotes what is read from it, unless only a beginning of it stands for a
field. -/
theorem C79_denotes (name x w l : Bytes) (h : HeaderText name x w l)
    (hf : Fits c w ∨ name.map asciiLower ∈ textHeaders ∨ ¬ Recognized c.feat (name.map asciiLower))
    (hb : BeginsTyped c name l → ∃ f, TypedL c name CRLF w f) : ∃ f, DenotesLine c l f := by
  obtain ⟨v, hv⟩ := textL_exists c c.feat.unrecognizedHeaders h.folding
  by_cases hr : Recognized c.feat (name.map asciiLower)
  · by_cases hn : name.map asciiLower ∈ textHeaders
    · obtain ⟨v, hv⟩ := textL_exists c c.feat.mime h.folding
      obtain ⟨v', hv'⟩ := textL_exists c true h.folding
      have hn' := hn
      simp only [textHeaders, List.mem_cons, List.not_mem_nil, or_false] at hn'
      rcases hn' with e | e | e
      · exact ⟨.subject v, .text h hn hr (by rw [e]; rfl) hv⟩
      · exact ⟨.comments v, .text h hn hr (by rw [e]; rfl) hv⟩
      · exact ⟨.contentDescription v', .text h hn hr (by rw [e]; rfl) hv'⟩
    · have hf := hf.resolve_right (by simp [hn, hr])
      by_cases hg : ∃ f, TypedL c name CRLF w f
      · obtain ⟨f, hg⟩ := hg
        exact ⟨f, .typed h hf hg⟩
      · exact ⟨_, .untyped h hf hr hn (fun h => hg (hb h)) hv⟩
  · exact ⟨_, .unknown h hr hv⟩

/-- In particular every line of a header whose lines are always read to their ends. -/
theorem C79_total (name x w l : Bytes) (h : HeaderText name x w l) (hf : Fits c w) (hn : ¬ CutName c name) :
    ∃ f, DenotesLine c l f := by
  refine C79_denotes c name x w l h (.inl hf) ?_
  rintro ⟨w₁, r, f, e, hr, hv⟩
  obtain rfl := hr.resolve_right hn
  rw [List.append_nil, h.text] at e
  rw [List.append_nil] at hv
  exact ⟨f, List.append_cancel_left (List.append_cancel_right e) ▸ hv⟩

/-! ### Messages -/

theorem denotesLine_lines {s : Bytes} {fs : List Field} (h : LinesL (DenotesLine c) s fs) :
    ∃ ls, s = ls.flatten ∧ LinesOf c ls fs := by
  induction h with
  | nil => exact ⟨[], rfl, .nil⟩
  | @cons l f s fs hl _ ih =>
    obtain ⟨ls, rfl, h1⟩ := ih
    exact ⟨l :: ls, rfl, .cons (by simpa using C79_reads c l [] f hl stops_nil) h1⟩

/-- The header lines of a message are read as the fields they denote. -/
theorem C79_fields (hc : c.feat.compiles) (s tail : Bytes) (fs : List Field) (h : LinesL (DenotesLine c) s fs)
    (ht : tail = [] ∨ CRLF <+: tail) (hn : c.feat.trace = true → NoTraceName (s ++ tail)) :
    fields c (s ++ tail) = .ok (tail, fs) := by
  obtain ⟨ls, rfl, h1⟩ := denotesLine_lines c h
  by_cases htr : c.feat.trace = true
  · have h0 : traces c [] = .ok ([], []) := by
      unfold traces
      rw [if_pos htr]
      rfl
    simpa using C10_block c hc [] [] ls fs tail h0 h1 ht (hn htr)
  · have h0 : traces c (ls.flatten ++ tail) = .ok (ls.flatten ++ tail, []) := by
      unfold traces
      rw [if_neg htr]
    unfold fields
    rw [h0, ok_bind]
    dsimp only
    rw [C10_lines c ls fs tail h1 ht]
    rfl

/-- The result for a message, to the letter: what must be returned for the fields that the header lines denote. -/
theorem C79_message (hc : c.feat.compiles) (s tail : Bytes) (fs : List Field) (content : Option Bytes)
    (h : LinesL (DenotesLine c) s fs) (hb : BodyL c tail content) (hn : c.feat.trace = true → NoTraceName (s ++ tail)) :
    EmailResult c fs content (Email.parse c (s ++ tail)) := by
  refine (emailFrom_iff hc fs content _).mp ?_
  rw [email_parse_eq, parseMessage_eq, C79_fields c hc s tail fs h (by
    cases hb with
    | none => exact .inl rfl
    | some => exact .inr (List.prefix_append _ _)) hn]
  show emailFrom c fs content = ((afterHeaders c tail).bind _).bind _
  rw [afterHeaders_body c hb]
  rfl

/-- Which messages are accepted. -/
theorem C79_accepted (hc : c.feat.compiles) (s b : Bytes) (fs : List Field)
    (h : LinesL (DenotesLine c) s fs) (hn : c.feat.trace = true → NoTraceName (s ++ (CRLF ++ b))) :
    (∃ e, Email.parse c (s ++ (CRLF ++ b)) = .ok e) ↔
      (c.feat.mime = false → Body b) ∧ NoDuplicate fs ∧ (∀ name, ¬ Missing c fs name) ∧
        (c.feat.mime = true → ∃ v, Decoded (fs.findSome? encodingOf) b v) :=
  denoted_accepted c hc (fun l f h => ⟨f, by simpa using C79_reads c l [] f h stops_nil, rfl⟩) h hn

/-! ### Examples -/

/-- What is read, if it is a field with one mailbox or address, or keywords: the rest, the kind, the words, the parts of
the address. -/
def lineWords : Res Field → Option (Bytes × Bytes × List Bytes × Bytes × Bytes)
  | .ok (r, .from [⟨some ws, ⟨l, d⟩⟩]) => some (r, b! "from", ws, l, d)
  | .ok (r, .to [.mailbox ⟨none, ⟨l, d⟩⟩]) => some (r, b! "to", [], l, d)
  | .ok (r, .keywords [ws]) => some (r, b! "keywords", ws, [], [])
  | .ok (r, .unknown n v) => some (r, b! "?" ++ n, [v], [], [])
  | _ => none

theorem lineWords_from {r : Res Field} {rest l d : Bytes} {ws : List Bytes}
    (h : lineWords r = some (rest, b! "from", ws, l, d)) : r = .ok (rest, .from [⟨some ws, ⟨l, d⟩⟩]) := by
  unfold lineWords at h
  split at h <;> simp at h
  obtain ⟨rfl, rfl, rfl, rfl⟩ := h
  rfl

theorem lineWords_unknown {r : Res Field} {rest n v : Bytes}
    (h : lineWords r = some (rest, b! "?" ++ n, [v], [], [])) : r = .ok (rest, .unknown n v) := by
  unfold lineWords at h
  split at h <;> simp at h
  obtain ⟨rfl, rfl, rfl⟩ := h
  rfl

theorem lineWords_keywords {r : Res Field} {rest : Bytes} {ws : List Bytes}
    (h : lineWords r = some (rest, b! "keywords", ws, [], [])) : r = .ok (rest, .keywords [ws]) := by
  unfold lineWords at h
  split at h <;> simp at h
  obtain ⟨rfl, rfl⟩ := h
  rfl

/-- An encoded word as a name may contain an at-sign and a comma: there is one mailbox, not two.  After a comment the same
text is an atom.  Between encoded words white space is dropped, and an atom follows them. -/
example :
    TypedL (Cfg.concrete .full) (b! "From") CRLF (b! " =?utf-8?q?a@b,?=<c@d>") (.from [⟨some [b! "a@b,"], ⟨b! "c", b! "d"⟩⟩]) ∧
    TypedL (Cfg.concrete .full) (b! "From") CRLF (b! " (c) =?utf-8?q?a?= b<c@d>")
      (.from [⟨some [b! "=?utf-8?q?a?=", b! "b"], ⟨b! "c", b! "d"⟩⟩]) ∧
    TypedL (Cfg.concrete .full) (b! "From") CRLF (b! " =?utf-8?q?a?= =?utf-8?q?b?= c d<c@d>")
      (.from [⟨some [b! "a", b! "b", b! "c", b! "d"], ⟨b! "c", b! "d"⟩⟩]) := by
  have key : ∀ (x : Bytes) (f : Field), (∀ b ∈ x, vchar b = true ∨ wsp b = true) →
      (x.count 40 ≤ (Cfg.concrete .full).stack ∧ x.count 42 < 256) → headerOf f = some (b! "from") →
      field (Cfg.concrete .full) (b! "From" ++ b! ":" ++ x ++ CRLF ++ []) = .ok ([], f) →
      TypedL (Cfg.concrete .full) (b! "From") CRLF x f := fun x f hx hf ho h =>
    (C79_line (Cfg.concrete .full) (b! "From") x x _ [] f (exact_line (b! "From") x ⟨by decide, by decide +kernel, hx⟩)
      ⟨hf.1, fun _ => hf.2⟩ (by decide +kernel) ho stops_nil).mp h
  refine ⟨key _ _ (by decide +kernel) (by decide +kernel) rfl (lineWords_from (by decide +kernel)),
    key _ _ (by decide +kernel) (by decide +kernel) rfl (lineWords_from (by decide +kernel)),
    key _ _ (by decide +kernel) (by decide +kernel) rfl (lineWords_from (by decide +kernel))⟩

/-- The beginning of an address stands for it, so that what follows is not a group; the line is reported as text. -/
example : ∀ f, ¬ TypedL (Cfg.concrete .full) (b! "To") CRLF (b! " =?utf-8?q?a@b?=:;") f := by
  intro f hf
  have h1 := typed_reads (Cfg.concrete .full) (t := []) (exact_line (b! "To") (b! " =?utf-8?q?a@b?=:;") (by decide +kernel))
    ⟨by decide +kernel, fun _ => by decide +kernel⟩ hf stops_nil
  have h2 := lineWords_unknown (r := field (Cfg.concrete .full) (b! "To" ++ b! ":" ++ b! " =?utf-8?q?a@b?=:;" ++ CRLF ++ []))
    (rest := []) (n := b! "To") (v := b! " a@b:;") (by decide +kernel)
  rw [h1] at h2
  cases h2
  cases hf.1

/-- A `Keywords` line of which only the first line is read: an encoded word, then a comment. -/
example :
    field (Cfg.concrete .full) (b! "Keywords: =?utf-8?q?a?=\r\n (c)\r\n") = .ok (b! " (c)\r\n", .keywords [[b! "a"]]) ∧
    TypedL (Cfg.concrete .full) (b! "Keywords") CRLF (b! " =?utf-8?q?a?= b\r\n (c)") (.keywords [[b! "a", b! "b"]]) := by
  refine ⟨lineWords_keywords (by decide +kernel), ?_⟩
  refine (C79_line (Cfg.concrete .full) (b! "Keywords") (b! " =?utf-8?q?a?= b (c)") (b! " =?utf-8?q?a?= b\r\n (c)")
    (b! "Keywords: =?utf-8?q?a?= b\r\n (c)\r\n") [] _ ⟨by decide +kernel, by decide, by decide +kernel, ?_⟩
    ⟨by decide +kernel, fun _ => by decide +kernel⟩ (by decide +kernel) rfl stops_nil).mp (lineWords_keywords (by decide +kernel))
  have hend : Folding (b! " (c)") (b! "\r\n (c)") := .fold (s := []) (s' := b! " ") (x := b! "(c)") (w := b! "(c)") (by simp)
    (by decide +kernel) (by decide) (by decide) (fun y r e => by cases e; decide) (printable_folding _ (by unfold Spec.Printable; decide +kernel))
  have hb : Folding (b! "b (c)") (b! "b\r\n (c)") := .char (by decide +kernel) hend
  refine .space (s := b! " ") (x := b! "=?utf-8?q?a?= b (c)") (w := b! "=?utf-8?q?a?= b\r\n (c)") (by decide +kernel) (fun y r e => by cases e; decide) ?_
  iterate 13 refine .char (by decide +kernel) ?_
  exact .space (s := b! " ") (x := b! "b (c)") (w := b! "b\r\n (c)") (by decide +kernel) (fun y r e => by cases e; decide) hb

/-- A message with encoded words in the names is accepted, and so its lines denote the required fields. -/
example : ∃ fs, LinesL (DenotesLine (Cfg.concrete .full))
      (b! "From: =?utf-8?q?a@b,?=<c@d>\r\nTo: =?utf-8?q?a@b?=:;\r\nDate: 21 Nov 1997 10:01:22 -0600\r\n") fs ∧ fs.length = 3 ∧
    NoDuplicate fs ∧ ∀ name, ¬ Missing (Cfg.concrete .full) fs name := by
  have hc : (Cfg.concrete .full).feat.compiles := ⟨fun _ => rfl, fun _ => rfl⟩
  obtain ⟨f1, h1⟩ := C79_total (Cfg.concrete .full) (b! "From") (b! " =?utf-8?q?a@b,?=<c@d>") _ _
    (exact_line _ _ (by decide +kernel)) ⟨by decide +kernel, fun _ => by decide +kernel⟩ (fun h => absurd h.2 (by decide +kernel))
  obtain ⟨f2, h2⟩ := C79_total (Cfg.concrete .full) (b! "To") (b! " =?utf-8?q?a@b?=:;") _ _
    (exact_line _ _ (by decide +kernel)) ⟨by decide +kernel, fun _ => by decide +kernel⟩ (fun h => absurd h.2 (by decide +kernel))
  obtain ⟨f3, h3⟩ := C79_total (Cfg.concrete .full) (b! "Date") (b! " 21 Nov 1997 10:01:22 -0600") _ _
    (exact_line _ _ (by decide +kernel)) ⟨by decide +kernel, fun _ => by decide +kernel⟩ (fun h => absurd h.2 (by decide +kernel))
  have h : LinesL (DenotesLine (Cfg.concrete .full))
      (b! "From: =?utf-8?q?a@b,?=<c@d>\r\nTo: =?utf-8?q?a@b?=:;\r\nDate: 21 Nov 1997 10:01:22 -0600\r\n") [f1, f2, f3] :=
    .cons h1 (.cons h2 (.cons h3 .nil))
  have hok : isOk (Email.parse (Cfg.concrete .full)
      (b! "From: =?utf-8?q?a@b,?=<c@d>\r\nTo: =?utf-8?q?a@b?=:;\r\nDate: 21 Nov 1997 10:01:22 -0600\r\n" ++
        (CRLF ++ b! "body"))) = true := by
    decide +kernel
  have := (C79_accepted _ hc _ (b! "body") _ h fun _ => by unfold NoTraceName; decide +kernel).mp (isOk_iff.mp hok)
  exact ⟨_, h, rfl, this.2.1, this.2.2.1⟩

end EmailParser
