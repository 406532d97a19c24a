import Verif.Proofs.ExactCut
import Verif.Props.ExactWords
/-
C80: when only a beginning of a header line is read; every message made of header lines is decided.
-/
namespace EmailParser
open Spec

variable (c : Cfg)

theorem field_contentType (hm : c.feat.mime = true) {name s r : Bytes} (hn : name.map asciiLower = b! "content-type") {v} :
    field c (name ++ b! ":" ++ s) = .ok (r, .contentType v.1 v.2.1 v.2.2) ↔ contentTypeValue c s = .ok (CRLF ++ r, v) :=
  field_iff (K := fun (t, st, p) => .contentType t st p) (n := b! "content-type")
    (show (_, mapValue (fun (t, st, p) => .contentType t st p) (contentType c)) ∈ headerTable c by simp [headerTable, enabled, hm])
    hn (by decide +kernel) (by decide +kernel)
    (fun a b h => by
      obtain ⟨_, _, _⟩ := a
      obtain ⟨_, _, _⟩ := b
      cases h
      rfl)
    (fun _ _ _ h => by cases h)

/-- Only a beginning of a line can be read, and only before white space. -/
theorem cut_shape {name x w l w₁ r : Bytes} {b : UInt8} (h : HeaderText name x w l)
    (e : l = name ++ b! ":" ++ w₁ ++ CRLF ++ b :: r) : wsp b = true ∧ w ++ CRLF = w₁ ++ (CRLF ++ b :: r) := by
  have e1 : w ++ CRLF = w₁ ++ (CRLF ++ b :: r) := by
    have := h.text.symm.trans e
    simp only [List.append_assoc] at this
    exact List.append_cancel_left (List.append_cancel_left this)
  refine ⟨?_, e1⟩
  obtain ⟨z, y, hz⟩ : ∃ z y, b :: r = z ++ [y] := by
    obtain ⟨z, y, h⟩ := (List.eq_nil_or_concat (b :: r)).resolve_left (by simp)
    exact ⟨z, y, by rw [h, List.concat_eq_append]⟩
  rcases z.eq_nil_or_concat with rfl | ⟨z', y', rfl⟩
  · have e2 := congrArg List.reverse e1
    rw [hz] at e2
    simp [CRLF] at e2
  · have hw : w = w₁ ++ 13 :: 10 :: z' := by
      rw [hz, List.concat_eq_append] at e1
      have : w ++ CRLF = (w₁ ++ 13 :: 10 :: z') ++ [y', y] := by rw [e1]; simp [CRLF]
      exact List.append_inj_left' this rfl
    obtain ⟨ws, b', z'', rfl, hne, hws, -⟩ := folding_break h.folding _ _ hw
    cases ws with
    | nil => exact absurd rfl hne
    | cons a ws =>
      rw [List.concat_eq_append] at hz
      cases hz
      exact hws _ (by simp)

theorem cut_sound {name x w l w₁ r : Bytes} {b : UInt8} {f : Field} (h : HeaderText name x w l) (hf : Fits c w)
    (e : l = name ++ b! ":" ++ w₁ ++ CRLF ++ b :: r) (hx : field c l = .ok (b :: r, f)) : CutL c name (b :: r) w₁ f := by
  obtain ⟨hb, e1⟩ := cut_shape h e
  have hl := lineText_eq h (t := [])
  rw [List.append_nil] at hl
  obtain ⟨hcut, hr, ho⟩ : CutName c name ∧ Recognized c.feat (name.map asciiLower) ∧ headerOf f = some (name.map asciiLower) := by
    rcases field_line (c := c) h.name_ne h.name_chars h.folding stops_nil with
      ⟨k, h'⟩ | ⟨r', f', h', h1, -, h3, h4⟩ | ⟨v, h', -⟩ <;> rw [← hl, hx] at h' <;> cases h'
    exact ⟨Classical.byContradiction fun hn => absurd (h1 hn) (by simp), h3, h4⟩
  have hn : name.map asciiLower ∉ textHeaders := by
    have := hcut.2
    simp only [List.mem_cons, List.not_mem_nil, or_false] at this
    rcases this with hc | hc | hc | hc | hc <;> rw [hc] <;> decide
  obtain ⟨w₂, e2, -, -, -, ht⟩ := typed_sound c h hf hn ho hx
  obtain rfl := List.append_cancel_right (e1.symm.trans e2)
  have hi : Calm c (w₁ ++ (CRLF ++ b :: r)) := e1 ▸ line_calm hf h.folding
  have hx' := hx
  rw [e, List.append_assoc, List.append_assoc] at hx'
  have hm := hcut.1
  refine ⟨hcut, ho, hr, ?_⟩
  have hcn := hcut.2
  have hg : name.map asciiLower ∈ mimeHeaders → FieldG c (name ++ b! ":" ++ w₁ ++ CRLF) f := by
    intro hmm
    rcases ht with ⟨hp, -⟩ | ⟨hp, -⟩ | ⟨-, hg⟩ | ⟨v, rfl, -⟩
    · exfalso
      revert hp
      simp only [mimeHeaders, List.mem_cons, List.not_mem_nil, or_false] at hmm
      rcases hmm with hc | hc | hc <;> rw [hc] <;> decide
    · exfalso
      revert hp
      simp only [mimeHeaders, List.mem_cons, List.not_mem_nil, or_false] at hmm
      rcases hmm with hc | hc | hc <;> rw [hc] <;> decide
    · exact hg
    · rw [← Option.some.inj ho] at hmm
      exact absurd hmm (by decide)
  cases f with
  | mimeVersion => exact hg (by rw [← Option.some.inj ho]; decide)
  | contentTransferEncoding => exact hg (by rw [← Option.some.inj ho]; decide)
  | contentType t st q =>
    exact (typeValue_cut hb hi).mp ((field_contentType c hm (Option.some.inj ho).symm (v := (t, st, q))).mp hx')
  | contentDisposition v => exact (dispositionValue_cut hb hi).mp ((field_disposition hm (Option.some.inj ho).symm).mp hx')
  | keywords v =>
    refine (keywordList_cut hb hi).mp ((field_keywords ?_ (Option.some.inj ho).symm).mp hx')
    rw [← Option.some.inj ho] at hr
    simpa [Recognized] using hr
  | unknown => cases ho
  | trace => cases ho
  | _ => exact absurd (Option.some.inj ho ▸ hcn) (by decide)

theorem cut_reads {name x w l w₁ r : Bytes} {b : UInt8} {f : Field} (h : HeaderText name x w l) (hf : Fits c w)
    (e : l = name ++ b! ":" ++ w₁ ++ CRLF ++ b :: r) (hv : CutL c name (b :: r) w₁ f) : field c l = .ok (b :: r, f) := by
  obtain ⟨hb, e1⟩ := cut_shape h e
  obtain ⟨hcut, ho, hr, hv⟩ := hv
  have hi : Calm c (w₁ ++ (CRLF ++ b :: r)) := e1 ▸ line_calm hf h.folding
  have hm := hcut.1
  have hd := hi.left.fits.depth
  rw [e]
  cases f with
  | mimeVersion mj mn =>
    exact entry_line (K := fun (mj, mn) => .mimeVersion mj mn) (q := mimeVersion c) (v := (mj, mn))
      (c := c) (name := b! "mime-version") (by simp [headerTable, enabled, hm]) (Option.some.inj ho).symm fun n' hn' =>
        mimeVersion_value (mimeVersion_exact (header_value (nm := b! "MIME-Version") hv.2 rfl (Option.some.inj ho).symm) hd) hn'
  | contentTransferEncoding v =>
    exact entry_line (K := .contentTransferEncoding) (q := contentTransferEncoding c) (v := v)
      (c := c) (name := b! "content-transfer-encoding") (by simp [headerTable, enabled, hm]) (Option.some.inj ho).symm fun n' hn' =>
        encoding_value (encoding_exact (header_value (nm := b! "Content-Transfer-Encoding") hv.2 rfl (Option.some.inj ho).symm) hd) hn'
  | contentType t st q =>
    rw [List.append_assoc, List.append_assoc]
    exact (field_contentType c hm (Option.some.inj ho).symm (v := (t, st, q))).mpr ((typeValue_cut hb hi).mpr hv)
  | contentDisposition v =>
    rw [List.append_assoc, List.append_assoc]
    exact (field_disposition hm (Option.some.inj ho).symm).mpr ((dispositionValue_cut hb hi).mpr hv)
  | keywords v =>
    rw [List.append_assoc, List.append_assoc]
    refine (field_keywords ?_ (Option.some.inj ho).symm).mpr ((keywordList_cut hb hi).mpr hv)
    rw [← Option.some.inj ho] at hr
    simpa [Recognized] using hr
  | _ => exact hv.elim

/-! ### C80: lines -/

/-- What is read from a line that is not read to its end. -/
theorem C80_cut (name x w l t w₁ r : Bytes) (b : UInt8) (f : Field) (h : HeaderText name x w l) (hf : Fits c w)
    (e : l = name ++ b! ":" ++ w₁ ++ CRLF ++ b :: r) (ht : Stops wsp t) :
    field c (l ++ t) = .ok (b :: r ++ t, f) ↔ CutL c name (b :: r) w₁ f := by
  constructor
  · intro hx
    rw [h.text] at hx
    obtain ⟨r', h1, u, -, h2, h3⟩ := (C10_same_outcome c (name ++ b! ":" ++ w) t [] ht stops_nil).2.2 _ _ hx
    have hlen : (b :: r ++ t).length - t.length = (b :: r).length := by
      simp only [List.length_append]
      omega
    rw [hlen, List.take_left, List.append_nil] at h3
    subst h3
    rw [List.append_nil, ← h.text] at h1
    exact cut_sound c h hf e h1
  · intro hv
    have h0 := cut_reads c h hf e hv
    rw [h.text, ← List.append_nil (name ++ b! ":" ++ w ++ CRLF)] at h0
    obtain ⟨r', h1, u, -, -, h2⟩ := (C10_same_outcome c (name ++ b! ":" ++ w) [] t stops_nil ht).2.2 _ _ h0
    rw [h.text, h1, h2]
    simp

/-- Every line within the limits is either read to its end or cut, and `f` and the rest are those of the
specification. -/
theorem C80_line (name x w l t : Bytes) (h : HeaderText name x w l) (hf : Fits c w) (ht : Stops wsp t)
    (hn : name.map asciiLower ∉ textHeaders) :
    (∃ f, TypedL c name CRLF w f ∧ field c (l ++ t) = .ok (t, f)) ∨
    (IsCut c name l ∧ ∃ w₁ b r f, l = name ++ b! ":" ++ w₁ ++ CRLF ++ b :: r ∧ CutL c name (b :: r) w₁ f ∧
      field c (l ++ t) = .ok (b :: r ++ t, f)) ∨
    ((∀ f, ¬ TypedL c name CRLF w f) ∧ ¬ IsCut c name l ∧
      ∃ v, TextL c c.feat.unrecognizedHeaders w v ∧ field c (l ++ t) = .ok (t, .unknown name v)) := by
  by_cases hg : ∃ f, TypedL c name CRLF w f
  · obtain ⟨f, hg⟩ := hg
    exact .inl ⟨f, hg, typed_reads c h hf hg ht⟩
  · have hg' : ∀ f, ¬ TypedL c name CRLF w f := fun f h => hg ⟨f, h⟩
    rcases C79_otherwise c name x w l t h hf hn hg' ht with ⟨v, h1, h2⟩ | ⟨w₁, l₂, f, -, e, hne, -, h2⟩
    · refine .inr (.inr ⟨hg', ?_, v, h2, h1⟩)
      rintro ⟨w₁, b, r, f, e, -, hv⟩
      rw [(C80_cut c name x w l t w₁ r b f h hf e ht).mpr hv] at h1
      simp only [Outcome.ok.injEq, Prod.mk.injEq] at h1
      have := congrArg List.length h1.1
      simp only [List.length_append, List.length_cons] at this
      omega
    · cases l₂ with
      | nil => exact absurd rfl hne
      | cons b r =>
        have hv := (C80_cut c name x w l t w₁ r b f h hf e ht).mp h2
        exact .inr (.inl ⟨⟨w₁, b, r, f, e, (cut_shape h e).1, hv⟩, w₁, b, r, f, e, hv, h2⟩)

/-- What a line means is what is read from it, whatever line follows. -/
theorem C80_reads (l t : Bytes) (f : Field) (h : MeansLine c l f) (ht : Stops wsp t) : field c (l ++ t) = .ok (t, f) := by
  cases h with
  | typed h hf hv => exact typed_reads c h hf hv ht
  | untyped h hf _ hn hg hb hv =>
    rcases C80_line c _ _ _ _ t h hf ht hn with ⟨f, hv', -⟩ | ⟨hb', -⟩ | ⟨-, -, v', hv', hx⟩
    · exact absurd hv' (hg f)
    · exact absurd hb' hb
    · rw [hx, textL_unique c hv' hv]
  | text h hn hr ho hv => exact (C76_text c _ _ _ l t f h hn hr ht).mpr ⟨ho, hv⟩
  | unknown h hr hv => exact (C76_unknown c _ _ _ l t _ h hr ht).mpr ⟨_, rfl, hv⟩

/-- A line means one field at most. -/
theorem C80_functional (l : Bytes) (f f' : Field) (h : MeansLine c l f) (h' : MeansLine c l f') : f = f' := by
  have h1 := C80_reads c l [] f h stops_nil
  rw [C80_reads c l [] f' h' stops_nil] at h1
  cases h1
  rfl

theorem text_means {name x w l : Bytes} (h : HeaderText name x w l)
    (hn : name.map asciiLower ∈ textHeaders ∨ ¬ Recognized c.feat (name.map asciiLower)) : ∃ f, MeansLine c l f := by
  by_cases hr : Recognized c.feat (name.map asciiLower)
  · have hn := hn.resolve_right (by simp [hr])
    obtain ⟨v, hv⟩ := textL_exists c c.feat.mime h.folding
    obtain ⟨v', hv'⟩ := textL_exists c true h.folding
    have hn' := hn
    simp only [textHeaders, List.mem_cons, List.not_mem_nil, or_false] at hn'
    rcases hn' with e | e | e
    · exact ⟨.subject v, .text h hn hr (by rw [e]; rfl) hv⟩
    · exact ⟨.comments v, .text h hn hr (by rw [e]; rfl) hv⟩
    · exact ⟨.contentDescription v', .text h hn hr (by rw [e]; rfl) hv'⟩
  · obtain ⟨v, hv⟩ := textL_exists c c.feat.unrecognizedHeaders h.folding
    exact ⟨_, .unknown h hr hv⟩

/-- Every line within the limits of the program means something or is cut, and not both. -/
theorem C80_total (name x w l : Bytes) (h : HeaderText name x w l)
    (hf : Fits c w ∨ name.map asciiLower ∈ textHeaders ∨ ¬ Recognized c.feat (name.map asciiLower)) :
    (∃ f, MeansLine c l f) ↔ ¬ (Fits c w ∧ IsCut c name l) := by
  constructor
  · rintro ⟨f, hm⟩ ⟨hf, w₁, b, r, f', e, -, hv⟩
    have h1 := C80_reads c l [] f hm stops_nil
    have h2 := (C80_cut c name x w l [] w₁ r b f' h hf e stops_nil).mpr hv
    rw [h1] at h2
    cases h2
  · intro hb
    by_cases hn : name.map asciiLower ∈ textHeaders ∨ ¬ Recognized c.feat (name.map asciiLower)
    · exact text_means c h hn
    · have hf := hf.resolve_right hn
      have hn' : name.map asciiLower ∉ textHeaders := fun h => hn (.inl h)
      rcases C80_line c name x w l [] h hf stops_nil hn' with ⟨f, hv, -⟩ | ⟨hb', -⟩ | ⟨hg, hb', v, hv, -⟩
      · exact ⟨f, .typed h hf hv⟩
      · exact absurd ⟨hf, hb'⟩ hb
      · exact ⟨_, .untyped h hf (Classical.byContradiction fun hr => hn (.inr hr)) hn' hg hb' hv⟩

/-! ### Messages -/

theorem meansLine_lines {s : Bytes} {fs : List Field} (h : LinesL (MeansLine c) s fs) :
    ∃ ls, s = ls.flatten ∧ LinesOf c ls fs := by
  induction h with
  | nil => exact ⟨[], rfl, .nil⟩
  | @cons l f s fs hl _ ih =>
    obtain ⟨ls, rfl, h1⟩ := ih
    exact ⟨l :: ls, rfl, .cons (by simpa using C80_reads c l [] f hl stops_nil) h1⟩

/-- The result for a message, to the letter: what must be returned for the fields that the header lines mean. -/
theorem C80_message (hc : c.feat.compiles) (s tail : Bytes) (fs : List Field) (content : Option Bytes)
    (h : LinesL (MeansLine c) s fs) (hb : BodyL c tail content) (hn : c.feat.trace = true → NoTraceName (s ++ tail)) :
    EmailResult c fs content (Email.parse c (s ++ tail)) := by
  refine (emailFrom_iff hc fs content _).mp ?_
  have hfs : fields c (s ++ tail) = .ok (tail, fs) := by
    obtain ⟨ls, rfl, h1⟩ := meansLine_lines c h
    have ht : tail = [] ∨ CRLF <+: tail := by
      cases hb with
      | none => exact .inl rfl
      | some => exact .inr (List.prefix_append _ _)
    by_cases htr : c.feat.trace = true
    · have h0 : traces c [] = .ok ([], []) := by
        unfold traces
        rw [if_pos htr]
        rfl
      simpa using C10_block c hc [] [] ls fs tail h0 h1 ht (hn htr)
    · have h0 : traces c (ls.flatten ++ tail) = .ok (ls.flatten ++ tail, []) := by
        unfold traces
        rw [if_neg htr]
      unfold fields
      rw [h0, ok_bind]
      dsimp only
      rw [C10_lines c ls fs tail h1 ht]
      rfl
  rw [email_parse_eq, parseMessage_eq, hfs]
  show emailFrom c fs content = ((afterHeaders c tail).bind _).bind _
  rw [afterHeaders_body c hb]
  rfl

theorem field_white {b : UInt8} {t : Bytes} (hb : wsp b = true) : ∃ e, field c (b :: t) = .err e := by
  have key : ∀ b : UInt8, wsp b = true → ftext b = false ∧ asciiLower b = b ∧ ∀ n ∈ [b! "date", b! "from", b! "sender",
      b! "reply-to", b! "to", b! "cc", b! "bcc", b! "message-id", b! "in-reply-to", b! "references", b! "subject",
      b! "comments", b! "keywords", b! "mime-version", b! "content-type", b! "content-transfer-encoding", b! "content-id",
      b! "content-description", b! "content-disposition"], n.head? ≠ some b := by decide +kernel
  obtain ⟨h1, h2, h3⟩ := key b hb
  unfold field
  rw [fieldParsers_table]
  refine matchParsers_all_err fun p hp => ?_
  rcases List.mem_append.mp hp with hp | hp
  · obtain ⟨e, he, rfl⟩ := List.mem_map.mp hp
    refine headerTable_other e he fun hpre => ?_
    have hr := headerTable_recognized e he
    have hm : e.1 ∈ [b! "date", b! "from", b! "sender",
        b! "reply-to", b! "to", b! "cc", b! "bcc", b! "message-id", b! "in-reply-to", b! "references", b! "subject",
        b! "comments", b! "keywords", b! "mime-version", b! "content-type", b! "content-transfer-encoding", b! "content-id",
        b! "content-description", b! "content-disposition"] := by
      simp only [Recognized, List.mem_cons, List.not_mem_nil, or_false] at hr
      rcases hr with ⟨-, h⟩ | ⟨-, h⟩ | ⟨-, h⟩ | ⟨-, h⟩ | ⟨-, h⟩ | ⟨-, h⟩ | ⟨-, h⟩ | ⟨-, h⟩ | ⟨-, h⟩ |
        ⟨-, h⟩ | ⟨-, h⟩ | ⟨-, h⟩ | ⟨-, h⟩ | ⟨-, h | h | h | h | h | h⟩ <;> rw [h] <;> decide
    have := h3 _ hm
    cases hn : e.1 with
    | nil => rw [hn] at hm; exact absurd hm (by decide)
    | cons a n =>
      rw [hn] at hpre this
      rw [List.map_cons, List.cons_append, List.cons_prefix_cons, h2] at hpre
      exact this (by rw [hpre.1]; rfl)
  · simp only [List.mem_singleton] at hp
    subst hp
    refine mapValue_ended ?_
    obtain ⟨e, he⟩ := takeWhile1_err (p := ftext) (r := b :: t) (stops_cons.mpr h1)
    exact ⟨e, by rw [unknown, isFtext_eq, he]; rfl⟩

theorem lines_then {ls : List Bytes} {fs gs : List Field} (h : LinesOf c ls fs) {t rest : Bytes} (ht : Stops wsp t)
    (h' : many t (field c) = .ok (rest, gs)) : many (ls.flatten ++ t) (field c) = .ok (rest, fs ++ gs) := by
  induction h with
  | nil => exact h'
  | @cons l f ls fs h hs ih =>
    rw [List.flatten_cons, List.append_assoc]
    have h2 := field_followed h (hs.stops ht)
    exact many_cons h2 (shrinks_of field_progress field_parses _ _ _ h2) ih

/-- A header block that ends before white space. -/
theorem fields_white {b : UInt8} {i t : Bytes} {fs : List Field} (hb : wsp b = true) (hfs : fields c i = .ok (b :: t, fs)) :
    Email.parse c i = .err (.explicit "TAG ERROR: Headers must be followed by a CRLF sequence.") := by
  rw [email_parse_eq, parseMessage_eq, hfs]
  show ((afterHeaders c (b :: t)).bind _).bind _ = .err headersError
  have hspec := afterHeaders_spec (c := c) (b :: t)
  have hno : ∀ u, b :: t ≠ CRLF ++ u := by
    intro u hu
    rw [(List.cons.inj hu).1] at hb
    exact absurd hb (by decide)
  cases ha : afterHeaders c (b :: t) with
  | err e =>
    rw [ha] at hspec
    rcases hspec with ⟨rfl, -⟩ | ⟨-, -, u, hu, -⟩
    · rfl
    · exact absurd hu (hno u)
  | abort k => rw [ha] at hspec; exact hspec.elim
  | ok o =>
    rw [ha] at hspec
    cases o with
    | none => cases hspec
    | some u => exact absurd hspec.1 (hno u)

/-- A header line does not begin with white space. -/
theorem line_starts {name x w l : Bytes} (h : HeaderText name x w l) (t : Bytes) : Stops wsp (l ++ t) := by
  have hc := h.name_chars
  have key : ∀ b : UInt8, ftext b = true → wsp b = false := by decide +kernel
  rw [h.text]
  cases hname : name with
  | nil => exact absurd hname h.name_ne
  | cons a n =>
    rw [hname] at hc
    exact stops_cons.mpr (key a (hc a (by simp)))

/-- A message with a line that is cut is refused, whatever follows. -/
theorem C80_rejected (s name x w l tail : Bytes) (fs : List Field) (h : LinesL (MeansLine c) s fs)
    (hl : HeaderText name x w l) (hf : Fits c w) (hcut : IsCut c name l) (ht : Stops wsp tail)
    (hn : c.feat.trace = true → NoTraceName (s ++ (l ++ tail))) :
    Email.parse c (s ++ (l ++ tail)) =
      .err (.explicit "TAG ERROR: Headers must be followed by a CRLF sequence.") := by
  obtain ⟨w₁, b, r, f, e, hb, hv⟩ := hcut
  obtain ⟨ls, rfl, h1⟩ := meansLine_lines c h
  have hx := (C80_cut c name x w l tail w₁ r b f hl hf e ht).mpr hv
  have hst := line_starts hl tail
  have hm : many (ls.flatten ++ (l ++ tail)) (field c) = .ok (b :: r ++ tail, fs ++ [f]) := by
    refine lines_then c h1 hst (many_cons hx ?_ (many_err (field_white c hb)))
    rw [e]
    simp only [List.length_append, List.length_cons]
    omega
  have htr : traces c (ls.flatten ++ (l ++ tail)) = .ok (ls.flatten ++ (l ++ tail), []) := by
    by_cases htr : c.feat.trace = true
    · have h0 : traces c [] = .ok ([], []) := by
        unfold traces
        rw [if_pos htr]
        rfl
      have hq := (hn htr).quiet c (h1.stops hst)
      simpa using (traces_block (c := c) Ended.nil.quiet hq).followed (w := []) h0 (.inl rfl)
    · unfold traces
      rw [if_neg htr]
  have hfs : fields c (ls.flatten ++ (l ++ tail)) = .ok (b :: r ++ tail, [] ++ (fs ++ [f])) := by
    unfold fields
    rw [htr, ok_bind]
    dsimp only
    rw [hm]
    rfl
  exact fields_white c hb hfs

/-- All lines mean something, or there is a first one that is cut. -/
theorem lines_decided {s : Bytes} (h : LinesWithin c s) (tail : Bytes) (ht : Stops wsp tail) :
    (∃ fs, LinesL (MeansLine c) s fs) ∨
    ∃ s₁ fs name x w l s₂, s = s₁ ++ (l ++ s₂) ∧ LinesL (MeansLine c) s₁ fs ∧ HeaderText name x w l ∧ Fits c w ∧
      IsCut c name l ∧ Stops wsp (s₂ ++ tail) := by
  induction h with
  | nil => exact .inl ⟨[], .nil⟩
  | @cons l s hl hs ih =>
    obtain ⟨name, x, w, h, hf⟩ := hl
    by_cases hc : Fits c w ∧ IsCut c name l
    · refine .inr ⟨[], [], name, x, w, l, s, rfl, .nil, h, hc.1, hc.2, ?_⟩
      cases hs with
      | nil => exact ht
      | @cons l' s' hl' _ =>
        obtain ⟨_, _, _, h', -⟩ := hl'
        rw [List.append_assoc]
        exact line_starts h' _
    · obtain ⟨f, hm⟩ := (C80_total c name x w l h hf).mpr hc
      rcases ih with ⟨fs, hfs⟩ | ⟨s₁, fs, name', x', w', l', s₂, rfl, h1, h2⟩
      · exact .inl ⟨f :: fs, .cons hm hfs⟩
      · exact .inr ⟨l ++ s₁, f :: fs, name', x', w', l', s₂, by simp, .cons hm h1, h2⟩

/-- Which messages are accepted, among all those whose header lines are of the general form and within the limits. -/
theorem C80_accepted (hc : c.feat.compiles) (s b : Bytes) (hs : LinesWithin c s)
    (hn : c.feat.trace = true → NoTraceName (s ++ (CRLF ++ b))) :
    (∃ e, Email.parse c (s ++ (CRLF ++ b)) = .ok e) ↔
      ∃ fs, LinesL (MeansLine c) s fs ∧ (c.feat.mime = false → Body b) ∧ NoDuplicate fs ∧ (∀ name, ¬ Missing c fs name) ∧
        (c.feat.mime = true → ∃ v, Decoded (fs.findSome? encodingOf) b v) := by
  have key : ∀ fs, LinesL (MeansLine c) s fs → _ := fun fs h => denoted_accepted (b := b) c hc (L := MeansLine c)
    (fun l f h => ⟨f, by simpa using C80_reads c l [] f h stops_nil, rfl⟩) h hn
  constructor
  · rintro ⟨e, he⟩
    rcases lines_decided c hs (CRLF ++ b) (stops_cons.mpr (by decide)) with
      ⟨fs, h⟩ | ⟨s₁, fs, name, x, w, l, s₂, rfl, h1, h2, h3, h4, h5⟩
    · exact ⟨fs, h, (key fs h).mp ⟨e, he⟩⟩
    · have he' := C80_rejected c s₁ name x w l (s₂ ++ (CRLF ++ b)) fs h1 h2 h3 h4 h5 (by simpa using hn)
      simp only [List.append_assoc] at he he'
      rw [he] at he'
      cases he'
  · rintro ⟨fs, h, h'⟩
    exact (key fs h).mpr h'

/-! ### Examples -/

/-- A text folded before its last word. -/
theorem folded_words {u v : Bytes} (hu : u ≠ [] ∧ (∀ b ∈ u, vchar b = true) ∧ v ≠ [] ∧ ∀ b ∈ v, vchar b = true) :
    Folding (b! " " ++ (u ++ (b! " " ++ v))) (b! " " ++ (u ++ (CRLF ++ b! " " ++ v))) := by
  obtain ⟨hne, hu, hv, hv'⟩ := hu
  have key : ∀ b : UInt8, vchar b = true → wsp b = false := by decide +kernel
  have h1 : Folding (b! " " ++ v) (CRLF ++ b! " " ++ v) :=
    .fold (s := []) (s' := b! " ") (x := v) (w := v) (by simp) (by decide +kernel) (by decide +kernel) hv
      (fun y r e => key y (hv' y (by rw [e]; simp))) (printable_folding v fun b hb => .inl (hv' b hb))
  refine .space (by decide +kernel) (fun y r e => ?_) ?_
  · cases u with
    | nil => exact absurd rfl hne
    | cons a u =>
      rw [List.cons_append] at e
      exact (List.cons.inj e).1 ▸ key a (hu a (by simp))
  · clear hne
    induction u with
    | nil => exact h1
    | cons a u ih => exact .char (hu a (by simp)) (ih fun b hb => hu b (by simp [hb]))

/-- What is read, if it is a content type: the rest, and whether it is one. -/
def typeRest : Res Field → Option Bytes
  | .ok (r, .contentType ..) => some r
  | _ => none

theorem typeRest_eq {x : Res Field} {r : Bytes} (h : typeRest x = some r) : ∃ t st q, x = .ok (r, .contentType t st q) := by
  unfold typeRest at h
  split at h <;> simp at h
  exact ⟨_, _, _, by rw [h]⟩

theorem folded_line (name u v : Bytes)
    (h : name ≠ [] ∧ (∀ b ∈ name, ftext b = true) ∧ u ≠ [] ∧ (∀ b ∈ u, vchar b = true) ∧ v ≠ [] ∧ ∀ b ∈ v, vchar b = true) :
    HeaderText name (b! " " ++ (u ++ (b! " " ++ v))) (b! " " ++ (u ++ (CRLF ++ b! " " ++ v)))
      (name ++ b! ":" ++ (b! " " ++ (u ++ (CRLF ++ b! " " ++ v))) ++ CRLF) :=
  ⟨rfl, h.1, h.2.1, folded_words h.2.2⟩

/-- A parameter without quotes ends the value; the folded line after it is not read.  After a quoted value the whole line is
reported as text. -/
example :
    IsCut (Cfg.concrete .full) (b! "Content-Type") (b! "Content-Type: a/b;c=d\r\n x\r\n") ∧
    ¬ IsCut (Cfg.concrete .full) (b! "Content-Type") (b! "Content-Type: a/b;c=\"d\"\r\n x\r\n") ∧
    MeansLine (Cfg.concrete .full) (b! "Content-Type: a/b;c=\"d\"\r\n x\r\n") (.unknown (b! "Content-Type") (b! " a/b;c=\"d\" x")) := by
  have h1 := folded_line (b! "Content-Type") (b! "a/b;c=d") (b! "x") (by decide +kernel)
  have h2 : HeaderText _ _ (b! " a/b;c=\"d\"\r\n x") (b! "Content-Type: a/b;c=\"d\"\r\n x\r\n") :=
    folded_line (b! "Content-Type") (b! "a/b;c=\"d\"") (b! "x") (by decide +kernel)
  have f1 : Fits (Cfg.concrete .full) (b! " " ++ (b! "a/b;c=d" ++ (CRLF ++ b! " " ++ b! "x"))) :=
    ⟨by decide +kernel, fun _ => by decide +kernel⟩
  have f2 : Fits (Cfg.concrete .full) (b! " a/b;c=\"d\"\r\n x") := ⟨by decide +kernel, fun _ => by decide +kernel⟩
  have r2 := lineWords_unknown (r := field (Cfg.concrete .full) (b! "Content-Type: a/b;c=\"d\"\r\n x\r\n" ++ []))
    (rest := []) (n := b! "Content-Type") (v := b! " a/b;c=\"d\" x") (by decide +kernel)
  have n2 : ¬ IsCut (Cfg.concrete .full) (b! "Content-Type") (b! "Content-Type: a/b;c=\"d\"\r\n x\r\n") := by
    rintro ⟨w₁, b, r, f, e, -, hv⟩
    have := (C80_cut (Cfg.concrete .full) _ _ _ _ [] w₁ r b f h2 f2 e stops_nil).mpr hv
    rw [r2] at this
    cases this
  refine ⟨?_, n2, ?_⟩
  · obtain ⟨t, st, q, h⟩ := typeRest_eq (x := field (Cfg.concrete .full) (b! "Content-Type: a/b;c=d\r\n x\r\n" ++ []))
      (r := b! " x\r\n") (by decide +kernel)
    exact ⟨b! " a/b;c=d", 32, b! "x\r\n", .contentType t st q, rfl, by decide,
      (C80_cut (Cfg.concrete .full) _ _ _ _ [] (b! " a/b;c=d") (b! "x\r\n") 32 _ h1 f1 rfl stops_nil).mp h⟩
  · obtain ⟨f, hm⟩ := (C80_total (Cfg.concrete .full) _ _ _ _ h2 (.inl f2)).mpr fun h => n2 h.2
    have := C80_reads (Cfg.concrete .full) _ [] f hm stops_nil
    rw [r2] at this
    cases this
    exact hm

/-- An encoded word as a keyword, followed by a comment on the next line: only the word is read, and so the message is
refused. -/
example : CutL (Cfg.concrete .full) (b! "Keywords") (b! " (c)\r\n") (b! " =?utf-8?q?a?=") (.keywords [[b! "a"]]) ∧
    Email.parse (Cfg.concrete .full)
      (b! "Subject: s\r\n" ++ (b! "Keywords: =?utf-8?q?a?=\r\n (c)\r\n" ++ b! "From: a@b\r\nDate: 21 Nov 1997 10:01:22 -0600\r\n\r\n")) =
      .err (.explicit "TAG ERROR: Headers must be followed by a CRLF sequence.") := by
  have h1 := folded_line (b! "Keywords") (b! "=?utf-8?q?a?=") (b! "(c)") (by decide +kernel)
  have f1 : Fits (Cfg.concrete .full) (b! " " ++ (b! "=?utf-8?q?a?=" ++ (CRLF ++ b! " " ++ b! "(c)"))) :=
    ⟨by decide +kernel, fun _ => by decide +kernel⟩
  have hv : CutL (Cfg.concrete .full) (b! "Keywords") (b! " (c)\r\n") (b! " =?utf-8?q?a?=") (.keywords [[b! "a"]]) :=
    (C80_cut (Cfg.concrete .full) _ _ _ _ [] (b! " =?utf-8?q?a?=") (b! "(c)\r\n") 32 _ h1 f1 rfl stops_nil).mp
      (lineWords_keywords (by decide +kernel))
  refine ⟨hv, ?_⟩
  obtain ⟨f, hs⟩ := text_means (Cfg.concrete .full) (exact_line (b! "Subject") (b! " s") (by decide +kernel)) (.inl (by decide +kernel))
  exact C80_rejected (Cfg.concrete .full) _ _ _ _ _ _ _ (.cons hs .nil) h1 f1
    ⟨_, 32, b! "(c)\r\n", _, rfl, by decide, hv⟩ (stops_cons.mpr (by decide)) fun _ => by unfold NoTraceName; decide +kernel

/-- A message with a folded line is accepted, and so all of its lines mean something. -/
example : ∃ fs, LinesL (MeansLine (Cfg.concrete .full))
      (b! "From: a@b\r\nContent-Type: a/b;c=\"d\"\r\n x\r\nDate: 21 Nov 1997 10:01:22 -0600\r\n") fs ∧ NoDuplicate fs ∧
    ∀ name, ¬ Missing (Cfg.concrete .full) fs name := by
  have hc : (Cfg.concrete .full).feat.compiles := ⟨fun _ => rfl, fun _ => rfl⟩
  have h1 : LineWithin (Cfg.concrete .full) (b! "From: a@b\r\n") :=
    ⟨b! "From", b! " a@b", b! " a@b", exact_line _ _ (by decide +kernel), .inl ⟨by decide +kernel, fun _ => by decide +kernel⟩⟩
  have h2 : LineWithin (Cfg.concrete .full) (b! "Content-Type: a/b;c=\"d\"\r\n x\r\n") :=
    ⟨b! "Content-Type", _, _, folded_line (b! "Content-Type") (b! "a/b;c=\"d\"") (b! "x") (by decide +kernel),
      .inl ⟨by decide +kernel, fun _ => by decide +kernel⟩⟩
  have h3 : LineWithin (Cfg.concrete .full) (b! "Date: 21 Nov 1997 10:01:22 -0600\r\n") :=
    ⟨b! "Date", b! " 21 Nov 1997 10:01:22 -0600", b! " 21 Nov 1997 10:01:22 -0600", exact_line _ _ (by decide +kernel),
      .inl ⟨by decide +kernel, fun _ => by decide +kernel⟩⟩
  have hok : isOk (Email.parse (Cfg.concrete .full)
      (b! "From: a@b\r\nContent-Type: a/b;c=\"d\"\r\n x\r\nDate: 21 Nov 1997 10:01:22 -0600\r\n" ++ (CRLF ++ b! "body"))) = true := by
    decide +kernel
  obtain ⟨fs, h, -, h4, h5, -⟩ := (C80_accepted (Cfg.concrete .full) hc
    (b! "From: a@b\r\nContent-Type: a/b;c=\"d\"\r\n x\r\nDate: 21 Nov 1997 10:01:22 -0600\r\n") (b! "body")
    (.cons h1 (.cons h2 (.cons h3 .nil))) fun _ => by unfold NoTraceName; decide +kernel).mp (isOk_iff.mp hok)
  exact ⟨fs, h, h4, h5⟩

end EmailParser
