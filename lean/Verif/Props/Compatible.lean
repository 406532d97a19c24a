import Verif.Proofs.Compatible
import Verif.Props.ExactCut
import Verif.Props.ExactTrace
/-
C94: the feature `compatibility-fixes` only adds to what is read.
-/
namespace EmailParser
open Spec

variable (c : Cfg)

theorem identifier_fixes {l : Bytes} {name : Bytes} {f : Field} (hn : name ∈ identifierHeaders)
    (ho : headerOf f = some name) (h : FieldG c l f) : FieldG (withFixes c) l f := by
  cases f with
  | date v => exact h
  | messageId v => exact ⟨h.1, headerLine_mono (fun _ _ h => messageId_fixes h) h.2⟩
  | inReplyTo v => exact ⟨h.1, headerLine_mono (fun _ _ h => messageIds_fixes h) h.2⟩
  | references v => exact ⟨h.1, headerLine_mono (fun _ _ h => messageIds_fixes h) h.2⟩
  | contentId v => exact ⟨h.1, headerLine_mono (fun _ _ h => messageId_fixes h) h.2⟩
  | trace => cases ho
  | unknown => cases ho
  | _ => rw [← Option.some.inj ho] at hn; exact absurd hn (by decide)

theorem recognized_mime (hm : c.feat.mime = false) {n : Bytes} (hr : Recognized c.feat n) :
    n ∉ mimeHeaders ∧ n ≠ b! "content-disposition" ∧ n ≠ b! "content-id" ∧ n ≠ b! "content-description" := by
  simp only [Recognized, hm, Bool.false_eq_true, false_and, or_false] at hr
  rcases hr with ⟨-, rfl⟩ | ⟨-, rfl⟩ | ⟨-, rfl⟩ | ⟨-, rfl⟩ | ⟨-, rfl⟩ | ⟨-, rfl⟩ | ⟨-, rfl⟩ | ⟨-, rfl⟩ | ⟨-, rfl⟩ |
    ⟨-, rfl⟩ | ⟨-, rfl⟩ | ⟨-, rfl⟩ | ⟨-, rfl⟩ <;> decide

/-- What a line stands for, it also stands for with the feature. -/
theorem typed_fixes (hm : c.feat.mime = false) {name x w l : Bytes} {f : Field} (h : HeaderText name x w l) (hf : Fits c w)
    (hv : TypedL c name CRLF w f) : TypedL (withFixes c) name CRLF w f := by
  obtain ⟨ho, hr, ⟨hn, hv, hs⟩ | ⟨hn, hv, hs⟩ | ⟨hn, hv⟩ | ⟨v, rfl, hv⟩⟩ := hv
  · have hi := line_calm (c := withFixes c) ⟨hf.depth, hf.stars⟩ h.folding
    have h0 := phraseField_fixes (name := name) (r := []) hm hr ho (by simpa using hi) hs stops_nil (by simpa using hv)
    refine (C79_line (withFixes c) name x w l [] f h ⟨hf.depth, hf.stars⟩ ?_ ho stops_nil).mp ?_
    · revert hn
      generalize name.map asciiLower = n
      intro hn
      simp only [phraseHeaders, List.mem_cons, List.not_mem_nil, or_false] at hn
      rcases hn with rfl | rfl | rfl | rfl | rfl | rfl | rfl <;> decide
    · rw [h.text]
      simpa using h0
  · exact ⟨ho, hr, .inr (.inl ⟨hn, identifier_fixes c hn ho hv, hs⟩)⟩
  · exact absurd hn (recognized_mime c hm hr).1
  · exact absurd (Option.some.inj ho).symm (recognized_mime c hm hr).2.1

/-- Headers without addresses and identifiers are the same with the feature. -/
theorem typed_dotted (hm : c.feat.mime = false) {name w : Bytes} {f : Field} (hv : TypedL (withFixes c) name CRLF w f)
    (hx : ∀ f, ¬ TypedL c name CRLF w f) : name.map asciiLower ∈ dottedHeaders := by
  obtain ⟨ho, hr, hv⟩ := hv
  have hr : Recognized c.feat (name.map asciiLower) := hr
  have hx := hx f
  rcases hv with ⟨hn, hv, hs⟩ | ⟨hn, hv, hs⟩ | ⟨hn, hv⟩ | ⟨v, rfl, hv⟩
  · cases f with
    | keywords v => exact absurd ⟨ho, hr, .inl ⟨hn, (keywordsE_fixes hm).mp hv, hs⟩⟩ hx
    | trace => cases ho
    | unknown => cases ho
    | _ => rw [← Option.some.inj ho] at hn ⊢; revert hn; decide
  · cases f with
    | date v => exact absurd ⟨ho, hr, .inr (.inl ⟨hn, hv, hs⟩)⟩ hx
    | contentId v => exact absurd (Option.some.inj ho).symm (recognized_mime c hm hr).2.2.1
    | trace => cases ho
    | unknown => cases ho
    | _ => rw [← Option.some.inj ho] at hn ⊢; revert hn; decide
  · exact absurd hn (recognized_mime c hm hr).1
  · exact absurd (Option.some.inj ho).symm (recognized_mime c hm hr).2.1

theorem not_cut (hm : c.feat.mime = false) (name l : Bytes) : ¬ IsCut c name l := by
  rintro ⟨w, b, r, f, -, -, hc, -⟩
  exact absurd hc.1 (by simp [hm])

theorem means_gains (hc : c.feat.compiles) (hm : c.feat.mime = false) {l : Bytes} (h : LineWithin c l) :
    ∃ f f', MeansLine c l f ∧ MeansLine (withFixes c) l f' ∧ Gains f f' := by
  have hu : c.feat.unrecognizedHeaders = false := by
    cases hu : c.feat.unrecognizedHeaders with
    | false => rfl
    | true => rw [hc.2 hu] at hm; cases hm
  have hm' : (withFixes c).feat.mime = false := hm
  have hu' : (withFixes c).feat.unrecognizedHeaders = false := hu
  obtain ⟨name, x, w, h, hf⟩ := h
  obtain ⟨v, hv⟩ := textL_exists c false h.folding
  have hvu : TextL c c.feat.unrecognizedHeaders w v := by rw [hu]; exact hv
  have hvu' : TextL (withFixes c) (withFixes c).feat.unrecognizedHeaders w v := by rw [hu']; exact hv
  have hvm : TextL c c.feat.mime w v := by rw [hm]; exact hv
  have hvm' : TextL (withFixes c) (withFixes c).feat.mime w v := by rw [hm']; exact hv
  by_cases hr : Recognized c.feat (name.map asciiLower)
  · by_cases hn : name.map asciiLower ∈ textHeaders
    · have hn' := hn
      simp only [textHeaders, List.mem_cons, List.not_mem_nil, or_false] at hn'
      rcases hn' with e | e | e
      · exact ⟨.subject v, .subject v, .text h hn hr (by rw [e]; rfl) hvm, .text h hn hr (by rw [e]; rfl) hvm', .inl rfl⟩
      · exact ⟨.comments v, .comments v, .text h hn hr (by rw [e]; rfl) hvm, .text h hn hr (by rw [e]; rfl) hvm', .inl rfl⟩
      · exact absurd e (recognized_mime c hm hr).2.2.2
    · have hf := hf.resolve_right fun h => h.elim hn fun h => h hr
      by_cases hg : ∃ f, TypedL c name CRLF w f
      · obtain ⟨f, hg⟩ := hg
        exact ⟨f, f, .typed h hf hg, .typed h ⟨hf.depth, hf.stars⟩ (typed_fixes c hm h hf hg), .inl rfl⟩
      · have hg : ∀ f, ¬ TypedL c name CRLF w f := fun f h => hg ⟨f, h⟩
        have h1 : MeansLine c l (.unknown name v) := .untyped h hf hr hn hg (not_cut c hm name l) hvu
        by_cases hg' : ∃ f, TypedL (withFixes c) name CRLF w f
        · obtain ⟨f', hg'⟩ := hg'
          exact ⟨_, f', h1, .typed h ⟨hf.depth, hf.stars⟩ hg', .inr ⟨name, v, rfl, hg'.1, typed_dotted c hm hg' hg⟩⟩
        · exact ⟨_, _, h1, .untyped h ⟨hf.depth, hf.stars⟩ hr hn (fun f h => hg' ⟨f, h⟩)
            (not_cut (withFixes c) hm' name l) hvu', .inl rfl⟩
  · exact ⟨_, _, .unknown h hr hvu, .unknown h hr hvu', .inl rfl⟩

theorem lines_gain (hc : c.feat.compiles) (hm : c.feat.mime = false) {s : Bytes} (h : LinesWithin c s) :
    ∃ fs fs', LinesL (MeansLine c) s fs ∧ LinesL (MeansLine (withFixes c)) s fs' ∧ AllGain fs fs' := by
  induction h with
  | nil => exact ⟨[], [], .nil, .nil, .nil⟩
  | cons hl _ ih =>
    obtain ⟨fs, fs', h1, h2, h3⟩ := ih
    obtain ⟨f, f', h4, h5, h6⟩ := means_gains c hc hm hl
    exact ⟨_, _, .cons h4 h1, .cons h5 h2, .cons h6 h3⟩

theorem missing_fixes {fs fs' : List Field} (h : AllGain fs fs') {name : String} (hx : Missing (withFixes c) fs' name) :
    Missing c fs name := by
  have key : ∀ {α : Type} (g : Field → Option α), (∀ n v, g (.unknown n v) = none) → (∀ f ∈ fs', g f = none) →
      ∀ f ∈ fs, g f = none := by
    intro α g hu hg f hf
    by_cases hk : ∃ n v, f = .unknown n v
    · obtain ⟨n, v, rfl⟩ := hk
      exact hu n v
    · exact hg f (allGain_mem h hf fun n v e => hk ⟨n, v, e⟩)
  rcases hx with ⟨rfl, h1, h2⟩ | ⟨rfl, h1, h2⟩ | ⟨rfl, h1, h2, h3⟩
  · exact .inl ⟨rfl, h1, key _ (fun _ _ => rfl) h2⟩
  · exact .inr (.inl ⟨rfl, h1, key _ (fun _ _ => rfl) h2⟩)
  · refine .inr (.inr ⟨rfl, h1, key _ (fun _ _ => rfl) h2, fun f hf a ha => ?_⟩)
    refine h3 f (allGain_mem h hf fun n v e => ?_) a ha
    subst e
    cases ha

theorem isEmail_fixes {fs : List Field} {content : Option Bytes} {e : Email} (h : IsEmail c fs content e) :
    IsEmail (withFixes c) fs content e :=
  ⟨h.from, h.date, h.sender, h.subject, h.to, h.cc, h.bcc, h.messageId, h.inReplyTo, h.references, h.replyTo, h.comments,
    h.keywords, h.trace, h.unknownFields, h.body, h.noEntity, h.entity⟩

theorem once_of {α : Type} {g : Field → Option α} {n : String} {fs fs' : List Field} (h : AllGain fs fs') (hn : NoDuplicate fs')
    (hg : ∀ f v, g f = some v → onceName f = some n) {x x' : Option α} (hx : x = fs.findSome? g)
    (hx' : x' = fs'.findSome? g) (v : α) (hv : x = some v) : x' = some v := by
  rw [hx']
  exact allGain_once h hn hg (by rw [← hx, hv])

theorem keeps_members (hm : c.feat.mime = false) {fs fs' : List Field} {content : Option Bytes} {e e' : Email}
    (h : AllGain fs fs') (hn : NoDuplicate fs') (he : IsEmail c fs content e) (he' : IsEmail (withFixes c) fs' content e')
    (hc : c.feat.compiles) : KeepsMembers e e' := by
  have hd : ∀ f n, headerOf f = some n → n ∈ dottedHeaders → dateOf f = none ∧ subjectOf f = none ∧ commentsOf f = none ∧
      keywordsOf f = [] ∧ traceOf f = none := by
    intro f n h1 h2
    cases f with
    | date => cases h1; exact absurd h2 (by decide)
    | subject => cases h1; exact absurd h2 (by decide)
    | comments => cases h1; exact absurd h2 (by decide)
    | keywords => cases h1; exact absurd h2 (by decide)
    | trace => cases h1
    | _ => exact ⟨rfl, rfl, rfl, rfl, rfl⟩
  have hfrom : ∀ v, fs.findSome? fromOf = some v → fs'.findSome? fromOf = some v := fun v => allGain_once h hn
    (n := "From") fun f v hv => by cases f <;> first | rfl | cases hv
  have hsender : ∀ v, fs.findSome? senderOf = some v → fs'.findSome? senderOf = some v := fun v => allGain_once h hn
    (n := "Sender") fun f v hv => by cases f <;> first | rfl | cases hv
  refine
    { «from» := fun v hv => ?_
      sender := fun v hv => ?_
      replyTo := once_of h hn (n := "Reply-To") (fun f v hv => by cases f <;> first | rfl | cases hv) he.replyTo he'.replyTo
      to := once_of h hn (n := "To") (fun f v hv => by cases f <;> first | rfl | cases hv) he.to he'.to
      cc := once_of h hn (n := "Cc") (fun f v hv => by cases f <;> first | rfl | cases hv) he.cc he'.cc
      bcc := once_of h hn (n := "Bcc") (fun f v hv => by cases f <;> first | rfl | cases hv) he.bcc he'.bcc
      messageId := once_of h hn (n := "Message-ID") (fun f v hv => by cases f <;> first | rfl | cases hv)
        he.messageId he'.messageId
      inReplyTo := once_of h hn (n := "In-Reply-To") (fun f v hv => by cases f <;> first | rfl | cases hv)
        he.inReplyTo he'.inReplyTo
      references := once_of h hn (n := "References") (fun f v hv => by cases f <;> first | rfl | cases hv)
        he.references he'.references
      date := ?_
      subject := ?_
      comments := ?_
      keywords := ?_
      trace := ?_
      body := by rw [he'.body, he.body]; rfl
      mimeEntity := by rw [he'.noEntity hm, he.noEntity hm]
      fewer := by rw [he'.unknownFields, he.unknownFields]; exact allGain_unknown h
      others := by rw [he'.unknownFields, he.unknownFields]; exact allGain_others h }
  · have h1 := he.from
    have h2 : e'.from = if c.feat.from then fs'.findSome? fromOf else none := he'.from
    rw [h1] at hv
    rw [h2]
    split at hv
    · rename_i hff
      rw [if_pos hff]
      exact hfrom v hv
    · cases hv
  · have h1 := he.sender
    have h2 : e'.sender = if c.feat.sender then
        (fs'.findSome? senderOf).or ((fs'.findSome? fromOf).bind List.head?) else none := he'.sender
    have h3 := he.from
    rw [h1] at hv
    split at hv
    · rename_i hs
      rw [if_pos hs] at h2
      rw [if_pos (hc.1 hs)] at h3
      cases hso : fs.findSome? senderOf with
      | some u =>
        rw [hso] at hv
        cases hv
        left
        rw [h2, hsender _ hso]
        rfl
      | none =>
        rw [hso] at hv
        right
        have hv : (fs.findSome? fromOf).bind List.head? = some v := hv
        refine ⟨by rw [h3, hv], ?_⟩
        obtain ⟨a, ha, hva⟩ := Option.bind_eq_some_iff.mp hv
        rw [h2, hfrom a ha]
        cases fs'.findSome? senderOf with
        | some u => simp
        | none => simp [hva]
    · cases hv
  · have h2 : e'.date = if c.feat.date then fs'.findSome? dateOf else none := he'.date
    rw [h2, he.date, allGain_find h (gains_other (fun _ _ => rfl) fun f n h1 h2 => (hd f n h1 h2).1)]
  · rw [he'.subject, he.subject, allGain_find h (gains_other (fun _ _ => rfl) fun f n h1 h2 => (hd f n h1 h2).2.1)]
  · rw [he'.comments, he.comments,
      allGain_filterMap h (gains_other (fun _ _ => rfl) fun f n h1 h2 => (hd f n h1 h2).2.2.1)]
  · rw [he'.keywords, he.keywords,
      allGain_flatMap h (gains_other (fun _ _ => rfl) fun f n h1 h2 => (hd f n h1 h2).2.2.2.1)]
  · rw [he'.trace, he.trace,
      allGain_filterMap h (gains_other (fun _ _ => rfl) fun f n h1 h2 => (hd f n h1 h2).2.2.2.2)]

/-! ### The claims -/

/-- Without the `mime` feature: every header line within the limits of the program is read as one field, with the feature
`compatibility-fixes` and without it, and the two are the same, or the line has the name of a header with addresses or
identifiers and is understood only with the feature. -/
theorem C94_line (hc : c.feat.compiles) (hm : c.feat.mime = false) (l t : Bytes) (h : LineWithin c l) (ht : Stops wsp t) :
    ∃ f f', field c (l ++ t) = .ok (t, f) ∧ field (withFixes c) (l ++ t) = .ok (t, f') ∧ Gains f f' := by
  obtain ⟨f, f', h1, h2, h3⟩ := means_gains c hc hm h
  exact ⟨f, f', C80_reads c l t f h1 ht, C80_reads (withFixes c) l t f' h2 ht, h3⟩

/-- Whatever the other features: a line with a date or identifiers that is understood is understood in the same way with the
feature. -/
theorem C94_identifiers (name x w l t : Bytes) (f : Field) (h : HeaderText name x w l) (hf : Fits c w)
    (hn : name.map asciiLower ∈ identifierHeaders) (ho : headerOf f = some (name.map asciiLower)) (ht : Stops wsp t)
    (hx : field c (l ++ t) = .ok (t, f)) : field (withFixes c) (l ++ t) = .ok (t, f) := by
  have key : ∀ n ∈ identifierHeaders, n ∉ textHeaders ∧ n ∉ phraseHeaders ∧ n ∉ mimeHeaders ∧
      n ≠ b! "content-disposition" := by decide +kernel
  obtain ⟨k1, k2, k3, k4⟩ := key _ hn
  have hv := (C79_line c name x w l t f h hf k1 ho ht).mp hx
  refine typed_reads (withFixes c) h ⟨hf.depth, hf.stars⟩ ?_ ht
  obtain ⟨-, hr, ⟨hn', -⟩ | ⟨-, hv, hs⟩ | ⟨hn', -⟩ | ⟨v, rfl, -⟩⟩ := hv
  · exact absurd hn' k2
  · exact ⟨ho, hr, .inr (.inl ⟨hn, identifier_fixes c hn ho hv, hs⟩)⟩
  · exact absurd hn' k3
  · exact absurd (Option.some.inj ho).symm k4

/-- Whatever the other features: a `Return-Path` line that is read is read in the same way with the feature, and a `Received`
line has the same date and the same characters and addresses in its tokens. -/
theorem C94_trace_lines (name x w l t : Bytes) (h : HeaderText name x w l) (hf : Fits c w) (ht : Stops wsp t) :
    (∀ r v, returnPath c (l ++ t) = .ok (r, v) → returnPath (withFixes c) (l ++ t) = .ok (r, v)) ∧
    (∀ r v, received c (l ++ t) = .ok (r, v) → ∃ v', received (withFixes c) (l ++ t) = .ok (r, v') ∧
      tokenItems v'.1 = tokenItems v.1 ∧ v'.2 = v.2) := by
  have hf' : Fits (withFixes c) w := ⟨hf.depth, hf.stars⟩
  constructor
  · intro r v hv
    obtain ⟨rfl, h1, h2⟩ := ((C77_returnPath c name x w l t h hf ht).1 r v).mp hv
    refine ((C77_returnPath (withFixes c) name x w l r h hf' ht).1 r v).mpr ⟨rfl, headerLine_mono (fun _ _ h => ?_) h1, h2⟩
    exact gram_or_mono (fun _ _ ⟨a, e, h⟩ => ⟨a, e, angleAddr_fixes h⟩) (fun _ _ h => h) h
  · intro r v hv
    obtain ⟨rfl, h1, h2⟩ := (C77_received c name x w l t h hf ht).1 r v hv
    refine (C77_received (withFixes c) name x w l r h hf' ht).2.1 v (headerLine_mono (fun _ _ h => ?_) h1) h2
    unfold TokensDate at h ⊢
    refine gram_bind_mono (fun _ _ h => gram_star_mono (fun _ v h => ?_) h) (fun _ _ _ h => h) h
    cases v with
    | word => exact h
    | addr a => exact angleAddr_fixes h
    | domain d => exact domain_fixes h

/-- Without the `mime` feature: a message that is accepted is accepted with the feature too and the e-mail has everything that
it had, unless a header that may occur once is now understood twice. -/
theorem C94_message (hc : c.feat.compiles) (hm : c.feat.mime = false) (s tail : Bytes) (content : Option Bytes) (e : Email)
    (hs : LinesWithin c s) (hb : BodyL c tail content) (hn : c.feat.trace = true → NoTraceName (s ++ tail))
    (he : Email.parse c (s ++ tail) = .ok e) :
    (∃ e', Email.parse (withFixes c) (s ++ tail) = .ok e' ∧ KeepsMembers e e') ∨
    ∃ name, Email.parse (withFixes c) (s ++ tail) = .err (.duplicateHeader name) := by
  obtain ⟨fs, fs', h1, h2, h3⟩ := lines_gain c hc hm hs
  have hb' : BodyL (withFixes c) tail content := by
    cases hb with
    | none => exact .none
    | some h => exact .some h
  have r1 := C80_message c hc s tail fs content h1 hb hn
  have r2 := C80_message (withFixes c) hc s tail fs' content h2 hb' hn
  rw [he] at r1
  cases r1 with
  | email hnd hmi hie =>
    generalize Email.parse (withFixes c) (s ++ tail) = x at r2
    cases r2 with
    | duplicate => exact .inr ⟨_, rfl⟩
    | missing _ hx => exact absurd (missing_fixes c h3 hx) (hmi _)
    | undecodable _ _ hx => exact (fixes_mime hm hx).elim
    | email hnd' _ hie' => exact .inl ⟨_, rfl, keeps_members c hm h3 hnd' hie hie' hc⟩

/-- A message without unknown fields that have the name of a header with addresses or identifiers gives the same e-mail. -/
theorem C94_same (hc : c.feat.compiles) (hm : c.feat.mime = false) (s tail : Bytes) (content : Option Bytes) (e : Email)
    (hs : LinesWithin c s) (hb : BodyL c tail content) (hn : c.feat.trace = true → NoTraceName (s ++ tail))
    (he : Email.parse c (s ++ tail) = .ok e) (hu : ∀ u ∈ e.unknownFields, u.1.map asciiLower ∉ dottedHeaders) :
    Email.parse (withFixes c) (s ++ tail) = .ok e := by
  obtain ⟨fs, fs', h1, h2, h3⟩ := lines_gain c hc hm hs
  have hb' : BodyL (withFixes c) tail content := by
    cases hb with
    | none => exact .none
    | some h => exact .some h
  have r1 := C80_message c hc s tail fs content h1 hb hn
  have r2 := C80_message (withFixes c) hc s tail fs' content h2 hb' hn
  rw [he] at r1
  cases r1 with
  | email hnd hmi hie =>
    rw [hie.unknownFields] at hu
    obtain rfl := allGain_same h3 hu
    rw [← (emailFrom_iff (c := withFixes c) hc fs' content _).mpr r2]
    refine (emailFrom_iff (c := withFixes c) hc fs' content _).mpr ?_
    exact .email hnd (fun name hx => hmi name hx) (isEmail_fixes c hie)

/-! ### Examples -/

private def outcome {α : Type} : Outcome α → Option α
  | .ok v => some v
  | _ => none

private def read (f : Features) (i : Bytes) : Option (Option (List Mailbox) × Option Mailbox × List (Bytes × Bytes)) :=
  (outcome (Email.parse (withFixes (Cfg.concrete f)) i)).map fun e => (e.from, e.sender, e.unknownFields)

private def readStrict (f : Features) (i : Bytes) : Option (Option (List Mailbox) × Option Mailbox × List (Bytes × Bytes)) :=
  (outcome (Email.parse (Cfg.concrete f) i)).map fun e => (e.from, e.sender, e.unknownFields)

private def dots : Bytes := b! "From: a@b\r\nSender: a..c.@d\r\nDate: 1 Jan 2020 00:00:00 +0000\r\nX: y\r\n\r\n"

/-- The author is the sender until the sender is understood. -/
example : readStrict .default dots =
    some (some [⟨none, b! "a", b! "b"⟩], some ⟨none, b! "a", b! "b"⟩, [(b! "Sender", b! " a..c.@d"), (b! "X", b! " y")]) := by
  decide +kernel

example : read .default dots =
    some (some [⟨none, b! "a", b! "b"⟩], some ⟨none, b! "a..c.", b! "d"⟩, [(b! "X", b! " y")]) := by
  decide +kernel

private def twice : Bytes := b! "From: a@b\r\nFrom: a.@c\r\nDate: 1 Jan 2020 00:00:00 +0000\r\n\r\n"

/-- A header that is understood twice. -/
example : (readStrict .default twice).isSome = true ∧ read .default twice = none := by decide +kernel

/-- Every line of printable characters without parentheses is within the limits of the program. -/
theorem printable_within {name w : Bytes} (h : name ≠ [] ∧ (∀ b ∈ name, ftext b = true) ∧ (∀ b ∈ w, vchar b = true) ∧
    40 ∉ w ∧ 42 ∉ w) : LineWithin c (name ++ b! ":" ++ w ++ CRLF) := by
  obtain ⟨h1, h2, h3, h4, h5⟩ := h
  refine ⟨name, w, w, ⟨rfl, h1, h2, ?_⟩, .inl ⟨?_, fun _ => ?_⟩⟩
  · clear h4 h5
    induction w with
    | nil => exact .nil
    | cons b w ih => exact .char (h3 b List.mem_cons_self) (ih fun b hb => h3 b (List.mem_cons_of_mem _ hb))
  · rw [List.count_eq_zero.mpr h4]
    exact Nat.zero_le _
  · rw [List.count_eq_zero.mpr h5]
    decide

example : LineWithin (Cfg.concrete .default) (b! "Sender:a..c.@d\r\n") :=
  printable_within _ (name := b! "Sender") (w := b! "a..c.@d") (by decide +kernel)

private def route : Bytes := b! "Received: from a..b by <c.@d>; 1 Jan 2020 00:00:00 +0000\r\n"

example : (outcome (received (Cfg.concrete .default) route)).isNone = true ∧
    (outcome (received (withFixes (Cfg.concrete .default)) route)).map (fun x => x.2.1) =
      some [.word (b! "from"), .domain (b! "a..b"), .word (b! "by"), .addr ⟨b! "c.", b! "d"⟩] := by
  constructor <;> decide +kernel

private def encoded : Bytes := b! "From: =?utf-8?q?(?=<c..d@e>)@f\r\n"

private def fieldOf (c : Cfg) (i : Bytes) : Option (Option (List Mailbox) × Option (Bytes × Bytes)) :=
  (outcome (field c i)).map fun (_, f) => (Spec.fromOf f, Spec.unknownOf f)

/-- With encoded words the feature can also make a line be not understood: what was an atom with a comment becomes an encoded
word before an address. -/
theorem C94_mime_counterexample :
    fieldOf (Cfg.concrete .full) encoded = some (some [⟨none, b! "=?utf-8?q?", b! "f"⟩], none) ∧
    fieldOf (withFixes (Cfg.concrete .full)) encoded = some (none, some (b! "From", b! " (<c..d@e>)@f")) := by
  constructor <;> decide +kernel

end EmailParser
