import Verif.Proofs.ExactTrace
import Verif.Props.ExactMime
/-
C77: trace header lines are read as the grammar says, the header lines of a message are divided into trace blocks and
other lines in one way, and this decides which messages with trace headers are accepted.
-/
namespace EmailParser
open Spec

variable (c : Cfg)

/-! ### Lines -/

/-- A `Received` line is read exactly when it is in the grammar and does not end with white space; the date is that of
the grammar, and so are the characters of the words and domains and the addresses. -/
theorem C77_received (name x w l t : Bytes) (h : HeaderText name x w l) (hf : Fits c w) (ht : Stops wsp t) :
    (∀ r v, received c (l ++ t) = .ok (r, v) →
      r = t ∧ HeaderLine (b! "Received:") (TokensDate c.feat.compatibilityFixes) l v ∧ Solid w) ∧
    (∀ v, HeaderLine (b! "Received:") (TokensDate c.feat.compatibilityFixes) l v → Solid w →
      ∃ v', received c (l ++ t) = .ok (t, v') ∧ tokenItems v'.1 = tokenItems v.1 ∧ v'.2 = v.2) ∧
    ((∀ v, ¬ (HeaderLine (b! "Received:") (TokensDate c.feat.compatibilityFixes) l v ∧ Solid w)) →
      ∃ e, received c (l ++ t) = .err e) := by
  have he := received_line_exact (c := c) h fun _ => hf
  refine ⟨fun r v hv => ?_, fun v hv hs => ?_, fun hno => he.fail (fun v hv => ?_) t ht⟩
  · obtain ⟨rfl, hs⟩ := solid_line received_trace h ht hv
    exact ⟨rfl, he.sound v ((he.read _ v ht).mp hv), hs⟩
  · have hnm := headerLine_name (nm := b! "Received") h hv (by decide)
    have hw := header_value (nm := b! "Received") hv h.text hnm
    obtain ⟨v', h1, h2⟩ := received_exact hw hf.depth (folding_noWhiteLine h.folding) hs
    exact ⟨v', (he.read t v' ht).mpr ⟨name, w, h.text, by rw [hnm]; rfl, h1⟩, h2⟩
  · obtain ⟨v', hg⟩ := he.grammar.mp ⟨v, hv⟩
    exact hno v' hg

/-- Any two readings of a `Received` line have the same date, and the same tokens up to the divisions between them. -/
theorem C77_unambiguous (name x w l : Bytes) (v v' : List ReceivedToken × DateTime) (h : HeaderText name x w l)
    (hf : Fits c w) (hs : Solid w) (hv : HeaderLine (b! "Received:") (TokensDate c.feat.compatibilityFixes) l v)
    (hv' : HeaderLine (b! "Received:") (TokensDate c.feat.compatibilityFixes) l v') :
    tokenItems v.1 = tokenItems v'.1 ∧ v.2 = v'.2 := by
  obtain ⟨-, h2, -⟩ := C77_received c name x w l [] h hf stops_nil
  obtain ⟨u, h3, h4, h5⟩ := h2 v hv hs
  obtain ⟨u', h6, h7, h8⟩ := h2 v' hv' hs
  rw [h3] at h6
  cases h6
  exact ⟨h4.symm.trans h7, h5.symm.trans h8⟩

/-- The alternative `addr-spec` of RFC 5322 3.6.7 is never taken: what is read as a token is a word, an address in angle
brackets or a domain. -/
theorem C77_token (i r : Bytes) (v : ReceivedToken) (h : receivedToken c i = .ok (r, v)) :
    ∃ w, i = w ++ r ∧ TokenG c.feat.compatibilityFixes w v := by
  have hs := receivedToken_tokens (c := c) i
  rw [h] at hs
  exact hs

/-- A `Return-Path` line is read exactly when it is in the grammar and does not end with white space, with the value of
the grammar. -/
theorem C77_returnPath (name x w l t : Bytes) (h : HeaderText name x w l) (hf : Fits c w) (ht : Stops wsp t) :
    (∀ r v, returnPath c (l ++ t) = .ok (r, v) ↔
      r = t ∧ HeaderLine (b! "Return-Path:") (Path c.feat.compatibilityFixes) l v ∧ Solid w) ∧
    ((∀ v, ¬ (HeaderLine (b! "Return-Path:") (Path c.feat.compatibilityFixes) l v ∧ Solid w)) →
      ∃ e, returnPath c (l ++ t) = .err e) := by
  have he := returnPath_exact (c := c) h fun _ => hf
  refine ⟨fun r v => ⟨fun hv => ?_, ?_⟩, fun hno => he.fail (fun v hv => ?_) t ht⟩
  · obtain ⟨rfl, hs⟩ := solid_line returnPath_trace h ht hv
    exact ⟨rfl, he.sound v ((he.read _ v ht).mp hv), hs⟩
  · rintro ⟨rfl, hv, hs⟩
    have hnm := headerLine_name (nm := b! "Return-Path") h hv (by decide)
    have hw := header_value (nm := b! "Return-Path") hv h.text hnm
    exact (he.read _ v ht).mpr ⟨name, w, h.text, by rw [hnm]; rfl, path_exact hw hf.depth, hs⟩
  · obtain ⟨v', hg⟩ := he.grammar.mp ⟨v, hv⟩
    exact hno v' hg

/-- A resent line is read exactly when it is in the grammar and does not end with white space, as the field of the grammar,
up to the divisions of display names into words. -/
theorem C77_resent (name x w l t : Bytes) (h : HeaderText name x w l) (hf : FitsTrace c name w) (ht : Stops wsp t) :
    (∀ r f, matchParsers (l ++ t) (traceFieldParsers c) = .ok (r, f) → r = t ∧ ResentG c l f ∧ Solid w) ∧
    (∀ f, ResentG c l f → Solid w → ∃ f', matchParsers (l ++ t) (traceFieldParsers c) = .ok (t, f') ∧
      joinWords (resentField f') = joinWords (resentField f)) ∧
    ((∀ f, ¬ (ResentG c l f ∧ Solid w)) → ∃ e, matchParsers (l ++ t) (traceFieldParsers c) = .err e) := by
  have he := resent_exact (c := c) h fun _ => hf
  refine ⟨fun r f hv => ?_, fun f hg hs => ?_, fun hno => he.fail (fun v hv => ?_) t ht⟩
  · obtain ⟨rfl, hs⟩ := solid_line (p := fun i => matchParsers i (traceFieldParsers c)) traceFields_trace h ht hv
    exact ⟨rfl, he.sound f ((he.read _ f ht).mp hv), hs⟩
  · obtain ⟨nm, -, h2, -⟩ := resent_name h hg
    obtain ⟨f', h3, -, h4⟩ := resentG_layout h hg ⟨hf.fits.depth, folding_noWhiteLine h.folding,
      fun hm => hf.words hm (by rw [h2]; exact List.prefix_append _ _)⟩ hs
    exact ⟨f', (he.read t f' ht).mpr h3, h4⟩
  · obtain ⟨v', hg⟩ := he.grammar.mp ⟨v, hv⟩
    exact hno v' hg

/-! ### Blocks -/

/-- Every list of header lines is divided into trace blocks and other lines in exactly one way. -/
theorem C77_division (ls : List Bytes) (hls : ∀ l ∈ ls, TraceText c l) :
    ∃ ts rest, Division c ls ts rest ∧ ∀ ts' rest', Division c ls ts' rest' → ts' = ts ∧ rest' = rest := by
  obtain ⟨ts, rest, h⟩ := division_exists c (ResentLineL c) ls
  exact ⟨ts, rest, h, fun ts' rest' h' => division_unique h' h (fun l h => (hls l h).within) fun l h => resent_reads (hls l h)⟩

theorem ended_of {tail : Bytes} (ht : tail = [] ∨ CRLF <+: tail) : Ended tail := by
  rcases ht with rfl | ⟨t, rfl⟩
  · exact .nil
  · exact .crlf _

/-- The trace blocks that are read from the lines are those of the division, and what is left is where it ends. -/
theorem C77_traces (htr : c.feat.trace = true) (ls rest : List Bytes) (ts : List Field) (tail : Bytes)
    (hls : ∀ l ∈ ls, TraceText c l) (ht : tail = [] ∨ CRLF <+: tail) (h : Division c ls ts rest) :
    traces c (ls.flatten ++ tail) = .ok (rest.flatten ++ tail, ts) := by
  unfold traces
  rw [if_pos htr]
  exact (division_many h (fun l h => (hls l h).within) (fun l h => resent_reads (hls l h)) (ended_of ht).quiet).1

theorem division_fields (hc : c.feat.compiles) (htr : c.feat.trace = true) {ls rest : List Bytes} {ts fs : List Field} {tail : Bytes}
    (hls : ∀ l ∈ ls, TraceText c l) (ht : tail = [] ∨ CRLF <+: tail) (h : Division c ls ts rest)
    (hr : LinesL (DenotesMime c) rest.flatten fs) :
    ∃ fs', fields c (ls.flatten ++ tail) = .ok (tail, ts ++ fs') ∧ fs'.map joinWords = fs.map joinWords := by
  obtain ⟨ls', fs', e, h1, h2⟩ := denotes_lines c (denotesMime_field c hc) hr
  refine ⟨fs', ?_, h2⟩
  unfold fields
  rw [C77_traces c htr ls rest ts tail hls ht h, ok_bind]
  dsimp only
  rw [e, C10_lines c ls' fs' tail h1 ht]
  rfl

/-- The result for a message with trace headers: that of the trace blocks of the division and of the fields that the
other lines denote. -/
theorem C77_message (hc : c.feat.compiles) (htr : c.feat.trace = true) (ls rest : List Bytes) (ts fs : List Field)
    (tail : Bytes) (content : Option Bytes) (hls : ∀ l ∈ ls, TraceText c l) (h : Division c ls ts rest)
    (hr : LinesL (DenotesMime c) rest.flatten fs) (hb : BodyL c tail content) :
    ∃ fs', fs'.map joinWords = fs.map joinWords ∧ EmailResult c (ts ++ fs') content (Email.parse c (ls.flatten ++ tail)) := by
  have ht : tail = [] ∨ CRLF <+: tail := by
    cases hb with
    | none => exact .inl rfl
    | some => exact .inr (List.prefix_append _ _)
  obtain ⟨fs', h1, h2⟩ := division_fields c hc htr hls ht h hr
  refine ⟨fs', h2, ?_⟩
  rw [← (emailFrom_iff hc (ts ++ fs') content _), email_parse_eq, parseMessage_eq, h1]
  show emailFrom c (ts ++ fs') content = ((afterHeaders c tail).bind _).bind _
  rw [afterHeaders_body c hb]
  rfl

/-- All fields of a division are trace blocks. -/
theorem division_blocks {c : Cfg} {R : Bytes → TraceField → Prop} {ls rest : List Bytes} {ts : List Field}
    (h : DivisionBy c R ls ts rest) :
    ∀ f ∈ ts, ∃ a b d, f = .trace a b d := by
  induction h with
  | stop => simp
  | block _ _ _ _ _ ih =>
    intro f hf
    rcases List.mem_cons.mp hf with rfl | hf
    · exact ⟨_, _, _, rfl⟩
    · exact ih f hf

/-- Trace blocks neither repeat nor supply a header. -/
theorem blocks_accepted {ts fs : List Field} {b : Bytes} (hts : ∀ f ∈ ts, ∃ a b d, f = .trace a b d) :
    ((c.feat.mime = false → Body b) ∧ NoDuplicate (ts ++ fs) ∧ (∀ name, ¬ Missing c (ts ++ fs) name) ∧
      (c.feat.mime = true → ∃ v, Decoded ((ts ++ fs).findSome? encodingOf) b v)) ↔
    (c.feat.mime = false → Body b) ∧ NoDuplicate fs ∧ (∀ name, ¬ Missing c fs name) ∧
      (c.feat.mime = true → ∃ v, Decoded (fs.findSome? encodingOf) b v) := by
  have key : ∀ {α : Type} (p : Field → Option α), (∀ a b d, p (.trace a b d) = none) → ∀ f ∈ ts, p f = none := by
    intro α p hp f hf
    obtain ⟨_, _, _, rfl⟩ := hts f hf
    exact hp _ _ _
  have e1 : NoDuplicate (ts ++ fs) ↔ NoDuplicate fs := by
    unfold NoDuplicate
    rw [List.filterMap_append, List.filterMap_eq_nil_iff.mpr (key onceName fun _ _ _ => rfl), List.nil_append]
  have e2 : ∀ name, Missing c (ts ++ fs) name ↔ Missing c fs name := by
    intro name
    have all : ∀ {P : Field → Prop}, (∀ f ∈ ts, P f) → ((∀ f ∈ ts ++ fs, P f) ↔ ∀ f ∈ fs, P f) := fun hp =>
      ⟨fun h f hf => h f (by simp [hf]), fun h f hf => (List.mem_append.mp hf).elim (hp f) (h f)⟩
    unfold Missing
    rw [all (key fromOf fun _ _ _ => rfl), all (key dateOf fun _ _ _ => rfl), all (key senderOf fun _ _ _ => rfl),
      all fun f hf authors ha => by rw [key fromOf (fun _ _ _ => rfl) f hf] at ha; cases ha]
  have e3 : (ts ++ fs).findSome? encodingOf = fs.findSome? encodingOf := by
    rw [List.findSome?_append, List.findSome?_eq_none_iff.mpr (key encodingOf fun _ _ _ => rfl), Option.none_or]
  simp only [e1, e2, e3]

/-- Which messages with trace headers are accepted: trace blocks neither repeat nor supply a header. -/
theorem C77_accepted (hc : c.feat.compiles) (htr : c.feat.trace = true) (ls rest : List Bytes) (ts fs : List Field) (b : Bytes)
    (hls : ∀ l ∈ ls, TraceText c l) (h : Division c ls ts rest) (hr : LinesL (DenotesMime c) rest.flatten fs) :
    (∃ e, Email.parse c (ls.flatten ++ (CRLF ++ b)) = .ok e) ↔
      (c.feat.mime = false → Body b) ∧ NoDuplicate fs ∧ (∀ name, ¬ Missing c fs name) ∧
        (c.feat.mime = true → ∃ v, Decoded (fs.findSome? encodingOf) b v) := by
  obtain ⟨fs', h1, h2⟩ := division_fields c hc htr hls (.inr (List.prefix_append CRLF b)) h hr
  have hx := fields_accepted c hc (fs := ts ++ fs) ⟨_, h1, by rw [List.map_append, List.map_append, h2]⟩
  rwa [blocks_accepted c (division_blocks h)] at hx

/-! ### Examples -/

/-- Whether the text is read to its end. -/
def readsAll {α : Type} (r : Res α) : Bool :=
  match r with
  | .ok (r, _) => r == []
  | _ => false

theorem readsAll_iff {α : Type} {r : Res α} : readsAll r = true ↔ ∃ v, r = .ok ([], v) := by
  cases r with
  | ok a =>
    obtain ⟨r, v⟩ := a
    simp [readsAll]
  | err e => simp [readsAll]
  | abort k => simp [readsAll]

theorem small_fits {w : Bytes} (h : w.count 40 ≤ 100 ∧ w.count 42 < 256) : Fits (Cfg.concrete .full) w := ⟨h.1, fun _ => h.2⟩

/-- A line with comments, a domain and an address is in the grammar. -/
example : ∃ v, HeaderLine (b! "Received:") (TokensDate false)
    (b! "RECEIVED: from (a) x.example by y for <a@b>; 21 Nov 1997 10:01:22 -0600 (x)\r\n") v := by
  obtain ⟨v, hv⟩ := readsAll_iff.mp (show readsAll (received (Cfg.concrete .full)
    (b! "RECEIVED: from (a) x.example by y for <a@b>; 21 Nov 1997 10:01:22 -0600 (x)\r\n" ++ [])) = true by decide +kernel)
  exact ⟨v, ((C77_received (Cfg.concrete .full) (b! "RECEIVED") (b! " from (a) x.example by y for <a@b>; 21 Nov 1997 10:01:22 -0600 (x)")
    _ _ [] (exact_line _ _ (by decide +kernel)) (small_fits (by decide +kernel)) stops_nil).1 _ v hv).2.1⟩

/-- An address without brackets is allowed by RFC 5322 but not read, nor in the grammar without that alternative. -/
example : (∃ v, HeaderLine (b! "Received:") (ReceivedG false) (b! "Received: for a@b; 21 Nov 1997 10:01:22 -0600\r\n") v) ∧
    ∀ v, ¬ HeaderLine (b! "Received:") (TokensDate false) (b! "Received: for a@b; 21 Nov 1997 10:01:22 -0600\r\n") v := by
  constructor
  · obtain ⟨v1, h1⟩ : ∃ v, Word (b! " for ") v := by
      obtain ⟨v, hv⟩ := readsAll_iff.mp (show readsAll (word (Cfg.concrete .full) (b! " for ")) = true by decide +kernel)
      have hs := word_parses (c := Cfg.concrete .full) (b! " for ")
      rw [hv] at hs
      obtain ⟨w, e, hw⟩ := hs
      rw [List.append_nil] at e
      exact ⟨v, e ▸ hw⟩
    obtain ⟨v2, h2⟩ : ∃ v, AddrSpec false (b! "a@b") v := by
      obtain ⟨v, hv⟩ := readsAll_iff.mp (show readsAll (addrSpec (Cfg.concrete .full) (b! "a@b")) = true by decide +kernel)
      have hs := addrSpec_parses (c := Cfg.concrete .full) (b! "a@b")
      rw [hv] at hs
      obtain ⟨w, e, hw⟩ := hs
      rw [List.append_nil] at e
      exact ⟨v, e ▸ hw⟩
    obtain ⟨v3, h3⟩ : ∃ v, DateTimeG (b! " 21 Nov 1997 10:01:22 -0600") v := by
      obtain ⟨v, hv⟩ := readsAll_iff.mp (show readsAll (dateTime (Cfg.concrete .full) (b! " 21 Nov 1997 10:01:22 -0600")) = true by
        decide +kernel)
      have hs := dateTime_parses (c := Cfg.concrete .full) (b! " 21 Nov 1997 10:01:22 -0600")
      rw [hv] at hs
      obtain ⟨w, e, hw⟩ := hs
      rw [List.append_nil] at e
      exact ⟨v, e ▸ hw⟩
    have hs : Gram.star (ReceivedTokenG false) (b! " for " ++ (b! "a@b" ++ [])) [.word v1, .addr v2] :=
      .cons (show ReceivedTokenG false _ (.word v1) from h1) (.cons (show ReceivedTokenG false _ (.addr v2) from .inr h2) .nil)
    exact ⟨([.word v1, .addr v2], v3), b! "Received:", _, (), rfl, rfl, b! " for a@b; 21 Nov 1997 10:01:22 -0600", _, _, rfl,
      ⟨b! " for a@b", _, _, rfl, hs,
        b! ";", _, (), rfl, rfl, b! " 21 Nov 1997 10:01:22 -0600", [], _, by simp, h3, rfl, rfl⟩, CRLF, [], (), rfl, rfl, rfl, rfl⟩
  · intro v hv
    obtain ⟨v', h, -⟩ := (C77_received (Cfg.concrete .full) (b! "Received") (b! " for a@b; 21 Nov 1997 10:01:22 -0600")
      _ _ [] (exact_line _ _ (by decide +kernel)) (small_fits (by decide +kernel)) stops_nil).2.1 v hv (by
        rintro u b e
        have e' := congrArg List.getLast? e
        rw [List.getLast?_concat, show (b! " for a@b; 21 Nov 1997 10:01:22 -0600").getLast? = some 48 by decide] at e'
        cases e'
        decide)
    have := readsAll_iff.mpr ⟨v', h⟩
    revert this
    decide +kernel

/-- The line with this name and text. -/
def plainLine (name x : Bytes) : Bytes := name ++ b! ":" ++ x ++ CRLF

/-- A message that begins with a trace block of a return path, a `Received` line and a resent line: the block ends before
the field `From`, and the message is accepted. -/
example : ∃ path r f rest, Division (Cfg.concrete .full)
      [plainLine (b! "Return-Path") (b! " <a@b>"), plainLine (b! "Received") (b! " from x by y; 21 Nov 1997 10:01:22 -0600"), plainLine (b! "Resent-From") (b! " c@d"),
        plainLine (b! "From") (b! " x@y"), plainLine (b! "Date") (b! " 21 Nov 1997 10:01:22 -0600")] [.trace (some path) [r] [f]] rest ∧
    rest = [plainLine (b! "From") (b! " x@y"), plainLine (b! "Date") (b! " 21 Nov 1997 10:01:22 -0600")] ∧
    ∃ fs, LinesL (DenotesMime (Cfg.concrete .full)) rest.flatten fs ∧ NoDuplicate fs ∧
      ∀ name, ¬ Missing (Cfg.concrete .full) fs name := by
  have hc : (Cfg.concrete .full).feat.compiles := ⟨fun _ => rfl, fun _ => rfl⟩
  have text : ∀ name x : Bytes, (name ≠ [] ∧ (∀ b ∈ name, ftext b = true) ∧ ∀ b ∈ x, vchar b = true ∨ wsp b = true) →
      (x.count 40 ≤ 100 ∧ x.count 42 < 256) → ¬ b! "=?" <:+: x →
      HeaderText name x x (plainLine name x) ∧
        (name.map asciiLower ∈ traceNames → FitsTrace (Cfg.concrete .full) name x) :=
    fun name x h1 h2 h3 => ⟨exact_line _ _ h1, fun _ => ⟨small_fits h2, fun _ _ => h3⟩⟩
  have t1 := text (b! "Return-Path") (b! " <a@b>") (by decide +kernel) (by decide +kernel) (by decide +kernel)
  have t2 := text (b! "Received") (b! " from x by y; 21 Nov 1997 10:01:22 -0600") (by decide +kernel) (by decide +kernel) (by decide +kernel)
  have t3 := text (b! "Resent-From") (b! " c@d") (by decide +kernel) (by decide +kernel) (by decide +kernel)
  have t4 := text (b! "From") (b! " x@y") (by decide +kernel) (by decide +kernel) (by decide +kernel)
  have t5 := text (b! "Date") (b! " 21 Nov 1997 10:01:22 -0600") (by decide +kernel) (by decide +kernel) (by decide +kernel)
  obtain ⟨path, h1⟩ := readsAll_iff.mp (show readsAll (returnPath (Cfg.concrete .full)
    ((plainLine (b! "Return-Path") (b! " <a@b>")) ++ [])) = true by decide +kernel)
  obtain ⟨r, h2⟩ := readsAll_iff.mp (show readsAll (received (Cfg.concrete .full)
    ((plainLine (b! "Received") (b! " from x by y; 21 Nov 1997 10:01:22 -0600")) ++ [])) = true by decide +kernel)
  obtain ⟨f, h3⟩ := readsAll_iff.mp (show readsAll (matchParsers
    ((plainLine (b! "Resent-From") (b! " c@d")) ++ []) (traceFieldParsers (Cfg.concrete .full))) = true by decide +kernel)
  have g1 := ((returnPath_exact t1.1 fun h => (t1.2 h).fits).read [] path stops_nil).mp h1
  have g2 := ((received_line_exact t2.1 fun h => (t2.2 h).fits).read [] r stops_nil).mp h2
  have g3 := ((resent_exact t3.1 t3.2).read [] f stops_nil).mp h3
  have n3 : ∀ v, ¬ ReceivedLineL (Cfg.concrete .full) (plainLine (b! "Resent-From") (b! " c@d")) v := fun v hv => by
    have := readsAll_iff.mpr ⟨v, ((received_line_exact t3.1 fun h => (t3.2 h).fits).read [] v stops_nil).mpr hv⟩
    revert this
    decide +kernel
  have n4 : ∀ v, ¬ ResentLineL (Cfg.concrete .full) (plainLine (b! "From") (b! " x@y")) v := fun v hv => by
    have := readsAll_iff.mpr ⟨v, ((resent_exact t4.1 t4.2).read [] v stops_nil).mpr hv⟩
    revert this
    decide +kernel
  have n4' : ∀ v, ¬ ReturnPathLineL (Cfg.concrete .full) (plainLine (b! "From") (b! " x@y")) v := fun v hv => by
    have := readsAll_iff.mpr ⟨v, ((returnPath_exact t4.1 fun h => (t4.2 h).fits).read [] v stops_nil).mpr hv⟩
    revert this
    decide +kernel
  have n4'' : ∀ v, ¬ ReceivedLineL (Cfg.concrete .full) (plainLine (b! "From") (b! " x@y")) v := fun v hv => by
    have := readsAll_iff.mpr ⟨v, ((received_line_exact t4.1 fun h => (t4.2 h).fits).read [] v stops_nil).mpr hv⟩
    revert this
    decide +kernel
  have hd : Division (Cfg.concrete .full)
      [plainLine (b! "Return-Path") (b! " <a@b>"), plainLine (b! "Received") (b! " from x by y; 21 Nov 1997 10:01:22 -0600"), plainLine (b! "Resent-From") (b! " c@d"),
        plainLine (b! "From") (b! " x@y"), plainLine (b! "Date") (b! " 21 Nov 1997 10:01:22 -0600")] [.trace (some path) [r] [f]]
      [plainLine (b! "From") (b! " x@y"), plainLine (b! "Date") (b! " 21 Nov 1997 10:01:22 -0600")] :=
    .block (.some g1) (.next g2 (.stop fun l ls v e => by cases e; exact n3 v)) (by simp)
      (.next g3 (.stop fun l ls v e => by cases e; exact n4 v))
      (.stop (.none fun l ls v e => by cases e; exact n4' v) (.stop fun l ls v e => by cases e; exact n4'' v))
  obtain ⟨f1, -, d1⟩ := C76_denotes (Cfg.concrete .full) hc (b! "From") (b! " x@y") _ _ [] t4.1 stops_nil
    (.inl ⟨by decide +kernel, fun _ => ⟨by decide +kernel, by decide +kernel, fun _ => by decide +kernel⟩⟩)
  obtain ⟨f2, -, d2⟩ := C76_denotes (Cfg.concrete .full) hc (b! "Date") (b! " 21 Nov 1997 10:01:22 -0600") _ _ [] t5.1 stops_nil
    (.inl ⟨by decide +kernel, fun _ => ⟨by decide +kernel, by decide +kernel, fun _ => by decide +kernel⟩⟩)
  have hr : LinesL (DenotesMime (Cfg.concrete .full))
      [plainLine (b! "From") (b! " x@y"), plainLine (b! "Date") (b! " 21 Nov 1997 10:01:22 -0600")].flatten [f1, f2] := .cons d1 (.cons d2 .nil)
  have ha := (C77_accepted (Cfg.concrete .full) hc rfl _ _ _ _ (b! "body") (by
      intro l hl
      simp only [List.mem_cons, List.not_mem_nil, or_false] at hl
      rcases hl with rfl | rfl | rfl | rfl | rfl
      · exact ⟨_, _, _, t1⟩
      · exact ⟨_, _, _, t2⟩
      · exact ⟨_, _, _, t3⟩
      · exact ⟨_, _, _, t4⟩
      · exact ⟨_, _, _, t5⟩) hd hr).mp (isOk_iff.mp (by decide +kernel))
  exact ⟨path, r, f, _, hd, rfl, _, hr, ha.2.1, ha.2.2.1⟩

/-- A return path that no `Received` line follows is left. -/
example (l : Bytes) (path : Option EmailAddress) (h : ReturnPathLineL c l path) : Division c [l] [] [l] :=
  .stop (.some h) (.stop nofun)

end EmailParser
