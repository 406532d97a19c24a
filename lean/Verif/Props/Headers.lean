import Verif.Proofs.Local.Block
import Verif.Props.Email
import Verif.Props.Body
/-
C08, C10, C18: header lines are read independently of each other, of what follows and of their order.
-/
namespace EmailParser
open Spec

variable (c : Cfg)

/-- Used in the examples: the rest, the kind and the text of a field. -/
def fieldTexts : Res Field → Option (Bytes × String × List Bytes)
  | .ok (r, .unknown name value) => some (r, "unknown", [name, value])
  | .ok (r, .subject value) => some (r, "Subject", [value])
  | .ok (r, f) => some (r, fieldKind f, [])
  | _ => none

/-! ### C10 -/

/-- The outcome for one header field depends only on the text of that field: if the field `l` is read when
`t` follows, then it is read with the same value when `t'` follows, and the rest is exactly `t'`, as long as
neither begins with white space. -/
theorem C10_field_local (l t t' : Bytes) (f : Field) (ht : Stops wsp t) (ht' : Stops wsp t')
    (h : field c (l ++ t) = .ok (t, f)) : field c (l ++ t') = .ok (t', f) :=
  field_followed (field_alone h ht) ht'

/-- Whatever follows the line end, a text is accepted as a field, rejected, or aborts in the same way. -/
theorem C10_same_outcome (w t t' : Bytes) (ht : Stops wsp t) (ht' : Stops wsp t') :
    (∀ e, field c (w ++ CRLF ++ t) = .err e → ∃ e', field c (w ++ CRLF ++ t') = .err e') ∧
    (∀ k, field c (w ++ CRLF ++ t) = .abort k → field c (w ++ CRLF ++ t') = .abort k) ∧
    (∀ r f, field c (w ++ CRLF ++ t) = .ok (r, f) → ∃ r', field c (w ++ CRLF ++ t') = .ok (r', f) ∧
      ∃ u, w ++ CRLF = u ++ r.take (r.length - t.length) ∧ r = r.take (r.length - t.length) ++ t ∧
        r' = r.take (r.length - t.length) ++ t') := by
  have e : ∀ t, w ++ CRLF ++ t = w ++ 13 :: 10 :: t := fun t => by simp [CRLF]
  rw [e, e]
  rcases (field_local (c := c)).cases (w := w) ⟨ht, ht'⟩ with
    ⟨u, s, v, e, h1, h2⟩ | ⟨v, h1, h2⟩ | ⟨e, e', h1, h2⟩ | ⟨k, h1, h2⟩ <;> rw [h1, h2] <;> simp
  · have hl : s.length + (t.length + 1 + 1) - t.length = (s ++ [13, 10]).length := by simp; omega
    rw [hl, show s ++ 13 :: 10 :: t = (s ++ [13, 10]) ++ t by simp, List.take_left]
    exact ⟨⟨u, by simp [e, CRLF]⟩, by simp⟩

/-- The header lines `ls`, each of which is read as the corresponding field of `fs` when it stands alone, are
read as exactly these fields when they follow each other, up to the end of the text or the empty line. -/
theorem C10_lines (ls : List Bytes) (fs : List Field) (tail : Bytes) (h : LinesOf c ls fs)
    (ht : tail = [] ∨ CRLF <+: tail) : many (ls.flatten ++ tail) (field c) = .ok (tail, fs) := by
  have he : Ended tail := by
    rcases ht with rfl | ⟨b, rfl⟩
    · exact .nil
    · exact .crlf b
  exact h.many he.stops (field_ended he)

/-- Without the condition on white space the value changes: the header is folded.  A header that is not
recognised is read in the same way too. -/
example :
    fieldTexts (field (Cfg.concrete .default) (b! "Subject: a\r\n" ++ b! "To: b@c\r\n")) =
      some (b! "To: b@c\r\n", "Subject", [b! " a"]) ∧
    fieldTexts (field (Cfg.concrete .default) (b! "Subject: a\r\n" ++ b! " b\r\n")) =
      some ([], "Subject", [b! " a b"]) ∧
    fieldTexts (field (Cfg.concrete .default) (b! "Date: x\r\n" ++ b! "X")) =
      some (b! "X", "unknown", [b! "Date", b! " x"]) := by
  decide +kernel

/-! ### C08 -/

theorem fields_end {i : Bytes} {fs : List Field} {t : Bytes} (hc : c.feat.compiles)
    (h : fields c i = .ok (t, fs)) : ∃ head, i = head ++ t ∧ HeaderBlock c head fs ∧
      (head = [] ∨ ∃ p, head = p ++ [13, 10]) := by
  have hp := fields_parses (c := c) i
  rw [h] at hp
  obtain ⟨w, hi, hw⟩ := hp
  exact ⟨w, hi, hw, (headerLines_first (lines_headerBlock (strOk_utf8 c) hc.2 _ _ hw).1).1⟩

theorem fields_followed {head : Bytes} {fs : List Field} {t t' : Bytes} (hw : head = [] ∨ ∃ u, head = u ++ [13, 10])
    (ht : Ended t) (ht' : Ended t') (h : fields c (head ++ t) = .ok (t, fs)) :
    fields c (head ++ t') = .ok (t', fs) := by
  have hat : At t t' (head ++ t) (head ++ t') := by
    rcases hw with rfl | ⟨u, rfl⟩
    · exact .done
    · simpa using At.inside (t := t) (t' := t') u
  rcases (fields_block (c := c) ht ht').cases hat with ⟨s, s', v', hs, h1, h2⟩ | ⟨e, e', h1, h2⟩ | ⟨k, h1, h2⟩
  · rw [h] at h1
    simp only [Outcome.ok.injEq, Prod.mk.injEq] at h1
    obtain ⟨rfl, rfl⟩ := h1
    rw [h2, hs.eq rfl]
  · rw [h] at h1; simp at h1
  · rw [h] at h1; simp at h1

theorem parseMessage_mime (hm : c.feat.mime = true) {i b : Bytes} {fs : List Field}
    (h : fields c i = .ok (13 :: 10 :: b, fs)) : parseMessage c i = .ok (fs, some b) := by
  rw [parseMessage, h]
  simp only [ok_bind, hm, if_true]
  rw [show 13 :: 10 :: b = b! "\r\n" ++ b from rfl, tag_append]
  rfl

/-- With the feature `mime`, in an accepted message the body can be replaced by any bytes: the message is
accepted with the same headers, and the new body. -/
theorem C08_body_opaque (hc : c.feat.compiles) (hm : c.feat.mime = true) (i body : Bytes) (fs : List Field)
    (h : parseMessage c i = .ok (fs, some body)) :
    ∃ head, i = head ++ CRLF ++ body ∧
      (∀ body', parseMessage c (head ++ CRLF ++ body') = .ok (fs, some body')) ∧
      parseMessage c head = .ok (fs, none) := by
  rw [parseMessage_eq] at h
  obtain ⟨⟨t, fs'⟩, h1, h⟩ := bind_eq_ok.1 h
  obtain ⟨b, h2, h⟩ := bind_eq_ok.1 h
  simp only [Outcome.ok.injEq, Prod.mk.injEq] at h
  obtain ⟨rfl, rfl⟩ := h
  have h3 := afterHeaders_spec (c := c) t
  rw [h2] at h3
  obtain ⟨rfl, -⟩ := h3
  obtain ⟨head, rfl, -, hw⟩ := fields_end c hc h1
  refine ⟨head, by simp, fun body' => ?_, ?_⟩
  · rw [List.append_assoc]
    exact parseMessage_mime c hm (fields_followed c hw (.crlf body) (.crlf body') h1)
  · have := fields_followed c hw (.crlf body) .nil h1
    rw [List.append_nil] at this
    rw [parseMessage, this]
    simp [hm]

/-- With the feature `mime`, whether a message is accepted, and how it aborts if it does, depends only on what
comes before the body. -/
theorem C08_acceptance (hm : c.feat.mime = true) (head body body' : Bytes) :
    ((∃ e, parseMessage c (head ++ CRLF ++ CRLF ++ body) = .err e) ↔
      ∃ e, parseMessage c (head ++ CRLF ++ CRLF ++ body') = .err e) ∧
    ∀ k, parseMessage c (head ++ CRLF ++ CRLF ++ body) = .abort k ↔
      parseMessage c (head ++ CRLF ++ CRLF ++ body') = .abort k := by
  have e : ∀ t, head ++ CRLF ++ CRLF ++ t = head ++ 13 :: 10 :: 13 :: 10 :: t := fun t => by simp [CRLF]
  rw [e, e]
  rcases (fields_block (c := c) (.crlf body) (.crlf body')).cases (.inside head) with
    ⟨s, s', v', hs, h1, h2⟩ | ⟨e, e', h1, h2⟩ | ⟨k, h1, h2⟩
  · cases hs with
    | inside w =>
      simp only [parseMessage, h1, h2, ok_bind, hm, if_true]
      rcases w with - | ⟨b, - | ⟨b', w⟩⟩
      · have h : ∀ s, tag (13 :: 10 :: s) (b! "\r\n")
          "TAG ERROR: Headers must be followed by a CRLF sequence." = .ok (s, ()) := fun s => tag_append _ _ _
        simp [h]
      · have h : ∀ s, tag (b :: 13 :: 10 :: s) (b! "\r\n")
          "TAG ERROR: Headers must be followed by a CRLF sequence." = .err _ := fun s =>
            tag_err (by rintro ⟨r, h⟩; simp at h)
        simp [h]
      · by_cases hb : b = 13 ∧ b' = 10
        · obtain ⟨rfl, rfl⟩ := hb
          have h : ∀ s, tag (13 :: 10 :: s) (b! "\r\n")
            "TAG ERROR: Headers must be followed by a CRLF sequence." = .ok (s, ()) := fun s => tag_append _ _ _
          simp [h]
        · have h : ∀ s, tag (b :: b' :: s) (b! "\r\n")
            "TAG ERROR: Headers must be followed by a CRLF sequence." = .err _ := fun s =>
              tag_err (by rintro ⟨r, h⟩; simp at h; exact hb ⟨h.1.symm, h.2.1.symm⟩)
          simp [h]
    | done =>
      rw [parseMessage_mime c hm h1, parseMessage_mime c hm h2]
      simp
  · simp [parseMessage, h1, h2]
  · simp [parseMessage, h1, h2]

/-- For `Email::parse` the body matters only in the transfer decoding: for an accepted e-mail with a body,
replacing that body gives the same e-mail except for the content, which is the decoding of the new body; the
new message is rejected only if the new body cannot be decoded. -/
theorem C08_email (hc : c.feat.compiles) (hm : c.feat.mime = true) (i body : Bytes) (fs : List Field) (e : Email)
    (hp : parseMessage c i = .ok (fs, some body)) (h : Email.parse c i = .ok e) :
    ∃ head encoding m, i = head ++ CRLF ++ body ∧ e.mimeEntity = some m ∧
      decodeValue body encoding = .ok m.value ∧
      ∀ body', Email.parse c (head ++ CRLF ++ body') =
        (decodeValue body' encoding).bind fun value =>
          .ok { e with mimeEntity := some { m with value := value } } := by
  obtain ⟨head, rfl, hb, -⟩ := C08_body_opaque c hc hm i body fs hp
  have h0 := h
  rw [email_parse_eq, hb] at h
  obtain ⟨a, h1, h2⟩ := bind_eq_ok.1 (show (EmailAcc.addAll {} fs >>= fun a => a.finish c (some body)) = .ok e from h)
  refine ⟨head, a.contentTransferEncoding.getD .sevenBit, ?_⟩
  have key : ∀ body', Email.parse c (head ++ CRLF ++ body') = a.finish c (some body') := by
    intro body'
    rw [email_parse_eq, hb]
    show (EmailAcc.addAll {} fs >>= fun a => a.finish c (some body')) = _
    rw [h1, ok_bind]
  simp only [EmailAcc.finish, EmailAcc.entity, hm, if_true, decodeBody] at h2 key
  cases hf : required c.feat.from "From" a.from with
  | err e => simp [hf] at h2
  | abort e => simp [hf] at h2
  | ok fr =>
  cases hd : required c.feat.date "Date" a.date with
  | err e => simp [hf, hd] at h2
  | abort e => simp [hf, hd] at h2
  | ok dt =>
  cases hs : inferSender c.feat.sender a.sender fr with
  | err e => simp [hf, hd, hs] at h2
  | abort e => simp [hf, hd, hs] at h2
  | ok sd =>
  simp only [hf, hd, hs, ok_bind] at h2 key
  cases hv : decodeValue body (a.contentTransferEncoding.getD .sevenBit) with
  | err e => simp [hv] at h2
  | abort e => simp [hv] at h2
  | ok v =>
  simp only [hv, ok_bind, Option.getD_some] at h2
  simp only [Outcome.ok.injEq] at h2
  subst h2
  refine ⟨_, rfl, rfl, rfl, fun body' => ?_⟩
  rw [key]
  cases decodeValue body' (a.contentTransferEncoding.getD .sevenBit) <;> rfl

/-- A body of arbitrary bytes, and one without `mime`, which is rejected. -/
example :
    (outcomeValue (parseMessage (Cfg.concrete .full) (b! "Subject: a\r\n\r\n" ++ [0, 13, 255]))).map
      (fun r => (r.1.map fieldKind, r.2)) = some (["Subject"], some [0, 13, 255]) ∧
    (outcomeValue (parseMessage (Cfg.concrete .full) (b! "Subject: a\r\n\r\n From: x\r\n\r\n"))).map
      (fun r => (r.1.map fieldKind, r.2)) = some (["Subject"], some (b! " From: x\r\n\r\n")) ∧
    (outcomeValue (parseMessage (Cfg.concrete .default) (b! "Subject: a\r\n\r\n" ++ [0, 13, 255]))).isNone := by
  decide +kernel

/-! ### C18 -/

theorem emailFrom_move (hc : c.feat.compiles) (b : Option Bytes) (e : Email) (f : Field) :
    ∀ (as xs bs : List Field), (∀ a ∈ as, fieldKind a ≠ fieldKind f) →
      (emailFrom c (xs ++ (as ++ f :: bs)) b = .ok e ↔ emailFrom c (xs ++ (f :: (as ++ bs))) b = .ok e)
  | [], _, _, _ => Iff.rfl
  | a :: as, xs, bs, h => by
    have h1 := emailFrom_move hc b e f as (xs ++ [a]) bs (fun x hx => h x (by simp [hx]))
    have h2 := C18_order_irrelevant c hc xs (as ++ bs) a f (h a (by simp)) b e
    simp only [List.append_assoc, List.cons_append] at h1 h2 ⊢
    exact h1.trans h2

theorem filter_head {α : Type} {p : α → Bool} {f : α} {l : List α} : ∀ {fs : List α},
    fs.filter p = f :: l → ∃ as bs, fs = as ++ f :: bs ∧ (∀ a ∈ as, p a = false) ∧ bs.filter p = l
  | [], h => by simp at h
  | x :: xs, h => by
    by_cases hx : p x = true
    · simp only [List.filter_cons, hx, if_true, List.cons.injEq] at h
      obtain ⟨rfl, h⟩ := h
      exact ⟨[], xs, rfl, by simp, h⟩
    · rw [List.filter_cons, if_neg hx] at h
      obtain ⟨as, bs, rfl, h1, h2⟩ := filter_head h
      exact ⟨x :: as, bs, rfl, by simpa using ⟨by simpa using hx, h1⟩, h2⟩

/-- Any reordering of the fields that keeps the order within each kind gives the same e-mail. -/
theorem C18_any_order (hc : c.feat.compiles) (b : Option Bytes) (e : Email) (fs fs' : List Field)
    (h : ∀ k, fs.filter (fieldKind · == k) = fs'.filter (fieldKind · == k)) :
    emailFrom c fs b = .ok e ↔ emailFrom c fs' b = .ok e := by
  have key : ∀ fs fs' xs : List Field, (∀ k, fs.filter (fieldKind · == k) = fs'.filter (fieldKind · == k)) →
      (emailFrom c (xs ++ fs) b = .ok e ↔ emailFrom c (xs ++ fs') b = .ok e) := by
    intro fs
    induction fs with
    | nil =>
      intro fs' xs h
      cases fs' with
      | nil => exact Iff.rfl
      | cons f fs' =>
        have := h (fieldKind f)
        simp at this
    | cons f fs ih =>
      intro fs' xs h
      have hf := h (fieldKind f)
      simp only [List.filter_cons, beq_self_eq_true, if_true] at hf
      obtain ⟨as, bs, rfl, h1, h2⟩ := filter_head hf.symm
      have h1' : ∀ a ∈ as, fieldKind a ≠ fieldKind f := fun a ha => by simpa using h1 a ha
      rw [emailFrom_move c hc b e f as xs bs h1']
      have := ih (as ++ bs) (xs ++ [f]) fun k => by
        have hk := h k
        simp only [List.filter_append, List.filter_cons] at hk ⊢
        by_cases hfk : fieldKind f = k
        · subst hfk
          have hnil : as.filter (fieldKind · == fieldKind f) = [] :=
            List.filter_eq_nil_iff.mpr fun a ha => by simpa using h1' a ha
          rw [hnil, h2]
          rfl
        · simpa [hfk] using hk
      simpa using this
  exact key fs fs' [] h

/-- The text does not begin with the name of a trace header. -/
def NoTraceName (t : Bytes) : Prop :=
  ¬ b! "return-path:" <+: t.map asciiLower ∧ ¬ b! "received:" <+: t.map asciiLower ∧
    ¬ b! "resent-" <+: t.map asciiLower

theorem NoTraceName.quiet {t : Bytes} (h : NoTraceName t) (ht : Stops wsp t) : Quiet c t := by
  have key : ∀ (n : Bytes) (m : String), ¬ n.map asciiLower <+: t.map asciiLower →
      ∃ e, tagNoCase t n (n.map swapCase) m = .err e := by
    intro n m hn
    rcases tagNoCase_cases t n m with ⟨w, r, hi, hw, -⟩ | ⟨-, x, h⟩
    · exact absurd ⟨r.map asciiLower, by rw [hi, ← hw]; simp⟩ hn
    · exact ⟨x, h⟩
  refine ⟨ht, ?_, ?_, ?_⟩
  · obtain ⟨e, he⟩ := key (b! "Return-Path:") "TAG NO CASE ERROR: Header name (Return-Path) does not match." h.1
    refine ⟨e, ?_⟩
    rw [returnPath, headerLine, show b! "rETURN-pATH:" = (b! "Return-Path:").map swapCase from rfl, he]
    rfl
  · obtain ⟨e, he⟩ := key (b! "Received:") "TAG NO CASE ERROR: Header name (Received) does not match." h.2.1
    refine ⟨e, ?_⟩
    rw [received, headerLine, show b! "rECEIVED:" = (b! "Received:").map swapCase from rfl, he]
    rfl
  · refine matchParsers_all_err fun p hp => ?_
    simp only [traceFieldParsers, List.mem_cons, List.not_mem_nil, or_false] at hp
    have : ∀ {α : Type} (m : String) (p : Bytes → Res α), ∃ e, resent m p t = .err e := by
      intro α m p
      obtain ⟨e, he⟩ := key (b! "Resent-") m h.2.2
      refine ⟨e, ?_⟩
      rw [resent, show b! "rESENT-" = (b! "Resent-").map swapCase from rfl, he]
      rfl
    rcases hp with rfl | rfl | rfl | rfl | rfl | rfl | rfl <;> exact mapValue_ended (this _ _)

theorem traceBlocks_end {w : Bytes} {ts : List Field} (hc : c.feat.compiles) (h : traces c w = .ok ([], ts)) :
    w = [] ∨ ∃ u, w = u ++ [13, 10] := by
  have hp := traces_parses (c := c) w
  rw [h] at hp
  obtain ⟨w', hi, hw⟩ := hp
  rw [List.append_nil] at hi
  subst hi
  have : HeaderBlock c w (ts ++ []) := ⟨w, [], ts, by simp, hw, [], [], [], rfl, .nil, rfl, rfl⟩
  exact (headerLines_first (lines_headerBlock (strOk_utf8 c) hc.2 _ _ this).1).1

/-- A header block composed of trace blocks and other header lines, each of which is read on its own. -/
theorem C10_block (hc : c.feat.compiles) (tr : Bytes) (ts : List Field) (ls : List Bytes) (fs : List Field)
    (tail : Bytes) (htr : traces c tr = .ok ([], ts)) (h : LinesOf c ls fs) (ht : tail = [] ∨ CRLF <+: tail)
    (hn : NoTraceName (ls.flatten ++ tail)) :
    fields c (tr ++ ls.flatten ++ tail) = .ok (tail, ts ++ fs) := by
  have he : Ended tail := by
    rcases ht with rfl | ⟨b, rfl⟩
    · exact .nil
    · exact .crlf b
  have hq : Quiet c (ls.flatten ++ tail) := hn.quiet c (h.stops he.stops)
  have h1 := (traces_block (c := c) Ended.nil.quiet hq).followed htr (traceBlocks_end c hc htr)
  rw [fields, List.append_assoc, h1, ok_bind]
  dsimp only
  rw [C10_lines c ls fs tail h ht]
  rfl

/-- At the level of the text: the header lines can be put in any order that keeps the order within each kind. -/
theorem C18_lines (hc : c.feat.compiles) (tr : Bytes) (ts : List Field) (ls ls' : List Bytes)
    (fs fs' : List Field) (tail : Bytes) (htr : traces c tr = .ok ([], ts)) (h : LinesOf c ls fs)
    (h' : LinesOf c ls' fs') (ht : tail = [] ∨ CRLF <+: tail) (hn : NoTraceName (ls.flatten ++ tail))
    (hn' : NoTraceName (ls'.flatten ++ tail))
    (hk : ∀ k, fs.filter (fieldKind · == k) = fs'.filter (fieldKind · == k)) (e : Email) :
    Email.parse c (tr ++ ls.flatten ++ tail) = .ok e ↔ Email.parse c (tr ++ ls'.flatten ++ tail) = .ok e := by
  rw [email_parse_eq, email_parse_eq, parseMessage_eq, parseMessage_eq, C10_block c hc tr ts ls fs tail htr h ht hn,
    C10_block c hc tr ts ls' fs' tail htr h' ht hn']
  show ((afterHeaders c tail).bind _).bind _ = _ ↔ ((afterHeaders c tail).bind _).bind _ = _
  cases afterHeaders c tail with
  | err x => exact Iff.rfl
  | abort x => exact Iff.rfl
  | ok b =>
    refine C18_any_order c hc b e _ _ fun k => ?_
    simp only [List.filter_append, hk]

/-- Trace, then the other headers in two orders. -/
def orderExample (a b : Bytes) : Option (Option Nat × List (Bytes × Bytes) × Nat) :=
  (outcomeValue (Email.parse (Cfg.concrete .default)
    (b! "Received: from x; 1 Jan 2020 00:00 +0000\r\n" ++ a ++ b ++ b! "From: a@b\r\n\r\nbody"))).map
      fun e => (e.date.map (·.date.day), e.unknownFields, e.trace.length)

example : orderExample (b! "Date: 1 Jan 2020 00:00 +0000\r\n") (b! "x-a: b\r\nX-C: d\r\n") =
    some (some 1, [(b! "x-a", b! " b"), (b! "X-C", b! " d")], 1) := by decide +kernel

example : orderExample (b! "x-a: b\r\nX-C: d\r\n") (b! "Date: 1 Jan 2020 00:00 +0000\r\n") =
    some (some 1, [(b! "x-a", b! " b"), (b! "X-C", b! " d")], 1) := by decide +kernel

/-! ### C12 -/

/-- The same outcome, except for the text of the error. -/
inductive SameResult {α : Type} : Res α → Res α → Prop
  | ok (r : Bytes) (v : α) : SameResult (.ok (r, v)) (.ok (r, v))
  | err (e e' : Error) : SameResult (.err e) (.err e')
  | abort (k : Abort) : SameResult (.abort k) (.abort k)

theorem SameResult.refl {α : Type} (x : Res α) : SameResult x x := by
  cases x with
  | ok r => exact .ok r.1 r.2
  | err e => exact .err e e
  | abort k => exact .abort k

theorem SameResult.bind {α β : Type} {x y : Res α} {f : Bytes × α → Res β} (h : SameResult x y) :
    SameResult (x >>= f) (y >>= f) := by
  cases h with
  | ok r v => exact .refl _
  | err e e' => exact .err e e'
  | abort k => exact .abort k

theorem colon_lower : ∀ b, asciiLower b = 58 ↔ b = 58 := by decide +kernel

/-- Where a name in any case, followed by a colon, is found. -/
theorem tagNoCase_name {n v x : Bytes} {m : String} (hn : 58 ∉ n) (hx : 58 ∉ x.map asciiLower) :
    (n.map asciiLower = x.map asciiLower ∧
      tagNoCase (n ++ 58 :: v) (x ++ [58]) ((x ++ [58]).map swapCase) m = .ok (v, ())) ∨
    (n.map asciiLower ≠ x.map asciiLower ∧
      ∃ e, tagNoCase (n ++ 58 :: v) (x ++ [58]) ((x ++ [58]).map swapCase) m = .err e) := by
  by_cases h : n.map asciiLower = x.map asciiLower
  · left
    refine ⟨h, ?_⟩
    rw [show n ++ 58 :: v = (n ++ [58]) ++ v by simp]
    exact tagNoCase_append v m (by simp [h])
  · right
    refine ⟨h, ?_⟩
    rcases tagNoCase_cases (n ++ 58 :: v) (x ++ [58]) m with ⟨w, r, hi, hw, -⟩ | ⟨-, e, he⟩
    · exfalso
      apply h
      rw [List.map_append] at hw
      obtain ⟨w₁, w₂, rfl, h1, h2⟩ := List.map_eq_append_iff.mp hw
      obtain ⟨b, rfl, hb⟩ : ∃ b, w₂ = [b] ∧ asciiLower b = 58 := by
        cases w₂ with
        | nil => simp at h2
        | cons b t => simp at h2; exact ⟨b, by simp [h2.2], by rw [h2.1]; decide⟩
      rw [colon_lower] at hb
      subst hb
      have h58 : 58 ∉ w₁ := by
        intro hm
        apply hx
        rw [← h1]
        exact List.mem_map.mpr ⟨58, hm, by decide⟩
      have : n = w₁ := by
        rw [List.append_assoc, List.singleton_append] at hi
        have e1 := congrArg (List.takeWhile (· != 58)) hi
        rwa [List.takeWhile_append_of_pos (by intro b hb; simp; rintro rfl; exact hn hb),
          List.takeWhile_append_of_pos (by intro b hb; simp; rintro rfl; exact h58 hb),
          List.takeWhile_cons_of_neg (by simp), List.takeWhile_cons_of_neg (by simp), List.append_nil,
          List.append_nil] at e1
      rw [this, h1]
    · exact ⟨e, he⟩

theorem headerLine_case {α : Type} {n n' v x H H2 : Bytes} {m m' : String} {p : Bytes → Res α} (hn : 58 ∉ n)
    (hn' : 58 ∉ n') (h : n.map asciiLower = n'.map asciiLower) (hH : H = x ++ [58]) (hH2 : H2 = H.map swapCase)
    (hx : 58 ∉ x.map asciiLower) :
    SameResult (headerLine H H2 m m' p (n ++ 58 :: v)) (headerLine H H2 m m' p (n' ++ 58 :: v)) := by
  subst hH hH2
  unfold headerLine
  rcases tagNoCase_name (m := m) (v := v) hn hx with ⟨h1, h2⟩ | ⟨h1, e, h2⟩ <;>
    rcases tagNoCase_name (m := m) (v := v) hn' hx with ⟨h1', h2'⟩ | ⟨h1', e', h2'⟩
  · rw [h2, h2']; exact .refl _
  · exact absurd (h ▸ h1) h1'
  · exact absurd (h ▸ h1') h1
  · rw [h2, h2']; exact .err _ _

/-- The field with another name, if it is not a recognised one. -/
def withName (name : Bytes) : Field → Field
  | .unknown _ value => .unknown name value
  | f => f

/-- As `SameResult`, for fields whose name is written in another way. -/
inductive SameField (name : Bytes) : Res Field → Res Field → Prop
  | ok (r : Bytes) (f : Field) : SameField name (.ok (r, f)) (.ok (r, withName name f))
  | err (e e' : Error) : SameField name (.err e) (.err e')
  | abort (k : Abort) : SameField name (.abort k) (.abort k)

theorem SameResult.field {α : Type} {x y : Res α} (h : SameResult x y) {name : Bytes} {f : α → Field}
    (hf : ∀ v, withName name (f v) = f v) {g : Bytes → Res α} {i j : Bytes} (hx : g i = x) (hy : g j = y) :
    SameField name (mapValue f g i) (mapValue f g j) := by
  rw [mapValue, mapValue, hx, hy]
  cases h with
  | ok r v =>
    show SameField name (.ok (r, f v)) (.ok (r, f v))
    have := SameField.ok (name := name) r (f v)
    rwa [hf] at this
  | err e e' => exact .err e e'
  | abort k => exact .abort k

theorem matchParsers_case {name i j : Bytes} : ∀ {ps : List (Bytes → Res Field)},
    (∀ p ∈ ps, SameField name (p i) (p j)) → SameField name (matchParsers i ps) (matchParsers j ps)
  | [], _ => .err _ _
  | p :: ps, h => by
    have h1 := h p (by simp)
    unfold matchParsers
    generalize p i = x at h1
    generalize p j = y at h1
    cases h1 with
    | ok r f => exact .ok r f
    | err e e' => exact matchParsers_case fun q hq => h q (by simp [hq])
    | abort k => exact .abort k

theorem name_lower {n n' : Bytes} (h : n.map asciiLower = n'.map asciiLower) (hn : ∀ b ∈ n, ftext b = true) :
    ∀ b ∈ n', ftext b = true := by
  intro b hb
  have h1 : ∀ b, ftext b = ftext (asciiLower b) := by decide +kernel
  have h2 : asciiLower b ∈ n.map asciiLower := h ▸ List.mem_map_of_mem hb
  obtain ⟨a, ha, e⟩ := List.mem_map.mp h2
  rw [h1 b, ← e, ← h1 a]
  exact hn a ha

/-- What `unknown` does when the colon is the first one. -/
theorem unknown_name {n v : Bytes} (hn : 58 ∉ n) : ∃ e, unknown c (n ++ 58 :: v) =
    if n ≠ [] ∧ ∀ b ∈ n, ftext b = true then (do
      let (r, value) ← unknownValue c v
      let (r, ()) ← tag r (b! "\r\n") "TAG ERROR: A header must end with a CRLF sequence."
      .ok (r, (n, value)) : Res (Bytes × Bytes))
    else .err e := by
  by_cases h : n ≠ [] ∧ ∀ b ∈ n, ftext b = true
  · refine ⟨.unknown "", ?_⟩
    rw [if_pos h, unknown, isFtext_eq, takeWhile1_eq,
      List.takeWhile_append_of_pos h.2, List.dropWhile_append_of_pos h.2,
      List.takeWhile_cons_of_neg (by decide), List.dropWhile_cons_of_neg (by decide), List.append_nil]
    have ht : tag (58 :: v) (b! ":") "TAG ERROR: A header name must be followed by a `:`." = .ok (v, ()) :=
      tag_append (b! ":") v _
    simp [h.1, ht]
  · simp only [if_neg h]
    rw [unknown, isFtext_eq, takeWhile1_eq]
    split
    · exact ⟨_, rfl⟩
    · obtain ⟨e, he⟩ : ∃ e, tag ((n ++ 58 :: v).dropWhile ftext) (b! ":")
          "TAG ERROR: A header name must be followed by a `:`." = .err e := by
        refine ⟨_, tag_err ?_⟩
        rintro ⟨r, hr⟩
        have : ∃ b ∈ n, ¬ ftext b = true := by
          by_cases hn0 : n = []
          · subst hn0
            rename_i ht
            exact absurd (List.takeWhile_cons_of_neg (by decide)) ht
          · apply Classical.byContradiction
            intro hc
            refine h ⟨hn0, fun b hb => Classical.byContradiction fun hb' => hc ⟨b, hb, hb'⟩⟩
        obtain ⟨x, y, b, rfl, hx, hb⟩ : ∃ x y b, n = x ++ b :: y ∧ (∀ a ∈ x, ftext a = true) ∧ ftext b = false := by
          clear hr h hn
          rename_i ht
          clear ht
          induction n with
          | nil => simp at this
          | cons a n ih =>
            by_cases ha : ftext a = true
            · obtain ⟨x, y, b, rfl, hx, hb⟩ := ih (by simpa [ha] using this)
              exact ⟨a :: x, y, b, rfl, by simpa [ha] using hx, hb⟩
            · exact ⟨[], n, a, rfl, by simp, by simpa using ha⟩
        rw [List.append_assoc, List.dropWhile_append_of_pos hx, List.cons_append, List.cons_append,
          List.dropWhile_cons_of_neg (by simp [hb])] at hr
        simp at hr
        exact hn (by simp [hr.1])
      exact ⟨e, by simp [he]⟩

theorem unknown_case {n n' v : Bytes} (hn : 58 ∉ n) (hn' : 58 ∉ n') (h : n.map asciiLower = n'.map asciiLower) :
    SameField n' (mapValue (fun (name, value) => .unknown name value) (unknown c) (n ++ 58 :: v))
      (mapValue (fun (name, value) => .unknown name value) (unknown c) (n' ++ 58 :: v)) := by
  obtain ⟨e, he⟩ := unknown_name c (v := v) hn
  obtain ⟨e', he'⟩ := unknown_name c (v := v) hn'
  rw [mapValue, mapValue, he, he']
  by_cases hc : n ≠ [] ∧ ∀ b ∈ n, ftext b = true
  · have hc' : n' ≠ [] ∧ ∀ b ∈ n', ftext b = true :=
      ⟨fun h0 => hc.1 (by rw [h0] at h; simpa using h), name_lower h hc.2⟩
    rw [if_pos hc, if_pos hc']
    cases unknownValue c v with
    | err e => exact .err _ _
    | abort k => exact .abort k
    | ok r =>
      simp only [ok_bind]
      cases tag r.1 (b! "\r\n") "TAG ERROR: A header must end with a CRLF sequence." with
      | err e => exact .err _ _
      | abort k => exact .abort k
      | ok s => exact .ok s.1 (.unknown n r.2)
  · have hc' : ¬ (n' ≠ [] ∧ ∀ b ∈ n', ftext b = true) := fun hc' =>
      hc ⟨fun h0 => hc'.1 (by rw [h0] at h; simpa using h.symm), name_lower h.symm hc'.2⟩
    rw [if_neg hc, if_neg hc']
    exact .err _ _

theorem typed_case {α : Type} {n n' v H H2 : Bytes} (x : Bytes) {m m' : String} {p : Bytes → Res α}
    {f : α → Field} (hn : 58 ∉ n)
    (hn' : 58 ∉ n') (h : n.map asciiLower = n'.map asciiLower) (hH : H = x ++ [58]) (hH2 : H2 = H.map swapCase)
    (hx : 58 ∉ x.map asciiLower) (hf : ∀ v, withName n' (f v) = f v) :
    SameField n' (mapValue f (headerLine H H2 m m' p) (n ++ 58 :: v))
      (mapValue f (headerLine H H2 m m' p) (n' ++ 58 :: v)) :=
  (headerLine_case hn hn' h hH hH2 hx).field hf rfl rfl

theorem colon_case {n n' : Bytes} (hn : 58 ∉ n) (h : n.map asciiLower = n'.map asciiLower) : 58 ∉ n' := by
  intro hm
  have : (58 : UInt8) ∈ n.map asciiLower := h ▸ List.mem_map.mpr ⟨58, hm, by decide⟩
  obtain ⟨a, ha, e⟩ := List.mem_map.mp this
  rw [colon_lower] at e
  exact hn (e ▸ ha)

theorem field_case {n n' v : Bytes} (hn : 58 ∉ n) (h : n.map asciiLower = n'.map asciiLower) :
    SameField n' (field c (n ++ 58 :: v)) (field c (n' ++ 58 :: v)) := by
  have hn' := colon_case hn h
  refine matchParsers_case ?_
  unfold fieldParsers
  refine append_forall ?_ (List.forall_mem_singleton.mpr (unknown_case c hn hn' h))
  refine append_forall ?_ (enabled_forall fun _ =>
    typed_case (b! "Keywords") hn hn' h rfl rfl (by decide) fun _ => rfl)
  refine append_forall ?_ (enabled_forall fun _ =>
    typed_case (b! "Content-Disposition") hn hn' h rfl rfl (by decide) fun _ => rfl)
  refine append_forall ?_ (enabled_forall fun _ =>
    typed_case (b! "Content-Description") hn hn' h rfl rfl (by decide) fun _ => rfl)
  refine append_forall ?_ (enabled_forall fun _ =>
    typed_case (b! "Content-ID") hn hn' h rfl rfl (by decide) fun _ => rfl)
  refine append_forall ?_ (enabled_forall fun _ =>
    typed_case (b! "Content-Transfer-Encoding") hn hn' h rfl rfl (by decide) fun _ => rfl)
  refine append_forall ?_ (enabled_forall fun _ =>
    typed_case (b! "Content-Type") hn hn' h rfl rfl (by decide) fun _ => rfl)
  refine append_forall ?_ (enabled_forall fun _ =>
    typed_case (b! "MIME-Version") hn hn' h rfl rfl (by decide) fun _ => rfl)
  refine append_forall ?_ (enabled_forall fun _ =>
    typed_case (b! "Comments") hn hn' h rfl rfl (by decide) fun _ => rfl)
  refine append_forall ?_ (enabled_forall fun _ =>
    typed_case (b! "Subject") hn hn' h rfl rfl (by decide) fun _ => rfl)
  refine append_forall ?_ (enabled_forall fun _ =>
    typed_case (b! "References") hn hn' h rfl rfl (by decide) fun _ => rfl)
  refine append_forall ?_ (enabled_forall fun _ =>
    typed_case (b! "In-Reply-To") hn hn' h rfl rfl (by decide) fun _ => rfl)
  refine append_forall ?_ (enabled_forall fun _ =>
    typed_case (b! "Message-ID") hn hn' h rfl rfl (by decide) fun _ => rfl)
  refine append_forall ?_ (enabled_forall fun _ =>
    typed_case (b! "Bcc") hn hn' h rfl rfl (by decide) fun _ => rfl)
  refine append_forall ?_ (enabled_forall fun _ =>
    typed_case (b! "Cc") hn hn' h rfl rfl (by decide) fun _ => rfl)
  refine append_forall ?_ (enabled_forall fun _ =>
    typed_case (b! "To") hn hn' h rfl rfl (by decide) fun _ => rfl)
  refine append_forall ?_ (enabled_forall fun _ =>
    typed_case (b! "Reply-To") hn hn' h rfl rfl (by decide) fun _ => rfl)
  refine append_forall ?_ (enabled_forall fun _ =>
    typed_case (b! "Sender") hn hn' h rfl rfl (by decide) fun _ => rfl)
  refine append_forall ?_ (enabled_forall fun _ =>
    typed_case (b! "From") hn hn' h rfl rfl (by decide) fun _ => rfl)
  exact enabled_forall fun _ => typed_case (b! "Date") hn hn' h rfl rfl (by decide) fun _ => rfl

/-- Changing the case of letters in the name of a header (the text before the first colon) does not change
what is read: the same typed field and the same rest, or the same unknown field with its name as written, or
an error, or the same abort. -/
theorem C12_case_insensitive (name name' v : Bytes) (hn : 58 ∉ name)
    (h : name.map asciiLower = name'.map asciiLower) :
    (∀ r f, field c (name ++ b! ":" ++ v) = .ok (r, f) →
      field c (name' ++ b! ":" ++ v) =
        .ok (r, match f with | .unknown _ value => .unknown name' value | f => f)) ∧
    (∀ e, field c (name ++ b! ":" ++ v) = .err e → ∃ e', field c (name' ++ b! ":" ++ v) = .err e') ∧
    ∀ k, field c (name ++ b! ":" ++ v) = .abort k → field c (name' ++ b! ":" ++ v) = .abort k := by
  have hs := field_case c (v := v) hn h
  rw [show name ++ b! ":" ++ v = name ++ 58 :: v by simp, show name' ++ b! ":" ++ v = name' ++ 58 :: v by simp]
  generalize field c (name ++ 58 :: v) = x at hs
  generalize field c (name' ++ 58 :: v) = y at hs
  cases hs with
  | ok r f =>
    refine ⟨?_, by simp, by simp⟩
    intro r' f' e
    cases e
    cases f <;> rfl
  | err e e' => exact ⟨by simp, fun _ _ => ⟨e', rfl⟩, by simp⟩
  | abort k => exact ⟨by simp, by simp, fun _ e => e⟩

theorem resent_case {α : Type} {n n' v x H H2 : Bytes} {m m' m'' : String} {p : Bytes → Res α} (hn : 58 ∉ n)
    (h : n.map asciiLower = n'.map asciiLower) (hH : H = x ++ [58])
    (hH2 : H2 = H.map swapCase) (hx : 58 ∉ x.map asciiLower) :
    SameResult (resent m'' (headerLine H H2 m m' p) (n ++ 58 :: v))
      (resent m'' (headerLine H H2 m m' p) (n' ++ 58 :: v)) := by
  have hn' := colon_case hn h
  have hsplit : ∀ n : Bytes, 58 ∉ n →
      (∃ a d, n = a ++ d ∧ a.map asciiLower = b! "resent-" ∧
        tagNoCase (n ++ 58 :: v) (b! "Resent-") (b! "rESENT-") m'' = .ok (d ++ 58 :: v, ())) ∨
      (¬ b! "resent-" <+: n.map asciiLower ∧
        ∃ e, tagNoCase (n ++ 58 :: v) (b! "Resent-") (b! "rESENT-") m'' = .err e) := by
    intro n hn
    by_cases hp : b! "resent-" <+: n.map asciiLower
    · left
      obtain ⟨r, hr⟩ := hp
      obtain ⟨a, d, rfl, ha, hd⟩ := List.map_eq_append_iff.mp hr.symm
      refine ⟨a, d, rfl, ha, ?_⟩
      rw [List.append_assoc]
      exact tagNoCase_append (e := b! "Resent-") (d ++ 58 :: v) m'' ha
    · right
      refine ⟨hp, ?_⟩
      rcases tagNoCase_cases (n ++ 58 :: v) (b! "Resent-") m'' with ⟨w, r, hi, hw, -⟩ | ⟨-, e, he⟩
      · exfalso
        apply hp
        have h58 : 58 ∉ w := by
          intro hm
          have : asciiLower 58 ∈ (b! "Resent-").map asciiLower := hw ▸ List.mem_map_of_mem hm
          revert this
          decide
        rcases List.append_eq_append_iff.mp hi with ⟨as, e1, e2⟩ | ⟨bs, e1, e2⟩
        · cases as with
          | nil => exact ⟨[], by simp at e1; rw [← e1, hw]; rfl⟩
          | cons b as =>
            simp at e2
            exact absurd (by rw [e1, ← e2.1]; simp) h58
        · refine ⟨bs.map asciiLower, ?_⟩
          rw [e1, List.map_append, hw]
          rfl
      · exact ⟨e, he⟩
  unfold resent
  rcases hsplit n hn with ⟨a, d, rfl, ha, h1⟩ | ⟨hp, e, h1⟩
  · rcases hsplit n' hn' with ⟨a', d', rfl, ha', h1'⟩ | ⟨hp', e', h1'⟩
    · rw [h1, h1']
      simp only [ok_bind]
      have hd : d.map asciiLower = d'.map asciiLower := by
        rw [List.map_append, List.map_append, ha, ha'] at h
        exact List.append_cancel_left h
      exact (headerLine_case (fun hm => hn (by simp [hm])) (fun hm => hn' (by simp [hm])) hd hH hH2 hx).bind
    · exact absurd (by rw [← h, List.map_append, ha]; exact List.prefix_append _ _) hp'
  · rcases hsplit n' hn' with ⟨a', d', rfl, ha', h1'⟩ | ⟨hp', e', h1'⟩
    · exact absurd (by rw [h, List.map_append, ha']; exact List.prefix_append _ _) hp
    · rw [h1, h1']
      exact .err _ _

/-- The same for the headers of a trace block: `Return-Path`, `Received` and the seven `Resent-` headers. -/
theorem C12_trace (name name' v : Bytes) (hn : 58 ∉ name) (h : name.map asciiLower = name'.map asciiLower) :
    SameResult (returnPath c (name ++ b! ":" ++ v)) (returnPath c (name' ++ b! ":" ++ v)) ∧
    SameResult (received c (name ++ b! ":" ++ v)) (received c (name' ++ b! ":" ++ v)) ∧
    ∀ p ∈ traceFieldParsers c, SameResult (p (name ++ b! ":" ++ v)) (p (name' ++ b! ":" ++ v)) := by
  have hn' := colon_case hn h
  rw [show name ++ b! ":" ++ v = name ++ 58 :: v by simp, show name' ++ b! ":" ++ v = name' ++ 58 :: v by simp]
  refine ⟨headerLine_case (x := b! "Return-Path") hn hn' h rfl rfl (by decide),
    headerLine_case (x := b! "Received") hn hn' h rfl rfl (by decide), fun p hp => ?_⟩
  simp only [traceFieldParsers, List.mem_cons, List.not_mem_nil, or_false] at hp
  rcases hp with rfl | rfl | rfl | rfl | rfl | rfl | rfl
  · exact (resent_case (x := b! "Date") hn h rfl rfl (by decide)).bind
  · exact (resent_case (x := b! "From") hn h rfl rfl (by decide)).bind
  · exact (resent_case (x := b! "Sender") hn h rfl rfl (by decide)).bind
  · exact (resent_case (x := b! "To") hn h rfl rfl (by decide)).bind
  · exact (resent_case (x := b! "Cc") hn h rfl rfl (by decide)).bind
  · exact (resent_case (x := b! "Bcc") hn h rfl rfl (by decide)).bind
  · exact (resent_case (x := b! "Message-ID") hn h rfl rfl (by decide)).bind

example : (b! "sUbJeCt").map asciiLower = (b! "Subject").map asciiLower ∧
    fieldTexts (field (Cfg.concrete .default) (b! "sUbJeCt: Hi\r\n")) = some ([], "Subject", [b! " Hi"]) ∧
    fieldTexts (field (Cfg.concrete .default) (b! "x-hI: Hi\r\n")) = some ([], "unknown", [b! "x-hI", b! " Hi"]) := by
  decide +kernel

end EmailParser
