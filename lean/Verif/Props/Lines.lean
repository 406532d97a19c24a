import Verif.Proofs.Lines
import Verif.Props.Headers
import Verif.Props.Total
/-
C11 and C29: header lines that are not recognised are kept, and white space at the end of a structured header.
-/
namespace EmailParser
open Spec

variable (c : Cfg)

/-! ### C29 -/

/-- A header with a date, mailboxes, addresses or message identifiers (or, without the feature `mime`, keywords) whose
text ends with white space is reported as an unknown field with its name and its text, whatever the text is.
(Comments nested too deeply overflow the stack.) -/
theorem C29_unrecognised (name x w l t : Bytes) (h : HeaderText name x w l)
    (hn : name.map asciiLower ∈ structuredNames ∨ (c.feat.mime = false ∧ name.map asciiLower = b! "keywords"))
    (hw : ∃ y b, w = y ++ [b] ∧ wsp b = true) (ht : Stops wsp t) :
    (∃ k, field c (l ++ t) = .abort k) ∨
    ∃ v, field c (l ++ t) = .ok (t, .unknown name v) ∧
      ((c.feat.unrecognizedHeaders = false ∨ ¬ b! "=?" <:+: x) → v = trimEnd x) := by
  rw [lineText_eq h]
  rcases field_line (c := c) h.name_ne h.name_chars h.folding ht with h' | ⟨r, f, -, -, hs, -⟩ | h'
  · exact .inl h'
  · obtain ⟨y, b, e, hb⟩ := hw
    rw [hs hn y b e] at hb
    cases hb
  · exact .inr h'

/-- The same holds for the trace headers: with white space at the end they are not trace headers. -/
theorem C29_trace (name x w l t : Bytes) (h : HeaderText name x w l) (hw : ∃ y b, w = y ++ [b] ∧ wsp b = true)
    (ht : Stops wsp t) (r : Bytes) :
    (∀ v, returnPath c (l ++ t) ≠ .ok (r, v)) ∧ (∀ v, received c (l ++ t) ≠ .ok (r, v)) ∧
    ∀ v, matchParsers (l ++ t) (traceFieldParsers c) ≠ .ok (r, v) := by
  obtain ⟨y, b, e, hb⟩ := hw
  have key : ∀ {α : Type} {p : Bytes → Res α} (_ : TraceHeader p) (v : α), p (l ++ t) ≠ .ok (r, v) := by
    intro α p hp v h'
    rw [lineText_eq h] at h'
    have := (hp (ftext_colon h.name_chars) h.folding ht h').2 y b e
    rw [this] at hb
    cases hb
  exact ⟨key returnPath_trace, key received_trace, key (p := fun i => matchParsers i (traceFieldParsers c)) traceFields_trace⟩

/-- The same headers with and without the white space; white space after a fold is accepted. -/
example :
    fieldTexts (field (Cfg.concrete .default) (b! "Date: Fri, 21 Nov 1997 10:01:22 -0600\r\n")) =
      some ([], "Date", []) ∧
    fieldTexts (field (Cfg.concrete .default) (b! "Date: Fri, 21 Nov 1997 10:01:22 -0600 \r\n")) =
      some ([], "unknown", [b! "Date", b! " Fri, 21 Nov 1997 10:01:22 -0600"]) ∧
    fieldTexts (field (Cfg.concrete .default) (b! "To: A <a@b>\t\r\n")) =
      some ([], "unknown", [b! "To", b! " A <a@b>"]) ∧
    fieldTexts (field (Cfg.concrete .default) (b! "To: A <a@b>\r\n \r\n")) = some ([], "To", []) := by
  decide +kernel

/-- So a message whose author field ends with a space is rejected. -/
example :
    outcomeError (Email.parse (Cfg.concrete .default)
      (b! "From: a@b \r\nDate: Fri, 21 Nov 1997 10:01:22 -0600\r\n\r\n")) =
    some (.missingHeader "From") := by decide +kernel

/-! ### C11 -/

/-- One header line: it is read as a whole, as the field of its name, or as an unknown field with its name and
its text (without the line breaks of the folds and the white space at the end; encoded words are decoded if the
feature `unrecognized-headers` is enabled).  With the feature `mime`, for five header names this holds only when
the line is not folded. -/
theorem C11_line (name x w l t : Bytes) (h : HeaderText name x w l) (hcut : CutName c name → w = x)
    (ht : Stops wsp t) :
    (∃ k, field c (l ++ t) = .abort k) ∨
    (∃ f, field c (l ++ t) = .ok (t, f) ∧ Recognized c.feat (name.map asciiLower) ∧
      headerOf f = some (name.map asciiLower)) ∨
    ∃ v, field c (l ++ t) = .ok (t, .unknown name v) ∧
      ((c.feat.unrecognizedHeaders = false ∨ ¬ b! "=?" <:+: x) → v = trimEnd x) := by
  rcases field_plain (c := c) ⟨name, x, w, h, hcut⟩ ht with h' | ⟨f, hf⟩
  · exact .inl h'
  · rw [lineText_eq h] at hf ⊢
    rcases field_line (c := c) h.name_ne h.name_chars h.folding ht with ⟨k, h'⟩ | ⟨r, f', h', -, -, hu⟩ | h'
    · exact .inl ⟨k, h'⟩
    · rw [hf] at h'
      cases h'
      exact .inr (.inl ⟨f, hf, hu⟩)
    · exact .inr (.inr h')

/-- A header line that is not recognised with the enabled features is an unknown field. -/
theorem C11_unknown (name x w l t : Bytes) (h : HeaderText name x w l)
    (hn : ¬ Recognized c.feat (name.map asciiLower)) (ht : Stops wsp t) :
    ∃ v, field c (l ++ t) = .ok (t, .unknown name v) ∧
      ((c.feat.unrecognizedHeaders = false ∨ ¬ b! "=?" <:+: x) → v = trimEnd x) := by
  rw [lineText_eq h]
  exact field_unrecognized h.name_ne h.name_chars h.folding ht hn

/-- The header names from which fields are read: the kind of a field that is not unknown is that of the name,
also for a header that is read only in part. -/
theorem C11_kind (name x w l t r : Bytes) (f : Field) (h : HeaderText name x w l) (ht : Stops wsp t)
    (hf : field c (l ++ t) = .ok (r, f)) :
    (Recognized c.feat (name.map asciiLower) ∧ headerOf f = some (name.map asciiLower)) ∨
    (r = t ∧ ∃ v, f = .unknown name v) := by
  rw [lineText_eq h] at hf
  rcases field_line (c := c) h.name_ne h.name_chars h.folding ht with ⟨k, h'⟩ | ⟨r, f', h', -, -, hu⟩ | ⟨v, h', -⟩ <;>
    rw [hf] at h' <;> cases h'
  · exact .inl hu
  · exact .inr ⟨rfl, v, rfl⟩

/-- Headers that are not recognised, folded or with a value that is not accepted; a comment with unbalanced
parentheses is accepted as text. -/
example :
    fieldTexts (field (Cfg.concrete .default) (b! "X-Spam:  yes\r\n\t(maybe \r\n")) =
      some ([], "unknown", [b! "X-Spam", b! "  yes\t(maybe"]) ∧
    fieldTexts (field (Cfg.concrete .default) (b! "Date: today\r\n at noon\r\nTo: a@b\r\n")) =
      some (b! "To: a@b\r\n", "unknown", [b! "Date", b! " today at noon"]) ∧
    fieldTexts (field (Cfg.concrete .default) (b! "Content-Type: text/plain\r\n ;a\r\n")) =
      some ([], "unknown", [b! "Content-Type", b! " text/plain ;a"]) ∧
    fieldTexts (field (Cfg.concrete .default) (b! "Received: from a by b\r\n")) =
      some ([], "unknown", [b! "Received", b! " from a by b"]) := by decide +kernel

/-- The condition on folded lines is needed: the value of `Content-Type` ends at the fold when the next line is
no parameter, so the rest of the line stays, with which no field begins, and the header block ends there. -/
theorem C11_folded_mime_cut :
    HeaderText (b! "Content-Type") (b! " text/plain x") (b! " text/plain\r\n x")
      (b! "Content-Type: text/plain\r\n x\r\n") ∧
    fieldTexts (field (Cfg.concrete .full) (b! "Content-Type: text/plain\r\n x\r\nTo: a@b\r\n")) =
      some (b! " x\r\nTo: a@b\r\n", "Content-Type", []) ∧
    isOk (parseMessage (Cfg.concrete .full) (b! "Content-Type: text/plain\r\n x\r\nTo: a@b\r\n\r\nbody")) =
      false ∧
    fieldTexts (field (Cfg.concrete .full) (b! "Content-Type: text/plain x\r\nTo: a@b\r\n")) =
      some (b! "To: a@b\r\n", "unknown", [b! "Content-Type", b! " text/plain x"]) := by
  refine ⟨⟨rfl, by decide, by decide +kernel, ?_⟩, by decide +kernel⟩
  refine .space (s := b! " ") (x := b! "text/plain x") (by decide +kernel) (by rintro b s ⟨⟩; rfl) ?_
  repeat refine .char rfl ?_
  refine .fold (s := []) (s' := b! " ") (x := b! "x") (by simp) (by decide +kernel) (by decide)
    (by decide) (by rintro b s ⟨⟩; rfl) ?_
  exact .char rfl .nil

/-- A block of header lines is read to its end, which is the end of the text or an empty line: first the lines
of trace headers, then each of the other lines as one field, the same as when it stands alone. -/
theorem C11_block (ls : List Bytes) (tail : Bytes)
    (h : ∀ l ∈ ls, ∃ name x w, HeaderText name x w l ∧ (CutName c name → w = x))
    (ht : tail = [] ∨ CRLF <+: tail) :
    (∃ k, fields c (ls.flatten ++ tail) = .abort k) ∨
    ∃ ts pre post fs, ls = pre ++ post ∧ traces c (ls.flatten ++ tail) = .ok (post.flatten ++ tail, ts) ∧
      LinesOf c post fs ∧ fields c (ls.flatten ++ tail) = .ok (tail, ts ++ fs) := by
  have he : Ended tail := by
    rcases ht with rfl | ⟨b, rfl⟩
    · exact .nil
    · exact .crlf b
  exact fields_plain he ls h

/-- With the feature `mime`, header lines, an empty line and any bytes are always split into header fields and
body. -/
theorem C11_message (hm : c.feat.mime = true) (ls : List Bytes) (body : Bytes)
    (h : ∀ l ∈ ls, ∃ name x w, HeaderText name x w l ∧ (CutName c name → w = x)) :
    (∃ k, parseMessage c (ls.flatten ++ CRLF ++ body) = .abort k) ∨
    ∃ fs, parseMessage c (ls.flatten ++ CRLF ++ body) = .ok (fs, some body) := by
  rw [List.append_assoc]
  rcases C11_block c ls (CRLF ++ body) h (.inr (List.prefix_append _ _)) with ⟨k, hk⟩ | ⟨ts, _, _, fs, -, -, -, hf⟩
  · exact .inl ⟨k, by rw [parseMessage, hk]; rfl⟩
  · exact .inr ⟨_, parseMessage_mime c hm hf⟩

/-- Two folds in one white space, which only the obsolete syntax allows, are not header text in this sense: the
text ends before the first. -/
example :
    fieldTexts (field (Cfg.concrete .default) (b! "X: a\r\n \r\n b\r\n")) =
      some (b! " \r\n b\r\n", "unknown", [b! "X", b! " a"]) := by decide +kernel

end EmailParser
