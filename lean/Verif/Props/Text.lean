import Verif.Proofs.Complete.Print
import Verif.Props.QuotedPrintable
import Verif.Props.Base64
import Verif.Props.Email
import Verif.Proofs.Utf8
/-
C28, C45 and C52: unstructured text, its folding, and encoded words.
-/
namespace EmailParser
open Spec

variable (c : Cfg)

/-! ### C28 -/

/-- Without encoded words: a text folded in any way is recovered without the line breaks of the folds,
and without the white space at its end. -/
theorem C28_unfolding (x w r : Bytes) (h : Folding x w) (hf : NoFws r) (hr : Stops vchar r) :
    unstructured (w ++ r) = .ok (r, trimEnd x) := by
  obtain ⟨s, vs, t, rfl, hs, ht, rfl⟩ := folding_parts h
  rw [trimEnd_append ht (textParts_last hs)]
  exact unstructured_append ⟨s, t ++ [], vs, by simp, hs, t, [], t, rfl, ⟨rfl, ht⟩, rfl, rfl⟩ hf hr

/-- The same when encoded words are decoded, if the text does not contain `=?`. -/
theorem C28_unfolding_mime (x w r : Bytes) (h : Folding x w) (hno : ¬ b! "=?" <:+: x) (hf : NoFws r)
    (hr : Stops vchar r) : mimeUnstructured c (w ++ r) = .ok (r, trimEnd x) := by
  obtain ⟨s, vs, t, rfl, hs, ht, rfl⟩ := folding_parts h
  rw [trimEnd_append ht (textParts_last hs)]
  obtain ⟨ps, hps, hj⟩ := layout_plain (c := c) _ s vs (Nat.le_refl _) hs
    (fun hi => hno (hi.trans (List.prefix_append _ _).isInfix))
  rw [List.append_assoc, mimeUnstructured_append hps ht hf hr, hj]

theorem printable_folding (x : Bytes) (h : Printable x) : Folding x x := by
  have : ∀ x ws : Bytes, Printable x → (∀ b ∈ ws, wsp b = true) → Folding (ws ++ x) (ws ++ x) := by
    intro x
    induction x with
    | nil =>
      intro ws _ hws
      exact .space hws stops_nil .nil
    | cons b x ih =>
      intro ws hx hws
      have hx' : Printable x := fun b hb => hx b (List.mem_cons_of_mem _ hb)
      rcases hx b (by simp) with hb | hb
      · exact .space hws (stops_cons.mpr (vchar_noSpace b hb).1)
          (.char hb (by simpa using ih [] hx' (by simp)))
      · have := ih (ws ++ [b]) hx' (by
          intro y hy
          rcases List.mem_append.mp hy with hy | hy
          · exact hws y hy
          · rw [List.mem_singleton.mp hy]
            exact hb)
        simpa using this
  simpa using this x [] h (by simp)

/-- Every text of printable characters, spaces and tabs, unfolded: only the white space at the end is
dropped. -/
theorem C28_plain_text (x r : Bytes) (h : Printable x) (hf : NoFws r) (hr : Stops vchar r) :
    unstructured (x ++ r) = .ok (r, trimEnd x) :=
  C28_unfolding x x r (printable_folding x h) hf hr

/-- Line breaks of folds are removed, and nothing else but white space at the end: the value of a text of
the grammar is the text without CRLF and without the white space at its end. -/
theorem C28_value (w v r : Bytes) (h : unstructured (w ++ r) = .ok (r, v)) :
    ∃ t, (∀ b ∈ t, wsp b = true) ∧ (v ++ t).filter (fun b => b != 13 && b != 10) =
      w.filter (fun b => b != 13 && b != 10) ∧ v = v.filter (fun b => b != 13 && b != 10) := by
  have hs := unstructured_parses (A := Aborts.none) (w ++ r)
  rw [h] at hs
  obtain ⟨w', hw, hg⟩ := hs
  have : w = w' := List.append_cancel_right hw
  subst this
  obtain ⟨s, _, vs, rfl, hs, _, _, t, rfl, ⟨rfl, ht⟩, rfl, rfl⟩ := hg
  have hwsp : ∀ l : Bytes, (∀ b ∈ l, wsp b = true) → l.filter (fun b => b != 13 && b != 10) = l := by
    intro l hl
    rw [List.filter_eq_self]
    have key : ∀ b, wsp b = true → (b != 13 && b != 10) = true := by decide +kernel
    exact fun b hb => key b (hl b hb)
  have key : ∀ {s : Bytes} {vs : List Bytes}, Gram.star TextPart s vs →
      vs.flatten = s.filter (fun b => b != 13 && b != 10) := by
    intro s vs hs
    induction hs with
    | nil => rfl
    | cons hp hs ih =>
      obtain ⟨g, _, gv, rfl, hg, x, _, y, rfl, ⟨rfl, -, hy⟩, rfl, rfl⟩ := hp
      have h1 : y.filter (fun b => b != 13 && b != 10) = y := by
        rw [List.filter_eq_self]
        have key : ∀ b, vchar b = true → (b != 13 && b != 10) = true := by decide +kernel
        exact fun b hb => key b (hy b hb)
      have h2 : gv = g.filter (fun b => b != 13 && b != 10) := by
        obtain ⟨o, rfl, ⟨rfl, rfl⟩ | ⟨a, rfl, hg⟩⟩ := hg
        · rfl
        · rcases hg with ⟨_, _, a, rfl, ⟨rfl, ha⟩, _, _, ⟨⟩, rfl, rfl, _, _, b, rfl, ⟨rfl, hne, hb⟩, rfl, rfl⟩ |
            ⟨rfl, hne, h⟩
          · simp only [List.filter_append, hwsp _ ha, hwsp _ hb]
            simp
          · exact (hwsp _ h).symm
      simp only [List.flatten_cons, List.filter_append, h1, ← h2, ih, List.append_nil]
  refine ⟨t, ht, ?_, ?_⟩
  · rw [key hs]
    simp
  · rw [key hs]
    simp

/-- Two folds, white space of both kinds, white space at the end. -/
example : outcomeValue (unstructured (b! " This is\r\n\ta \r\n  folded  text. \t\r\nX: y")) =
    some (b! "\r\nX: y", b! " This is\ta   folded  text.") := by decide +kernel

example : Folding (b! " This is\ta   folded  text. \t") (b! " This is\r\n\ta \r\n  folded  text. \t") := by
  refine .space (s := [32]) (by decide +kernel) (stops_cons.mpr (by decide)) ?_
  iterate 4 refine .char (by decide) ?_
  refine .space (s := [32]) (by decide +kernel) (stops_cons.mpr (by decide)) ?_
  iterate 2 refine .char (by decide) ?_
  refine .fold (s := []) (s' := [9]) (by simp) (by decide +kernel) (by simp) (by simp)
    (stops_cons.mpr (by decide)) ?_
  refine .char (by decide) ?_
  refine .fold (s := [32]) (s' := [32, 32]) (by decide +kernel) (by decide +kernel) (by simp) (by simp)
    (stops_cons.mpr (by decide)) ?_
  iterate 6 refine .char (by decide) ?_
  refine .space (s := [32, 32]) (by decide +kernel) (stops_cons.mpr (by decide)) ?_
  iterate 5 refine .char (by decide) ?_
  exact .space (s := [32, 9]) (x := []) (by decide +kernel) stops_nil .nil

/-- Two line breaks in one run of white space (obsolete syntax): the text ends at the second. -/
example : outcomeValue (unstructured (b! "a \r\n \r\n b\r\n")) = some (b! "\r\n \r\n b\r\n", b! "a") := by
  decide +kernel

/-! ### C45 -/

/-- The general statement: a text read as pieces gives the pieces, with the white space before a piece
dropped exactly if that piece and the one before it are both encoded words. -/
theorem C45_pieces (s t r : Bytes) (ps : List Piece) (hs : Layout c s ps) (ht : ∀ b ∈ t, wsp b = true)
    (hf : NoFws r) (hr : Stops vchar r) :
    mimeUnstructured c (s ++ t ++ r) = .ok (r, joinPieces false ps) := by
  rw [List.append_assoc]
  exact mimeUnstructured_append hs ht hf hr

/-- Every text has such a reading. -/
theorem C45_pieces_exist (w v : Bytes) (h : Unstructured w v) :
    ∃ s t ps, w = s ++ t ∧ Layout c s ps ∧ ∀ b ∈ t, wsp b = true := by
  obtain ⟨s, _, vs, rfl, hs, _, _, t, rfl, ⟨rfl, ht⟩, rfl, rfl⟩ := h
  obtain ⟨ps, hps⟩ := layout_exists (c := c) _ s vs (Nat.le_refl _) hs
  exact ⟨s, t, ps, by simp, hps, ht⟩

/-- White space between two encoded words is dropped, folded or not. -/
theorem C45_between_encoded (w₁ v₁ f fv w₂ v₂ r : Bytes) (h1 : EncodedWord c w₁ v₁) (hf : OptFws f fv)
    (h2 : EncodedWord c w₂ v₂) (hr : NoFws r) (hr' : Stops vchar r) :
    mimeUnstructured c (w₁ ++ f ++ w₂ ++ r) = .ok (r, v₁ ++ v₂) := by
  have := C45_pieces c _ [] r _ (.encoded (optFws_wsp (ws := []) (by simp)) h1
    (.encoded hf h2 .nil)) (by simp) hr hr'
  simpa [joinPieces] using this

/-- White space between an encoded word and plain text is kept. -/
theorem C45_encoded_plain (w v f fv x r : Bytes) (h1 : EncodedWord c w v) (hf : Fws f fv)
    (hne : x ≠ []) (hx : ∀ b ∈ x, vchar b = true) (hno : ∀ p v, p <+: x → ¬ EncodedWord c p v)
    (hr : NoFws r) (hr' : Stops vchar r) :
    mimeUnstructured c (w ++ f ++ x ++ r) = .ok (r, v ++ fv ++ x) := by
  have := C45_pieces c _ [] r _ (.encoded (optFws_wsp (ws := []) (by simp)) h1
    (.plain ⟨some fv, rfl, .inr ⟨fv, rfl, hf⟩⟩ hne hx hno stops_nil .nil)) (by simp) hr hr'
  simpa [joinPieces] using this

/-- White space between plain text and an encoded word is kept. -/
theorem C45_plain_encoded (x f fv w v r : Bytes) (hne : x ≠ []) (hx : ∀ b ∈ x, vchar b = true)
    (hno : ∀ p v, p <+: x → ¬ EncodedWord c p v) (hf : Fws f fv) (h : EncodedWord c w v)
    (hr : NoFws r) (hr' : Stops vchar r) :
    mimeUnstructured c (x ++ f ++ w ++ r) = .ok (r, x ++ fv ++ v) := by
  have hst : Stops vchar (f ++ (w ++ [])) := by
    obtain ⟨b, t, rfl, hb⟩ := fws_head hf
    exact stops_cons.mpr (space_not_vchar b hb)
  have := C45_pieces c _ [] r _ (.plain (optFws_wsp (ws := []) (by simp)) hne hx hno hst
    (.encoded ⟨some fv, rfl, .inr ⟨fv, rfl, hf⟩⟩ h .nil)) (by simp) hr hr'
  simpa [joinPieces] using this

/-- From RFC 2047, section 8. -/
example : outcomeValue (mimeUnstructured (Cfg.concrete .default)
    (b! "x =?utf-8?Q?a?=\r\n    =?UTF-8?b?Yg==?= (=?utf-8?q?c?=) =?utf-8?q?d?= e\r\n")) =
    some (b! "\r\n", b! "x ab (=?utf-8?q?c?=) d e") := by decide +kernel

/-! ### C52 -/

/-- An encoded word with charset UTF-8, in any case. -/
def encodeWord (charset encoding text : Bytes) : Bytes :=
  b! "=?" ++ charset ++ b! "?" ++ encoding ++ b! "?" ++ text ++ b! "?="

theorem qEncode_chars (data : Bytes) : ∀ b ∈ qEncode data, encodedTextChar b = true := by
  intro b hb
  obtain ⟨x, -, hx⟩ := List.mem_flatMap.mp hb
  split at hx
  · rw [List.mem_singleton.mp hx]
    decide
  · split at hx
    · rename_i h
      rw [List.mem_singleton.mp hx]
      have key : ∀ c : UInt8, (33 ≤ c && c ≤ 126 && c != 61 && c != 63 && c != 95) = true →
          encodedTextChar c = true := by decide +kernel
      exact key x h
    · have key : ∀ c : UInt8, (escape c).all encodedTextChar = true := by decide +kernel
      exact List.all_eq_true.mp (key x) b hx

theorem qEncode_ne_nil {data : Bytes} (h : data ≠ []) : qEncode data ≠ [] := by
  cases data with
  | nil => exact absurd rfl h
  | cons x s =>
    have key : ∀ c : UInt8, (if c = 32 then [95]
      else if 33 ≤ c && c ≤ 126 && c != 61 && c != 63 && c != 95 then [c] else escape c) ≠ [] := by
      decide +kernel
    intro e
    have : qEncode (x :: s) = _ ++ qEncode s := List.flatMap_cons
    rw [this, List.append_eq_nil_iff] at e
    exact key x e.1

theorem b64Encode_chars (data : Bytes) : ∀ b ∈ b64Encode data, encodedTextChar b = true := by
  obtain ⟨-, body, pad, h, hb, hp⟩ := b64Encode_shape data
  rw [h]
  have key : ∀ c : UInt8, alphabet.contains c = true → encodedTextChar c = true := by decide +kernel
  intro b hb'
  rcases List.mem_append.mp hb' with h' | h'
  · exact key b (hb b h')
  · rw [hp] at h'
    rw [List.eq_of_mem_replicate h']
    decide

theorem charsetUtf8_chars {cs : Bytes} (h : cs.map asciiLower = b! "utf-8") :
    cs ≠ [] ∧ ∀ b ∈ cs, charsetChar b = true := by
  constructor
  · rintro rfl
    cases h
  · intro b hb
    have h1 : asciiLower b ∈ cs.map asciiLower := List.mem_map_of_mem hb
    rw [h] at h1
    have key : ∀ b, asciiLower b ∈ b! "utf-8" → charsetChar b = true := by decide +kernel
    exact key b h1

theorem encodeWord_eq {cs enc text r : Bytes} (hcs : cs.map asciiLower = b! "utf-8")
    (henc : enc.map asciiLower = b! "b" ∨ enc.map asciiLower = b! "q") (hne : text ≠ [])
    (ht : ∀ b ∈ text, encodedTextChar b = true) :
    encodedWord c (encodeWord cs enc text ++ r) =
      (decodeWord c (b! "utf-8") (enc.map asciiLower) text).bind fun v => .ok (r, v) := by
  obtain ⟨h1, h2⟩ := charsetUtf8_chars hcs
  obtain ⟨h3, h4⟩ := encodingName_chars henc
  have := encodedWord_eq (c := c) (lang := []) (r := r) h1 h2 (.inl rfl) h3 h4 hne ht
  rw [lowercase, lowercase, hcs] at this
  rw [← this]
  simp [encodeWord]

/-- The text that stands for some bytes in each of the two encodings, whose name may be in any case. -/
def Encodes (enc data text : Bytes) : Prop :=
  (enc.map asciiLower = b! "b" ∧ text = b64Encode data) ∨
  (enc.map asciiLower = b! "q" ∧ text = qEncode data)

theorem decodeWord_utf8 {enc data text : Bytes} (h : Encodes enc data text) :
    decodeWord c (b! "utf-8") (enc.map asciiLower) text =
      if utf8Valid data then .ok data else .err (.unknown "Invalid text encoding") := by
  have ht : decodeWord.decodeTransfer (enc.map asciiLower) text = .ok data := by
    unfold decodeWord.decodeTransfer
    rcases h with ⟨h, rfl⟩ | ⟨h, rfl⟩
    · rw [h, if_pos (by decide), decodeBase64_eq, b64Decode_encode]
    · rw [h, if_neg (by decide), if_pos (by decide), C36_q_round_trip]
  unfold decodeWord
  simp only [ht, ok_bind, decodeCharset, show (b! "utf-8" == b! "utf-8") = true from rfl, Bool.true_or,
    if_true]

theorem encodes_text {enc data text : Bytes} (h : Encodes enc data text) (hd : data ≠ []) :
    text ≠ [] ∧ ∀ b ∈ text, encodedTextChar b = true := by
  rcases h with ⟨-, rfl⟩ | ⟨-, rfl⟩
  · exact ⟨b64Encode_ne_nil hd, b64Encode_chars data⟩
  · exact ⟨qEncode_ne_nil hd, qEncode_chars data⟩

/-- An encoded word for valid UTF-8 decodes to it, whatever follows. -/
theorem C52_decodes (cs enc data text r : Bytes) (hcs : cs.map asciiLower = b! "utf-8")
    (h : Encodes enc data text) (hd : data ≠ []) (hv : Utf8 data) :
    encodedWord c (encodeWord cs enc text ++ r) = .ok (r, data) := by
  obtain ⟨h1, h2⟩ := encodes_text h hd
  rw [encodeWord_eq c hcs (h.imp And.left And.left) h1 h2, decodeWord_utf8 c h,
    if_pos ((utf8Valid_iff _).mpr hv)]
  rfl

/-- An encoded word for anything else is left as it is: in unstructured text it is plain text. -/
theorem C52_invalid_kept (cs enc data text r : Bytes) (hcs : cs.map asciiLower = b! "utf-8")
    (h : Encodes enc data text) (hd : data ≠ []) (hv : ¬ Utf8 data) (hf : NoFws r)
    (hr : Stops vchar r) :
    (∃ e, encodedWord c (encodeWord cs enc text ++ r) = .err e) ∧
    mimeUnstructured c (encodeWord cs enc text ++ r) = .ok (r, encodeWord cs enc text) := by
  obtain ⟨h1, h2⟩ := encodes_text h hd
  have hv' : ¬ utf8Valid data = true := fun h' => hv ((utf8Valid_iff _).mp h')
  have key : ∀ r, ∃ e, encodedWord c (encodeWord cs enc text ++ r) = .err e := fun r =>
    ⟨_, by rw [encodeWord_eq c hcs (h.imp And.left And.left) h1 h2, decodeWord_utf8 c h, if_neg hv']; rfl⟩
  refine ⟨key r, ?_⟩
  have hvc : ∀ b ∈ encodeWord cs enc text, vchar b = true := by
    obtain ⟨-, h4⟩ := charsetUtf8_chars hcs
    obtain ⟨-, h6⟩ := encodingName_chars (enc := enc) (h.imp And.left And.left)
    have k1 : ∀ b, charsetChar b = true → vchar b = true := by decide +kernel
    have k2 : ∀ b, encodingChar b = true → vchar b = true := by decide +kernel
    have k3 : ∀ b, encodedTextChar b = true → vchar b = true := by decide +kernel
    intro b hb
    simp only [encodeWord, List.mem_append] at hb
    rcases hb with (((((hb | hb) | hb) | hb) | hb) | hb) | hb
    · revert hb b; decide +kernel
    · exact k1 b (h4 b hb)
    · revert hb b; decide +kernel
    · exact k2 b (h6 b hb)
    · revert hb b; decide +kernel
    · exact k3 b (h2 b hb)
    · revert hb b; decide +kernel
  have hno : ∀ p v, p <+: encodeWord cs enc text → ¬ EncodedWord c p v := by
    rintro p v ⟨s, hs⟩ hg
    obtain ⟨e, he⟩ := key []
    rw [List.append_nil, ← hs, encodedWord_append hg] at he
    cases he
  have := C45_pieces c _ [] r _ (.plain (optFws_wsp (ws := []) (by simp))
    (by simp [encodeWord]) hvc hno stops_nil .nil) (by simp) hf hr
  simpa [joinPieces] using this

/-- The text é€😀 in both encodings. -/
example : outcomeValue (mimeUnstructured (Cfg.concrete .default)
    (encodeWord (b! "UTF-8") (b! "B") (b64Encode [0xC3, 0xA9, 0xE2, 0x82, 0xAC, 0xF0, 0x9F, 0x98, 0x80]) ++
      b! " " ++ encodeWord (b! "utf-8") (b! "q")
        (qEncode [0xC3, 0xA9, 0x20, 0xE2, 0x82, 0xAC, 0xF0, 0x9F, 0x98, 0x80]) ++ b! "\r\n")) =
    some (b! "\r\n", [0xC3, 0xA9, 0xE2, 0x82, 0xAC, 0xF0, 0x9F, 0x98, 0x80, 0xC3, 0xA9, 0x20, 0xE2, 0x82, 0xAC,
      0xF0, 0x9F, 0x98, 0x80]) := by decide +kernel

/-- A surrogate is not UTF-8; an encoded word without text is not recognised. -/
example : outcomeValue (mimeUnstructured (Cfg.concrete .default)
    (encodeWord (b! "utf-8") (b! "q") (qEncode [0xED, 0xA0, 0x80]) ++ b! " =?utf-8?q??=\r\n")) =
    some (b! "\r\n", b! "=?utf-8?q?=ED=A0=80?= =?utf-8?q??=") := by decide +kernel

end EmailParser
