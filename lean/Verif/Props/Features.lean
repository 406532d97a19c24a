import Verif.Proofs.FeatureEmail
import Verif.Props.Text
/-
C70: the Cargo features do not interfere with each other.
-/
namespace EmailParser
open Spec

variable (c : Cfg) (f : Features)

/-- When two builds of the library accept the same message, they agree on everything that both report: the members
of the result that exist in both are the same, and so are the unknown fields, apart from those of the headers that
only one of them recognises.  Of the features `mime` and `unrecognized-headers` it is required that they are the same
in both or that the header section has no encoded words, since the latter are decoded only with these. -/
theorem C70_same (hc : c.feat.compiles) (hf : f.compiles) (hcf : f.compatibilityFixes = c.feat.compatibilityFixes)
    (i : Bytes) (e e' : Email) (h : Email.parse c i = .ok e) (h' : Email.parse { c with feat := f } i = .ok e')
    (hw : (f.mime = c.feat.mime ∧ f.unrecognizedHeaders = c.feat.unrecognizedHeaders) ∨ NoEncodedWords i) :
    SameMembers c.feat f e e' := by
  rw [parse_switch hcf] at h'
  have hs := switch_feat hcf
  obtain ⟨w, t, fs, b, rfl, ht, h1, h2, hh, -, -, h3⟩ := parse_parts hc h
  obtain ⟨w', t', fs', b', e', ht', h1', h2', -, -, -, h3'⟩ := parse_parts (by rw [hs]; exact hf) h'
  have hu : Usual c f w := hw.imp id fun hw => noEncodedWords_head hw hh
  obtain ⟨rfl, hm⟩ := fields_matched h1 h1' ht ht' hu
  have := sameMembers hc (by rw [hs]; exact hf) hm h2 h2' h3 h3'
  rwa [hs] at this

/-- Leaving out features for headers does no harm: a message made of header lines in the sense of RFC 5322 that is
accepted is accepted with fewer of these features too, and what is reported of the others is the same. -/
theorem C70_fewer (hc : c.feat.compiles) (hf : f.compiles) (hff : FewerHeaders f c.feat) (ls : List Bytes) (t : Bytes)
    (hls : ∀ l ∈ ls, ∃ name x w, HeaderText name x w l) (ht : t = [] ∨ CRLF <+: t)
    (e : Email) (h : Email.parse c (ls.flatten ++ t) = .ok e) :
    ∃ e', Email.parse { c with feat := f } (ls.flatten ++ t) = .ok e' ∧ SameMembers c.feat f e e' := by
  have hs := switch_feat (c := c) hff.compatibilityFixes
  have : ∃ e', Email.parse { c with feat := f } (ls.flatten ++ t) = .ok e' := by
    rw [parse_switch hff.compatibilityFixes]
    exact parse_fewer hc (by rw [hs]; exact hf) (by rw [hs]; exact hff) hls (by
      rcases ht with rfl | ⟨u, rfl⟩
      · exact .nil
      · exact .crlf u) h
  obtain ⟨e', he'⟩ := this
  exact ⟨e', he', C70_same c f hc hf hff.compatibilityFixes _ _ _ h he' (.inl ⟨hff.mime, hff.unrecognizedHeaders⟩)⟩

/-- The condition on the lines is needed: a name may be folded so that a line has only white space (an obsolete
form), and unknown fields may not. -/
theorem C70_folded_name : ∃ (c : Cfg) (f : Features) (i : Bytes) (e : Email), c.feat.compiles ∧ f.compiles ∧
    FewerHeaders f c.feat ∧ Email.parse c i = .ok e ∧
    ∃ er, Email.parse { c with feat := f } i = .err er := by
  let i := b! "From: a@b\r\nDate: 1 Jan 2020 00:00 +0000\r\nTo: A\r\n \r\n B <c@d>\r\n"
  have h1 : (outcomeValue (Email.parse (Cfg.concrete .default) i)).isSome = true := by decide +kernel
  have h2 : (outcomeError (Email.parse (Cfg.concrete { Features.default with to := false }) i)).isSome = true := by
    decide +kernel
  obtain ⟨e, he⟩ := Option.isSome_iff_exists.1 h1
  obtain ⟨er, her⟩ := Option.isSome_iff_exists.1 h2
  refine ⟨Cfg.concrete .default, { Features.default with to := false }, i, e, ⟨by decide, by decide⟩, ⟨by decide, by decide⟩, ?_, ?_, er, ?_⟩
  · constructor <;> decide
  · generalize Email.parse (Cfg.concrete .default) i = x at he
    cases x <;> cases he
    rfl
  · show Email.parse (Cfg.concrete { Features.default with to := false }) i = .err er
    generalize Email.parse (Cfg.concrete { Features.default with to := false }) i = x at her
    cases x <;> cases her
    rfl

/-! ### Examples -/

/-- The same message with all headers recognised and with only two: the members that are left are the same, and the
other headers are unknown fields. -/
def featuresExample : Bytes :=
  b! "Received: x; 1 Jan 2020 00:00 +0000\r\nFrom: a@b\r\nDate: 1 Jan 2020 00:00 +0000\r\nTo: c@d\r\nX-Y: z\r\n\r\nbody"

/-- Only `From` and `Subject`. -/
def fromFeatures : Features :=
  { Features.default with
    to := false, cc := false, bcc := false, date := false, sender := false, replyTo := false, messageId := false,
    inReplyTo := false, references := false, comments := false, keywords := false, trace := false }

example : (outcomeValue (Email.parse (Cfg.concrete .default) featuresExample)).map
      (fun e => (e.from.map (·.map (·.address.localPart)), e.to.isSome, e.trace.length)) =
    some (some [b! "a"], true, 1) := by decide +kernel

example : (outcomeValue (Email.parse (Cfg.concrete .default) featuresExample)).map
      (fun e => (e.unknownFields, e.body)) =
    some ([(b! "X-Y", b! " z")], some (b! "body")) := by decide +kernel

example : (outcomeValue (Email.parse (Cfg.concrete fromFeatures) featuresExample)).map
      (fun e => (e.from.map (·.map (·.address.localPart)), e.to.isSome, e.trace.length)) =
    some (some [b! "a"], false, 0) := by decide +kernel

example : (outcomeValue (Email.parse (Cfg.concrete fromFeatures) featuresExample)).map
      (fun e => (e.unknownFields, e.body)) =
    some ([(b! "Received", b! " x; 1 Jan 2020 00:00 +0000"),
      (b! "Date", b! " 1 Jan 2020 00:00 +0000"), (b! "To", b! " c@d"), (b! "X-Y", b! " z")], some (b! "body")) := by
  decide +kernel

/-- The message above is one to which `C70_fewer` applies. -/
example : ∃ ls : List Bytes, featuresExample = ls.flatten ++ b! "\r\nbody" ∧
    (∀ l ∈ ls, ∃ name x w, HeaderText name x w l) ∧ ls.length = 5 ∧ FewerHeaders fromFeatures .default := by
  refine ⟨[b! "Received: x; 1 Jan 2020 00:00 +0000\r\n", b! "From: a@b\r\n", b! "Date: 1 Jan 2020 00:00 +0000\r\n",
    b! "To: c@d\r\n", b! "X-Y: z\r\n"], by decide +kernel, ?_, rfl, by constructor <;> decide⟩
  have key : ∀ name x l : Bytes, l = name ++ b! ":" ++ x ++ CRLF → name ≠ [] → (∀ b ∈ name, ftext b = true) →
      (∀ b ∈ x, vchar b = true ∨ wsp b = true) → ∃ name x w, HeaderText name x w l :=
    fun name x l h1 h2 h3 h4 => ⟨name, x, x, h1, h2, h3, printable_folding x h4⟩
  simp only [List.mem_cons, List.not_mem_nil, or_false]
  rintro l (rfl | rfl | rfl | rfl | rfl)
  · exact key (b! "Received") (b! " x; 1 Jan 2020 00:00 +0000") _ rfl (by decide) (by decide +kernel) (by decide +kernel)
  · exact key (b! "From") (b! " a@b") _ rfl (by decide) (by decide +kernel) (by decide +kernel)
  · exact key (b! "Date") (b! " 1 Jan 2020 00:00 +0000") _ rfl (by decide) (by decide +kernel) (by decide +kernel)
  · exact key (b! "To") (b! " c@d") _ rfl (by decide) (by decide +kernel) (by decide +kernel)
  · exact key (b! "X-Y") (b! " z") _ rfl (by decide) (by decide +kernel) (by decide +kernel)

/-- The encoded words in a header that is not recognised are decoded only with the features for it, so without the
condition on encoded words the unknown fields may differ. -/
example : (outcomeValue (Email.parse (Cfg.concrete { fromFeatures with mime := true, unrecognizedHeaders := true })
      (b! "From: a@b\r\nX: =?utf-8?q?y?=\r\n"))).map (·.unknownFields) = some [(b! "X", b! " y")] ∧
    (outcomeValue (Email.parse (Cfg.concrete { fromFeatures with mime := true })
      (b! "From: a@b\r\nX: =?utf-8?q?y?=\r\n"))).map (·.unknownFields) = some [(b! "X", b! " =?utf-8?q?y?=")] := by
  decide +kernel

end EmailParser
