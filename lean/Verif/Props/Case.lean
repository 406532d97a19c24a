import Verif.Proofs.Case
import Verif.Model.Concrete
/-
C93: the case of letters.
-/
namespace EmailParser
open Spec

variable (c : Cfg)

theorem Caseless.same {α : Type} [Cased α] {p : Bytes → Outcome α} (h : Caseless p) {i i' : Bytes} (hi : SameButCase i i') :
    SameButCase (p i) (p i') := by
  show lower (p i) = lower (p i')
  rw [← h i, ← h i', hi]

theorem same_ok {α : Type} [Cased α] {x : Outcome α} {v : α} (h : SameButCase (.ok v) x) :
    ∃ v', x = .ok v' ∧ SameButCase v v' := by
  cases x with
  | ok v' => exact ⟨v', rfl, Outcome.ok.inj h⟩
  | err e => cases h
  | abort k => cases h

theorem same_err {α : Type} [Cased α] {x : Outcome α} {e : Error} (h : SameButCase (.err e) x) : x = .err e := by
  cases x with
  | ok v' => cases h
  | err e' => rw [Outcome.err.inj (show Outcome.err e = Outcome.err e' from h)]
  | abort k => cases h

theorem same_symm {α : Type} [Cased α] {x y : α} (h : SameButCase x y) : SameButCase y x := Eq.symm h

/-- Without the `mime` feature, changing the case of letters anywhere in a message changes nothing in the result but the case of
letters: the same messages are accepted, the same errors are given for the others, and the e-mails have the same members with the
same number of addresses, words, tokens and traces and the same dates. -/
theorem C93_message (hc : c.feat.compiles) (hm : c.feat.mime = false) {i i' : Bytes} (h : SameButCase i i') :
    (∀ e, Email.parse c i = .ok e → ∃ e', Email.parse c i' = .ok e' ∧ SameButCase e e') ∧
    (∀ x, Email.parse c i = .err x ↔ Email.parse c i' = .err x) ∧
    SameButCase (Email.parse c i) (Email.parse c i') := by
  have hu : c.feat.unrecognizedHeaders = false := by
    cases hu : c.feat.unrecognizedHeaders with
    | false => rfl
    | true => rw [hc.2 hu] at hm; cases hm
  have hs : SameButCase (Email.parse c i) (Email.parse c i') := (parse_low hm hu).same h
  exact ⟨fun e he => same_ok (by rwa [he] at hs), fun x => ⟨fun hx => same_err (by rwa [hx] at hs), fun hx => same_err (by rw [← hx]; exact same_symm hs)⟩, hs⟩

/-- The date of a message does not depend on the case of letters of its header, whatever the features: names of days and months can
be given in any case. -/
theorem C93_date {i i' r : Bytes} {d : DateTime} (h : SameButCase i i') (hd : dateField c i = .ok (r, d)) :
    ∃ r', dateField c i' = .ok (r', d) ∧ SameButCase r r' := by
  have hs : SameButCase (dateField c i) (dateField c i') := Caseless.same (headerLine_low rfl dateTime_low) h
  rw [hd] at hs
  obtain ⟨⟨r', d'⟩, h1, h2⟩ := same_ok hs
  have h2 : ((lower r, d) : Bytes × DateTime) = (lower r', d') := h2
  rw [(Prod.mk.inj h2).2]
  exact ⟨r', h1, (Prod.mk.inj h2).1⟩

/-- The lines of the headers in which there are no encoded words are not affected in another way by the case of letters, whatever the
features: the identifiers and the lines of a trace block. -/
theorem C93_lines {i i' : Bytes} (h : SameButCase i i') :
    SameButCase (messageIdField c i) (messageIdField c i') ∧ SameButCase (inReplyToField c i) (inReplyToField c i') ∧
    SameButCase (referencesField c i) (referencesField c i') ∧ SameButCase (returnPath c i) (returnPath c i') ∧
    SameButCase (received c i) (received c i') :=
  ⟨(headerLine_low (m := _) (m' := _) rfl messageId_low : Caseless (messageIdField c)).same h,
    (headerLine_low (m := _) (m' := _) rfl messageIds_low : Caseless (inReplyToField c)).same h,
    (headerLine_low (m := _) (m' := _) rfl messageIds_low : Caseless (referencesField c)).same h,
    returnPath_low.same h, received_low.same h⟩

/-! ### Examples -/

private def outcome {α : Type} : Outcome α → Option α
  | .ok v => some v
  | _ => none

private def subjectOf (f : Features) (i : Bytes) : Option (Option Bytes) :=
  (outcome (Email.parse (Cfg.concrete f) i)).map (·.subject)

private def words : Bytes := b! "From: a@b\r\nSubject: =?utf-8?b?aidH?=\r\nDate: 1 Jan 2020 00:00:00 +0000\r\n\r\n"
private def wordsLower : Bytes := b! "from: a@b\r\nsubject: =?utf-8?b?aidh?=\r\ndate: 1 jan 2020 00:00:00 +0000\r\n\r\n"

/-- With the `mime` feature the case of letters matters: that of the letters of base64 has a meaning. -/
theorem C93_mime_counterexample : SameButCase words wordsLower ∧ subjectOf .full words = some (some (b! " j'G")) ∧
    ∀ s, subjectOf .full wordsLower = some (some s) → ¬ SameButCase (b! " j'G") s := by
  have h : subjectOf .full wordsLower = some (some (b! " j'a")) := by decide +kernel
  refine ⟨by unfold SameButCase; decide +kernel, by decide +kernel, fun s hs => ?_⟩
  rw [h] at hs
  cases hs
  unfold SameButCase
  decide +kernel

/-- Without the feature the words are not decoded. -/
example : subjectOf .default words = some (some (b! " =?utf-8?b?aidH?=")) ∧
    subjectOf .default wordsLower = some (some (b! " =?utf-8?b?aidh?=")) := by decide +kernel

private def senderOf (i : Bytes) : Option (Option Mailbox × Option Bytes) :=
  (outcome (Email.parse (Cfg.concrete .default) i)).map fun e => (e.sender, e.body)

example : senderOf (b! "FROM: \"Ab\" C <D@e>\r\ndATE: SUN, 1 JAN 2020 00:00:00 +0000\r\n\r\nXy") =
    some (some ⟨some [b! "Ab", b! "C"], ⟨b! "D", b! "e"⟩⟩, some (b! "Xy")) := by decide +kernel

example : senderOf (b! "from: \"aB\" c <d@E>\r\nDate: sun, 1 jan 2020 00:00:00 +0000\r\n\r\nxY") =
    some (some ⟨some [b! "aB", b! "c"], ⟨b! "d", b! "E"⟩⟩, some (b! "xY")) := by decide +kernel

end EmailParser
