import Verif.Proofs.SizeMessage
import Verif.Props.BorrowMessage
/-
C73: what is read takes memory in proportion to the input.
-/
namespace EmailParser
open Spec

theorem copiedBytes_le {α β : Type} [HasStrings α β] (v : α) : copiedBytes v ≤ size v := by
  unfold copiedBytes size
  generalize HasStrings.strings v = l
  induction l with
  | nil => exact Nat.le_refl _
  | cons t l ih =>
    rw [List.map_cons, List.map_cons, List.sum_cons, List.sum_cons]
    cases t with
    | borrowed a n => exact Nat.add_le_add (Nat.zero_le _) ih
    | owned x => exact Nat.add_le_add (Nat.le_succ _) ih

/-- If a byte becomes at most `k` bytes of UTF-8 in the conversions from charsets (and at least 2 are allowed, because of
quoted-printable), then the strings of an e-mail are together at most `k + 1` times as long as the message; only the literals
for a missing type and the sender, which may be a second copy of the author, come in addition.  One byte is counted for each
string, so that their number is bounded, too. -/
theorem C73_email (c : Cfg) (k : Nat) (hk : 2 ≤ k) (hc : TextcodeAtMost k c) (p : Place) (l : Literals) (data : Bytes)
    (e : CowEmail) (h : CowEmail.parse c p l data = .ok e) :
    size e ≤ (k + 1) * data.length + size e.sender + 24 ∧ size e.sender ≤ (k + 1) * data.length :=
  cowEmail_gives (converts hk hc) l data e h

/-- In particular the bytes that are copied. -/
theorem C73_copied (c : Cfg) (k : Nat) (hk : 2 ≤ k) (hc : TextcodeAtMost k c) (p : Place) (l : Literals) (data : Bytes)
    (e : CowEmail) (h : CowEmail.parse c p l data = .ok e) : copiedBytes e ≤ 2 * ((k + 1) * data.length) + 24 := by
  have := C73_email c k hk hc p l data e h
  have := copiedBytes_le e
  omega

/-- The same for MIME entities, from borrowed and from owned inputs. -/
theorem C73_entity (c : Cfg) (k : Nat) (hk : 2 ≤ k) (hc : TextcodeAtMost k c) (p : Place) (l : Literals) (i : Bytes)
    (e : CowRawEntity) (h : cowRawEntity c p l i = .ok e ∨ cowRawEntityOwned c p l i = .ok e) :
    size e ≤ (k + 1) * i.length + 24 := by
  rcases h with h | h
  · exact cowRawEntity_gives (converts hk hc) l i e h
  · exact cowRawEntityOwned_gives (converts hk hc) l i e h

/-- All parts of a multipart entity together, whatever their number is; and the text of a text entity. -/
theorem C73_parse (c : Cfg) (k : Nat) (hk : 2 ≤ k) (hc : TextcodeAtMost k c) (p : Place) (l : Literals) (raw : CowRawEntity)
    (value : Bytes) (e : CowEntity) (h : raw.parse c p l value = .ok e) :
    size e ≤ size raw.subtype + (k + 7) * value.length + 1 :=
  cowEntityParse_gives (converts hk hc) l raw value e h

/-- Bodies do get three times as long: each byte that is not allowed in quoted-printable becomes three. -/
theorem C73_growth (n : Nat) : ∃ v, decodeQp (List.replicate n 0) = .ok v ∧ v.length = 3 * n := by
  refine ⟨_, decodeQp_eq _, ?_⟩
  induction n with
  | zero => rfl
  | succ n ih =>
    have e : qpDecode (List.replicate (n + 1) 0) = replacement ++ qpDecode (List.replicate n 0) := by
      rw [List.replicate_succ]
      simp [qpDecode, qpLiteral]
    rw [e, List.length_append, ih]
    show 3 + 3 * n = _
    omega

/-! ### Examples -/

/-- The assumption holds for the configuration of the examples. -/
theorem concrete_textcode (f : Features) : TextcodeAtMost 2 (Cfg.concrete f) := fun _ bytes =>
  Nat.le_trans (List.length_filter_le ..) (by omega)

/-- Sizes and copied bytes, with the length of the message. -/
def emailSizes (c : Cfg) (text : Bytes) : Outcome (Nat × Nat × Nat × Nat) :=
  mapOutcome (fun e => (text.length, size e, size e.sender, copiedBytes e))
    (CowEmail.parse c (messagePlace text) messageLiterals text)

/-- Most of the message is not copied: only the folded subject is. -/
example : emailSizes (Cfg.concrete .full) (b! "From: Ann <ann@example.org>\r\nDate: 5 May 2003 18:59:03 +0000\r\nSubject: Hi\r\n you\r\nTo: bob@b.org\r\n\r\nHello") =
    .ok (103, 87, 20, 7) := by decide +kernel

/-- A body that gets longer, in an e-mail. -/
example : emailSizes (Cfg.concrete .full) (b! "From: a@b\r\nDate: 5 May 2003 18:59:03 +0000\r\nContent-Transfer-Encoding: quoted-printable\r\n\r\n" ++ List.replicate 100 0) =
    .ok (191, 332, 4, 300) := by decide +kernel

/-- The theorem, applied to it: `332 ≤ 3 * 191 + 4 + 24`. -/
example (e : CowEmail) (text : Bytes) (h : text = b! "From: a@b\r\nDate: 5 May 2003 18:59:03 +0000\r\n\r\n")
    (he : CowEmail.parse (Cfg.concrete .full) (messagePlace text) messageLiterals text = .ok e) :
    size e ≤ 3 * 46 + size e.sender + 24 := by
  have := (C73_email _ 2 (by decide) (concrete_textcode .full) _ _ _ _ he).1
  rw [h] at this
  exact this

/-- The entity, its owned form, and its parts. -/
example : mapOutcome size (cowRawEntity (Cfg.concrete .full) (messagePlace multipartText) messageLiterals multipartText) =
    .ok 115 := by decide +kernel

example : mapOutcome (fun e => (size e, copiedBytes e))
    (cowRawEntityOwned (Cfg.concrete .full) (messagePlace multipartText) messageLiterals multipartText) = .ok (115, 111) := by
  decide +kernel

example : mapOutcome (fun e => (size e, copiedBytes e))
    (multipartEntity.parse (Cfg.concrete .full) (messagePlace multipartText) messageLiterals (multipartText.drop 45)) =
      .ok (64, 3) := by decide +kernel

end EmailParser
