import Verif.Proofs.BorrowEntity
import Verif.Props.Borrow
/-
C71: the strings of an e-mail are slices of the input.
C72: the strings of MIME entities are slices of the input, or all owned if the input is.
-/
namespace EmailParser
open Spec

/-! ### C71 -/

/-- The strings of the e-mail have the contents that the rest of the model describes, wherever the message is in the
memory; the errors are the same, too. -/
theorem C71_contents (c : Cfg) (p : Place) (l : Literals) (hl : LiteralsAt p.memory l) (data : Bytes) (hd : At p data) :
    mapOutcome (HasStrings.content p.memory) (CowEmail.parse c p l data) = Email.parse c data :=
  (cowEmail_good hl hd).mapOutcome fun _ _ ⟨_, _, _, _, _, _, _, _, h⟩ => h.contents

theorem body_within {p : Place} {data head rest : Bytes} (hd : At p data) (hw : data = head ++ rest) {v : Option Bytes}
    {s : Option CowStr} (hb : BodyGood p rest v s) : Within (p.addr data) p.stop (s.getD (emptyString p.empty)) := by
  rcases hb with ⟨-, -, rfl⟩ | ⟨body, rfl, -, rfl⟩
  · exact .inl rfl
  · have h1 := hd.1
    have h2 : data.length = head.length + (body.length + 2) := by rw [hw]; simp
    refine .inr ⟨?_, ?_⟩ <;> unfold Place.addr <;> omega

/-- Every string of the e-mail is owned, one of the literals for missing MIME headers, or a slice of the input: nothing
outside of the input is ever referred to. -/
theorem C71_inside (c : Cfg) (p : Place) (l : Literals) (hl : LiteralsAt p.memory l) (data : Bytes) (hd : At p data)
    (e : CowEmail) (h : CowEmail.parse c p l data = .ok e) :
    ∀ t ∈ HasStrings.strings e, IsLiteral l t ∨ Within (p.addr data) p.stop t := by
  obtain ⟨v, -, head, rest, fs, body, body', hw, -, hb, hv⟩ := (cowEmail_good hl hd).left h
  intro t ht
  rcases hv.strings t ht with (h | h) | ⟨r, hr, rfl⟩
  · exact .inl h
  · exact .inr h.1
  · refine .inr ?_
    rcases hv.value r hr with h | ⟨h, -⟩
    · rw [h]
      exact body_within hd hw hb
    · cases hx : r.value with
      | owned x => trivial
      | borrowed a n => rw [hx] at h; exact h.elim

/-- A string of the e-mail is a copy only for one of the reasons, in the text of the header fields, or if it is the body,
decoded from Base64 or quoted-printable. -/
theorem C71_copied (c : Cfg) (p : Place) (l : Literals) (hl : LiteralsAt p.memory l) (data : Bytes) (hd : At p data)
    (e : CowEmail) (h : CowEmail.parse c p l data = .ok e) :
    ∃ head rest fs, data = head ++ rest ∧ fields c data = .ok (rest, fs) ∧ ∀ x, .owned x ∈ HasStrings.strings e →
      CopyReason head x ∨ ((∃ r, e.mimeEntity = some r ∧ r.value = .owned x) ∧
        (.contentTransferEncoding .base64 ∈ fs ∨ .contentTransferEncoding .quotedPrintable ∈ fs)) := by
  obtain ⟨v, -, head, rest, fs, body, body', hw, hf, hb, hv⟩ := (cowEmail_good hl hd).left h
  refine ⟨head, rest, fs, hw, hf, fun x hx => ?_⟩
  rcases hv.strings _ hx with (h | h) | ⟨r, hr, h⟩
  · exact (isLiteral_borrowed h trivial).elim
  · exact .inl (h.2 x rfl)
  · refine .inr ⟨⟨r, hr, h.symm⟩, ?_⟩
    rcases hv.value r hr with h' | ⟨-, e, rfl | rfl, h'⟩
    · rw [← h] at h'
      rcases hb with ⟨-, -, rfl⟩ | ⟨w, -, -, rfl⟩ <;> cases h'
    · exact .inl h'
    · exact .inr h'

/-- The body is never copied, unless it is decoded: it is the slice of the input after the empty line. -/
theorem C71_body (c : Cfg) (p : Place) (l : Literals) (hl : LiteralsAt p.memory l) (data : Bytes) (hd : At p data)
    (e : CowEmail) (h : CowEmail.parse c p l data = .ok e) (rest : Bytes) (fs : List Field)
    (hf : fields c data = .ok (rest, fs)) :
    (c.feat.mime = false → e.mimeEntity = none ∧
      (rest = [] ∧ e.body = none ∨ ∃ body, rest = CRLF ++ body ∧ e.body = some (.borrowed (p.stop - body.length) body.length))) ∧
    (c.feat.mime = true → e.body = none ∧ ∃ r, e.mimeEntity = some r ∧
      (.contentTransferEncoding .base64 ∉ fs → .contentTransferEncoding .quotedPrintable ∉ fs →
        rest = [] ∧ r.value = .borrowed p.empty 0 ∨
        ∃ body, rest = CRLF ++ body ∧ r.value = .borrowed (p.stop - body.length) body.length)) := by
  obtain ⟨v, hv', head, rest', fs', body, body', hw, hf', hb, hv⟩ := (cowEmail_good hl hd).left h
  rw [hf] at hf'
  cases hf'
  have hbody := hv.body
  have hent := hv.entity
  constructor
  · intro hm
    rw [hm] at hent hbody
    refine ⟨by simpa using hent, ?_⟩
    rw [hbody]
    rcases hb with ⟨rfl, -, rfl⟩ | ⟨w, rfl, -, rfl⟩
    · exact .inl ⟨rfl, rfl⟩
    · exact .inr ⟨w, rfl, rfl⟩
  · intro hm
    rw [hm] at hent hbody
    refine ⟨hbody, ?_⟩
    obtain ⟨r, hr⟩ := Option.isSome_iff_exists.mp hent
    refine ⟨r, hr, fun h1 h2 => ?_⟩
    rcases hv.value r hr with h | ⟨-, x, rfl | rfl, h⟩
    · rw [h]
      rcases hb with ⟨rfl, -, rfl⟩ | ⟨w, rfl, -, rfl⟩
      · exact .inl ⟨rfl, rfl⟩
      · exact .inr ⟨w, rfl, rfl⟩
    · exact (h1 h).elim
    · exact (h2 h).elim

/-! ### C72 -/

/-- An entity has the contents that the rest of the model describes. -/
theorem C72_contents (c : Cfg) (p : Place) (l : Literals) (hl : LiteralsAt p.memory l) (i : Bytes) (hi : At p i) :
    mapOutcome (HasStrings.content p.memory) (cowRawEntity c p l i) = rawEntity c i :=
  (cowRawEntity_good hl hi).mapOutcome fun _ _ ⟨_, _, _, _, _, _, _, h, _⟩ => h

/-- Its strings are slices of the input, literals, or copies for one of the reasons; only the value may be a copy for
another reason, and it is a slice of the input if it is not decoded. -/
theorem C72_strings (c : Cfg) (p : Place) (l : Literals) (hl : LiteralsAt p.memory l) (i : Bytes) (hi : At p i)
    (e : CowRawEntity) (h : cowRawEntity c p l i = .ok e) :
    (∀ t ∈ HasStrings.strings e, (IsLiteral l t ∨ Within (p.addr i) p.stop t) ∧
      ∀ x, t = .owned x → CopyReason i x ∨ e.value = .owned x) ∧
    ∃ rest hs body, many i (entityHeader c) = .ok (rest, hs) ∧ (rest = [] ∧ body = [] ∨ rest = CRLF ++ body) ∧
      (.encoding .base64 ∉ hs → .encoding .quotedPrintable ∉ hs → e.value = .borrowed (p.stop - body.length) body.length) := by
  obtain ⟨v, -, hv⟩ := (cowRawEntity_good hl hi).left h
  refine ⟨hv.all hi, ?_⟩
  obtain ⟨head, rest, body, hs, -, hm, hr, -, -, hv⟩ := hv
  refine ⟨rest, hs, body, hm, hr, fun h1 h2 => ?_⟩
  rcases hv with h | ⟨-, e, rfl | rfl, h⟩
  · exact h
  · exact (h1 h).elim
  · exact (h2 h).elim

/-- From an owned input the same entity is made, and none of its strings is borrowed, so that the contents do not depend on
the memory any more. -/
theorem C72_owned (c : Cfg) (p : Place) (l : Literals) (hl : LiteralsAt p.memory l) (i : Bytes) (hi : At p i) :
    (∀ m, mapOutcome (HasStrings.content m) (cowRawEntityOwned c p l i) = rawEntity c i) ∧
    ∀ e, cowRawEntityOwned c p l i = .ok e → ∀ t ∈ HasStrings.strings e, Owned t := by
  refine ⟨fun m => (cowRawEntityOwned_good hl hi m).mapOutcome fun _ _ h => h.1, fun e h t ht => ?_⟩
  obtain ⟨v, -, -, h1, h2⟩ := (cowRawEntityOwned_good hl hi p.memory).left h
  rcases h1 t ht with h | rfl
  · exact h
  · exact h2

/-- Decoding an entity whose value is at the place `p`: the contents. -/
theorem C72_parse_contents (c : Cfg) (p : Place) (l : Literals) (hl : LiteralsAt p.memory l) (raw : CowRawEntity)
    (hi : At p (HasStrings.content p.memory raw).value) :
    mapOutcome (HasStrings.content p.memory) (raw.parse c p l (HasStrings.content p.memory raw).value) =
      (HasStrings.content p.memory raw).parse c :=
  (cowParse_good hl rfl hi).mapOutcome fun _ _ h => h.contents

/-- The strings of all parts of a multipart entity are slices of the value, literals, or copies for one of the reasons; only
the values of the parts may be copies for another reason. -/
theorem C72_parts (c : Cfg) (p : Place) (l : Literals) (hl : LiteralsAt p.memory l) (raw : CowRawEntity) (value : Bytes)
    (hv : (HasStrings.content p.memory raw).value = value) (hi : At p value) (sub : CowStr) (es : List CowRawEntity)
    (h : raw.parse c p l value = .ok (.multipart sub es)) :
    sub = raw.subtype ∧ ∀ e ∈ es, ∀ t ∈ HasStrings.strings e, (IsLiteral l t ∨ Within (p.addr value) p.stop t) ∧
      ∀ x, t = .owned x → CopyReason value x ∨ e.value = .owned x := by
  subst hv
  obtain ⟨v, -, h⟩ := (cowParse_good hl rfl hi).left h
  cases v <;> first | exact h.elim | skip
  obtain ⟨h1, -, parts, h2⟩ := h
  exact ⟨h1, h2.all hi⟩

/-- A text in UTF-8 or US-ASCII is the value itself, not a copy; all other texts are new strings. -/
theorem C72_text (c : Cfg) (p : Place) (l : Literals) (hl : LiteralsAt p.memory l) (raw : CowRawEntity) (value : Bytes)
    (hv : (HasStrings.content p.memory raw).value = value) (hi : At p value) (sub text : CowStr)
    (h : raw.parse c p l value = .ok (.text sub text)) :
    sub = raw.subtype ∧ ∃ charset, (HasStrings.content p.memory raw).parameters (b! "charset") = some charset ∧
      if c.toLowercase charset = b! "utf-8" ∨ c.toLowercase charset = b! "us-ascii" then
        text = .borrowed (p.addr value) value.length
      else Owned text := by
  subst hv
  obtain ⟨v, -, h⟩ := (cowParse_good hl rfl hi).left h
  cases v <;> first | exact h.elim | skip
  exact ⟨h.1, h.2.2.2⟩

/-! ### Examples -/

/-- A memory with the text from the address 1000 on, and with the literals from 100 on. -/
def messagePlace (text : Bytes) : Place where
  memory a := if a < 1000 then (b! "plaincharsetus-ascii").getD (a - 100) 0 else text.getD (a - 1000) 0
  stop := 1000 + text.length
  empty := 7

/-- The addresses of the literals there. -/
def messageLiterals : Literals := ⟨100, 105, 112⟩

theorem messagePlace_at (text : Bytes) : At (messagePlace text) text := by
  refine ⟨by simp [messagePlace], ?_⟩
  have e : (messagePlace text).addr text = 1000 := by simp [Place.addr, messagePlace]
  rw [e]
  unfold Memory.read messagePlace
  refine List.ext_getElem (by simp) fun n h1 h2 => ?_
  have h : ¬ 1000 + n < 1000 := by omega
  simp [List.getD_eq_getElem?_getD, h2, if_neg h]

theorem messagePlace_literals (text : Bytes) : LiteralsAt (messagePlace text).memory messageLiterals := by
  refine ⟨?_, ?_, ?_⟩ <;> rfl

/-- The strings of an e-mail, and of its body, as ranges of positions in it (or copies, literals are negative). -/
def emailStrings (c : Cfg) (text : Bytes) : Outcome (List (Int × Nat ⊕ Bytes)) :=
  mapOutcome (fun e => (HasStrings.strings e).map fun
    | .borrowed a l => .inl ((a : Int) - 1000, l)
    | .owned v => .inr v) (CowEmail.parse c (messagePlace text) messageLiterals text)

/-- Names and addresses are slices (the sender is the same slices as the author), the folded subject is copied, the default
type consists of literals, and the body is a slice. -/
example : emailStrings (Cfg.concrete .full) (b! "From: Ann <ann@example.org>\r\nDate: 5 May 2003 18:59:03 +0000\r\nSubject: Hi\r\n you\r\nTo: bob@b.org\r\n\r\nHello") =
    .ok [.inl (6, 3), .inl (11, 3), .inl (15, 11), .inl (6, 3), .inl (11, 3), .inl (15, 11), .inr (b! " Hi you"),
      .inl (85, 3), .inl (89, 5), .inl (-900, 5), .inl (-895, 7), .inl (-888, 8), .inl (98, 5)] := by decide +kernel

/-- Copies because of a backslash, of another case, and of the encoding of the body. -/
example : emailStrings (Cfg.concrete .full) (b! "From: \"A\\nn\" <ann@example.org>\r\nDate: 5 May 2003 18:59:03 +0000\r\nContent-Type: TEXT/Plain; charset=utf-8\r\nContent-Transfer-Encoding: base64\r\n\r\naGk=") =
    .ok [.inr (b! "Ann"), .inl (14, 3), .inl (18, 11), .inr (b! "Ann"), .inl (14, 3), .inl (18, 11), .inr (b! "plain"),
      .inl (91, 7), .inl (99, 5), .inr (b! "hi")] := by decide +kernel

/-- The other reasons: white space in a domain literal, an encoded word, and a parameter in parts.  There is no body. -/
example : emailStrings (Cfg.concrete .full) (b! "From: a@[1 2]\r\nDate: 5 May 2003 18:59:03 +0000\r\nSubject: =?utf-8?q?hi?=\r\nContent-Disposition: inline; a*0=b; a*1=c; filename=d\r\n") =
    .ok [.inl (6, 1), .inr (b! "12"), .inl (6, 1), .inr (b! "12"), .inr (b! " hi"), .inl (-900, 5), .inl (-895, 7),
      .inl (-888, 8), .inl (125, 1), .inr (b! "a"), .inr (b! "bc"), .inl (-993, 0)] := by decide +kernel

/-- Without MIME, the body is the first string. -/
example : emailStrings (Cfg.concrete .default) (b! "From: a@b\r\nDate: 5 May 2003 18:59:03 +0000\r\n\r\nbody") =
    .ok [.inl (46, 4), .inl (6, 1), .inl (8, 1), .inl (6, 1), .inl (8, 1)] := by decide +kernel

/-- A multipart entity. -/
def multipartText : Bytes :=
  b! "Content-Type: multipart/mixed; boundary=x\r\n\r\n--x\r\nContent-ID: <a@b>\r\n\r\none\r\n--x\r\nContent-Transfer-Encoding: quoted-printable\r\n\r\nt=77o\r\n--x--\r\n"

/-- The entity as it is read: its value is a slice. -/
def multipartEntity : CowRawEntity where
  mimeType := .multipart
  subtype := .borrowed 1024 5
  description := none
  id := none
  parameters := [(.borrowed 1031 8, .borrowed 1040 1)]
  disposition := none
  value := .borrowed 1045 97
  additionalHeaders := []

example : cowRawEntity (Cfg.concrete .full) (messagePlace multipartText) messageLiterals multipartText =
    .ok multipartEntity := by decide +kernel

/-- From an owned input everything is copied. -/
example : mapOutcome (fun e => (e.subtype, e.parameters, e.value))
      (cowRawEntityOwned (Cfg.concrete .full) (messagePlace multipartText) messageLiterals multipartText) =
    .ok (.owned (b! "mixed"), [(.owned (b! "boundary"), .owned (b! "x"))], .owned (multipartText.drop 45)) := by decide +kernel

/-- Its parts: the first value is a slice, the second one is decoded; the types are literals. -/
example : multipartEntity.parse (Cfg.concrete .full) (messagePlace multipartText) messageLiterals (multipartText.drop 45) =
    .ok (.multipart (.borrowed 1024 5)
      [⟨.text, .borrowed 100 5, none, some (.borrowed 1063 1, .borrowed 1065 1),
          [(.borrowed 105 7, .borrowed 112 8)], none, .borrowed 1071 3, []⟩,
        ⟨.text, .borrowed 100 5, none, none, [(.borrowed 105 7, .borrowed 112 8)], none, .owned (b! "two"), []⟩]) := by
  decide +kernel

/-- A text in US-ASCII is not copied. -/
example : (CowRawEntity.mk .text (.borrowed 100 5) none none [(.borrowed 105 7, .borrowed 112 8)] none (.borrowed 1000 2) []).parse
      (Cfg.concrete .full) (messagePlace (b! "hi")) messageLiterals (b! "hi") = .ok (.text (.borrowed 100 5) (.borrowed 1000 2)) := by
  decide +kernel

end EmailParser
