import Verif.Proofs.Complete.Unicode
import Verif.Props.PrintMessage
/-
C66: messages with any characters are read back as they were written.
-/
namespace EmailParser
open Spec

variable (c : Cfg)

/-- Writing any message, with encoded words (RFC 2047) and encoded parameters (RFC 2231) for what cannot be written as
it is, and reading it gives back that message: any valid UTF-8 may be used in display names, names of groups, keywords,
texts and parameters. -/
theorem C66_round_trip (hc : c.feat.compiles) (m : Letter) (hv : m.Encodable c) :
    Email.parse c (m.unicode c.feat) = .ok (m.email c.feat) :=
  letter_parse c hc m hv.recognized
    (fun name he => absurd rfl (hv.headers _ (headers_encoding he) name)) hv.date hv.from hv.sender
    (unicode_letter_layout hv)

/-- What is on one line of characters of ASCII is valid UTF-8, so what cannot be written is not valid UTF-8. -/
theorem printable_utf8 {x : Bytes} (h : Spec.Printable x) : Utf8 x := by
  refine ⟨x.map UInt8.toNat, ?_, ?_⟩
  · intro n hn
    obtain ⟨b, -, rfl⟩ := List.mem_map.mp hn
    have := b.toNat_lt
    exact .inl (by omega)
  · rw [List.flatMap_map]
    induction x with
    | nil => rfl
    | cons b x ih =>
      rw [List.flatMap_cons, ← ih fun y hy => h y (List.mem_cons_of_mem _ hy)]
      have hb := h b (by simp)
      have : utf8Encode b.toNat = [b] := (by decide +kernel : ∀ b : UInt8, vchar b = true ∨ wsp b = true →
        utf8Encode b.toNat = [b]) b hb
      rw [this]
      rfl

/-- The texts and words that can be written where encoded words are decoded are exactly those of valid UTF-8. -/
theorem C66_exactly_utf8 (x : Bytes) : (UnicodeWord true x ↔ Utf8 x) ∧ (UnicodeText true x ↔ Utf8 x) :=
  ⟨⟨fun h => h.elim printable_utf8 (·.2), fun h => .inr ⟨rfl, h⟩⟩, by simp [UnicodeText]⟩

/-- A message with accents, symbols and line breaks everywhere. -/
def unicodeLetter : Letter where
  trace := [⟨none, [([.word (b! "by")], ⟨none, ⟨2, .march, 2021⟩, ⟨⟨4, 5, 6⟩, ⟨false, 7, 30⟩⟩⟩)],
    [.sender ⟨some [b! "é"], ⟨b! "z", b! "z.org"⟩⟩]⟩]
  date := some ⟨some .monday, ⟨1, .january, 2024⟩, ⟨⟨10, 20, 30⟩, ⟨true, 1, 0⟩⟩⟩
  «from» := some [⟨some [b! "Zoë", b! "O'Neil", b! "€ x"], ⟨b! "ann", b! "a.org"⟩⟩]
  to := some [.group [b! "Équipe"] [⟨some [b! "ü"], ⟨b! "q", b! "q.org"⟩⟩, ⟨none, ⟨b! "r", b! "r"⟩⟩], .group [b! "é", b! "f"] []]
  messageId := some (b! "id..1", b! "a.org")
  subject := some (b! "é =?utf-8?b?? \r\n")
  comments := [b! "plain", b! "=?", b! "x "]
  keywords := [[b! "mot", b! "clé"], [b! "ключ"]]
  contentType := some ⟨b! "Text", b! "Plain", [(b! "title", b! "naïve"), (b! "a*b", b! "x y"), (b! "TITLE", b! "naïve")]⟩
  encoding := some .quotedPrintable
  description := some (b! "→")
  disposition := some ⟨b! "inline", some (b! "a.txt"), none, none, none, [(b! "filename", b! "b.txt"), (b! "x", b! "é'%\"")]⟩
  others := [(b! "X-Note", b! "ß")]
  body := some (b! "é\r\n")

/-- All features that matter here. -/
def unicodeFeatures : Features := { Features.full with compatibilityFixes := true }

example : unicodeLetter.unicode unicodeFeatures = b! "Received: by; 02 Mar 2021 04:05:06 -0730\r\nResent-Sender: =?utf-8?b?w6k=?= <z@z.org>\r\nDate: Mon, 01 Jan 2024 10:20:30 +0100\r\nFrom: =?utf-8?b?Wm/Dqw==?= O'Neil =?utf-8?b?4oKsIHg=?= <ann@a.org>\r\nTo: =?utf-8?b?w4lxdWlwZQ==?=: =?utf-8?b?w7w=?= <q@q.org>, r@r;, =?utf-8?b?w6k=?= f: ;\r\nMessage-ID: <id..1@a.org>\r\nSubject:=?utf-8?b?w6kgPT91dGYtOD9iPz8gDQo=?=\r\nComments:plain\r\nComments:=?utf-8?b?PT8=?=\r\nComments:=?utf-8?b?eCA=?=\r\nKeywords: mot =?utf-8?b?Y2zDqQ==?=, =?utf-8?b?0LrQu9GO0Yc=?=\r\nContent-Type: Text/Plain; title*0*=utf-8''na%C3%AFve; a*b=\"x y\"; TITLE*0*=utf-8''na%C3%AFve\r\nContent-Transfer-Encoding: quoted-printable\r\nContent-Description:=?utf-8?b?4oaS?=\r\nContent-Disposition: inline; filename=\"a.txt\"; filename*0*=utf-8''b%2Etxt; x*0*=utf-8''%C3%A9%27%25%22\r\nX-Note:=?utf-8?b?w58=?=\r\n\r\n=C3=A9=0D=0A" := by
  decide +kernel

/-- A name with a `*` that is of the form of RFC 2231 ends with `*` or a digit. -/
theorem extendedName_last {w : Bytes} {v : Bytes × Option Nat × Bool} (h : ExtendedName w v) :
    42 ∉ w ∨ ∃ u b, w = u ++ [b] ∧ (b == 42 || Spec.digit b) = true := by
  obtain ⟨w₁, _, name, rfl, ⟨rfl, -, hn⟩, w₂, w₃, index, rfl, h₂, h₃'⟩ := h
  obtain ⟨e, ⟨o, rfl, h₃⟩, rfl⟩ := gram_bind_pure.mp h₃'
  rcases h₃ with ⟨rfl, -⟩ | ⟨a, -, rfl⟩
  · rcases h₂ with ⟨rfl, -⟩ | ⟨n, rfl, u₁, u₂, _, rfl, rfl, ⟨u, hu, hu1, hu2, hu3⟩, hlt⟩
    · refine .inl fun h => ?_
      have := hn 42 (by simpa using h)
      simp at this
    · right
      rcases List.eq_nil_or_concat u₂ with rfl | ⟨u', b, rfl⟩
      · exact absurd rfl hu2
      · rw [List.concat_eq_append] at hu3 ⊢
        exact ⟨name ++ (b! "*" ++ u'), b, by simp, by simp [hu3 b (by simp)]⟩
  · exact .inr ⟨name ++ w₂, 42, by simp, by decide⟩

theorem utf8_of {x : Bytes} (h : utf8Valid x = true) : Utf8 x := (utf8Valid_iff x).mp h

/-- It can be written. -/
theorem unicodeLetter_encodable : unicodeLetter.Encodable (Cfg.concrete unicodeFeatures) where
  headers := by
    intro h hh
    have star : ∀ v, ¬ ExtendedName (b! "a*b") v := by
      intro v hv
      rcases extendedName_last hv with h | ⟨u, b, e, h⟩
      · exact h (by decide)
      · obtain ⟨-, e⟩ := List.append_inj' (s₁ := b! "a*") (t₁ := [98]) e rfl
        cases e
        cases h
    have word : ∀ {x}, utf8Valid x = true → UnicodeWord true x := fun h => .inr ⟨rfl, utf8_of h⟩
    have address : ∀ {l d : Bytes}, l.all atext = true → dotAtomB d = true → ValidAddress ⟨l, d⟩ := by
      intro l d h1 h2
      refine ⟨fun b hb => .inl ?_, .inl h2⟩
      exact (by decide +kernel : ∀ b : UInt8, atext b = true → vchar b = true) b (List.all_eq_true.mp h1 b hb)
    have param : ∀ {n v : Bytes}, n ≠ [] → n.all tokenChar = true → utf8Valid v = true → (42 ∈ n → Spec.Printable v ∧
        ∀ v, ¬ ExtendedName n v) → n ≠ [] ∧ (∀ b ∈ n, tokenChar b = true) ∧ Utf8 v ∧ (42 ∈ n → Spec.Printable v ∧
        ∀ v, ¬ ExtendedName n v) := fun h1 h2 h3 h4 => ⟨h1, fun b hb => List.all_eq_true.mp h2 b hb, utf8_of h3, h4⟩
    simp only [unicodeLetter, Letter.headers, Option.toList, List.map, List.nil_append, List.cons_append,
      List.mem_cons, List.not_mem_nil, or_false, reduceCtorEq, if_false] at hh
    rcases hh with rfl | rfl | rfl | rfl | rfl | rfl | rfl | rfl | rfl | rfl | rfl | rfl | rfl | rfl
    · simp [MailHeader.Encodable, InRange]
    · refine ⟨by simp, ?_⟩
      intro m hm
      cases List.mem_singleton.mp hm
      refine ⟨?_, address (by decide +kernel) (by decide +kernel)⟩
      intro words e
      cases e
      refine ⟨by simp, fun x hx => word ?_⟩
      revert x
      decide +kernel
    · refine ⟨by simp, ?_⟩
      intro a ha
      simp only [List.mem_cons, List.not_mem_nil, or_false] at ha
      rcases ha with rfl | rfl
      · refine ⟨⟨by simp, fun x hx => word (by revert x; decide +kernel)⟩, fun m hm => ?_⟩
        simp only [List.mem_cons, List.not_mem_nil, or_false] at hm
        rcases hm with rfl | rfl
        · refine ⟨fun words e => ?_, address (by decide +kernel) (by decide +kernel)⟩
          cases e
          exact ⟨by simp, fun x hx => word (by revert x; decide +kernel)⟩
        · exact ⟨nofun, address (by decide +kernel) (by decide +kernel)⟩
      · exact ⟨⟨by simp, fun x hx => word (by revert x; decide +kernel)⟩, by simp⟩
    · refine ⟨?_, by decide +kernel⟩
      have part : ∀ {w : Bytes}, w.all atext = true → DotThen true (b! "." ++ w) (b! "." ++ w) := fun {w} hw =>
        ⟨b! ".", w, (), rfl, rfl, w, [], w, by simp, ⟨rfl, fun b hb => List.all_eq_true.mp hw b hb⟩, rfl, rfl⟩
      have parts := Gram.star.cons (part (w := []) rfl) (Gram.star.cons (part (w := b! "1") (by decide +kernel)) .nil)
      exact ⟨b! "id", _, b! "id", rfl, ⟨rfl, by simp, by decide +kernel⟩, _, [], _, (List.append_nil _).symm, parts, rfl, rfl⟩
    · exact utf8_of (by decide +kernel)
    · exact utf8_of (by decide +kernel)
    · exact utf8_of (by decide +kernel)
    · exact utf8_of (by decide +kernel)
    · refine ⟨by simp, fun words hw => ?_⟩
      simp only [List.mem_cons, List.not_mem_nil, or_false] at hw
      rcases hw with rfl | rfl <;> exact ⟨by simp, fun x hx => word (by revert x; decide +kernel)⟩
    · refine ⟨⟨by simp, by decide +kernel, .inl (by decide +kernel)⟩, ⟨by simp, by decide +kernel⟩, ?_, by decide +kernel⟩
      intro p hp
      simp only [List.mem_cons, List.not_mem_nil, or_false] at hp
      rcases hp with rfl | rfl | rfl
      · exact param (by simp) (by decide +kernel) (by decide +kernel) (fun h => absurd h (by decide +kernel))
      · exact param (by simp) (by decide +kernel) (by decide +kernel) (fun _ => ⟨printableB_iff.mp (by decide +kernel), star⟩)
      · exact param (by simp) (by decide +kernel) (by decide +kernel) (fun h => absurd h (by decide +kernel))
    · simp [MailHeader.Encodable]
    · exact utf8_of (by decide +kernel)
    · refine ⟨⟨by simp, by decide +kernel, .inl (by decide +kernel)⟩, ?_, nofun, nofun, nofun, ?_, by decide +kernel⟩
      · intro x hx
        cases hx
        unfold Spec.Printable
        decide +kernel
      · intro p hp
        simp only [List.mem_cons, List.not_mem_nil, or_false] at hp
        rcases hp with rfl | rfl <;>
          exact param (by simp) (by decide +kernel) (by decide +kernel) (fun h => absurd h (by decide +kernel))
    · refine ⟨by simp, by decide +kernel, ?_, utf8_of (by decide +kernel)⟩
      simp [Recognized]
      decide +kernel
  recognized := by
    intro h hh name hn
    simp only [unicodeLetter, Letter.headers, Option.toList, List.map, List.nil_append, List.cons_append,
      List.mem_cons, List.not_mem_nil, or_false, reduceCtorEq, if_false] at hh
    rcases hh with rfl | rfl | rfl | rfl | rfl | rfl | rfl | rfl | rfl | rfl | rfl | rfl | rfl | rfl <;>
      cases hn <;> simp [Recognized, Cfg.concrete, unicodeFeatures, Features.full, Features.default]
  trace := .inr rfl
  traces := by
    intro t ht
    simp only [unicodeLetter, List.mem_cons, List.not_mem_nil, or_false] at ht
    subst ht
    refine ⟨nofun, by simp, ?_, ?_⟩
    · simp [ValidToken, InRange, Spec.Printable]
      decide +kernel
    · intro v hv
      cases List.mem_singleton.mp hv
      refine ⟨fun words e => ?_, ?_, .inl (by decide +kernel)⟩
      · cases e
        exact ⟨by simp, fun x hx => .inr ⟨rfl, utf8_of (by revert x; decide +kernel)⟩⟩
      · unfold Spec.Printable
        decide +kernel
  separated := trivial
  others := by
    simp [unicodeLetter]
  date := by simp [unicodeLetter]
  «from» := by simp [unicodeLetter]
  sender := by simp [unicodeLetter]
  body := by simp [Cfg.concrete, unicodeFeatures, Features.full]

example : Email.parse (Cfg.concrete unicodeFeatures) (unicodeLetter.unicode unicodeFeatures) =
    .ok (unicodeLetter.email unicodeFeatures) :=
  C66_round_trip _ ⟨fun _ => rfl, fun _ => rfl⟩ _ unicodeLetter_encodable

end EmailParser
