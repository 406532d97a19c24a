import Verif.Proofs.Dots
import Verif.Props.Headers
/-
C95: the feature `compatibility-fixes` makes no difference unless, in a header that has addresses, domains or
identifiers, a dot is not followed by a character of atoms.
-/
namespace EmailParser
open Spec

variable (c : Cfg)

/-- A line alone has the same outcome, the error included. -/
theorem C95_alone (l : Bytes) (h : Harmless l) : field (withFixes c) l = field c l := field_dots h

theorem line_dots {c d : Cfg} (hd : ∀ l, Harmless l → field d l = field c l) {l s : Bytes} (h : FoldedLine l) (hh : Harmless l)
    (hs : Stops wsp s) {r : Bytes} {f : Field} (hf : field c (l ++ s) = .ok (r, f)) : field d (l ++ s) = .ok (r, f) := by
  obtain ⟨u, rfl⟩ := h.ends
  obtain ⟨r', h1, -, -, h2, h3⟩ := (C10_same_outcome c u s [] hs stops_nil).2.2 r f hf
  rw [List.append_nil, ← hd _ hh, ← List.append_nil (u ++ CRLF)] at h1
  obtain ⟨r₂, h4, -, -, -, h5⟩ := (C10_same_outcome d u [] s stops_nil hs).2.2 r' f h1
  rw [h4, h5, h3]
  simp only [List.append_nil, List.length_nil, Nat.sub_zero, List.take_length]
  rw [← h2]

/-- The same line before other text: the same field is read from it, up to the same place. -/
theorem C95_line (l s : Bytes) (h : FoldedLine l) (hh : Harmless l) (hs : Stops wsp s) (r : Bytes) (f : Field) :
    field (withFixes c) (l ++ s) = .ok (r, f) ↔ field c (l ++ s) = .ok (r, f) :=
  ⟨line_dots (fun _ h => (field_dots h).symm) h hh hs, line_dots (fun _ h => field_dots h) h hh hs⟩

theorem message_dots {c d : Cfg} (hc : c.feat.compiles) (hd : d = withFixes c ∨ c = withFixes d) {ls : List Bytes} {t : Bytes}
    (hl : ∀ l ∈ ls, FoldedLine l) (hh : ∀ l ∈ ls, Harmless l) (ht : t = [] ∨ CRLF <+: t) {e : Email}
    (he : Email.parse c (ls.flatten ++ t) = .ok e) : Email.parse d (ls.flatten ++ t) = .ok e := by
  have ht : Ended t := by
    rcases ht with rfl | ⟨b, rfl⟩
    · exact .nil
    · exact .crlf b
  obtain ⟨w, t', fs, b, e1, ht', hf, hb, -⟩ := parse_parts hc he
  obtain ⟨pre, post, ts, us, e2, hpre, -, -, h2, -⟩ := fields_hlines hf ht'
  have hx : ∀ l ∈ pre ++ post, HLine l :=
    fun l h => (List.mem_append.1 h).elim (fun h => (hpre l h).1) (h2.hline l)
  obtain ⟨rfl, rfl⟩ := oneLine_split hx hl (by rw [e2, List.flatten_append, List.append_assoc]) ht' ht
  have hf' := fields_dots hd hh hx ht hf
  have hp : parseMessage c ((pre ++ post).flatten ++ t') = .ok (fs, b) := parseMessage_content.2 ⟨t', hf, hb⟩
  have hp' : parseMessage d ((pre ++ post).flatten ++ t') = .ok (fs, b) := by
    refine parseMessage_content.2 ⟨t', hf', ?_⟩
    rcases hd with rfl | rfl <;> exact hb
  unfold Email.parse at he ⊢
  rw [hp, ok_bind] at he
  rw [hp', ok_bind, ← he]
  rcases hd with rfl | rfl <;> rfl

/-- A message all of whose header lines are harmless gives the same e-mail. -/
theorem C95_message (hc : c.feat.compiles) (ls : List Bytes) (t : Bytes) (hl : ∀ l ∈ ls, FoldedLine l)
    (hh : ∀ l ∈ ls, Harmless l) (ht : t = [] ∨ CRLF <+: t) (e : Email) :
    Email.parse (withFixes c) (ls.flatten ++ t) = .ok e ↔ Email.parse c (ls.flatten ++ t) = .ok e :=
  ⟨message_dots (c := withFixes c) hc (.inr rfl) hl hh ht, message_dots hc (.inl rfl) hl hh ht⟩

/-! ### Examples -/

/-- Texts in which every dot is followed, decided. -/
def followed : Bytes → Bool
  | [] => true
  | b :: s => (b != 46 || s.head?.any atext) && followed s

theorem followed_sound : ∀ {i : Bytes}, followed i = true → DotsFollowed i
  | [], _ => fun u t e => by simp at e
  | a :: i, h => by
    intro u t e
    obtain ⟨h1, hi⟩ := Bool.and_eq_true_iff.1 h
    cases u with
    | cons x u =>
      obtain ⟨-, rfl⟩ := List.cons.inj e
      exact followed_sound hi u t rfl
    | nil =>
      obtain ⟨rfl, rfl⟩ := List.cons.inj e
      cases i with
      | nil => cases h1
      | cons b s => exact ⟨b, s, rfl, by simpa using h1⟩

/-- Lines without folding, decided. -/
theorem oneLine_plain {w : Bytes} (h : w ≠ [] ∧ (w.head?.any fun b => !wsp b) = true ∧ 13 ∉ w) : FoldedLine (w ++ CRLF) := by
  obtain ⟨h1, h2, h3⟩ := h
  obtain ⟨a, w, rfl⟩ := List.exists_cons_of_ne_nil h1
  refine ⟨⟨_, rfl⟩, ⟨a, w ++ CRLF, rfl, by simpa using h2, fun e => h3 (by simp [e])⟩, fun u b t e => ?_⟩
  exfalso
  have hc := congrArg (List.idxOf 13) e
  have hl := congrArg List.length e
  have : List.idxOf 13 (a :: w ++ CRLF) = (a :: w).length := by
    rw [List.idxOf_append, if_neg h3]
    exact Nat.zero_add _
  rw [this] at hc
  have h4 : List.idxOf 13 (u ++ CRLF ++ b :: t) ≤ u.length := by
    rw [List.append_assoc, List.idxOf_append]
    split
    · exact Nat.le_of_lt (List.idxOf_lt_length_of_mem ‹_›)
    · simp [CRLF]
  simp [CRLF] at hl hc h4
  omega

private def subject : Bytes := b! "Subject: Wait... what?."
private def author : Bytes := b! "From: Doe <a.b@c.d>"
private def written : Bytes := b! "Date: 1 Jan 2020 00:00:00 +0000"

theorem plain_harmless {l : Bytes} (h : followed l = true ∨ (namesWithDots.all fun n => !(n ++ b! ":").isPrefixOf (l.map asciiLower)) = true) :
    Harmless l := by
  rintro ⟨n, hn, hp⟩
  rcases h with h | h
  · exact followed_sound h
  · have := List.all_eq_true.1 h n hn
    rw [List.isPrefixOf_iff_prefix.2 hp] at this
    cases this

/-- The dots of the subject and of the body do not matter. -/
example (e : Email) :
    Email.parse (withFixes (Cfg.concrete .full)) ([subject ++ CRLF, author ++ CRLF, written ++ CRLF].flatten ++ b! "\r\n...\r\n") = .ok e ↔
    Email.parse (Cfg.concrete .full) ([subject ++ CRLF, author ++ CRLF, written ++ CRLF].flatten ++ b! "\r\n...\r\n") = .ok e := by
  refine C95_message _ ⟨fun _ => rfl, fun _ => rfl⟩ _ _ ?_ ?_ (.inr ⟨b! "...\r\n", rfl⟩) e
  · simp only [List.mem_cons, List.not_mem_nil, or_false]
    rintro l (rfl | rfl | rfl) <;> exact oneLine_plain (by decide +kernel)
  · simp only [List.mem_cons, List.not_mem_nil, or_false]
    rintro l (rfl | rfl | rfl) <;> exact plain_harmless (by decide +kernel)

private def outcome {α : Type} : Outcome α → Option α
  | .ok v => some v
  | _ => none

/-- This message is accepted. -/
example : (outcome (Email.parse (Cfg.concrete .full)
    ([subject ++ CRLF, author ++ CRLF, written ++ CRLF].flatten ++ b! "\r\n...\r\n"))).map (fun e => (e.from, e.subject)) =
    some (some [⟨some [b! "Doe"], b! "a.b", b! "c.d"⟩], some (b! " Wait... what?.")) := by
  decide +kernel

/-- The same dots in an address do matter. -/
example : (outcome (field (Cfg.concrete .full) (b! "To: a.@b\r\n"))).map (fun x => Spec.headerOf x.2) = some none ∧
    (outcome (field (withFixes (Cfg.concrete .full)) (b! "To: a.@b\r\n"))).map (fun x => Spec.headerOf x.2) =
      some (some (b! "to")) := by
  constructor <;> decide +kernel

end EmailParser
