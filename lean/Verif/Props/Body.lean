import Verif.Proofs.Strings
import Verif.Props.Strings
/-
C05 to C07: header block and body.  `Spec.HeaderLines` is in Verif/Spec/Strings.lean,
`Spec.HeaderBlock` and `Spec.Body` in Verif/Spec/Fields.lean.
-/
namespace EmailParser
open Spec

variable (c : Cfg)

/-! ### C05 -/

/-- Two line breaks in succession: the end of a line and an empty line. -/
def emptyLine : Bytes := [13, 10, 13, 10]

theorem emptyLine_head {x : UInt8} {t : Bytes} (h : emptyLine <+: x :: t) : x = 13 := by
  obtain ⟨s, h⟩ := h
  simp [emptyLine] at h
  exact h.1.symm

theorem folded_no_emptyLine {l : Bytes} (hl : Folded l) (t : Bytes) :
    ∀ k, k < l.length → ¬ emptyLine <+: (l ++ t).drop k := by
  have h13 : ∀ x : UInt8, vchar x = true ∨ wsp x = true → x ≠ 13 := by decide +kernel
  induction hl with
  | nil => intro k hk; simp at hk
  | @char x w h _ ih =>
    intro k hk
    cases k with
    | zero => intro he; exact h13 _ h (emptyLine_head he)
    | succ k =>
      rw [List.cons_append, List.drop_succ_cons]
      exact ih k (by simpa using hk)
  | @fold x w h _ ih =>
    intro k hk
    match k with
    | 0 =>
      rintro ⟨s, he⟩
      simp [emptyLine] at he
      exact h13 x (.inr h) he.1.symm
    | 1 => intro he; cases emptyLine_head he
    | 2 => intro he; exact h13 _ (.inr h) (emptyLine_head he)
    | k + 3 =>
      rw [List.cons_append, List.drop_succ_cons, List.cons_append, List.drop_succ_cons,
        List.cons_append, List.drop_succ_cons]
      exact ih k (by simpa using hk)

theorem lines_no_emptyLine (ls : List Bytes) (t : Bytes)
    (h : ∀ l ∈ ls, Folded l ∧ ∃ x t, l = x :: t ∧ ftext x = true) (k : Nat)
    (hk : emptyLine <+: ((ls.map (· ++ [13, 10])).flatten ++ t).drop k) :
    (ls.map (· ++ [13, 10])).flatten.length ≤ k + 2 := by
  induction ls generalizing k with
  | nil => simp
  | cons l ls ih =>
    obtain ⟨hl, -⟩ := h l (by simp)
    simp only [List.map_cons, List.flatten_cons, List.append_assoc, List.length_append,
      List.length_cons, List.length_nil] at hk ⊢
    by_cases h1 : k < l.length
    · exact absurd hk (folded_no_emptyLine hl _ k h1)
    · by_cases h2 : k = l.length
      · subst h2
        rw [List.drop_left] at hk
        cases ls with
        | nil => simp
        | cons l' ls =>
          obtain ⟨-, x, s, rfl, hx⟩ := h l' (by simp)
          obtain ⟨s', hk⟩ := hk
          simp [emptyLine] at hk
          rw [← hk.1] at hx
          exact absurd hx (by decide)
      · by_cases h3 : k = l.length + 1
        · subst h3
          rw [List.drop_append, List.drop_of_length_le (by omega)] at hk
          simp at hk
          cases emptyLine_head hk
        · obtain ⟨k', rfl⟩ : ∃ k', k = l.length + 2 + k' := ⟨k - l.length - 2, by omega⟩
          have hk' : emptyLine <+: ((ls.map (· ++ [13, 10])).flatten ++ t).drop k' := by
            rw [← List.append_assoc, Nat.add_comm _ k', List.drop_append,
              List.drop_of_length_le (by simp)] at hk
            simpa using hk
          have := ih (fun m hm => h m (by simp [hm])) k' hk'
          omega

theorem headerLines_first {w : Bytes} (h : HeaderLines w) :
    (w = [] ∨ ∃ p, w = p ++ CRLF) ∧ ¬ CRLF <+: w ∧
    ∀ t k, OccursAt emptyLine (w ++ t) k → w.length ≤ k + 2 := by
  obtain ⟨ls, rfl, h⟩ := h
  replace h : ∀ l ∈ ls, Folded l ∧ ∃ x t, l = x :: t ∧ ftext x = true := by
    intro l hl
    obtain ⟨h1, name, t, rfl, hne, hn⟩ := h l hl
    cases name with
    | nil => exact absurd rfl hne
    | cons x name => exact ⟨h1, x, _, rfl, hn x (by simp)⟩
  refine ⟨?_, ?_, fun t k hk => lines_no_emptyLine ls t h k hk⟩
  · rcases List.eq_nil_or_concat ls with rfl | ⟨ls', l, rfl⟩
    · exact .inl rfl
    · exact .inr ⟨(ls'.map (· ++ [13, 10])).flatten ++ l, by simp [CRLF]⟩
  · cases ls with
    | nil => simp [CRLF]
    | cons l ls =>
      obtain ⟨-, x, s, rfl, hx⟩ := h l (by simp)
      rintro ⟨s', hs⟩
      simp [CRLF] at hs
      rw [← hs.1] at hx
      revert hx; decide

/-- A message without body is a header block.  It consists of lines that begin with a field name,
and contains no empty line. -/
theorem C05_without_body (hc : c.feat.compiles) (i : Bytes) (fs : List Field)
    (h : parseMessage c i = .ok (fs, none)) :
    HeaderBlock c i fs ∧ HeaderLines i ∧ ¬ CRLF <+: i ∧ ¬ Occurs (CRLF ++ CRLF) i := by
  have hm := (parseMessage_sat (c := c) i).of_ok h
  clear h
  obtain ⟨w₁, w₂, gs, rfl, h1, h2⟩ := hm
  rcases h2 with ⟨rfl, h⟩ | ⟨_, _, _, -, -, h, -⟩
  · cases h
    rw [List.append_nil]
    have hl := (lines_headerBlock (strOk_utf8 c) hc.2 _ _ h1).1
    obtain ⟨-, h3, h4⟩ := headerLines_first hl
    refine ⟨h1, hl, h3, fun ⟨k, hk⟩ => ?_⟩
    have := h4 [] k (by rw [List.append_nil]; exact hk)
    have hlen := hk.length_le
    simp at hlen
    omega
  · cases h

/-- A message with body is a header block, an empty line and the body.  The header block consists of
lines that begin with a field name.  The empty line is the first one of the message: unless the
header block is empty, the first two successive line breaks are those at the end of the header
block. -/
theorem C05_with_body (hc : c.feat.compiles) (i body : Bytes) (fs : List Field)
    (h : parseMessage c i = .ok (fs, some body)) :
    ∃ head, i = head ++ CRLF ++ body ∧ HeaderBlock c head fs ∧ HeaderLines head ∧ ¬ CRLF <+: head ∧
      (head = [] ∨ ∃ p, head = p ++ CRLF ∧ FirstOccurrence (CRLF ++ CRLF) i p body) := by
  have hm := (parseMessage_sat (c := c) i).of_ok h
  clear h
  obtain ⟨w₁, w₂, gs, rfl, h1, h2⟩ := hm
  rcases h2 with ⟨rfl, h⟩ | ⟨w₃, w₄, _, rfl, h3, h, -⟩
  · cases h
  · cases h
    obtain rfl : w₃ = CRLF := h3
    have hl := (lines_headerBlock (strOk_utf8 c) hc.2 _ _ h1).1
    obtain ⟨h3, h4, h5⟩ := headerLines_first hl
    refine ⟨w₁, by simp, h1, hl, h4, h3.imp id fun ⟨p, hp⟩ => ⟨p, hp, by rw [hp]; simp, ?_⟩⟩
    intro k hk hocc
    have := h5 _ k hocc
    rw [hp] at this
    simp at this
    omega

/-- The same for an accepted e-mail without `mime`: the body reported is what follows the first empty
line. -/
theorem C05_email_body (hc : c.feat.compiles) (hm : c.feat.mime = false) (i body : Bytes) (e : Email)
    (h : Email.parse c i = .ok e) (hb : e.body = some body) :
    ∃ head, i = head ++ CRLF ++ body ∧
      (head = [] ∨ ∃ p, head = p ++ CRLF ∧ FirstOccurrence (CRLF ++ CRLF) i p body) := by
  obtain ⟨fs, b, hp, -, -, -, he⟩ := parse_ok c hc h
  have := he.body
  rw [hm, hb] at this
  simp at this
  subst this
  obtain ⟨head, h1, -, -, -, h2⟩ := C05_with_body c hc i body fs hp
  exact ⟨head, h1, h2⟩

/-- A body that begins with an empty line. -/
example : (outcomeValue (parseMessage (Cfg.concrete .default) (b! "A: b\r\n\r\n\r\nc"))).map
    (fun r => (r.1.filterMap unknownOf, r.2)) = some ([(b! "A", b! " b")], some (b! "\r\nc")) := by
  decide +kernel

/-- A continuation line belongs to the header block. -/
example : (outcomeValue (parseMessage (Cfg.concrete .default) (b! "A: b\r\n c\r\n\r\nd"))).map
    (fun r => (r.1.filterMap unknownOf, r.2)) = some ([(b! "A", b! " b c")], some (b! "d")) := by
  decide +kernel

/-! ### C06 -/

/-- Without `mime` the text after the header block is accepted exactly if it is empty or an empty line
followed by lines of at most 998 characters, and the body is returned unchanged. -/
theorem C06_body_iff (i : Bytes) (r : Option Bytes) :
    body i = .ok r ↔ (i = [] ∧ r = none) ∨ ∃ w, i = CRLF ++ w ∧ r = some w ∧ Body w := by
  have h := body_spec i
  cases hx : body i with
  | abort k => rw [hx] at h; exact h.elim
  | err e =>
    rw [hx] at h
    refine ⟨by rintro ⟨⟩, ?_⟩
    rintro (⟨rfl, -⟩ | ⟨w, rfl, -, hb⟩)
    · rcases h with ⟨-, h, -⟩ | ⟨-, w, h, -⟩
      · exact absurd rfl h
      · cases h
    · rcases h with ⟨-, -, h⟩ | ⟨-, w', h, hn⟩
      · exact absurd ⟨w, rfl⟩ h
      · exact absurd (List.append_cancel_left h ▸ hb) hn
  | ok b =>
    rw [hx] at h
    constructor
    · rintro ⟨⟩
      cases r with
      | none => exact .inl ⟨h, rfl⟩
      | some w => exact .inr ⟨w, h.1, rfl, h.2⟩
    · rintro (⟨rfl, rfl⟩ | ⟨w, rfl, rfl, hb⟩)
      · cases b with
        | none => rfl
        | some w => cases h.1
      · cases b with
        | none => cases h
        | some w' => rw [List.append_cancel_left h.1]

/-- An accepted body without `mime` satisfies the line discipline: at most 998 characters between line
breaks, every character ASCII and not NUL, CR and LF only as CRLF. -/
theorem C06_accepted_body (hc : c.feat.compiles) (hm : c.feat.mime = false) (i w : Bytes) (e : Email)
    (h : Email.parse c i = .ok e) (hb : e.body = some w) : Body w := by
  obtain ⟨fs, b, hp, -, -, -, he⟩ := parse_ok c hc h
  have hw := he.body
  rw [hm, hb] at hw
  simp at hw
  subst hw
  have hmsg := (parseMessage_sat (c := c) i).of_ok hp
  clear h hp
  obtain ⟨w₁, w₂, gs, rfl, h1, h2⟩ := hmsg
  rcases h2 with ⟨rfl, h⟩ | ⟨w₃, w₄, _, rfl, h3, h, h4⟩
  · cases h
  · cases h; exact h4 hm

/-- A line of 998 characters is accepted, one of 999 is not, a bare line feed is not. -/
example : (outcomeValue (body (b! "\r\n" ++ List.replicate 998 65))).isSome = true ∧
    (outcomeValue (body (b! "\r\n" ++ List.replicate 999 65))).isSome = false ∧
    (outcomeValue (body (b! "\r\na\nb"))).isSome = false := by decide +kernel

/-! ### C07 -/

theorem text_no_cr {l : Bytes} (h : BodyLine l) : 13 ∉ l := fun h' => by
  have := h.2 13 h'
  revert this; decide

/-- Lines can be recovered from the text. -/
theorem joinLines_injective : ∀ {ls ls' : List Bytes}, ls ≠ [] → ls' ≠ [] → (∀ l ∈ ls, BodyLine l) →
    (∀ l ∈ ls', BodyLine l) → joinLines ls = joinLines ls' → ls = ls'
  | [l], [l'], _, _, _, _, h => by simpa [joinLines] using h
  | [l], l' :: l'' :: ls', _, _, h1, h2, h => by
    exfalso
    apply text_no_cr (h1 l (by simp))
    have h : l = l' ++ CRLF ++ joinLines (l'' :: ls') := h
    rw [h]; simp [CRLF]
  | l :: l'' :: ls, [l'], _, _, h1, h2, h => by
    exfalso
    apply text_no_cr (h2 l' (by simp))
    have h : l ++ CRLF ++ joinLines (l'' :: ls) = l' := h
    rw [← h]; simp [CRLF]
  | l :: m :: ls, l' :: m' :: ls', _, _, h1, h2, h => by
    have h : l ++ CRLF ++ joinLines (m :: ls) = l' ++ CRLF ++ joinLines (m' :: ls') := h
    have hl := lineOf_eq (h1 l (by simp)) (CRLF ++ joinLines (m :: ls)) (.inr ⟨_, rfl⟩)
    have hl' := lineOf_eq (h2 l' (by simp)) (CRLF ++ joinLines (m' :: ls')) (.inr ⟨_, rfl⟩)
    rw [List.append_assoc, List.append_assoc] at h
    rw [h, hl'] at hl
    subst hl
    have h := List.append_cancel_left (List.append_cancel_left h)
    rw [joinLines_injective (ls := m :: ls) (ls' := m' :: ls') (by simp) (by simp)
      (fun x hx => h1 x (by simp_all)) (fun x hx => h2 x (by simp_all)) h]

/-- The line-splitting body parser returns the lines of the body. -/
theorem C07_body_lines (i : Bytes) (ls : List Bytes) :
    bodyLines i = .ok ls ↔ (i = [] ∧ ls = []) ∨
      (ls ≠ [] ∧ i = CRLF ++ joinLines ls ∧ ∀ l ∈ ls, BodyLine l) := by
  unfold bodyLines
  by_cases hi : i = []
  · subst hi
    rw [if_pos (by rfl)]
    constructor
    · rintro ⟨⟩; exact .inl ⟨rfl, rfl⟩
    · rintro (⟨-, rfl⟩ | ⟨-, h, -⟩)
      · rfl
      · cases h
  · rw [if_neg (by simpa using hi)]
    rcases tag_cases i (b! "\r\n")
        "TAG ERROR: Headers must be followed by a CRLF sequence." with ⟨r, hr, ht⟩ | ⟨hn, ht⟩
    · rw [ht]
      simp only [ok_bind]
      have h := bodyLinesLoop_spec (r.length + 1) r (by omega)
      cases hx : bodyLinesLoop (r.length + 1) r with
      | abort k => rw [hx] at h; exact h.elim
      | err e =>
        rw [hx] at h
        refine ⟨by rintro ⟨⟩, ?_⟩
        rintro (⟨rfl, -⟩ | ⟨hne, hj, hl⟩)
        · exact absurd rfl hi
        · rw [hr] at hj
          exact absurd ⟨ls, hne, List.append_cancel_left hj, hl⟩ h.2
      | ok ls' =>
        rw [hx] at h
        obtain ⟨hne', hj', hl'⟩ := h
        constructor
        · rintro ⟨⟩
          exact .inr ⟨hne', by rw [hr, hj'], hl'⟩
        · rintro (⟨rfl, -⟩ | ⟨hne, hj, hl⟩)
          · exact absurd rfl hi
          · rw [hr] at hj
            have hj : r = joinLines ls := List.append_cancel_left hj
            rw [joinLines_injective hne' hne hl' hl (hj' ▸ hj)]
    · rw [ht]
      refine ⟨by rintro ⟨⟩, ?_⟩
      rintro (⟨rfl, -⟩ | ⟨-, h, -⟩)
      · exact absurd rfl hi
      · exact absurd (h ▸ List.prefix_append _ _) hn

/-- The two body functions accept the same inputs, and the lines joined are the body. -/
theorem C07_functions_agree (i : Bytes) :
    ((∃ ls, bodyLines i = .ok ls) ↔ (∃ r, body i = .ok r)) ∧
    ∀ ls r, bodyLines i = .ok ls → body i = .ok r → r.getD [] = joinLines ls := by
  simp only [C06_body_iff, C07_body_lines]
  constructor
  · constructor
    · rintro ⟨ls, ⟨rfl, -⟩ | ⟨hne, rfl, hl⟩⟩
      · exact ⟨none, .inl ⟨rfl, rfl⟩⟩
      · exact ⟨some _, .inr ⟨_, rfl, rfl, ls, hne, rfl, hl⟩⟩
    · rintro ⟨r, ⟨rfl, -⟩ | ⟨w, rfl, -, ls, hne, rfl, hl⟩⟩
      · exact ⟨[], .inl ⟨rfl, rfl⟩⟩
      · exact ⟨ls, .inr ⟨hne, rfl, hl⟩⟩
  · rintro ls r (⟨rfl, rfl⟩ | ⟨hne, rfl, hl⟩) (⟨h, rfl⟩ | ⟨w, h, rfl, -⟩)
    · rfl
    · cases h
    · cases h
    · exact (List.append_cancel_left h).symm

example : outcomeValue (bodyLines (b! "\r\na\r\n\r\nb\r\n")) = some [b! "a", [], b! "b", []] := by
  decide +kernel

end EmailParser
