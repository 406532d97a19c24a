import Verif.Props.Truncated
import Verif.Spec.Bytes
/-
C89: texts that are refused because of their bytes, their line ends or a line that is not a header.
-/
namespace EmailParser
open Spec

variable (c : Cfg)

/-! ### What is made of headers -/

/-- A CR is followed by a LF, a LF preceded by a CR, and all else is printable or white. -/
def Clean (w : Bytes) : Prop :=
  ∀ x b y, w = x ++ b :: y → vchar b = true ∨ wsp b = true ∨ (b = 13 ∧ y.head? = some 10) ∨ (b = 10 ∧ x.getLast? = some 13)

theorem Clean.append {u v : Bytes} (hu : Clean u) (hv : Clean v) : Clean (u ++ v) := by
  intro x b y e
  rcases List.append_eq_append_iff.mp e with ⟨z, h1, h2⟩ | ⟨z, h1, h2⟩
  · rcases hv z b y h2 with h | h | h | ⟨h, h'⟩
    · exact .inl h
    · exact .inr (.inl h)
    · exact .inr (.inr (.inl h))
    · exact .inr (.inr (.inr ⟨h, by rw [h1, List.getLast?_append, h']; rfl⟩))
  · cases z with
    | nil =>
      rcases hv [] b y h2.symm with h | h | h | ⟨h, h'⟩
      · exact .inl h
      · exact .inr (.inl h)
      · exact .inr (.inr (.inl h))
      · cases h'
    | cons a z =>
      simp only [List.cons_append, List.cons.injEq] at h2
      obtain ⟨rfl, rfl⟩ := h2
      rcases hu x b z h1 with h | h | ⟨h, h'⟩ | h
      · exact .inl h
      · exact .inr (.inl h)
      · refine .inr (.inr (.inl ⟨h, ?_⟩))
        cases z with
        | nil => cases h'
        | cons => exact h'
      · exact .inr (.inr (.inr h))

theorem clean_chars {w : Bytes} (h : ∀ b ∈ w, vchar b = true ∨ wsp b = true) : Clean w := by
  rintro x b y rfl
  rcases h b (by simp) with h | h
  · exact .inl h
  · exact .inr (.inl h)

theorem clean_crlf : Clean CRLF := by
  intro x b y e
  rcases x with - | ⟨x1, - | ⟨x2, x⟩⟩
  · simp only [CRLF, List.nil_append, List.cons.injEq] at e
    obtain ⟨rfl, rfl⟩ := e
    exact .inr (.inr (.inl ⟨rfl, rfl⟩))
  · simp only [CRLF, List.cons_append, List.nil_append, List.cons.injEq] at e
    obtain ⟨rfl, rfl, -⟩ := e
    exact .inr (.inr (.inr ⟨rfl, rfl⟩))
  · simp [CRLF] at e

theorem _root_.EmailParser.Spec.Folded.clean {w : Bytes} (h : Folded w) : Clean w := by
  induction h with
  | nil => exact clean_chars (by simp)
  | @char x w hx _ ih => exact Clean.append (u := [x]) (clean_chars (by simpa using hx)) ih
  | @fold x w hx _ ih =>
    exact Clean.append (u := CRLF) clean_crlf (Clean.append (u := [x]) (clean_chars (by simp [hx])) ih)

theorem ftext_v : ∀ b, ftext b = true → vchar b = true := by decide +kernel

theorem headersAre_clean {w : Bytes} {ls : List (Bytes × Bytes)} (h : HeadersAre w ls) : Clean w := by
  obtain ⟨rfl, h⟩ := h
  induction ls with
  | nil => exact clean_chars (by simp)
  | cons l ls ih =>
    obtain ⟨⟨-, h1⟩, h2⟩ := h l (by simp)
    refine .append (.append (clean_chars fun b hb => .inl (ftext_v b (h1 b hb))) ?_) (ih fun l hl => h l (by simp [hl]))
    exact .append (u := [58]) (clean_chars (by decide +kernel)) (h2.clean.append clean_crlf)

theorem foreign_not {w : Bytes} (h : Foreign w) (ls : List (Bytes × Bytes)) : ¬ HeadersAre w ls := by
  intro hl
  obtain ⟨x, b, y, e, h⟩ := h
  rcases headersAre_clean hl x b y e with h' | h' | h' | h'
  · rcases h with h | ⟨rfl, -⟩ | ⟨rfl, -⟩
    · rw [h.1] at h'; cases h'
    · exact absurd h' (by decide)
    · exact absurd h' (by decide)
  · rcases h with h | ⟨rfl, -⟩ | ⟨rfl, -⟩
    · rw [h.2.1] at h'; cases h'
    · exact absurd h' (by decide)
    · exact absurd h' (by decide)
  · obtain ⟨rfl, h'⟩ := h'
    rcases h with h | ⟨-, h⟩ | ⟨h, -⟩
    · exact h.2.2.1 rfl
    · exact h h'
    · exact absurd h (by decide)
  · obtain ⟨rfl, h'⟩ := h'
    rcases h with h | ⟨h, -⟩ | ⟨-, h⟩
    · exact h.2.2.2 rfl
    · exact absurd h (by decide)
    · exact h h'

/-- Inside of a folded text a line break is followed by white space. -/
theorem folded_break {v : Bytes} (h : Folded v) : ∀ {p z : Bytes}, v ++ CRLF = p ++ 13 :: 10 :: z →
    z = [] ∨ ∃ b t, z = b :: t ∧ wsp b = true := by
  induction h with
  | nil =>
    intro p z e
    left
    have := congrArg List.length e
    simp [CRLF] at this
    exact List.length_eq_zero_iff.mp (by omega)
  | @char x w hx _ ih =>
    intro p z e
    cases p with
    | nil =>
      simp only [List.cons_append, List.nil_append, List.cons.injEq] at e
      rw [e.1] at hx
      exact absurd hx (by decide)
    | cons a p =>
      simp only [List.cons_append, List.cons.injEq] at e
      exact ih e.2
  | @fold x w hx _ ih =>
    intro p z e
    rcases p with - | ⟨a, - | ⟨b, - | ⟨d, p⟩⟩⟩
    · simp only [List.cons_append, List.nil_append, List.cons.injEq, true_and] at e
      exact .inr ⟨x, w ++ CRLF, e.symm, hx⟩
    · simp only [List.cons_append, List.nil_append, List.cons.injEq] at e
      exact absurd e.2.1 (by decide)
    · simp only [List.cons_append, List.nil_append, List.cons.injEq] at e
      rw [e.2.2.1] at hx
      exact absurd hx (by decide)
    · simp only [List.cons_append, List.cons.injEq] at e
      exact ih e.2.2.2

theorem headersAre_line {ls : List (Bytes × Bytes)} : ∀ {w x y : Bytes}, HeadersAre w ls → w = x ++ y → (x = [] ∨ CRLF <:+ x) →
    y ≠ [] → NotBefore wsp y → ∃ name t, y = name ++ 58 :: t ∧ name ≠ [] ∧ ∀ b ∈ name, ftext b = true := by
  induction ls with
  | nil =>
    rintro w x y ⟨e', -⟩ rfl - hy -
    exact absurd (List.append_eq_nil_iff.mp e').2 hy
  | cons l ls ih =>
    rintro w x y ⟨e', h⟩ rfl hx hy hn
    obtain ⟨⟨hne, h1⟩, h2⟩ := h l (by simp)
    have hls : HeadersAre (ls.map fun l => l.1 ++ 58 :: (l.2 ++ CRLF)).flatten ls := ⟨rfl, fun l hl => h l (by simp [hl])⟩
    rw [List.map_cons, List.flatten_cons] at e'
    rcases List.append_eq_append_iff.mp e' with ⟨z, h3, h4⟩ | ⟨z, h3, h4⟩
    · -- the line begins in this header
      rcases hx with rfl | ⟨p, rfl⟩
      · refine ⟨l.1, l.2 ++ CRLF ++ (ls.map fun l => l.1 ++ 58 :: (l.2 ++ CRLF)).flatten, ?_, hne, h1⟩
        rw [h4, ← List.nil_append z, ← h3]
        simp
      · have h5 : ∃ q, l.2 ++ CRLF = q ++ 13 :: 10 :: z := by
          have h3' : l.1 ++ ([58] ++ (l.2 ++ CRLF)) = p ++ (13 :: 10 :: z) := by simpa [CRLF] using h3
          rcases List.append_eq_append_iff.mp h3' with ⟨q, h5, h6⟩ | ⟨q, h5, h6⟩
          · cases q with
            | nil => simp at h6
            | cons a q =>
              simp only [List.cons_append, List.nil_append, List.cons.injEq] at h6
              exact ⟨q, h6.2⟩
          · exfalso
            cases q with
            | nil => simp at h6
            | cons a q =>
              simp only [List.cons_append, List.cons.injEq] at h6
              obtain ⟨rfl, -⟩ := h6
              exact absurd (h1 13 (by rw [h5]; simp)) (by decide)
        obtain ⟨q, h5⟩ := h5
        rcases folded_break h2 h5 with rfl | ⟨b, t, rfl, hb⟩
        · exact ih hls (by rw [h4, List.nil_append]; exact (List.nil_append _).symm) (.inl rfl) hy hn
        · exfalso
          rw [h4] at hn
          have := hn b (t ++ (ls.map fun l => l.1 ++ 58 :: (l.2 ++ CRLF)).flatten) rfl
          rw [hb] at this
          cases this
    · refine ih hls h4 ?_ hy hn
      rcases hx with rfl | ⟨p, hp⟩
      · left
        exact (List.append_eq_nil_iff.mp h3.symm).2
      · rcases List.eq_nil_or_concat z with rfl | ⟨z, b, rfl⟩
        · exact .inl rfl
        rcases List.eq_nil_or_concat z with rfl | ⟨z, a, rfl⟩
        · exfalso
          rw [h3, show p ++ CRLF = (p ++ [13]) ++ [10] by simp [CRLF], List.concat_eq_append, List.nil_append] at hp
          have h5 := (List.append_inj' hp rfl).1
          have h6 := congrArg List.getLast? h5
          rw [show l.1 ++ 58 :: (l.2 ++ CRLF) = (l.1 ++ 58 :: (l.2 ++ [13])) ++ [10] by simp [CRLF],
            List.getLast?_concat, List.getLast?_concat] at h6
          exact absurd h6 (by decide)
        · right
          rw [h3, List.concat_eq_append, List.concat_eq_append,
            show l.1 ++ 58 :: (l.2 ++ CRLF) ++ (z ++ [a] ++ [b]) = (l.1 ++ 58 :: (l.2 ++ CRLF) ++ z) ++ [a, b] by simp] at hp
          have h5 := (List.append_inj' hp rfl).2
          rw [List.concat_eq_append, List.concat_eq_append, List.append_assoc]
          exact ⟨z, by rw [h5]; rfl⟩

theorem stray_not {w : Bytes} (h : StrayLine w) (ls : List (Bytes × Bytes)) : ¬ HeadersAre w ls := by
  intro hl
  obtain ⟨x, y, e, hx, hy, hn, h⟩ := h
  obtain ⟨name, t, e', h'⟩ := headersAre_line hl e hx hy hn
  exact h name t e' h'

/-! ### What is refused -/

/-- A message whose header block is not made of headers is refused. -/
theorem C89_refused (hc : c.feat.compiles) (i head tail : Bytes) (hs : Split i head tail) (h : ∀ ls, ¬ HeadersAre head ls) :
    Aborted (Email.parse c i) ∨
      Email.parse c i = .err (.explicit "TAG ERROR: Headers must be followed by a CRLF sequence.") := by
  refine (C87_parse c hc i head tail hs (fun ⟨ls, h', _⟩ => h ls h') (c.stack + head.count 40)
    (by omega) (by omega)).imp_right fun h' => ?_
  generalize Email.parse c i = r at h' ⊢
  cases h' with
  | read h' => exact absurd (madeOf_headers h').choose_spec.1 (h _)
  | body h' => exact absurd (madeOf_headers h').choose_spec.1 (h _)
  | cut => rfl
  | other => rfl

theorem C89_part_refused (hm : c.feat.mime = true) (i head tail : Bytes) (hs : Split i head tail)
    (h : ∀ ls, ¬ HeadersAre head ls) : Aborted (rawEntity c i) ∨
      rawEntity c i = .err (.explicit "TAG ERROR: A MIME entity header part must be followed by a CRLF sequence.") := by
  refine (C87_part_parse c hm i head tail hs (fun ⟨ls, h', _⟩ => h ls h') (c.stack + head.count 40)
    (by omega) (by omega)).imp_right fun h' => ?_
  generalize rawEntity c i = r at h' ⊢
  cases h' with
  | read h' => exact absurd (madeOf_headers h').choose_spec.1 (h _)
  | undecodable h' => exact absurd (madeOf_headers h').choose_spec.1 (h _)
  | cut => rfl
  | other => rfl

/-- A message with a control character other than tab, a byte above 126, a CR without LF or a LF without CR before its first empty
line is refused. -/
theorem C89_foreign (hc : c.feat.compiles) (i head tail : Bytes) (hs : Split i head tail) (h : Foreign head) :
    Aborted (Email.parse c i) ∨
      Email.parse c i = .err (.explicit "TAG ERROR: Headers must be followed by a CRLF sequence.") :=
  C89_refused c hc i head tail hs (foreign_not h)

/-- A message is refused if a line of its header block neither continues a header nor begins with a name and a colon. -/
theorem C89_stray_line (hc : c.feat.compiles) (i head tail : Bytes) (hs : Split i head tail) (h : StrayLine head) :
    Aborted (Email.parse c i) ∨
      Email.parse c i = .err (.explicit "TAG ERROR: Headers must be followed by a CRLF sequence.") :=
  C89_refused c hc i head tail hs (stray_not h)

/-- The same for the parts of multipart bodies. -/
theorem C89_part (hm : c.feat.mime = true) (i head tail : Bytes) (hs : Split i head tail) (h : Foreign head ∨ StrayLine head) :
    Aborted (rawEntity c i) ∨
      rawEntity c i = .err (.explicit "TAG ERROR: A MIME entity header part must be followed by a CRLF sequence.") :=
  C89_part_refused c hm i head tail hs (h.elim foreign_not stray_not)

/-- A message in which the lines are ended by LF only, or by CR only, is refused. -/
theorem C89_no_crlf (hc : c.feat.compiles) (i : Bytes) (hi : i ≠ []) (h : ¬ CRLF <:+: i) : Aborted (Email.parse c i) ∨
    Email.parse c i = .err (.explicit "TAG ERROR: Headers must be followed by a CRLF sequence.") := by
  refine C88_unfinished_line c hc i hi (fun h' => h h'.isInfix) ?_ fun h' => h h'.isInfix
  rintro ⟨k, hk⟩
  exact h (((List.prefix_append CRLF CRLF).trans hk).isInfix.trans (List.drop_suffix k i).isInfix)

/-! ### What is not -/

def longDate : DateTime :=
  { dayName := none, date := { day := 1, month := .january, year := 2024 }
    time := { time := { hour := 0, minute := 0, second := 0 }, zone := { sign := true, hourOffset := 0, minuteOffset := 0 } } }

/-- A message with one field that is not recognised. -/
def longLetter (f : Features) (x : Bytes) : Letter where
  date := if f.date then some longDate else none
  «from» := if f.from then some [⟨none, ⟨b! "a", b! "b"⟩⟩] else none
  others := [(b! "X", x)]

theorem longLetter_valid {x : Bytes} (hx : ValidText c.feat.unrecognizedHeaders x) : (longLetter c.feat x).Valid c where
  headers := by
    intro h hh
    simp only [longLetter, Letter.headers, List.mem_append, List.map_cons, List.map_nil, Option.toList, List.not_mem_nil, false_or,
      List.mem_singleton, if_true] at hh
    rcases hh with hh | hh | rfl
    · by_cases hd : c.feat.date = true
      · rw [if_pos hd] at hh
        simp only [List.map_cons, List.map_nil, List.mem_singleton] at hh
        subst hh
        refine ⟨by simp [MailHeader.Writable, InRange, longDate], fun n hn => ?_⟩
        cases hn
        exact .inl ⟨hd, rfl⟩
      · rw [if_neg hd] at hh
        simp at hh
    · by_cases hd : c.feat.from = true
      · rw [if_pos hd] at hh
        simp only [List.map_cons, List.map_nil, List.mem_singleton] at hh
        subst hh
        refine ⟨?_, fun n hn => ?_⟩
        · simp [MailHeader.Writable, ValidMailbox, ValidAddress, Spec.Printable]
          decide +kernel
        · cases hn
          exact .inr (.inl ⟨hd, rfl⟩)
      · rw [if_neg hd] at hh
        simp at hh
    · refine ⟨⟨by simp, by decide +kernel, ?_, hx⟩, nofun⟩
      simp [Recognized]
  trace := .inl rfl
  traces := by simp [longLetter]
  separated := trivial
  others := by simp [longLetter]
  date := fun h => by simp [longLetter, h]
  «from» := fun h => by simp [longLetter, h]
  sender := by
    intro _ _ authors h
    simp only [longLetter] at h
    split at h
    · cases h; rfl
    · cases h
  body := by simp [longLetter]

/-- Any text of printable characters, spaces and tabs is accepted on one line, however long, in every configuration. -/
theorem C89_any_text (hc : c.feat.compiles) (x : Bytes) (h1 : ∀ b ∈ x, vchar b = true ∨ wsp b = true) (h2 : Solid x)
    (h3 : ¬ b! "=?" <:+: x) :
    ∃ i e, Email.parse c i = .ok e ∧ b! "X:" ++ x ++ CRLF <:+: i ∧ e.unknownFields = [(b! "X", x)] := by
  have hv := longLetter_valid c (x := x) ⟨h1, h2, fun _ => h3⟩
  refine ⟨_, _, C51_round_trip c hc _ hv, ?_, rfl⟩
  have hm : MailHeader.other (b! "X") x ∈ (longLetter c.feat x).headers := by simp [longLetter, Letter.headers]
  obtain ⟨l1, l2, e⟩ := List.append_of_mem hm
  refine ⟨l1.flatMap MailHeader.text, l2.flatMap MailHeader.text, ?_⟩
  rw [Letter.text, e]
  simp [longLetter, MailHeader.text, MailHeader.name, MailHeader.value]

/-- RFC 5322 2.1.1 limits lines to 998 characters; the headers of an accepted message can be of any length. -/
theorem C89_any_length (hc : c.feat.compiles) (n : Nat) :
    ∃ i e x, Email.parse c i = .ok e ∧ x.length = n ∧ 13 ∉ x ∧ b! "X:" ++ x ++ CRLF <:+: i := by
  have all : ∀ b ∈ List.replicate n (97 : UInt8), b = 97 := fun b hb => (List.mem_replicate.mp hb).2
  obtain ⟨i, e, h1, h2, -⟩ := C89_any_text c hc (List.replicate n 97) (fun b hb => by rw [all b hb]; decide)
    (fun u b e => by rw [all b (by rw [e]; simp)]; decide)
    (fun h => absurd (all 61 (h.subset (by decide))) (by decide))
  exact ⟨i, e, _, h1, by simp, fun h => absurd (all 13 h) (by decide), h2⟩

/-! ### Examples -/

/-- A message, the same with LF instead of CRLF, with a letter in UTF-8, with a NUL, with a space before a colon and with the first line
of a mailbox file. -/
example : [b! "From: a@b\r\nDate: 1 Jan 2020 00:00:00 +0000\r\nSubject: x\r\n\r\ny",
    b! "From: a@b\nDate: 1 Jan 2020 00:00:00 +0000\nSubject: x\n\ny",
    b! "From: a@b\r\nDate: 1 Jan 2020 00:00:00 +0000\r\nSubject: " ++ [195, 169] ++ b! "\r\n\r\ny",
    b! "From: a@b\r\nDate: 1 Jan 2020 00:00:00 +0000\r\nSubject: " ++ [0] ++ b! "\r\n\r\ny",
    b! "From: a@b\r\nDate: 1 Jan 2020 00:00:00 +0000\r\nSubject : x\r\n\r\ny",
    b! "From a@b Wed Jan  1 00:00:00 2020\r\nFrom: a@b\r\nDate: 1 Jan 2020 00:00:00 +0000\r\n\r\ny"].map
      (fun i => outcomeError (Email.parse (Cfg.concrete .full) i)) =
    none :: List.replicate 5 (some (.explicit "TAG ERROR: Headers must be followed by a CRLF sequence.")) := by decide +kernel

/-- The letter in UTF-8 is foreign to a header block, and so is each half of a CRLF alone. -/
example : Foreign (b! "Subject: " ++ [195, 169] ++ b! "\r\n") ∧ Foreign (b! "Subject: x\n\r\n") ∧
    Foreign (b! "Subject: x\r\r\n") :=
  ⟨⟨b! "Subject: ", 195, _, rfl, .inl (by decide)⟩, ⟨b! "Subject: x", 10, _, rfl, .inr (.inr (by decide))⟩,
    ⟨b! "Subject: x", 13, _, rfl, .inr (.inl (by decide))⟩⟩

/-- A line with a space before the colon is not a header. -/
example : StrayLine (b! "From: a@b\r\nSubject : x\r\n") := by
  refine ⟨b! "From: a@b\r\n", b! "Subject : x\r\n", rfl, .inr ⟨b! "From: a@b", rfl⟩, by decide, ?_, ?_⟩
  · rintro b s h
    cases h
    decide
  · rintro name t h ⟨-, hn⟩
    have : name.length ≤ 7 ∨ 8 ≤ name.length := by omega
    rcases this with hl | hl
    · have h58 : (name ++ 58 :: t)[name.length]? = some 58 := by simp
      rw [← h] at h58
      generalize name.length = k at hl h58
      match k, hl with
      | 0, _ | 1, _ | 2, _ | 3, _ | 4, _ | 5, _ | 6, _ | 7, _ => exact absurd h58 (by decide)
    · have h32 : (name ++ 58 :: t)[7]? = some 32 := by rw [← h]; decide
      rw [List.getElem?_append_left (by omega)] at h32
      exact absurd (hn 32 (List.mem_of_getElem? h32)) (by decide)

/-- With MIME all of these are accepted after the empty line. -/
example : (outcomeValue (Email.parse (Cfg.concrete .full)
    (b! "From: a@b\r\nDate: 1 Jan 2020 00:00:00 +0000\r\n\r\n" ++ [195, 169, 0, 10, 13]))).bind
      (fun e => e.mimeEntity.map (·.value)) = some [195, 169, 0, 10, 13] := by decide +kernel

end EmailParser
