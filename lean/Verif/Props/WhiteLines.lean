import Verif.Proofs.WhiteLines
/-
C86: the white lines of a header block, and what is returned for every input that has none where they may be.
`Spec.HeadersAre`, `Spec.MayBeWhite` and `Spec.SomeWhite` are in Verif/Spec/WhiteLines.lean.
-/
namespace EmailParser
open Spec

variable (c : Cfg)

/-! ### C86: the headers of a text -/

theorem folded_unique {t t' r r' : Bytes} (h : Folded t) (h' : Folded t') (hr : Stops wsp r) (hr' : Stops wsp r')
    (e : t ++ (CRLF ++ r) = t' ++ (CRLF ++ r')) : t = t' := by
  have no : ∀ {x : UInt8} {w r : Bytes}, wsp x = true → Stops wsp r → ¬ r = x :: w := by
    intro x w r hx hr e
    rw [hr x w e] at hx
    cases hx
  have n13 : ∀ x : UInt8, vchar x = true ∨ wsp x = true → x ≠ 13 := by decide +kernel
  induction h generalizing t' with
  | nil =>
    cases h' with
    | nil => rfl
    | char hx => exact absurd (List.cons.inj e).1.symm (n13 _ hx)
    | fold hx =>
      simp only [CRLF, List.nil_append, List.cons_append, List.cons.injEq, true_and] at e
      exact absurd e (no hx hr)
  | char hx _ ih =>
    cases h' with
    | nil => exact absurd (List.cons.inj e).1 (n13 _ hx)
    | char hy h' =>
      simp only [List.cons_append, List.cons.injEq] at e
      obtain ⟨rfl, e⟩ := e
      rw [ih h' e]
    | fold => exact absurd (List.cons.inj e).1 (n13 _ hx)
  | fold hx _ ih =>
    cases h' with
    | nil =>
      simp only [CRLF, List.nil_append, List.cons_append, List.cons.injEq, true_and] at e
      exact absurd e.symm (no hx hr')
    | char hy => exact absurd (List.cons.inj e).1.symm (n13 _ hy)
    | fold hy h' =>
      simp only [List.cons_append, List.cons.injEq, true_and] at e
      obtain ⟨rfl, e⟩ := e
      rw [ih h' e]

theorem name_unique {n n' r r' : Bytes} (h : ∀ b ∈ n, ftext b = true) (h' : ∀ b ∈ n', ftext b = true)
    (e : n ++ 58 :: r = n' ++ 58 :: r') : n = n' ∧ r = r' := by
  induction n generalizing n' with
  | nil =>
    cases n' with
    | nil => exact ⟨rfl, (List.cons.inj e).2⟩
    | cons b n' =>
      have := h' b (by simp)
      rw [← (List.cons.inj e).1] at this
      exact absurd this (by decide)
  | cons b n ih =>
    cases n' with
    | nil =>
      have := h b (by simp)
      rw [(List.cons.inj e).1] at this
      exact absurd this (by decide)
    | cons b' n' =>
      simp only [List.cons_append, List.cons.injEq] at e
      obtain ⟨rfl, e⟩ := e
      obtain ⟨rfl, rfl⟩ := ih (fun b hb => h b (by simp [hb])) (fun b hb => h' b (by simp [hb])) e
      exact ⟨rfl, rfl⟩

theorem headers_stop {ls : List (Bytes × Bytes)} (h : ∀ l ∈ ls, (l.1 ≠ [] ∧ ∀ b ∈ l.1, ftext b = true) ∧ Folded l.2) :
    Stops wsp (ls.map fun l => l.1 ++ 58 :: (l.2 ++ CRLF)).flatten := by
  cases ls with
  | nil => rintro b t ⟨⟩
  | cons l ls =>
    obtain ⟨⟨hne, hn⟩, -⟩ := h l (by simp)
    obtain ⟨b, n, e⟩ := List.exists_cons_of_ne_nil hne
    intro b' t e'
    simp only [List.map_cons, List.flatten_cons, e, List.cons_append, List.cons.injEq] at e'
    rw [← e'.1]
    exact (by decide +kernel : ∀ b, ftext b = true → wsp b = false) b (hn b (by simp [e]))

/-- A text consists of headers in one way at most. -/
theorem C86_headers (w : Bytes) (ls ls' : List (Bytes × Bytes)) (h : HeadersAre w ls) (h' : HeadersAre w ls') : ls = ls' := by
  obtain ⟨rfl, h⟩ := h
  obtain ⟨e, h'⟩ := h'
  induction ls generalizing ls' with
  | nil =>
    cases ls' with
    | nil => rfl
    | cons l ls' =>
      have := congrArg List.length e
      simp at this
  | cons l ls ih =>
    cases ls' with
    | nil =>
      have := congrArg List.length e
      simp at this
    | cons l' ls' =>
      obtain ⟨n, t⟩ := l
      obtain ⟨n', t'⟩ := l'
      have h1 := h _ (List.mem_cons_self ..)
      have h1' := h' _ (List.mem_cons_self ..)
      have h2 := fun l hl => h l (List.mem_cons_of_mem _ hl)
      have h2' := fun l hl => h' l (List.mem_cons_of_mem _ hl)
      have e : n ++ 58 :: (t ++ (CRLF ++ (ls.map fun l => l.1 ++ 58 :: (l.2 ++ CRLF)).flatten)) =
          n' ++ 58 :: (t' ++ (CRLF ++ (ls'.map fun l => l.1 ++ 58 :: (l.2 ++ CRLF)).flatten)) := by simpa using e
      obtain ⟨e1, e2⟩ := name_unique h1.1.2 h1'.1.2 e
      subst e1
      obtain rfl := folded_unique h1.2 h1'.2 (headers_stop h2) (headers_stop h2') e2
      rw [ih ls' h2 (List.append_cancel_left (List.append_cancel_left e2)) h2']

/-! ### Where white lines may be -/

/-- In an accepted message white lines are only in the headers that allow comments, and there are never two in a row. -/
theorem C86_where (hc : c.feat.compiles) (i head tail : Bytes) (e : Email) (hs : Split i head tail)
    (h : Email.parse c i = .ok e) : ∃ ls, HeadersAre head ls ∧
      ∀ l ∈ ls, (WhiteLine (l.2 ++ CRLF) → MayBeWhite c (l.1.map asciiLower)) ∧ ¬ WhiteLines 2 (l.2 ++ CRLF) := by
  obtain ⟨fs, b, hp, -⟩ := parse_ok c hc h
  obtain ⟨t, h4, h5⟩ := parseMessage_content.1 hp
  obtain ⟨w, rfl, hw⟩ := (fields_parses (c := c) i).of_ok h4
  have hl := (lines_headerBlock (strOk_utf8 c) hc.2 _ _ hw).1
  obtain ⟨_, _, -, hu⟩ := C83_split (w ++ t)
  obtain ⟨rfl, rfl⟩ := hu _ _ (split_lines hl (contentOf_ended h5))
  obtain ⟨rfl, rfl⟩ := hu _ _ hs
  exact few_headerBlock hc.2 _ _ hw

/-- In a part that is read white lines are only in the headers that allow comments, and there are never two in a row. -/
theorem C86_part_where (hm : c.feat.mime = true) (i head tail : Bytes) (e : RawEntity) (hs : Split i head tail)
    (h : rawEntity c i = .ok e) : ∃ ls, HeadersAre head ls ∧
      ∀ l ∈ ls, (WhiteLine (l.2 ++ CRLF) → PartMayBeWhite (l.1.map asciiLower)) ∧ ¬ WhiteLines 2 (l.2 ++ CRLF) := by
  obtain ⟨r, hr, -⟩ := bind_eq_ok.1 h
  have hp := headerPart_sat hm i
  rw [hr] at hp
  obtain ⟨ks, body, ⟨w, hw, hi⟩, -⟩ := hp
  have hl := (lines_star (lines_entityHeader c hm) _ _ hw).1
  obtain ⟨_, _, -, hu⟩ := C83_split i
  have h1 : ∃ t, Split i w t := by
    rcases hi with ⟨rfl, -⟩ | rfl
    · exact ⟨[], by simpa using split_lines hl .nil⟩
    · exact ⟨CRLF ++ body, by simpa using split_lines hl (.crlf body)⟩
  obtain ⟨t, h1⟩ := h1
  obtain ⟨rfl, rfl⟩ := hu _ _ h1
  obtain ⟨rfl, rfl⟩ := hu _ _ hs
  exact few_star (few_entityHeader hm) _ _ hw

/-! ### What is returned -/

/-- What is returned for an input, whatever it is: its header block has no white line where one may be, or has one where it
may not be, and is within the limits. -/
theorem C86_parse (hc : c.feat.compiles) (i head tail : Bytes) (hs : Split i head tail) (hw : ¬ SomeWhite (MayBeWhite c) head)
    (hf : Fits c head) (r : Outcome Email) : Email.parse c i = r ↔ Returned c head tail r := by
  have hw' : ∀ fs, HeaderBlock c head fs → ∃ ls, MadeOf head ls := fun _ h => madeOf_few (few_headerBlock hc.2 _ _ h) hw
  constructor
  · rintro rfl
    exact returned_parse c hc hs hw' hf
  · exact returned_unique c hc hf (returned_parse c hc hs hw' hf)

/-- What is returned for a part, whatever it is. -/
theorem C86_part (hm : c.feat.mime = true) (i head tail : Bytes) (hs : Split i head tail) (hw : ¬ SomeWhite PartMayBeWhite head)
    (hf : Fits c head) (r : Outcome RawEntity) : rawEntity c i = r ↔ ReturnedPart c head tail r := by
  have hw' : ∀ ks, Gram.star (EntityHeaderG c) head ks → ∃ ls, MadeOf head ls := fun _ h =>
    madeOf_few (few_star (few_entityHeader hm) _ _ h) hw
  constructor
  · rintro rfl
    obtain ⟨r, hr⟩ := returnedPart_exists c hs
    rw [returnedPart_sound c hm hs hw' hf hr]
    exact hr
  · exact returnedPart_sound c hm hs hw' hf

/-- What is returned for a multipart entity, whatever its body is. -/
theorem C86_multipart (hm : c.feat.mime = true) (raw : RawEntity) (ht : raw.mimeType = .multipart)
    (hp : ∀ b ps, raw.parameters (b! "boundary") = some b → MultipartText b raw.value ps → ∀ p ∈ ps,
      ∀ head tail, Split p head tail → ¬ SomeWhite PartMayBeWhite head ∧ Fits c head)
    (r : Outcome Entity) : raw.parse c = r ↔ ReturnedMultipart c raw r :=
  multipart_iff c ht (fun b ps h h' p hp' head tail hs =>
    C86_part c hm p head tail hs (hp b ps h h' p hp' head tail hs).1 (hp b ps h h' p hp' head tail hs).2) r

theorem folding_folded {x w : Bytes} (h : Folding x w) : Folded w := by
  have white : ∀ {s u : Bytes}, (∀ b ∈ s, wsp b = true) → Folded u → Folded (s ++ u) := by
    intro s u hs hu
    induction s with
    | nil => exact hu
    | cons b s ih => exact .char (.inr (hs b (by simp))) (ih fun b hb => hs b (by simp [hb]))
  induction h with
  | nil => exact .nil
  | char hb _ ih => exact .char (.inl hb) ih
  | space hs _ _ ih => exact white hs ih
  | @fold s s' x w hs hs' hne _ _ _ ih =>
    rw [List.append_assoc, List.append_assoc]
    refine white hs ?_
    obtain ⟨b, s', rfl⟩ := List.exists_cons_of_ne_nil hne
    exact .fold (hs' b (by simp)) (white (fun b hb => hs' b (by simp [hb])) ih)

/-- What is made of header lines has headers without white lines. -/
theorem madeOf_headers {w : Bytes} {ls : List Bytes} (h : MadeOf w ls) :
    ∃ hs, HeadersAre w hs ∧ ∀ l ∈ hs, ¬ WhiteLine (l.2 ++ CRLF) := by
  obtain ⟨rfl, h⟩ := h
  induction ls with
  | nil => exact ⟨[], ⟨rfl, by simp⟩, by simp⟩
  | cons l ls ih =>
    obtain ⟨hs, ⟨e, h1⟩, h2⟩ := ih fun l hl => h l (by simp [hl])
    obtain ⟨name, x, t, hx⟩ := h l (by simp)
    refine ⟨(name, t) :: hs, ⟨?_, List.forall_mem_cons.2 ⟨⟨⟨hx.name_ne, hx.name_chars⟩, folding_folded hx.folding⟩, h1⟩⟩,
      List.forall_mem_cons.2 ⟨?_, h2⟩⟩
    · rw [List.flatten_cons, e, hx.text]
      simp
    · rintro ⟨y, ws, z, e, hws⟩
      exact folding_line hx.folding y ws z (by simpa [CRLF] using e) hws

theorem not_madeOf {w : Bytes} {hs : List (Bytes × Bytes)} {l : Bytes × Bytes} (h : HeadersAre w hs) (hl : l ∈ hs)
    (hw : WhiteLine (l.2 ++ CRLF)) (ls : List Bytes) : ¬ MadeOf w ls := by
  intro hm
  obtain ⟨hs', h1, h2⟩ := madeOf_headers hm
  obtain rfl := C86_headers _ _ _ h h1
  exact h2 l hl hw

theorem not_someWhite {w : Bytes} {hs : List (Bytes × Bytes)} {l : Bytes × Bytes} {P : Bytes → Prop} (h : HeadersAre w hs)
    (hl : l ∈ hs) (hw : WhiteLine (l.2 ++ CRLF)) (hp : ¬ P (l.1.map asciiLower) ∨ WhiteLines 2 (l.2 ++ CRLF)) :
    ¬ SomeWhite P w := by
  rintro ⟨hs', h1, -, h2⟩
  obtain rfl := C86_headers _ _ _ h h1
  rcases hp with hp | hp
  · exact hp (h2 l hl hw).1
  · exact (h2 l hl hw).2 hp

theorem whiteLines_one {w : Bytes} (h : WhiteLines 2 w) : WhiteLine w := by
  obtain ⟨y, ws, z, rfl, hl, hs⟩ := h
  match ws, hl with
  | [s, s'], _ => exact ⟨y, s, s' ++ CRLF ++ z, by simp, hs s (by simp)⟩

/-- A message with a white line in another header, or with two in a row, is refused. -/
theorem C86_refused (hc : c.feat.compiles) (i head tail : Bytes) (hs : Split i head tail) (hf : Fits c head)
    (ls : List (Bytes × Bytes)) (hls : HeadersAre head ls) (l : Bytes × Bytes) (hl : l ∈ ls)
    (h : (WhiteLine (l.2 ++ CRLF) ∧ ¬ MayBeWhite c (l.1.map asciiLower)) ∨ WhiteLines 2 (l.2 ++ CRLF)) :
    Email.parse c i = .err (.explicit "TAG ERROR: Headers must be followed by a CRLF sequence.") := by
  have hw : WhiteLine (l.2 ++ CRLF) := h.elim (·.1) whiteLines_one
  exact (C86_parse c hc i head tail hs (not_someWhite hls hl hw (h.imp_left (·.2))) hf _).mpr (.other (not_madeOf hls hl hw))

/-- A part with a white line in another header, or with two in a row, is refused. -/
theorem C86_part_refused (hm : c.feat.mime = true) (i head tail : Bytes) (hs : Split i head tail) (hf : Fits c head)
    (ls : List (Bytes × Bytes)) (hls : HeadersAre head ls) (l : Bytes × Bytes) (hl : l ∈ ls)
    (h : (WhiteLine (l.2 ++ CRLF) ∧ ¬ PartMayBeWhite (l.1.map asciiLower)) ∨ WhiteLines 2 (l.2 ++ CRLF)) :
    rawEntity c i = .err (.explicit "TAG ERROR: A MIME entity header part must be followed by a CRLF sequence.") := by
  have hw : WhiteLine (l.2 ++ CRLF) := h.elim (·.1) whiteLines_one
  exact (C86_part c hm i head tail hs (not_someWhite hls hl hw (h.imp_left (·.2))) hf _).mpr (.other (not_madeOf hls hl hw))

/-! ### All of these headers may have white lines -/

/-- Folded text, as a computation. -/
def foldedText : Bytes → Bool
  | [] => true
  | 13 :: 10 :: b :: w => wsp b && foldedText w
  | b :: w => (vchar b || wsp b) && foldedText w

theorem folded_text {w : Bytes} (h : foldedText w = true) : Folded w := by
  fun_induction foldedText w with
  | case1 => exact .nil
  | case2 b w ih =>
    simp only [Bool.and_eq_true] at h
    exact .fold h.1 (ih h.2)
  | case3 b w _ ih =>
    simp only [Bool.and_eq_true, Bool.or_eq_true] at h
    exact .char h.1 (ih h.2)

/-- Headers before, the name and the text before the white line, headers after. -/
abbrev WhiteCase := List (Bytes × Bytes) × Bytes × Bytes × List (Bytes × Bytes)

def WhiteCase.headers (e : WhiteCase) : List (Bytes × Bytes) := e.1 ++ (e.2.1, e.2.2.1 ++ b! "\r\n ") :: e.2.2.2
def WhiteCase.text (e : WhiteCase) : Bytes := (e.headers.map fun l => l.1 ++ 58 :: (l.2 ++ CRLF)).flatten
def WhiteCase.fine (e : WhiteCase) : Bool :=
  e.headers.all fun l => !l.1.isEmpty && l.1.all ftext && foldedText l.2

theorem whiteCase {e : WhiteCase} (h : e.fine = true) :
    HeadersAre e.text e.headers ∧ ∃ l ∈ e.headers, l.1 = e.2.1 ∧ WhiteLine (l.2 ++ CRLF) := by
  refine ⟨⟨rfl, fun l hl => ?_⟩, (e.2.1, e.2.2.1 ++ b! "\r\n "), by simp [WhiteCase.headers], rfl,
    e.2.2.1, b! " ", [], ?_, by decide +kernel⟩
  · have := List.all_eq_true.1 h l hl
    simp only [Bool.and_eq_true, List.all_eq_true, Bool.not_eq_true', List.isEmpty_eq_false_iff] at this
    exact ⟨this.1, folded_text this.2⟩
  · simp [CRLF]

def whiteFrom : Bytes × Bytes := (b! "From", b! " a@b")
def whiteDate : Bytes × Bytes := (b! "Date", b! " 21 Nov 1997 10:01:22 -0600")
def whiteReceived : Bytes × Bytes := (b! "Received", b! " x; 21 Nov 1997 10:01:22 -0600")

/-- One message for each header. -/
def whiteCases : List WhiteCase :=
  [([whiteFrom], b! "Date", b! " 21 Nov 1997 10:01:22 -0600", []),
    ([], b! "From", b! " a@b", [whiteDate]),
    ([whiteFrom, whiteDate], b! "Sender", b! " a@b", []),
    ([whiteFrom, whiteDate], b! "Reply-To", b! " a@b", []),
    ([whiteFrom, whiteDate], b! "To", b! " a@b", []),
    ([whiteFrom, whiteDate], b! "Cc", b! " x: ;", []),
    ([whiteFrom, whiteDate], b! "Bcc", b! " a@b", []),
    ([whiteFrom, whiteDate], b! "Message-ID", b! " <a@b>", []),
    ([whiteFrom, whiteDate], b! "In-Reply-To", b! " <a@b>", []),
    ([whiteFrom, whiteDate], b! "References", b! " <a@b>", []),
    ([whiteFrom, whiteDate], b! "Content-ID", b! " <a@b>", []),
    ([whiteFrom, whiteDate], b! "Keywords", b! " a", []),
    ([whiteFrom, whiteDate], b! "Content-Type", b! " text/plain; a=\"b\"", []),
    ([whiteFrom, whiteDate], b! "Content-Disposition", b! " inline; a=\"b\"", []),
    ([], b! "Return-Path", b! " <>", [whiteReceived, whiteFrom, whiteDate]),
    ([], b! "Received", b! " x; 21 Nov 1997 10:01:22 -0600", [whiteFrom, whiteDate]),
    ([whiteReceived], b! "Resent-Date", b! " 21 Nov 1997 10:01:22 -0600", [whiteFrom, whiteDate]),
    ([whiteReceived], b! "Resent-From", b! " a@b", [whiteFrom, whiteDate]),
    ([whiteReceived], b! "Resent-Sender", b! " a@b", [whiteFrom, whiteDate]),
    ([whiteReceived], b! "Resent-To", b! " a@b", [whiteFrom, whiteDate]),
    ([whiteReceived], b! "Resent-Cc", b! " a@b", [whiteFrom, whiteDate]),
    ([whiteReceived], b! "Resent-Bcc", b! " a@b", [whiteFrom, whiteDate]),
    ([whiteReceived], b! "Resent-Message-ID", b! " <a@b>", [whiteFrom, whiteDate])]

/-- With all features, each of these headers may have a white line in an accepted message. -/
theorem C86_sharp (name : Bytes) (h : MayBeWhite (Cfg.concrete .full) name) :
    ∃ w ls l e, HeadersAre w ls ∧ l ∈ ls ∧ l.1.map asciiLower = name ∧ WhiteLine (l.2 ++ CRLF) ∧
      Email.parse (Cfg.concrete .full) w = .ok e := by
  have h1 : name ∈ commentNames ++ traceNames := by
    rcases h with ⟨-, h⟩ | ⟨-, h⟩
    · exact List.mem_append_left _ h
    · exact List.mem_append_right _ h
  obtain ⟨x, hx, rfl⟩ : ∃ x ∈ whiteCases, x.2.1.map asciiLower = name :=
    (by decide +kernel : ∀ name ∈ commentNames ++ traceNames, ∃ x ∈ whiteCases, x.2.1.map asciiLower = name) name h1
  have h2 := (by decide +kernel :
    ∀ x ∈ whiteCases, x.fine = true ∧ isOk (Email.parse (Cfg.concrete .full) x.text) = true) x hx
  obtain ⟨h3, l, h4, h5, h6⟩ := whiteCase h2.1
  obtain ⟨e, he⟩ := isOk_iff.mp h2.2
  exact ⟨_, _, l, e, h3, h4, by rw [h5], h6, he⟩

/-- One part for each header. -/
def whiteParts : List WhiteCase :=
  [([], b! "Content-Type", b! " text/plain; a=\"b\"", []), ([], b! "Content-ID", b! " <a@b>", []),
    ([], b! "Content-Disposition", b! " inline; a=\"b\"", [])]

/-- Each of these headers may have a white line in a part that is read. -/
theorem C86_part_sharp (name : Bytes) (h : PartMayBeWhite name) :
    ∃ w ls l e, HeadersAre w ls ∧ l ∈ ls ∧ l.1.map asciiLower = name ∧ WhiteLine (l.2 ++ CRLF) ∧
      rawEntity (Cfg.concrete .full) w = .ok e := by
  unfold PartMayBeWhite at h
  obtain ⟨x, hx, rfl⟩ : ∃ x ∈ whiteParts, x.2.1.map asciiLower = name :=
    (by decide +kernel : ∀ name ∈ [b! "content-type", b! "content-id", b! "content-disposition"],
      ∃ x ∈ whiteParts, x.2.1.map asciiLower = name) name h
  have h2 := (by decide +kernel :
    ∀ x ∈ whiteParts, x.fine = true ∧ isOk (rawEntity (Cfg.concrete .full) x.text) = true) x hx
  obtain ⟨h3, l, h4, h5, h6⟩ := whiteCase h2.1
  obtain ⟨e, he⟩ := isOk_iff.mp h2.2
  exact ⟨_, _, l, e, h3, h4, by rw [h5], h6, he⟩

/-! ### Examples -/

/-- A subject may be folded, but not so that a line is white. -/
example : Email.parse (Cfg.concrete .full) (b! "From: a@b\r\nSubject: x\r\n \r\n\r\n") =
    .err (.explicit "TAG ERROR: Headers must be followed by a CRLF sequence.") := by
  have hs : Split (b! "From: a@b\r\nSubject: x\r\n \r\n\r\n") (b! "From: a@b\r\nSubject: x\r\n \r\n") CRLF :=
    .later (p := b! "From: a@b\r\nSubject: x\r\n ") (b := []) (by decide +kernel) ⟨rfl, by unfold OccursAt; decide +kernel⟩
  refine C86_refused (Cfg.concrete .full) ⟨fun _ => rfl, fun _ => rfl⟩ _ _ _ hs (small_fits (by decide +kernel)) _
    (whiteCase (e := ([whiteFrom], b! "Subject", b! " x", [])) (by decide +kernel)).1 (b! "Subject", b! " x\r\n ")
    (by simp [WhiteCase.headers]) (.inl ⟨⟨b! " x", b! " ", [], rfl, by decide +kernel⟩, ?_⟩)
  rintro (⟨-, h⟩ | ⟨-, h⟩)
  · exact absurd h (by decide +kernel)
  · exact absurd h (by decide +kernel)

/-- Two white lines in a row are refused even after an address. -/
example : Email.parse (Cfg.concrete .full) (b! "From: a@b\r\n \r\n \r\n") =
    .err (.explicit "TAG ERROR: Headers must be followed by a CRLF sequence.") := by
  have hs : Split (b! "From: a@b\r\n \r\n \r\n") (b! "From: a@b\r\n \r\n \r\n") [] :=
    .none (by decide +kernel) fun ⟨k, hk⟩ => by
      have : k < 20 := by
        have := hk.length_le
        simp [CRLF] at this
        omega
      exact (by unfold OccursAt; decide +kernel :
        ∀ k, k < 20 → ¬ OccursAt (CRLF ++ CRLF) (b! "From: a@b\r\n \r\n \r\n") k) k this hk
  exact C86_refused (Cfg.concrete .full) ⟨fun _ => rfl, fun _ => rfl⟩ _ _ _ hs (small_fits (by decide +kernel)) _
    (whiteCase (e := ([], b! "From", b! " a@b\r\n ", [])) (by decide +kernel)).1 (b! "From", b! " a@b\r\n \r\n ")
    (by simp [WhiteCase.headers]) (.inr ⟨b! " a@b", [b! " ", b! " "], [], rfl, rfl, by decide +kernel⟩)

/-- One white line between two words of a phrase is accepted, and is of no consequence. -/
example : outcomeValue ((Email.parse (Cfg.concrete .full) (b! "From: A\r\n \r\n B <a@b>\r\nDate: 21 Nov 1997 10:01:22 -0600\r\n")).bind
      fun e => .ok e.from) =
    outcomeValue ((Email.parse (Cfg.concrete .full) (b! "From: A B <a@b>\r\nDate: 21 Nov 1997 10:01:22 -0600\r\n")).bind
      fun e => .ok e.from) := by decide +kernel

end EmailParser
