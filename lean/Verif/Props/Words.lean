import Verif.Proofs.Complete.Print
import Verif.Model.Concrete
import Verif.Props.Email
/-
C21, C23, C26 and C27: dates, quoted strings, message identifiers, and the comments and folding white
space around words.
-/
namespace EmailParser
open Spec

variable (c : Cfg)

/-! ### C21 -/

/-- Printing a date and parsing it gives the date back, whatever follows, as long as what follows does not
begin with white space, a fold or a comment. -/
theorem C21_date_round_trip (seconds : Bool) (d : DateTime) (r : Bytes) (h : InRange d)
    (hs : seconds = true ∨ d.time.time.second = 0) (hr : NoFws r) (hr' : Stops (· == 40) r) :
    dateTime c (printDate seconds d ++ r) = .ok (r, d) := by
  have hg := printDate_grammar (K := CommentN c.stack) h hs
  refine dateTime_append hg ?_
  have : printDate seconds d = (printDate seconds d).dropLast ++ [digitOf d.time.zone.minuteOffset] := by
    unfold printDate
    rw [show printTwo d.time.zone.minuteOffset =
      [digitOf (d.time.zone.minuteOffset / 10)] ++ [digitOf d.time.zone.minuteOffset] from rfl,
      ← List.append_assoc, List.dropLast_concat]
  rw [this]
  refine cfwsEnd_last hr hr' ?_
  have key : ∀ b, Spec.digit b = true → Spec.wsp b = false := by decide +kernel
  exact key _ (digitOf_digit _)

example : printDate true ⟨some .friday, ⟨21, .november, 1997⟩, ⟨⟨9, 55, 6⟩, ⟨false, 6, 0⟩⟩⟩ =
    b! "Fri, 21 Nov 1997 09:55:06 -0600" := by decide +kernel

example : outcomeValue (dateTime (Cfg.concrete .default) (b! "Fri, 21 Nov 1997 09:55:06 -0600\r\nX")) =
    some (b! "\r\nX", ⟨some .friday, ⟨21, .november, 1997⟩, ⟨⟨9, 55, 6⟩, ⟨false, 6, 0⟩⟩⟩) := by
  decide +kernel

/-- Every date of the grammar, with arbitrary folding, and comments nested as deep as the stack allows, is
accepted with its value. -/
theorem C21_grammar_accepted (w r : Bytes) (d : DateTime) (h : DateTimeGOf (CommentN c.stack) w d)
    (hr : CfwsEnd w r) : dateTime c (w ++ r) = .ok (r, d) :=
  dateTime_append h hr

theorem dateTimeG_depth {n : Nat} {w : Bytes} {d : DateTime} (h : DateTimeG w d) (hn : w.count 40 ≤ n) :
    DateTimeGOf (CommentN n) w d := by
  obtain ⟨w₁, _, v₁, rfl, h1, w₂, _, v₂, rfl, h2, w₃, _, v₃, rfl, h3, w₄, _, v₄, rfl, h4, w₅, _, v₅, rfl, h5,
    w₆, _, v₆, rfl, h6, w₇, _, _, rfl, h7, rfl, rfl⟩ := h
  simp only [List.count_append] at hn
  exact ⟨w₁, _, v₁, rfl, h1, w₂, _, v₂, rfl, h2, w₃, _, v₃, rfl, h3, w₄, _, v₄, rfl, h4, w₅, _, v₅, rfl, h5,
    w₆, _, v₆, rfl, h6, w₇, _, (), rfl,
    gap_of_count (c := Cfg.concrete .default (stack := n)) h7 (show w₇.count 40 ≤ n by omega), rfl, rfl⟩

/-- The grammar gives a text at most one date. -/
theorem C21_unambiguous (w : Bytes) (d d' : DateTime) (h : DateTimeG w d) (h' : DateTimeG w d') :
    d = d' := by
  have key : ∀ d, DateTimeG w d →
      dateTime (Cfg.concrete .default (stack := w.count 40)) (w ++ []) = .ok ([], d) := fun d h =>
    dateTime_append (dateTimeG_depth h (Nat.le_refl _)) ⟨stops_nil, fun t e => by cases e⟩
  have := (key d h).symm.trans (key d' h')
  simp only [Outcome.ok.injEq, Prod.mk.injEq, true_and] at this
  exact this

example : outcomeValue (dateTime (Cfg.concrete .default)
    (b! "\r\n Mon ,1 Jan\r\n 2024 \t00:00 +0000 (a (nested) comment)\r\n")) = none := by
  decide +kernel

example : outcomeValue (dateTime (Cfg.concrete .default)
    (b! "\r\n mON,1\r\n Jan 2024 \t00:00 +0000 (a (nested) comment)\r\n")) =
    some (b! "\r\n", ⟨some .monday, ⟨1, .january, 2024⟩, ⟨⟨0, 0, 0⟩, ⟨true, 0, 0⟩⟩⟩) := by
  decide +kernel

/-! ### C23 -/

/-- Quoting a text and parsing the quoted string gives the text back. -/
theorem C23_quoted_string (x r : Bytes) (hx : Printable x) (hr : NoFws r) (hr' : Stops (· == 40) r) :
    quotedString c (quote x ++ r) = .ok (r, x) := by
  have := quote_append (c := c) (r := r) optCfws_nil optCfws_nil hx
    (cfwsEnd_nil hr hr')
  simpa using this

example : quote (b! "a \"b\" \\ (c)\t") = b! "\"a \\\"b\\\" \\\\ (c)\t\"" := by decide +kernel

example : outcomeValue (quotedString (Cfg.concrete .default) (b! "\"a \\\"b\\\" \\\\ (c)\t\";")) =
    some (b! ";", b! "a \"b\" \\ (c)\t") := by decide +kernel

/-- A text with a character that cannot be quoted: nothing is parsed. -/
example : outcomeValue (quotedString (Cfg.concrete .default) (quote [97, 7, 98])) = none := by
  decide +kernel

/-! ### C26 -/

/-- Printing a message identifier and parsing it gives the same pair; white space and comments around it
are skipped. -/
theorem C26_message_id (literal : Bool) (id : Bytes × Bytes) (g₁ g₂ r : Bytes) (h : ValidId literal id)
    (h1 : Gap c g₁ ()) (h2 : Gap c g₂ ()) (hr : CfwsEnd g₂ r) :
    messageId c (g₁ ++ printId literal id ++ g₂ ++ r) = .ok (r, id) := by
  refine messageId_append (printId_grammar h1 h2 h) ?_
  by_cases hg : g₂ = []
  · subst hg
    obtain ⟨u, hu⟩ := printIds_shape [(literal, id)] (by simp)
    rw [show printId literal id = u ++ [62] from hu, List.append_nil, ← List.append_assoc]
    exact cfwsEnd_last hr.noFws hr.open (by decide)
  · exact hr.prepend hg

example : outcomeValue (messageId (Cfg.concrete .default) (b! "\r\n (c) <12.ab@[1.2.3.4]>\r\n")) =
    some (b! "\r\n", (b! "12.ab", b! "1.2.3.4")) := by decide +kernel

/-- Printing a non-empty list of identifiers, as in the headers References and In-Reply-To, and parsing it
gives the same list. -/
theorem C26_message_ids (ids : List (Bool × (Bytes × Bytes))) (r : Bytes) (hne : ids ≠ [])
    (h : ∀ x ∈ ids, ValidId x.1 x.2) (hr : NoFws r) (h40 : Stops (· == 40) r) (h60 : Stops (· == 60) r) :
    messageIds c (b! " " ++ printIds ids ++ r) = .ok (r, ids.map (·.2)) := by
  obtain ⟨u, hu⟩ := printIds_shape ids hne
  have hend : CfwsEnd (printIds ids) r := by
    rw [hu]
    exact cfwsEnd_last hr h40 (by decide)
  have hg := printIds_grammar (K := CommentN c.stack) (lax := c.feat.compatibilityFixes) ids h
  generalize printIds ids = w at *
  generalize hvs : ids.map (·.2) = vs at *
  clear hu
  cases hg with
  | nil => simp at hvs; exact absurd hvs hne
  | cons h1 hs =>
    rename_i w₁ w₂ v vs
    obtain ⟨h1, t, rfl⟩ := h1
    have h1' : MessageIdOf (CommentN c.stack) c.feat.compatibilityFixes (b! " " ++ 60 :: t) v := by
      obtain ⟨g, rest, _, e, hg, hrest⟩ := h1
      obtain ⟨o, ⟨rfl, rfl⟩ | ⟨⟨⟩, rfl, hg⟩⟩ := hg
      · rw [e]
        exact gram_then optCfws_space hrest
      · obtain ⟨b, t', rfl, hb⟩ := cfws_head hg
        simp only [List.cons_append, List.cons.injEq] at e
        obtain ⟨rfl, -⟩ := e
        exact absurd hb (by decide)
    have := messageIds_append (c := c) (r := r) h1' hs
      (by rw [List.append_assoc]; exact hend.prepend (by simp)) h60
    simpa using this

example : printIds [(false, (b! "1", b! "a.b")), (true, (b! "x.y", b! "::1"))] =
    b! "<1@a.b> <x.y@[::1]>" := by decide +kernel

example : outcomeValue (messageIds (Cfg.concrete .default) (b! " <1@a.b> <x.y@[::1]>\r\n")) =
    some (b! "\r\n", [(b! "1", b! "a.b"), (b! "x.y", b! "::1")]) := by decide +kernel

/-! ### C27 -/

/-- White space and comments around an atom are ignored. -/
theorem C27_atom (g₁ x g₂ r : Bytes) (h1 : Gap c g₁ ()) (hne : x ≠ []) (hx : ∀ b ∈ x, atext b = true)
    (h2 : Gap c g₂ ()) (hr : CfwsEnd g₂ r)
    (ha : Stops atext r) : atom c (g₁ ++ x ++ g₂ ++ r) = .ok (r, x) := by
  have e1 := skipCfws_append (c := c) (r := x ++ (g₂ ++ r)) h1 (atext_cfwsEnd hne hx)
  have e2 := takeWhile1_ok (r := g₂ ++ r) hne hx (optCfws_stops h2 space_not_atext ha)
  have e3 := skipCfws_append (c := c) (r := r) h2 hr
  unfold atom
  simp only [List.append_assoc, e1, ok_bind, isAtext_eq, e2, Outcome.mapErr, e3]

/-- White space and comments around a dot-atom are ignored. -/
theorem C27_dot_atom (g₁ x g₂ r : Bytes) (h1 : Gap c g₁ ()) (hx : isDotAtom x)
    (h2 : Gap c g₂ ()) (hr : CfwsEnd g₂ r)
    (ha : Stops (fun b => atext b || b == 46) r) : dotAtom c (g₁ ++ x ++ g₂ ++ r) = .ok (r, x) := by
  have hs : CfwsEnd g₁ (x ++ (g₂ ++ r)) := by
    obtain ⟨b, t, rfl, hb⟩ := dotAtomText_head hx
    obtain ⟨h1, h2, h3⟩ := atext_end b hb
    exact cfwsEnd_cons h1 h2 h3
  have e1 := skipCfws_append (c := c) (r := x ++ (g₂ ++ r)) h1 hs
  have e2 := dotAtomText_append (c := c) (r := g₂ ++ r) (dotAtomText_lax hx)
    (optCfws_stops h2 (by decide +kernel) ha)
  have e3 := skipCfws_append (c := c) (r := r) h2 hr
  unfold dotAtom
  simp only [List.append_assoc, e1, ok_bind, e2, e3]

/-- White space and comments around a quoted string are ignored, unlike those inside. -/
theorem C27_quoted_string (g₁ x g₂ r : Bytes) (h1 : Gap c g₁ ()) (hx : Printable x)
    (h2 : Gap c g₂ ()) (hr : CfwsEnd g₂ r) :
    quotedString c (g₁ ++ quote x ++ g₂ ++ r) = .ok (r, x) := by
  have := quote_append (c := c) (r := r) h1 h2 hx hr
  simpa using this

/-- Whatever the comments and white space around it, a word has the same value. -/
theorem C27_word (g₁ x g₂ r : Bytes) (h1 : Gap c g₁ ()) (hne : x ≠ []) (hx : ∀ b ∈ x, atext b = true)
    (h2 : Gap c g₂ ()) (hr : CfwsEnd g₂ r)
    (ha : Stops atext r) :
    word c (g₁ ++ x ++ g₂ ++ r) = .ok (r, x) ∧ word c (g₁ ++ quote x ++ g₂ ++ r) = .ok (r, x) := by
  constructor
  · unfold word
    rw [matchParsers, C27_atom c g₁ x g₂ r h1 hne hx h2 hr ha]
  · have key : ∀ b, atext b = true → vchar b = true := by decide +kernel
    have hq := C27_quoted_string c g₁ x g₂ r h1 (fun b hb => .inl (key b (hx b hb))) h2 hr
    have he : ∃ e, atom c (g₁ ++ quote x ++ g₂ ++ r) = .err e := by
      have e1 := skipCfws_append (c := c) (r := quote x ++ (g₂ ++ r)) h1
        (cfwsEnd_cons (by decide) (by decide) (by decide))
      obtain ⟨e, he⟩ := takeWhile1_err (p := atext) (r := quote x ++ (g₂ ++ r))
        (stops_cons.mpr (by decide))
      unfold atom
      simp only [List.append_assoc, e1, ok_bind, isAtext_eq, he, Outcome.mapErr, err_bind]
      exact ⟨_, rfl⟩
    obtain ⟨e, he⟩ := he
    unfold word
    rw [matchParsers, he]
    dsimp only
    rw [matchParsers, hq]

/-- Comments of every depth are comments: a depth of 50 needs a stack of 50. -/
example : outcomeValue (word (Cfg.concrete .default (stack := 50))
    (List.replicate 50 40 ++ b! "x\\)y" ++ List.replicate 50 41 ++ b! "\r\n word (a)\t(b) \r\n ;")) =
    some (b! ";", b! "word") := by decide +kernel

example : outcomeValue (word (Cfg.concrete .default (stack := 49))
    (List.replicate 50 40 ++ b! "x\\)y" ++ List.replicate 50 41 ++ b! "\r\n word (a)\t(b) \r\n ;")) =
    none := by decide +kernel

end EmailParser
