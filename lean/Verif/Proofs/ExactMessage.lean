import Verif.Proofs.ExactTrace
import Verif.Proofs.ExactCut
import Verif.Spec.ExactMessage
/-
Resent lines are read to the letter (for C81).
-/
namespace EmailParser
open Spec

variable {c : Cfg}

theorem entry_unique {β : Type} {n : Bytes} {p q : β} : ∀ {ps : List (Bytes × β)}, (ps.map (·.1)).Nodup → (n, p) ∈ ps →
    (n, q) ∈ ps → p = q
  | [], _, h, _ => by cases h
  | e :: ps, hd, h, h' => by
    rw [List.map_cons, List.nodup_cons] at hd
    rcases List.mem_cons.mp h with h | h <;> rcases List.mem_cons.mp h' with h' | h'
    · rw [← h] at h'
      exact (Prod.mk.inj h').2.symm
    · exact absurd (List.mem_map.mpr ⟨_, h', by rw [← h]⟩) hd.1
    · exact absurd (List.mem_map.mpr ⟨_, h, by rw [← h']⟩) hd.1
    · exact entry_unique hd.2 h h'

/-- The reader of resent lines does with a line what the parser of its value does with the text. -/
theorem resent_iff {name n s r n1 n2 : Bytes} {m e1 e2 : String} {p : Bytes → Res α} {K : α → TraceField} {v : α}
    (hm : (n, mapValue K (resent m (headerLine n1 n2 e1 e2 p))) ∈ resentTable c) (hn : name.map asciiLower = b! "resent-" ++ n)
    (h1 : n1.map asciiLower = n ++ b! ":") (h2 : n2 = n1.map swapCase) (hcol : 58 ∉ n) (hK : ∀ a b, K a = K b → a = b) :
    matchParsers (name ++ b! ":" ++ s) (traceFieldParsers c) = .ok (r, K v) ↔ p s = .ok (CRLF ++ r, v) := by
  have hl : (name.take 7).map asciiLower = b! "resent-" := by
    rw [List.map_take, hn]
    rfl
  have hr : (name.drop 7).map asciiLower = n := by
    rw [List.map_drop, hn]
    rfl
  have e : name ++ b! ":" ++ s = name.take 7 ++ (name.drop 7 ++ b! ":" ++ s) := by
    rw [← List.append_assoc, ← List.append_assoc, List.take_append_drop]
  have hoth : ∀ e ∈ resentTable c, e.1 ≠ n → ∃ x, e.2 (name.take 7 ++ (name.drop 7 ++ b! ":" ++ s)) = .err x := by
    intro e he hne
    refine resentTable_other hl e he fun hp => hne ?_
    rw [List.map_append, List.map_append, hr] at hp
    refine prefix_name hcol ?_ hp
    simp only [resentTable, List.mem_cons, List.not_mem_nil, or_false] at he
    rcases he with rfl | rfl | rfl | rfl | rfl | rfl | rfl <;> dsimp only <;> decide
  rw [← headerLine_iff (name := name.drop 7) (n1 := n1) (n2 := n2) (e1 := e1) (e2 := e2)
    (by rw [List.map_append, hr, h1]; rfl) h2]
  have hq : mapValue K (resent m (headerLine n1 n2 e1 e2 p)) (name.take 7 ++ (name.drop 7 ++ b! ":" ++ s)) =
      mapValue K (headerLine n1 n2 e1 e2 p) (name.drop 7 ++ b! ":" ++ s) := by
    unfold mapValue
    rw [resent_append hl]
  rw [e]
  constructor
  · intro h
    obtain ⟨q, hq', hx⟩ := matchParsers_ok h
    obtain ⟨e, he, rfl⟩ : ∃ e ∈ resentTable c, e.2 = q := by
      simp only [traceFieldParsers, List.mem_cons, List.not_mem_nil, or_false] at hq'
      rcases hq' with rfl | rfl | rfl | rfl | rfl | rfl | rfl <;> simp [resentTable]
    by_cases hne : e.1 = n
    · have hd : ((resentTable c).map (·.1)).Nodup := by
        simp only [resentTable, List.map_cons, List.map_nil]
        decide +kernel
      have : e.2 = mapValue K (resent m (headerLine n1 n2 e1 e2 p)) := by
        obtain ⟨k, q⟩ := e
        subst hne
        exact entry_unique hd he hm
      rw [this, hq] at hx
      unfold mapValue at hx
      obtain ⟨⟨r', v'⟩, h3, h4⟩ := bind_eq_ok.1 hx
      simp only [Outcome.ok.injEq, Prod.mk.injEq] at h4
      rw [h3, h4.1, hK _ _ h4.2]
    · obtain ⟨x, h3⟩ := hoth e he hne
      rw [hx] at h3
      cases h3
  · intro h
    have := matchParsers_entry (ps := resentTable c) (qs := []) (a := (r, K v))
      (i := name.take 7 ++ (name.drop 7 ++ b! ":" ++ s)) (by simp only [resentTable, List.map_cons, List.map_nil]; decide +kernel) hm
      hoth (by rw [hq]; unfold mapValue; rw [h]; rfl)
    rw [List.append_nil] at this
    exact this

theorem resent_from {name s r : Bytes} (hn : name.map asciiLower = b! "resent-from") {v} :
    matchParsers (name ++ b! ":" ++ s) (traceFieldParsers c) = .ok (r, .from v) ↔ mailboxList c s = .ok (CRLF ++ r, v) :=
  resent_iff (K := .from) (n := b! "from") (show (_, mapValue .from (resentFrom c)) ∈ resentTable c by simp [resentTable])
    hn (by decide +kernel) (by decide +kernel) (by decide +kernel) (fun _ _ h => by cases h; rfl)

theorem resent_sender {name s r : Bytes} (hn : name.map asciiLower = b! "resent-sender") {v} :
    matchParsers (name ++ b! ":" ++ s) (traceFieldParsers c) = .ok (r, .sender v) ↔ mailbox c s = .ok (CRLF ++ r, v) :=
  resent_iff (K := .sender) (n := b! "sender") (show (_, mapValue .sender (resentSender c)) ∈ resentTable c by simp [resentTable])
    hn (by decide +kernel) (by decide +kernel) (by decide +kernel) (fun _ _ h => by cases h; rfl)

theorem resent_to {name s r : Bytes} (hn : name.map asciiLower = b! "resent-to") {v} :
    matchParsers (name ++ b! ":" ++ s) (traceFieldParsers c) = .ok (r, .to v) ↔ addressList c s = .ok (CRLF ++ r, v) :=
  resent_iff (K := .to) (n := b! "to") (show (_, mapValue .to (resentTo c)) ∈ resentTable c by simp [resentTable])
    hn (by decide +kernel) (by decide +kernel) (by decide +kernel) (fun _ _ h => by cases h; rfl)

theorem resent_cc {name s r : Bytes} (hn : name.map asciiLower = b! "resent-cc") {v} :
    matchParsers (name ++ b! ":" ++ s) (traceFieldParsers c) = .ok (r, .cc v) ↔ addressList c s = .ok (CRLF ++ r, v) :=
  resent_iff (K := .cc) (n := b! "cc") (show (_, mapValue .cc (resentCc c)) ∈ resentTable c by simp [resentTable])
    hn (by decide +kernel) (by decide +kernel) (by decide +kernel) (fun _ _ h => by cases h; rfl)

theorem resent_bcc {name s r : Bytes} (hn : name.map asciiLower = b! "resent-bcc") {v} :
    matchParsers (name ++ b! ":" ++ s) (traceFieldParsers c) = .ok (r, .bcc v) ↔ bccValue c s = .ok (CRLF ++ r, v) :=
  resent_iff (K := .bcc) (n := b! "bcc") (show (_, mapValue .bcc (resentBcc c)) ∈ resentTable c by simp [resentTable])
    hn (by decide +kernel) (by decide +kernel) (by decide +kernel) (fun _ _ h => by cases h; rfl)

/-- What is read from a resent line is what the line stands for. -/
theorem resentE_sound {name x w l : Bytes} {f : TraceField} (hl : HeaderText name x w l) (hf : Fits c w)
    (h : matchParsers l (traceFieldParsers c) = .ok ([], f)) : ResentE c l f := by
  have hs := traceFields_parses (c := c) l
  dsimp only at hs
  rw [h] at hs
  obtain ⟨l', e, hg⟩ := hs
  dsimp only at e hg
  rw [List.append_nil] at e
  subst e
  obtain ⟨nm, ho, hn, hv⟩ := resent_name hl hg
  have hsol : Solid w := (solid_line (p := fun i => matchParsers i (traceFieldParsers c)) traceFields_trace hl stops_nil
    (show matchParsers (l ++ []) _ = _ by rw [List.append_nil]; exact h)).2
  have hi := line_calm hf hl.folding
  refine ⟨nm, name, w, hl.text, ho, hn, ?_, hsol⟩
  have h' := h
  rw [hl.text, List.append_assoc] at h'
  have key : ∀ {f'}, (∃ w', w ++ CRLF = w' ++ (CRLF ++ []) ∧ PhraseValue c (CRLF ++ []) w' f') → PhraseValue c CRLF w f' := by
    rintro f' ⟨w', e, h⟩
    rw [List.append_nil] at e h
    rw [List.append_cancel_right e]
    exact h
  cases f with
  | date v => exact hv
  | messageId v => exact hv
  | «from» v => cases ho; exact key (f' := .from v) (mailboxList_sound hi ((resent_from hn).mp h'))
  | sender v => cases ho; exact key (f' := .sender v) (mailbox_sound ((resent_sender hn).mp h') hi)
  | to v => cases ho; exact key (f' := .to v) (addressList_sound hi ((resent_to hn).mp h'))
  | cc v => cases ho; exact key (f' := .cc v) (addressList_sound hi ((resent_cc hn).mp h'))
  | bcc v => cases ho; exact key (f' := .bcc v) (bccValue_sound hi ((resent_bcc hn).mp h'))

/-- The line and its name determine the text. -/
theorem resentE_text {name x w l : Bytes} {f : TraceField} (hl : HeaderText name x w l) (h : ResentE c l f) :
    ∃ nm, headerOf (resentField f) = some nm ∧ name.map asciiLower = b! "resent-" ++ nm ∧ ResentText c w f ∧ Solid w := by
  obtain ⟨nm, name', w', e, ho, hn, hv, hs⟩ := h
  have h58 : 58 ∉ name' := fun hm => by
    have hm' := hn ▸ List.mem_map.mpr ⟨58, hm, rfl⟩
    have : asciiLower 58 = 58 := rfl
    rw [this] at hm'
    revert hm'
    cases f <;> cases ho <;> decide
  rw [hl.text] at e
  obtain ⟨rfl, e'⟩ := first_colon (ftext_colon hl.name_chars) h58
    (show name ++ 58 :: (w ++ CRLF) = name' ++ 58 :: (w' ++ CRLF) by simpa using e)
  obtain rfl := List.append_cancel_right e'
  exact ⟨nm, ho, hn, hv, hs⟩

/-- What a resent line stands for is read from it. -/
theorem resentE_complete {name x w l : Bytes} {f : TraceField} (hl : HeaderText name x w l) (hf : Fits c w)
    (h : ResentE c l f) : matchParsers l (traceFieldParsers c) = .ok ([], f) := by
  obtain ⟨nm, ho, hn, hv, hs⟩ := resentE_text hl h
  have hi : Calm c (w ++ (CRLF ++ [])) := by
    rw [List.append_nil]
    exact line_calm hf hl.folding
  have he := solid_end (r := []) hs stops_nil
  have key : ∀ {f'}, PhraseValue c CRLF w f' → PhraseValue c (CRLF ++ []) w f' := fun h => by rwa [List.append_nil]
  rw [hl.text, List.append_assoc, ← List.append_nil CRLF]
  cases f with
  | date v =>
    have := resentL_line (c := c) (l := l) (f := .date v) ⟨nm, name, w, hl.text, ho, hn, dateTime_depth hv hf.depth, hs⟩
    rw [hl.text] at this
    simpa using this
  | messageId v =>
    have := resentL_line (c := c) (l := l) (f := .messageId v) ⟨nm, name, w, hl.text, ho, hn, messageId_depth hv hf.depth, hs⟩
    rw [hl.text] at this
    simpa using this
  | «from» v => cases ho; exact (resent_from hn).mpr (mailboxListE_append (key (f' := .from v) hv) hi he (crlf_stops (by decide)))
  | sender v => cases ho; exact (resent_sender hn).mpr (mailboxE_append (key (f' := .sender v) hv) hi he (crlf_stops (by decide)))
  | to v => cases ho; exact (resent_to hn).mpr (addressListE_append (key (f' := .to v) hv) hi he (crlf_stops (by decide)))
  | cc v => cases ho; exact (resent_cc hn).mpr (addressListE_append (key (f' := .cc v) hv) hi he (crlf_stops (by decide)))
  | bcc v => cases ho; exact (resent_bcc hn).mpr (bccValueE_append hi hs stops_nil (key (f' := .bcc v) hv))

/-- What is read from a resent line before other text. -/
theorem resentE_iff {name x w l t : Bytes} (hl : HeaderText name x w l) (hf : name.map asciiLower ∈ traceNames → Fits c w)
    (ht : Stops Spec.wsp t) :
    (∀ r f, matchParsers (l ++ t) (traceFieldParsers c) = .ok (r, f) ↔ r = t ∧ ResentE c l f) ∧
    ∀ k, matchParsers (l ++ t) (traceFieldParsers c) ≠ .abort k := by
  have hl' := hl.text
  have hloc := (traceFields_local (c := c)).cases (w := name ++ b! ":" ++ w) (t := []) (t' := t) ⟨stops_nil, ht⟩
  rw [show name ++ b! ":" ++ w ++ 13 :: 10 :: [] = l from hl'.symm,
    show name ++ b! ":" ++ w ++ 13 :: 10 :: t = l ++ t by rw [hl']; simp [CRLF]] at hloc
  have hname : ∀ f, ResentE c l f → name.map asciiLower ∈ traceNames := by
    intro f h
    obtain ⟨nm, h1, h2, -⟩ := resentE_text hl h
    rw [h2]
    exact resentNames h1
  refine ⟨fun r f => ⟨fun h => ?_, ?_⟩, fun k h => ?_⟩
  · obtain ⟨rfl, -⟩ := solid_line (p := fun i => matchParsers i (traceFieldParsers c)) traceFields_trace hl ht h
    refine ⟨rfl, ?_⟩
    rcases hloc with ⟨u, s, v', e, h1, h2⟩ | ⟨v', h1, h2⟩ | ⟨e, e', h1, h2⟩ | ⟨k, h1, h2⟩
    · rw [h] at h2
      simp only [Outcome.ok.injEq, Prod.mk.injEq] at h2
      have := congrArg List.length h2.1
      simp only [List.length_append, List.length_cons] at this
      omega
    · rw [h] at h2
      cases h2
      by_cases hn : name.map asciiLower ∈ traceNames
      · exact resentE_sound hl (hf hn) h1
      · obtain ⟨e, he⟩ := resent_unnamed (c := c) hl hn
        rw [h1] at he
        cases he
    · rw [h] at h2
      cases h2
    · rw [h] at h2
      cases h2
  · rintro ⟨rfl, hv⟩
    have h := resentE_complete hl (hf (hname f hv)) hv
    rcases hloc with ⟨u, s, v', e, h1, h2⟩ | ⟨v', h1, h2⟩ | ⟨e, e', h1, h2⟩ | ⟨k, h1, h2⟩ <;> rw [h] at h1
    · simp only [Outcome.ok.injEq, Prod.mk.injEq] at h1
      exact absurd h1.1 (by simp)
    · cases h1
      exact h2
    · cases h1
    · cases h1
  · rcases hloc with ⟨u, s, v', e, h1, h2⟩ | ⟨v', h1, h2⟩ | ⟨e, e', h1, h2⟩ | ⟨k', h1, h2⟩ <;> rw [h] at h2 <;> cases h2
    exact trace_no_abort traceFields_parses hl hf (resent_unnamed hl) _ h1

theorem resentE_reads {l : Bytes} : TraceWithin c l → ReadsLine (ResentE c) (fun i => matchParsers i (traceFieldParsers c)) l := by
  rintro ⟨name, x, w, hl, hn⟩ t ht
  obtain ⟨h1, h2⟩ := resentE_iff hl hn ht
  refine ⟨fun v hv => (h1 t v).mpr ⟨rfl, hv⟩, fun hno => ?_⟩
  dsimp only
  cases h : matchParsers (l ++ t) (traceFieldParsers c) with
  | err e => exact ⟨e, rfl⟩
  | ok a => exact absurd ((h1 a.1 a.2).mp h).2 (hno _)
  | abort k => exact absurd h (h2 k)

end EmailParser
