import Verif.Proofs.Complete.Fields
import Verif.Props.Trace
/-
Header blocks in any layout are read back.
-/
namespace EmailParser
open Spec

variable {α : Type} {c : Cfg}

/-! ### Trace lines -/

theorem receivedL_line {l : Bytes} {v : List ReceivedToken × DateTime} (h : ReceivedLineL c l v) :
    received c l = .ok ([], v) := by
  obtain ⟨n, w, rfl, hn, h⟩ := h
  have := headerLine_append (n := n ++ b! ":") (name := b! "Received:") (name2 := b! "rECEIVED:") (r := [])
    (m := "TAG NO CASE ERROR: Header name (Received) does not match.")
    (m' := "TAG ERROR: A header (`Received` in this case) must end with a CRLF sequence.") rfl
    (by rw [List.map_append, hn]; rfl) (receivedValue_append h stops_nil)
  simpa [received] using this

theorem returnPathL_line {l : Bytes} {v : Option EmailAddress} (h : ReturnPathLineL c l v) :
    returnPath c l = .ok ([], v) := by
  obtain ⟨n, w, rfl, hn, h, hs⟩ := h
  have := headerLine_append (n := n ++ b! ":") (name := b! "Return-Path:") (name2 := b! "rETURN-pATH:") (r := [])
    (m := "TAG NO CASE ERROR: Header name (Return-Path) does not match.")
    (m' := "TAG ERROR: A header (`Return-Path` in this case) must end with a CRLF sequence.") rfl
    (by rw [List.map_append, hn]; rfl) (returnPathValue_append h hs stops_nil)
  simpa [returnPath] using this

/-- The headers that can be resent, with their parsers. -/
def resentTable (c : Cfg) : List (Bytes × (Bytes → Res TraceField)) :=
  [ (b! "date", mapValue .date (resentDate c)),
    (b! "from", mapValue .from (resentFrom c)),
    (b! "sender", mapValue .sender (resentSender c)),
    (b! "to", mapValue .to (resentTo c)),
    (b! "cc", mapValue .cc (resentCc c)),
    (b! "bcc", mapValue .bcc (resentBcc c)),
    (b! "message-id", mapValue .messageId (resentMessageId c)) ]

theorem resent_append {n s : Bytes} {m : String} {p : Bytes → Res α} (hn : n.map asciiLower = b! "resent-") :
    resent m p (n ++ s) = p s := by
  have := tagNoCase_append (n := n) (e := b! "Resent-") s m hn
  unfold resent
  rw [show b! "rESENT-" = (b! "Resent-").map swapCase from rfl, this, ok_bind]
  dsimp only
  cases p s <;> rfl

theorem resentTable_other {n s : Bytes} (hn : n.map asciiLower = b! "resent-") : ∀ e ∈ resentTable c,
    ¬ (e.1 ++ b! ":") <+: s.map asciiLower → ∃ x, e.2 (n ++ s) = .err x := by
  intro e he
  simp only [resentTable, List.mem_cons, List.not_mem_nil, or_false] at he
  rcases he with rfl | rfl | rfl | rfl | rfl | rfl | rfl <;> intro h <;> refine mapValue_err ?_
  · unfold resentDate
    rw [resent_append hn]
    exact headerLine_other rfl h
  · unfold resentFrom
    rw [resent_append hn]
    exact headerLine_other rfl h
  · unfold resentSender
    rw [resent_append hn]
    exact headerLine_other rfl h
  · unfold resentTo
    rw [resent_append hn]
    exact headerLine_other rfl h
  · unfold resentCc
    rw [resent_append hn]
    exact headerLine_other rfl h
  · unfold resentBcc
    rw [resent_append hn]
    exact headerLine_other rfl h
  · unfold resentMessageId
    rw [resent_append hn]
    exact headerLine_other rfl h

theorem resent_entry {name n w : Bytes} {q : Bytes → Res α} {m : String} {K : α → TraceField} {v : α}
    (hm : (name, mapValue K (resent m q)) ∈ resentTable c) (hn : n.map asciiLower = b! "resent-" ++ name)
    (hcol : 58 ∉ name)
    (hq : ∀ n' : Bytes, n'.map asciiLower = name ++ b! ":" → q (n' ++ (w ++ (CRLF ++ []))) = .ok ([], v)) :
    matchParsers (n ++ b! ":" ++ w ++ CRLF) (traceFieldParsers c) = .ok ([], K v) := by
  have hl : (n.take 7).map asciiLower = b! "resent-" := by
    rw [List.map_take, hn]
    rfl
  have hr : (n.drop 7).map asciiLower = name := by
    rw [List.map_drop, hn]
    rfl
  have e : n ++ b! ":" ++ w ++ CRLF = n.take 7 ++ (n.drop 7 ++ b! ":" ++ (w ++ (CRLF ++ []))) := by
    rw [← List.append_assoc, ← List.append_assoc, ← List.append_assoc (n.take 7), List.take_append_drop]
    simp
  rw [e]
  have := matchParsers_entry (ps := resentTable c) (qs := []) (a := ([], K v))
    (i := n.take 7 ++ (n.drop 7 ++ b! ":" ++ (w ++ (CRLF ++ [])))) (by simp only [resentTable, List.map_cons, List.map_nil]; decide +kernel) hm
    (fun e he hne => by
      refine resentTable_other hl e he fun hp => hne ?_
      rw [List.map_append, List.map_append, hr] at hp
      refine prefix_name hcol ?_ hp
      simp only [resentTable, List.mem_cons, List.not_mem_nil, or_false] at he
      rcases he with rfl | rfl | rfl | rfl | rfl | rfl | rfl <;> dsimp only <;> decide)
    (by
      unfold mapValue
      rw [resent_append hl, hq (n.drop 7 ++ b! ":") (by rw [List.map_append, hr]; rfl), ok_bind])
  rw [List.append_nil] at this
  exact this

theorem resentL_line {l : Bytes} {f : TraceField} (h : ResentLineL c l f) :
    matchParsers l (traceFieldParsers c) = .ok ([], f) := by
  obtain ⟨name, n, w, rfl, ho, hn, h⟩ := h
  cases f with
  | date v =>
    cases ho
    exact resent_entry (K := .date) (q := dateField c) (by simp [resentTable]; rfl) hn (by decide)
      fun n' hn' => headerLine_append rfl hn' (date_value h stops_nil)
  | «from» v =>
    cases ho
    exact resent_entry (K := .from) (q := fromField c) (by simp [resentTable]; rfl) hn (by decide)
      fun n' hn' => headerLine_append rfl hn' (mailboxes_value h stops_nil)
  | sender v =>
    cases ho
    exact resent_entry (K := .sender) (q := senderField c) (by simp [resentTable]; rfl) hn (by decide)
      fun n' hn' => headerLine_append rfl hn' (mailbox_value h stops_nil)
  | to v =>
    cases ho
    exact resent_entry (K := .to) (q := toField c) (by simp [resentTable]; rfl) hn (by decide)
      fun n' hn' => headerLine_append rfl hn' (addresses_value h stops_nil)
  | cc v =>
    cases ho
    exact resent_entry (K := .cc) (q := ccField c) (by simp [resentTable]; rfl) hn (by decide)
      fun n' hn' => headerLine_append rfl hn' (addresses_value h stops_nil)
  | bcc v =>
    cases ho
    exact resent_entry (K := .bcc) (q := bccField c) (by simp [resentTable]; rfl) hn (by decide)
      fun n' hn' => headerLine_append rfl hn' (bcc_value h stops_nil)
  | messageId v =>
    cases ho
    exact resent_entry (K := .messageId) (q := messageIdField c) (by simp [resentTable]; rfl) hn (by decide)
      fun n' hn' => headerLine_append rfl hn' (messageId_value h stops_nil)

/-! ### Trace blocks -/

theorem linesL_alone {L : Bytes → α → Prop} {p : Bytes → Res α} (hp : ∀ l v, L l v → p l = .ok ([], v)) {s : Bytes}
    {vs : List α} (h : LinesL L s vs) : ∃ ls, s = ls.flatten ∧ Alone p ls vs := by
  induction h with
  | nil => exact ⟨[], rfl, .nil⟩
  | cons h _ ih =>
    obtain ⟨ls, rfl, h'⟩ := ih
    exact ⟨_ :: ls, rfl, .cons (hp _ _ h) h'⟩

theorem prefix_append_left {n a s : Bytes} (h : n <+: a.map asciiLower) : n <+: (a ++ s).map asciiLower := by
  rw [List.map_append]
  exact h.trans (List.prefix_append _ _)

/-- What follows a trace block. -/
theorem tracesL_next {s t : Bytes} {fs : List Field} (h : TracesL c s fs) (hq : Quiet c t) :
    Stops Spec.wsp (s ++ t) ∧ (∃ e, matchParsers (s ++ t) (traceFieldParsers c) = .err e) ∧
    ((∀ v vs vs' fs', fs = .trace v vs vs' :: fs' → v ≠ none) → ∃ e, received c (s ++ t) = .err e) := by
  cases h with
  | nil => exact ⟨hq.stops, hq.resent, fun _ => hq.received⟩
  | @cons a path b received d resent s fs ha hb hne hd hsep hs =>
    obtain ⟨la, rfl, ka⟩ := linesL_alone (p := returnPath c) (fun _ _ h => returnPathL_line h) ha
    obtain ⟨lb, rfl, kb⟩ := linesL_alone (p := EmailParser.received c) (fun _ _ h => receivedL_line h) hb
    cases path with
    | some v =>
      cases ka with
      | @cons l _ _ _ h h' =>
        cases h'
        obtain ⟨h1, h2, h3⟩ := returnPath_lines.shape l [] _ (by rw [List.append_nil]; exact h)
        simp only [List.flatten_cons, List.flatten_nil, List.append_nil, List.append_assoc]
        refine ⟨stops_line h2 h1, resent_lines.other _ fun hm => ?_, fun _ => received_lines.other _ fun hm => ?_⟩ <;>
          rcases List.prefix_or_prefix_of_prefix hm (prefix_append_left h3) with h | h <;> exact absurd h (by decide)
    | none =>
      cases ka
      cases kb with
      | nil => exact absurd rfl hne
      | @cons l _ _ _ h h' =>
        obtain ⟨h1, h2, h3⟩ := received_lines.shape l [] _ (by rw [List.append_nil]; exact h)
        simp only [List.flatten_cons, List.flatten_nil, List.nil_append, List.append_assoc]
        refine ⟨stops_line h2 h1, resent_lines.other _ fun hm => ?_, fun h => absurd rfl (h _ _ _ _ rfl)⟩
        rcases List.prefix_or_prefix_of_prefix hm (prefix_append_left h3) with h | h <;> exact absurd h (by decide)

theorem tracesL_many {s t : Bytes} {fs : List Field} (h : TracesL c s fs) (hq : Quiet c t) :
    many (s ++ t) (traceBlock c) = .ok (t, fs) := by
  induction h with
  | nil =>
    obtain ⟨e1, h1⟩ := hq.returnPath
    obtain ⟨e2, h2⟩ := hq.received
    exact many_err ⟨e2, by simp [traceBlock, trace, optional, many1, h1, h2]⟩
  | @cons a path b received d resent s fs ha hb hne hd hsep hs ih =>
    obtain ⟨h1, h2, h3⟩ := tracesL_next hs hq
    obtain ⟨la, rfl, ka⟩ := linesL_alone (p := returnPath c) (fun _ _ h => returnPathL_line h) ha
    obtain ⟨lb, rfl, kb⟩ := linesL_alone (p := EmailParser.received c) (fun _ _ h => receivedL_line h) hb
    obtain ⟨ld, rfl, kd⟩ := linesL_alone (p := fun i => matchParsers i (traceFieldParsers c))
      (fun _ _ h => resentL_line h) hd
    have := traceBlock_followed (t := s ++ t) ka kb (by rintro rfl; cases kb; exact hne rfl) kd h1
      (by
        rintro rfl
        cases kd
        exact h3 (hsep rfl)) h2
    rw [List.append_assoc, List.append_assoc] at this
    rw [List.append_assoc, List.append_assoc, List.append_assoc]
    exact many_cons this (shrinks_of traceBlock_progress traceBlock_parses _ _ _ this) ih

/-! ### Messages -/

theorem linesL_linesOf {s : Bytes} {fs : List Field} (h : LinesL (HeaderL c) s fs) :
    ∃ ls, s = ls.flatten ∧ LinesOf c ls fs := by
  induction h with
  | nil => exact ⟨[], rfl, .nil⟩
  | @cons l f s fs h _ ih =>
    obtain ⟨ls, rfl, h'⟩ := ih
    have := headerL_field (r := []) h stops_nil
    rw [List.append_nil] at this
    exact ⟨l :: ls, rfl, .cons this h'⟩

theorem ftext_colon_lower {n : Bytes} (hn : ∀ b ∈ n, ftext b = true) : 58 ∉ n.map asciiLower := by
  intro hm
  obtain ⟨b, hb, e⟩ := List.mem_map.mp hm
  have key : ∀ b : UInt8, ftext b = true → asciiLower b ≠ 58 := by decide +kernel
  exact key b (hn b hb) e

theorem prefix_before {n m s : Bytes} (hm : 58 ∉ m) (h : m <+: n ++ b! ":" ++ s) : m <+: n := by
  rcases List.prefix_or_prefix_of_prefix h (List.append_assoc n _ s ▸ List.prefix_append n _) with h' | ⟨t, rfl⟩
  · exact h'
  · cases t with
    | nil => simp
    | cons b t =>
      rw [List.append_assoc, List.prefix_append_right_inj] at h
      obtain ⟨r, h⟩ := h
      simp only [List.cons_append, List.nil_append, List.cons.injEq] at h
      obtain ⟨rfl, -⟩ := h
      simp at hm

theorem noTraceName_name {n s : Bytes} (hc : 58 ∉ n.map asciiLower) (h1 : n.map asciiLower ≠ b! "return-path")
    (h2 : n.map asciiLower ≠ b! "received") (h3 : ¬ b! "resent-" <+: n.map asciiLower) :
    NoTraceName (n ++ b! ":" ++ s) := by
  have e : (n ++ b! ":" ++ s).map asciiLower = n.map asciiLower ++ b! ":" ++ s.map asciiLower := by
    rw [List.map_append, List.map_append]
    rfl
  unfold NoTraceName
  rw [e]
  exact ⟨fun h => h1 (prefix_name (m := b! "return-path") hc (by decide) h).symm,
    fun h => h2 (prefix_name (m := b! "received") hc (by decide) h).symm, fun h => h3 (prefix_before (by decide) h)⟩

theorem linesL_noTrace {s tail : Bytes} {fs : List Field} (ht : c.feat.trace = true) (h : LinesL (HeaderL c) s fs)
    (hn : NoTraceFirst c fs) (htail : tail = [] ∨ CRLF <+: tail) : NoTraceName (s ++ tail) := by
  cases h with
  | nil =>
    rcases htail with rfl | ⟨t, rfl⟩
    · exact ⟨by decide, by decide, by decide⟩
    · refine ⟨?_, ?_, ?_⟩ <;> rintro ⟨r, h⟩ <;> cases h
  | @cons l f s fs h h' =>
    cases h with
    | @known name n w _ ho hf hn' hv =>
      simp only [List.append_assoc]
      rw [← List.append_assoc]
      have key : (58 ∉ name ∧ name ≠ b! "return-path" ∧ name ≠ b! "received") ∧ ¬ b! "resent-" <+: name := by
        cases f <;> cases ho <;> decide
      rw [← hn'] at key
      exact noTraceName_name key.1.1 key.1.2.1 key.1.2.2 key.2
    | @unknown n w v hne hf hr hv =>
      simp only [List.append_assoc]
      rw [← List.append_assoc]
      obtain ⟨h1, h2, h3⟩ := hn ht n v _ rfl
      exact noTraceName_name (ftext_colon_lower hf) h1 h2 h3

theorem messageL_parse {i : Bytes} {fs : List Field} {body : Option Bytes} (h : MessageL c i fs body) :
    parseMessage c i = .ok (fs, body) := by
  obtain ⟨ht, hl, hn, hb⟩ := h
  rename_i traces ts lines fs tail
  have htail : tail = [] ∨ CRLF <+: tail := by
    cases hb with
    | none => exact .inl rfl
    | some => exact .inr (List.prefix_append _ _)
  obtain ⟨ls, rfl, hl'⟩ := linesL_linesOf hl
  have h1 := C10_lines c ls fs tail hl' htail
  have he : Ended tail := by
    rcases htail with rfl | ⟨b, rfl⟩
    · exact .nil
    · exact .crlf b
  have h2 : EmailParser.traces c (traces ++ (ls.flatten ++ tail)) = .ok (ls.flatten ++ tail, ts) := by
    unfold EmailParser.traces
    split
    · rename_i hf
      have hq : Quiet c (ls.flatten ++ tail) := (linesL_noTrace hf hl hn htail).quiet c (hl'.stops he.stops)
      refine tracesL_many ?_ hq
      rcases ht with ⟨-, ht⟩ | ⟨rfl, rfl⟩
      · exact ht
      · exact .nil
    · rename_i hf
      rcases ht with ⟨ht, -⟩ | ⟨rfl, rfl⟩
      · exact absurd ht hf
      · rfl
  have h3 : fields c (traces ++ (ls.flatten ++ tail)) = .ok (tail, ts ++ fs) := by
    unfold fields
    rw [h2, ok_bind]
    dsimp only
    rw [h1]
    rfl
  have h4 : afterHeaders c tail = .ok body := by
    unfold afterHeaders
    cases hb with
    | none => split <;> rfl
    | @some b hb =>
      split
      · rw [if_neg (by simp [CRLF])]
        rw [show CRLF ++ b = b! "\r\n" ++ b from rfl, tag_append]
        rfl
      · rename_i hm
        exact (C06_body_iff _ _).mpr (.inr ⟨b, rfl, rfl, hb (by simpa using hm)⟩)
  rw [parseMessage_eq, h3]
  show (afterHeaders c tail).bind _ = _
  rw [h4]
  rfl

end EmailParser
