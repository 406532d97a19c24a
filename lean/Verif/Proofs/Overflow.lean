import Verif.Proofs.Complete.Lexical
import Verif.Proofs.Message
/-
An input that exhausts the stack.
-/
namespace EmailParser

variable {α : Type} {c : Cfg}

theorem tagNoCase_err {i e e2 : Bytes} {m : String} (he : e2 = e.map swapCase)
    (h : ¬ (e.map asciiLower <+: i.map asciiLower)) : ∃ x, tagNoCase i e e2 m = .err x := by
  subst he
  rcases tagNoCase_cases i e m with ⟨n, r, rfl, hn, -⟩ | ⟨-, x, hx⟩
  · refine absurd ?_ h
    rw [← hn, List.map_append]
    exact List.prefix_append _ _
  · exact ⟨x, hx⟩

/-- A header line with another name. -/
theorem headerLine_other {p : Bytes → Res α} {name name2 i : Bytes} {m m' : String}
    (he : name2 = name.map swapCase) (h : ¬ (name.map asciiLower <+: i.map asciiLower)) :
    ∃ x, headerLine name name2 m m' p i = .err x := by
  obtain ⟨x, hx⟩ := tagNoCase_err (m := m) he h
  exact ⟨x, by simp [headerLine, hx]⟩

/-- Two texts that differ within their common length are not prefixes of each other. -/
theorem not_prefix_of_ne {u v r : Bytes} (h : ¬ (u.take v.length <+: v)) (h' : u.length ≤ v.length) :
    ¬ (u <+: v ++ r) := by
  intro hp
  refine h ?_
  rw [List.take_of_length_le h']
  exact List.prefix_of_prefix_length_le hp (List.prefix_append v r) h'

theorem mailboxList_overflow {i : Bytes} (h : comment c.stack i = .abort .stackOverflow)
    (hi : ∃ t, i = 40 :: t) : mailboxList c i = .abort .stackOverflow := by
  obtain ⟨t, rfl⟩ := hi
  have hf : NoFws (40 :: t) := noFws_cons (by decide) (by decide)
  have hs := skipCfws_overflow h hf
  have hw : word c (40 :: t) = .abort .stackOverflow := by
    simp [word, matchParsers, atom, hs]
  have hp : phraseWord c (40 :: t) = .abort .stackOverflow := by
    unfold phraseWord
    split
    · have he : encodedWord c (40 :: t) = .err (.explicit
          "TAG ERROR: An encoded word must start with `=?`.") := by
        simp [encodedWord, tag_cons_err]
      simp [matchParsers, optional_err hf.err, he, hw]
    · exact hw
  simp [mailboxList, mailbox, matchParsers, nameAddr, optional, phrase, many1, hp]

theorem not_prefix_cons {a b : UInt8} {u v : Bytes} (h : a ≠ b) : ¬ (a :: u <+: b :: v) := by
  rw [List.cons_prefix_cons]
  exact fun h' => h h'.1

theorem matchParsers_append (i : Bytes) : ∀ ps qs : List (Bytes → Res α),
    matchParsers i (ps ++ qs) =
      match matchParsers i ps with
      | .ok r => .ok r
      | .err _ => matchParsers i qs
      | .abort k => .abort k
  | [], qs => rfl
  | p :: ps, qs => by
    have ih := matchParsers_append i ps qs
    simp only [List.cons_append, matchParsers]
    cases p i with
    | ok r => rfl
    | err e => exact ih
    | abort k => rfl

theorem matchParsers_enabled (i : Bytes) (b : Bool) (p : Bytes → Res α)
    (h : ∃ e, p i = .err e) : ∃ e, matchParsers i (enabled b p) = .err e := by
  obtain ⟨e, h⟩ := h
  cases b <;> simp [enabled, matchParsers, h]

theorem mapValue_err {β : Type} {f : α → β} {p : Bytes → Res α} {i : Bytes}
    (h : ∃ e, p i = .err e) : ∃ e, mapValue f p i = .err e := by
  obtain ⟨e, h⟩ := h
  exact ⟨e, by simp [mapValue, h]⟩

theorem fieldParsers_from (hf : c.feat.from = true) : ∃ others, fieldParsers c =
    enabled c.feat.date (mapValue .date (dateField c)) ++
      ([mapValue .from (fromField c)] ++ others) := by
  unfold fieldParsers
  have : enabled c.feat.from (mapValue Field.from (fromField c)) = [mapValue .from (fromField c)] := by
    simp [enabled, hf]
  rw [this]
  simp only [List.append_assoc]
  exact ⟨_, rfl⟩

theorem fields_overflow (hf : c.feat.from = true) (r : Bytes)
    (h : comment c.stack (40 :: r) = .abort .stackOverflow) :
    fields c (b! "From:" ++ 40 :: r) = .abort .stackOverflow := by
  have hfield : field c (b! "From:" ++ 40 :: r) = .abort .stackOverflow := by
    obtain ⟨others, ho⟩ := fieldParsers_from hf
    unfold field
    rw [ho, matchParsers_append]
    obtain ⟨e, he⟩ := matchParsers_enabled (b! "From:" ++ 40 :: r) c.feat.date _
      (mapValue_err (f := Field.date) (headerLine_other (p := dateTime c)
        (name := b! "Date:") (name2 := b! "dATE:")
        (m := "TAG NO CASE ERROR: Header name (Date) does not match.")
        (m' := "TAG ERROR: A header (`Date` in this case) must end with a CRLF sequence.")
        (i := b! "From:" ++ 40 :: r) (by decide) (not_prefix_cons (by decide))))
    have he' : matchParsers (b! "From:" ++ 40 :: r)
      (enabled c.feat.date (mapValue Field.date (dateField c))) = .err e := he
    rw [he']
    dsimp only
    rw [matchParsers_append]
    have : fromField c (b! "From:" ++ 40 :: r) = .abort .stackOverflow := by
      unfold fromField headerLine
      have ht := tagNoCase_append (n := b! "From:") (e := b! "From:") (40 :: r)
        "TAG NO CASE ERROR: Header name (From) does not match." rfl
      have hl := mailboxList_overflow h ⟨r, rfl⟩
      rw [show (b! "From:").map swapCase = b! "fROM:" by decide] at ht
      simp only [ht, ok_bind, hl, abort_bind]
    simp only [matchParsers, mapValue, this, abort_bind]
  have htrace : traces c (b! "From:" ++ 40 :: r) = .ok (b! "From:" ++ 40 :: r, []) := by
    unfold traces
    split
    · have hb : ∃ e, traceBlock c (b! "From:" ++ 40 :: r) = .err e := by
        have h1 := optional_err (headerLine_other (p := returnPathValue c)
          (name := b! "Return-Path:") (name2 := b! "rETURN-pATH:")
          (m := "TAG NO CASE ERROR: Header name (Return-Path) does not match.")
          (m' := "TAG ERROR: A header (`Return-Path` in this case) must end with a CRLF sequence.")
          (i := b! "From:" ++ 40 :: r) (by decide) (not_prefix_cons (by decide)))
        obtain ⟨e, h2⟩ := headerLine_other (p := receivedValue c)
          (name := b! "Received:") (name2 := b! "rECEIVED:")
          (m := "TAG NO CASE ERROR: Header name (Received) does not match.")
          (m' := "TAG ERROR: A header (`Received` in this case) must end with a CRLF sequence.")
          (i := b! "From:" ++ 40 :: r) (by decide) (not_prefix_cons (by decide))
        refine ⟨e, ?_⟩
        have h1' : optional (b! "From:" ++ 40 :: r) (returnPath c) = .ok (_, none) := h1
        have h2' : received c (b! "From:" ++ 40 :: r) = .err e := h2
        simp only [traceBlock, trace, h1', ok_bind, many1, h2', err_bind]
      exact many_err hb
    · rfl
  unfold fields
  rw [htrace]
  simp only [ok_bind]
  rw [many_abort hfield]
  rfl

end EmailParser
