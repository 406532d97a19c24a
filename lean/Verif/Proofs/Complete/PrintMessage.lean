import Verif.Proofs.Complete.Message
import Verif.Proofs.Complete.PrintAddress
import Verif.Spec.PrintMessage
import Verif.Props.Text
import Verif.Props.PrintMime
/-
Printed headers have the layout of `HeaderL`.
-/
namespace EmailParser
open Spec

variable {α : Type} {c : Cfg}

theorem solid_append {g w : Bytes} (h : ∃ u b, w = u ++ [b] ∧ Spec.wsp b = false) : Solid (g ++ w) := by
  obtain ⟨u, b, rfl, hb⟩ := h
  intro u' b' e
  rw [← List.append_assoc] at e
  obtain ⟨-, e⟩ := List.append_inj' e rfl
  cases e
  exact hb

theorem lookup_none {table : List (Bytes × α)} {x : Bytes} (h : x ∉ table.map (·.1)) : table.lookup x = none := by
  induction table with
  | nil => rfl
  | cons e table ih =>
    obtain ⟨y, v'⟩ := e
    simp only [List.map_cons, List.mem_cons, not_or] at h
    rw [List.lookup_cons, beq_eq_false_iff_ne.mpr h.1]
    exact ih h.2

theorem named_written {table : List (Bytes × α)} {other : Bytes → α} {w : Bytes} (h : ValidName table w) :
    WrittenName table other w (named table other w) := by
  obtain ⟨h1, h2, h3⟩ := h
  by_cases hm : w.map asciiLower ∈ table.map (·.1)
  · cases hl : table.lookup (w.map asciiLower) with
    | some v =>
      refine .inl ⟨_, lookup_mem ?_, rfl⟩
      unfold named
      rw [hl]
      rfl
    | none =>
      exfalso
      obtain ⟨e, he, hx⟩ := List.mem_map.mp hm
      have : ∀ (table : List (Bytes × α)), e ∈ table → table.lookup e.1 ≠ none := by
        intro table
        induction table with
        | nil => intro h; cases h
        | cons y table ih =>
          intro h
          rw [List.lookup_cons]
          split
          · simp
          · rename_i hne
            rcases List.mem_cons.mp h with rfl | h
            · simp at hne
            · exact ih h
      exact this table he (hx ▸ hl)
  · refine .inr ⟨h1, h2, h3.resolve_left hm, ?_⟩
    unfold named
    rw [lookup_none hm]
    rfl

theorem trimEnd_solid {x : Bytes} (h : Solid x) : trimEnd x = x := by
  unfold trimEnd
  rcases List.eq_nil_or_concat x with rfl | ⟨u, b, rfl⟩
  · rfl
  · rw [List.concat_eq_append] at h ⊢
    simp [h u b rfl]

theorem text_layout {encoded : Bool} {x : Bytes} (h : ValidText encoded x) : TextL c encoded x x := by
  obtain ⟨hp, hs, hno⟩ := h
  have hf := printable_folding x hp
  unfold TextL
  split
  · rename_i he
    obtain ⟨s, vs, t, rfl, hs', ht, e⟩ := folding_parts hf
    obtain ⟨ps, hps, hj⟩ := layout_plain (c := c) _ s vs (Nat.le_refl _) hs'
      (fun hi => hno he (e ▸ hi.trans (List.prefix_append _ _).isInfix))
    refine ⟨s, t, ps, rfl, hps, ht, ?_⟩
    have h1 := trimEnd_solid hs
    rw [e, trimEnd_append ht (textParts_last hs')] at h1
    rw [hj, e, ← h1]
  · exact ⟨x, hf, (trimEnd_solid hs).symm⟩

theorem validId_of {id : Bytes × Bytes} (h : ValidMessageId id) : ValidId (!dotAtomB id.2) id := by
  refine ⟨dotAtomB_text h.1, ?_⟩
  cases hd : dotAtomB id.2 with
  | true => exact dotAtomB_text hd
  | false => exact h.2.resolve_left (by simp [hd])

theorem messageId_layout {id : Bytes × Bytes} (h : ValidMessageId id) :
    MessageIdOf (CommentN c.stack) c.feat.compatibilityFixes (b! " " ++ printMessageId id) id ∧
    Solid (b! " " ++ printMessageId id) := by
  refine ⟨?_, solid_append ⟨_, 62, rfl, by decide⟩⟩
  have := printId_grammar (K := CommentN c.stack) (lax := c.feat.compatibilityFixes) optCfws_space optCfws_nil
    (validId_of h)
  rwa [List.append_nil] at this

theorem messageIds_layout : ∀ (ids : List (Bytes × Bytes)) (g : Bytes), Gap c g () → ids ≠ [] →
    (∀ id ∈ ids, ValidMessageId id) → IdsL c (g ++ printMessageIds ids) ids
  | [], _, _, h, _ => absurd rfl h
  | [id], g, hg, _, h => by
    have := printId_grammar (K := CommentN c.stack) (lax := c.feat.compatibilityFixes) hg optCfws_nil
      (validId_of (h id (by simp)))
    rw [List.append_nil] at this
    exact .one this
  | id :: id' :: ids, g, hg, _, h => by
    have h1 := printId_grammar (K := CommentN c.stack) (lax := c.feat.compatibilityFixes) hg optCfws_space
      (validId_of (h id (by simp)))
    have h2 := messageIds_layout (id' :: ids) [] optCfws_nil (by simp) fun x hx => h x (List.mem_cons_of_mem _ hx)
    have := IdsL.cons h1 (by
      cases ids <;> exact ⟨_, rfl⟩) h2
    simpa [printMessageIds, printIds] using this

theorem messageIds_solid {ids : List (Bytes × Bytes)} (hne : ids ≠ []) : Solid (b! " " ++ printMessageIds ids) := by
  obtain ⟨u, hu⟩ := printIds_shape (ids.map fun id => (!dotAtomB id.2, id)) (by simpa using hne)
  exact solid_append ⟨u, 62, hu, by decide⟩

theorem printPhrase_last : ∀ words : List Bytes, words ≠ [] →
    ∃ u b, printPhrase words = u ++ [b] ∧ Spec.wsp b = false
  | [], h => absurd rfl h
  | [x], _ => by
    unfold printPhrase printWord
    split
    · rename_i h
      simp only [Bool.and_eq_true, bne_iff_ne, List.all_eq_true] at h
      rcases List.eq_nil_or_concat x with rfl | ⟨u, b, rfl⟩
      · exact absurd rfl h.1.1
      · rw [List.concat_eq_append] at h ⊢
        refine ⟨u, b, rfl, ?_⟩
        have key : ∀ b, Spec.atext b = true → Spec.wsp b = false := by decide +kernel
        exact key b (h.1.2 b (by simp))
    · exact ⟨_, 34, rfl, by decide⟩
  | x :: y :: xs, _ => by
    obtain ⟨u, b, e, hb⟩ := printPhrase_last (y :: xs) (by simp)
    exact ⟨printWord x ++ b! " " ++ u, b, by simp [printPhrase, e], hb⟩

theorem keywords_layout {v : List (List Bytes)} (hne : v ≠ []) (h : ∀ words ∈ v, ValidPhrase words) :
    Commas (KeywordL c) (b! " " ++ printCommas (v.map printPhrase)) v ∧
    Solid (b! " " ++ printCommas (v.map printPhrase)) := by
  constructor
  · refine printCommas_layout (c := c) (p := printPhrase) (ok := ValidPhrase) (fun g words hg h => ?_) _ v gap_space hne h
    have := printPhrase_names (c := c) optCfws_nil g false words hg (by simp) h
    rw [List.append_nil] at this
    exact ⟨h.1, true, this⟩
  · have : ∀ v : List (List Bytes), v ≠ [] → (∀ words ∈ v, ValidPhrase words) →
        ∃ u b, printCommas (v.map printPhrase) = u ++ [b] ∧ Spec.wsp b = false := by
      intro v
      induction v with
      | nil => intro h; exact absurd rfl h
      | cons x xs ih =>
        intro _ h
        cases xs with
        | nil => exact printPhrase_last x (h x (by simp)).1
        | cons y ys =>
          obtain ⟨u, b, e, hb⟩ := ih (by simp) fun z hz => h z (List.mem_cons_of_mem _ hz)
          exact ⟨printPhrase x ++ b! ", " ++ u, b, by simp only [List.map_cons] at e; simp [printCommas, e], hb⟩
    exact solid_append (this v hne h)

theorem addresses_layout {v : List Address} (hne : v ≠ []) (h : ∀ a ∈ v, ValidAddressOrGroup a) :
    Commas (AddressL c) (b! " " ++ printCommas (v.map printAddress)) v ∧
    Solid (b! " " ++ printCommas (v.map printAddress)) :=
  ⟨printCommas_layout (c := c) (p := printAddress) (fun _ _ hg h => printAddress_layout hg h) _ v gap_space hne h,
    solid_append (printCommas_last printAddress_last v hne)⟩

theorem mailboxes_layout {v : List Mailbox} (hne : v ≠ []) (h : ∀ a ∈ v, ValidMailbox a) :
    Commas (MailboxL c) (b! " " ++ printCommas (v.map printMailbox)) v ∧
    Solid (b! " " ++ printCommas (v.map printMailbox)) :=
  ⟨printCommas_layout (c := c) (p := printMailbox) (fun _ _ hg h => printMailbox_layout hg h) _ v gap_space hne h,
    solid_append (printCommas_last printMailbox_last v hne)⟩

theorem bcc_layout {v : List Address} (hst : 0 < c.stack) (h : ∀ a ∈ v, ValidAddressOrGroup a) :
    ValueL c (b! " " ++ printBcc v) (.bcc v) := by
  unfold printBcc
  split
  · rename_i hv
    subst hv
    refine ⟨.inr ⟨rfl, by simp, some (), .inr ⟨(), rfl, .inl ?_⟩⟩, solid_append ⟨[40], 41, rfl, by decide⟩⟩
    have hk : CommentN c.stack (b! "()") () := by
      cases hs : c.stack with
      | zero => omega
      | succ n =>
        exact ⟨_, _, (), rfl, rfl, [], _, [], rfl, .nil, [], _, none, rfl, .inl ⟨rfl, rfl⟩, rfl⟩
    refine ⟨b! " ()", [], _, rfl, ⟨b! " ()", [], _, rfl, ⟨b! " ", _, some _, rfl, .inr ⟨_, rfl, space_fws⟩, hk⟩, _, _, _, rfl, .nil, rfl, rfl⟩,
      [], [], none, rfl, .inl ⟨rfl, rfl⟩, rfl, rfl⟩
  · rename_i hne
    have := addresses_layout (c := c) hne h
    exact ⟨.inl this.1, this.2⟩

theorem date_layout {v : DateTime} (h : InRange v) : ValueL c (b! " " ++ printDate true v) (.date v) := by
  refine ⟨printDate_after (o := some _) (.inr ⟨_, rfl, space_fws⟩) h (.inl rfl), solid_append ?_⟩
  have e : ∀ (a b : UInt8) (l : Bytes), l ++ [a, b] = (l ++ [a]) ++ [b] := by simp
  refine ⟨_, digitOf v.time.zone.minuteOffset, e _ _ _, ?_⟩
  · have key : ∀ n : Fin 10, Spec.wsp (UInt8.ofNat (48 + n)) = false := by decide +kernel
    exact key ⟨v.time.zone.minuteOffset % 10, by omega⟩

theorem mimeVersion_layout {mj mn : Nat} (h1 : mj < 256) (h2 : mn < 256) :
    ValueL c (b! " " ++ (printNat mj ++ (b! "." ++ printNat mn))) (.mimeVersion mj mn) := by
  refine ⟨b! " ", printNat mj, printNat mn, [], by simp, ⟨optCfws_space, by simp⟩, ⟨?_, by simp⟩,
    ⟨printNat_ne _, printNat_digits _, ?_, ?_⟩, ⟨printNat_ne _, printNat_digits _, ?_, ?_⟩⟩ <;>
    try rw [decimal_printNat]
  · exact ⟨[], [], [], rfl, ⟨rfl, by simp⟩, [], [], none, rfl, .inl ⟨rfl, rfl⟩, [], [], [], rfl, ⟨rfl, by simp⟩, rfl, rfl⟩
  · exact h1
  · exact h2

theorem segment_plain {params : List (Bytes × Bytes)} (name : Bytes) (k : Nat) :
    segment (params.map fun p => (plainWritten p).raw) name k = none := by
  unfold segment lastWith
  rw [List.getLast?_eq_none_iff, List.filter_eq_nil_iff]
  intro p hm h
  obtain ⟨x, -, rfl⟩ := List.mem_map.mp hm
  simp [WrittenParam.raw, plainWritten] at h

theorem paramsL_plain {params : List (Bytes × Bytes)} :
    ParamsL c (params.map fun p => (plainWritten p).raw) (lastValue params) := by
  have h : c.overflowChecks = true → ∀ name, ∃ k, k < 256 ∧
      segment (params.map fun p => (plainWritten p).raw) name k = none :=
    fun _ name => ⟨0, by omega, segment_plain name 0⟩
  refine ⟨h, (C38_collect_iff c _ _ ?_ h).mp (collect_lastValue c params)⟩
  intro p hm k hk
  obtain ⟨x, -, rfl⟩ := List.mem_map.mp hm
  cases hk

theorem contentType_layout {v : MailType} (ht : ValidName typeNames v.type)
    (hs : v.subtype ≠ [] ∧ ∀ b ∈ v.subtype, tokenChar b = true) (hp : ValidParams v.params) :
    ValueL c (printContentType v.type v.subtype v.params) (MailHeader.contentType v).field := by
  refine ⟨b! " ", v.type, v.subtype, v.params.map plainWritten, ?_, optCfws_space, named_written ht, hs, rfl, ?_, ?_⟩
  · unfold printContentType
    rw [List.flatMap_map]
    simp only [List.append_assoc]
  · intro p hm
    obtain ⟨x, hx, rfl⟩ := List.mem_map.mp hm
    obtain ⟨h1, h2, h3⟩ := hp x hx
    exact ⟨optCfws_nil, optCfws_space, h1, fun b hb => (h2 b hb).1, .inl fun hb => (h2 42 hb).2 rfl, (fun k hk => by cases hk), h3⟩
  · rw [List.map_map]
    exact paramsL_plain

theorem encoding_layout {v : ContentTransferEncoding} (h : ∀ name, v ≠ .unknown name) :
    ValueL c (b! " " ++ encodingName v) (.contentTransferEncoding v) := by
  refine ⟨b! " ", encodingName v, [], by simp, ⟨optCfws_space, by simp⟩, ⟨?_, by simp⟩, .inl ⟨encodingName v, ?_, ?_⟩⟩
  · exact ⟨[], [], [], rfl, ⟨rfl, by simp⟩, [], [], none, rfl, .inl ⟨rfl, rfl⟩, [], [], [], rfl, ⟨rfl, by simp⟩, rfl, rfl⟩
  · cases v <;> simp [encodingNames, encodingName] at h ⊢
  · cases v <;> first | rfl | exact absurd rfl (h _)

theorem disposition_layout {v : MailDisposition} (h : (MailHeader.contentDisposition v).Writable c) :
    ValueL c (MailHeader.contentDisposition v).value (.contentDisposition v.value) := by
  obtain ⟨ht, h1, h2, h3, h4, h5, h6⟩ := h
  refine ⟨b! " ", v.type, _, _, lastValue v.params, ?_, optCfws_space,
    named_written ht, writtenDisposition_valid c v.filename v.creation v.modification v.read v.params h1 h2 h3 h4 ?_, ?_,
    (dispositionOf_written ..).symm⟩
  · show printDisposition v.type v.filename v.creation v.modification v.read v.params = _
    unfold printDisposition
    simp only [List.append_assoc]
  · intro p hp
    obtain ⟨k1, k2, k3⟩ := h5 p hp
    exact ⟨k1, k2, k3, h6 p hp⟩
  · rw [otherParams_written]
    exact paramsL_plain

theorem value_layout {h : MailHeader} {name : Bytes} (hn : headerOf h.field = some name) (hv : h.Writable c) :
    ValueL c h.value h.field ∧ h.name.map asciiLower = name := by
  cases h with
  | other => cases hn
  | date v => cases hn; exact ⟨date_layout hv, rfl⟩
  | «from» v => cases hn; exact ⟨mailboxes_layout hv.1 hv.2, rfl⟩
  | sender v => cases hn; exact ⟨⟨printMailbox_layout gap_space hv, solid_append (printMailbox_last v)⟩, rfl⟩
  | replyTo v => cases hn; exact ⟨addresses_layout hv.1 hv.2, rfl⟩
  | to v => cases hn; exact ⟨addresses_layout hv.1 hv.2, rfl⟩
  | cc v => cases hn; exact ⟨addresses_layout hv.1 hv.2, rfl⟩
  | bcc v => cases hn; exact ⟨bcc_layout hv.1 hv.2, rfl⟩
  | messageId v => cases hn; exact ⟨messageId_layout hv, rfl⟩
  | inReplyTo v =>
    cases hn; exact ⟨⟨messageIds_layout v _ optCfws_space hv.1 hv.2, messageIds_solid hv.1⟩, rfl⟩
  | references v =>
    cases hn; exact ⟨⟨messageIds_layout v _ optCfws_space hv.1 hv.2, messageIds_solid hv.1⟩, rfl⟩
  | subject v => cases hn; exact ⟨text_layout hv, rfl⟩
  | comments v => cases hn; exact ⟨text_layout hv, rfl⟩
  | keywords v => cases hn; exact ⟨keywords_layout hv.1 hv.2, rfl⟩
  | mimeVersion mj mn => cases hn; exact ⟨mimeVersion_layout hv.1 hv.2, rfl⟩
  | contentType v => cases hn; exact ⟨contentType_layout hv.1 hv.2.1 hv.2.2, rfl⟩
  | contentTransferEncoding v => cases hn; exact ⟨encoding_layout hv, rfl⟩
  | contentId v => cases hn; exact ⟨messageId_layout hv, rfl⟩
  | contentDescription v => cases hn; exact ⟨text_layout hv, rfl⟩
  | contentDisposition v => cases hn; exact ⟨disposition_layout hv, rfl⟩

/-- The line of a header is one of its layouts. -/
theorem header_layout {h : MailHeader} (hv : h.Valid c) : HeaderL c h.text h.field := by
  unfold MailHeader.text
  cases hn : headerOf h.field with
  | some name =>
    obtain ⟨h1, h2⟩ := value_layout hn hv.1
    exact .known hn (hv.2 name hn) h2 h1
  | none =>
    cases h <;> try cases hn
    obtain ⟨h1, h2, h3, h4⟩ := hv.1
    exact .unknown h1 h2 h3 (text_layout h4)

/-! ### Trace headers -/

theorem dotAtomFrom_dtext : ∀ {x : Bytes} {seen : Bool}, dotAtomFrom seen x = true → ∀ b ∈ x, dtext b = true
  | [], _, _ => nofun
  | a :: x, seen, h => by
    have ha : atext a = true → dtext a = true :=
      (by decide +kernel : ∀ a : UInt8, atext a = true → dtext a = true) a
    unfold dotAtomFrom at h
    split at h
    · rename_i e
      rw [beq_iff_eq] at e
      subst e
      rw [Bool.and_eq_true] at h
      exact List.forall_mem_cons.2 ⟨by decide, dotAtomFrom_dtext h.2⟩
    · rw [Bool.and_eq_true] at h
      exact List.forall_mem_cons.2 ⟨ha h.1, dotAtomFrom_dtext h.2⟩

theorem literal_layout {x : Bytes} (h : ∀ b ∈ x, dtext b = true) : Literal (b! "[" ++ x ++ b! "]") x := by
  have hs : ∃ vs, Gram.star LiteralPart x vs ∧ vs.flatten = x := by
    by_cases hne : x = []
    · exact ⟨[], hne ▸ .nil, by simp [hne]⟩
    · refine ⟨[x], ?_, by simp⟩
      have := Gram.star.cons (G := LiteralPart) (w₁ := x) (a := x)
        ⟨[], x, none, rfl, .inl ⟨rfl, rfl⟩, rfl, hne, h⟩ .nil
      simpa using this
  obtain ⟨vs, hs, hv⟩ := hs
  exact ⟨_, x ++ ([] ++ (b! "]" ++ [])), (), by simp, rfl, x, _, vs, rfl, hs, [], _, none, rfl, .inl ⟨rfl, rfl⟩, _, _,
    (), rfl, rfl, rfl, hv.symm⟩

theorem token_layout {t : ReceivedToken} (h : ValidToken t) : ∃ bare, ReceivedTokenL c (printToken t) bare t := by
  cases t with
  | word x =>
    unfold printToken
    dsimp only
    split
    · rename_i hx
      simp only [Bool.and_eq_true, bne_iff_ne, List.all_eq_true] at hx
      exact ⟨true, .atom hx.1 hx.2⟩
    · exact ⟨false, .quoted (quote_quoted h)⟩
  | domain x =>
    unfold printToken
    dsimp only
    split
    · rename_i hx
      simp only [Bool.and_eq_true, List.contains_iff_mem] at hx
      exact ⟨true, .dotted (dotAtomText_lax (dotAtomB_text hx.1)) hx.2⟩
    · refine ⟨false, .literal ?_⟩
      have h : ∀ b ∈ x, dtext b = true := by
        rcases h with h | h
        · exact dotAtomFrom_dtext h
        · exact h
      exact literal_layout h
  | addr a =>
    refine ⟨false, ?_⟩
    have := ReceivedTokenL.addr (c := c) (printAddress_grammar h)
    simpa [printToken] using this

theorem tokens_layout : ∀ ts : List ReceivedToken, (∀ t ∈ ts, ValidToken t) → ReceivedTokensL c (printTokens ts) ts
  | [], _ => .nil
  | [t], h => by
    obtain ⟨bare, h⟩ := token_layout (c := c) (h t (by simp))
    have := ReceivedTokensL.cons h optCfws_nil (fun _ _ => stops_nil) .nil
    simpa [printTokens] using this
  | t :: t' :: ts, h => by
    obtain ⟨bare, h1⟩ := token_layout (c := c) (h t (by simp))
    have h2 := tokens_layout (t' :: ts) fun x hx => h x (List.mem_cons_of_mem _ hx)
    have := ReceivedTokensL.cons h1 gap_space (fun _ h => by cases h) h2
    simpa [printTokens] using this

theorem received_layout {v : List ReceivedToken × DateTime} (h : ∀ x ∈ v.1, ValidToken x) (hd : InRange v.2) :
    ReceivedLineL c (printReceived v) v := by
  have hdate := date_layout (c := c) hd
  refine ⟨b! "Received", _, rfl, rfl, (if v.1 = [] then [] else b! " "), printTokens v.1,
    b! " " ++ printDate true v.2, by simp, ?_, ?_, tokens_layout v.1 h, hdate.1, hdate.2⟩
  · split
    · exact optCfws_nil
    · exact gap_space
  · intro e
    rw [if_pos]
    have ht := tokens_layout (c := c) v.1 h
    rw [e] at ht
    generalize v.1 = ts at ht
    generalize hx : ([] : Bytes) = x at ht
    cases ht with
    | nil => rfl
    | cons h1 _ _ _ =>
      obtain ⟨b, s, rfl, -⟩ := receivedTokenL_head h1
      cases hx

theorem returnPath_layout {v : Option EmailAddress} (h : ∀ a, v = some a → ValidAddress a) :
    ReturnPathLineL c (printReturnPath v) v := by
  refine ⟨b! "Return-Path", _, rfl, rfl, ?_, ?_⟩
  · cases v with
    | none => exact .empty gap_space optCfws_nil optCfws_nil
    | some a =>
      have := angleAddr_of (c := c) gap_space (printAddress_grammar (h a rfl)) optCfws_nil
      exact .address (by simpa using this)
  · intro u b e
    obtain ⟨-, e⟩ := List.append_inj' e rfl
    cases e
    rfl

theorem resent_layout {v : TraceField} (h : (resentHeader v).Writable c) : ResentLineL c (printResent v) v := by
  have e : (resentHeader v).field = resentField v := by cases v <;> rfl
  cases hn : headerOf (resentField v) with
  | none => cases v <;> cases hn
  | some name =>
    obtain ⟨h1, h2⟩ := value_layout (e ▸ hn) h
    rw [e] at h1
    refine ⟨name, b! "Resent-" ++ (resentHeader v).name, (resentHeader v).value, ?_, hn, ?_, h1⟩
    · simp [printResent, MailHeader.text]
    · rw [List.map_append, h2]
      rfl

theorem linesL_flatMap {L : Bytes → α → Prop} {p : α → Bytes} : ∀ vs : List α, (∀ v ∈ vs, L (p v) v) →
    LinesL L (vs.flatMap p) vs
  | [], _ => .nil
  | v :: vs, h => .cons (h v (by simp)) (linesL_flatMap vs fun x hx => h x (List.mem_cons_of_mem _ hx))

theorem traces_layout : ∀ ts : List MailTrace, (∀ t ∈ ts, t.Valid c) → Separated ts →
    TracesL c (ts.flatMap MailTrace.text) (ts.map fun t => .trace t.path t.received t.resent)
  | [], _, _ => .nil
  | t :: ts, h, hs => by
    obtain ⟨h1, h2, h3, h4⟩ := h t (by simp)
    have ih := traces_layout ts (fun x hx => h x (List.mem_cons_of_mem _ hx)) (by
      cases ts with
      | nil => trivial
      | cons t' ts => exact hs.2)
    have := TracesL.cons (path := t.path) (linesL_flatMap t.path.toList fun v hv => returnPath_layout (c := c) fun a ha => h1 a (by
        subst ha; simpa using hv))
      (linesL_flatMap t.received fun v hv => received_layout (c := c) (h3 v hv).1 (h3 v hv).2) h2
      (linesL_flatMap t.resent fun v hv => resent_layout (h4 v hv)) (by
        intro hr v vs vs' fs' e
        cases ts with
        | nil => cases e
        | cons t' ts =>
          cases e
          exact hs.1 hr) ih
    simpa [MailTrace.text] using this

/-! ### Messages -/

theorem headers_layout : ∀ hs : List MailHeader, (∀ h ∈ hs, h.Valid c) →
    LinesL (HeaderL c) (hs.flatMap MailHeader.text) (hs.map MailHeader.field)
  | [], _ => .nil
  | h :: hs, hv => .cons (header_layout (hv h (by simp))) (headers_layout hs fun x hx => hv x (List.mem_cons_of_mem _ hx))

theorem field_unknown {h : MailHeader} {n v : Bytes} (e : h.field = .unknown n v) : h = .other n v := by
  cases h <;> cases e
  rfl

theorem headers_other {m : Letter} {n v : Bytes} (h : .other n v ∈ m.headers) : (n, v) ∈ m.others := by
  simp only [Letter.headers, List.mem_append, List.mem_map, reduceCtorEq, and_false, exists_false, false_or,
    MailHeader.other.injEq] at h
  rcases h with h | h
  · split at h <;> simp at h
  · obtain ⟨w, hw, rfl, rfl⟩ := h
    exact hw

theorem headers_encoding {m : Letter} {e : ContentTransferEncoding} (h : m.encoding = some e) :
    .contentTransferEncoding e ∈ m.headers := by
  simp [Letter.headers, h]

theorem encodeBody_plain {m : Letter}
    (hr : ∀ h ∈ m.headers, ∀ name, headerOf h.field = some name → Recognized c.feat name)
    (hm : c.feat.mime = false) : m.encoding = none := by
  cases he : m.encoding with
  | none => rfl
  | some e =>
    have := hr _ (headers_encoding he) _ rfl
    simp [Recognized, hm] at this

/-- The fields of a message. -/
def letterFields (m : Letter) : List Field :=
  (m.trace.map fun t => .trace t.path t.received t.resent) ++ m.headers.map MailHeader.field

/-- The text of a message is one of its layouts. -/
theorem letter_layout {m : Letter} (hv : m.Valid c) :
    MessageL c m.text (letterFields m) (m.body.map (encodeBody m.encoding)) := by
  refine .intro ?_ (headers_layout _ hv.headers) ?_ ?_
  · rcases hv.trace with h | h
    · exact .inr (by simp [h])
    · exact .inl ⟨h, traces_layout _ hv.traces hv.separated⟩
  · intro ht n v fs' e
    cases hh : m.headers with
    | nil => rw [hh] at e; cases e
    | cons h hs =>
      rw [hh] at e
      have e := field_unknown (List.cons.inj e).1
      exact hv.others ht (n, v) (headers_other (by rw [hh, e]; exact List.mem_cons_self))
  · cases hb : m.body with
    | none => exact .none
    | some b =>
      refine .some fun hm => ?_
      rw [encodeBody_plain (fun h hh => (hv.headers h hh).2) hm]
      exact hv.body hm b hb

end EmailParser
