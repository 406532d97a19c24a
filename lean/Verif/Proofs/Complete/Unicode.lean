import Verif.Proofs.Complete.PrintMessage
import Verif.Spec.Unicode
/-
Headers with any characters, as written with encoded words and encoded parameters, have the layout of `HeaderL`.
-/
namespace EmailParser
open Spec

variable {α : Type} {c : Cfg}

/-! ### Encoded words -/

theorem printableB_iff {x : Bytes} : printableB x = true ↔ Spec.Printable x := by
  unfold printableB Spec.Printable
  simp [List.all_eq_true, Bool.or_eq_true]

theorem encodedForm_word {x : Bytes} (hne : x ≠ []) (h : Utf8 x) : EncodedWord c (encodedForm x) x :=
  ⟨b! "utf-8", [], b! "b", b64Encode x, x, by simp [encodedForm], ⟨by decide, by decide +kernel⟩, .inl rfl,
    ⟨b64Encode_ne_nil hne, b64Encode_chars x⟩, .inl ⟨by decide, b64Decode_encode x⟩,
    .inl ⟨.inl (by decide), (utf8Valid_iff x).mpr h, rfl⟩⟩

theorem encodedForm_atext (x : Bytes) : ∀ b ∈ encodedForm x, atext b = true := by
  have h1 : ∀ b ∈ b64Encode x, atext b = true := by
    obtain ⟨-, body, pad, h, hb, hp⟩ := b64Encode_shape x
    rw [h]
    have key : ∀ c : UInt8, alphabet.contains c = true → atext c = true := by decide +kernel
    intro b hb'
    rcases List.mem_append.mp hb' with h' | h'
    · exact key b (hb b h')
    · rw [hp] at h'
      rw [List.eq_of_mem_replicate h']
      decide
  intro b hb
  simp only [encodedForm, List.mem_append] at hb
  rcases hb with (hb | hb) | hb
  · exact (by decide +kernel : ∀ b ∈ b! "=?utf-8?b?", atext b = true) b hb
  · exact h1 b hb
  · exact (by decide +kernel : ∀ b ∈ b! "?=", atext b = true) b hb

/-- Words that are not written as they are. -/
theorem unicodeWord_encoded {x : Bytes} (h : UnicodeWord c.feat.mime x) (hx : printableB x = false) :
    c.feat.mime = true ∧ EncodedWord c (encodedForm x) x := by
  rcases h with h | ⟨hm, hu⟩
  · rw [printableB_iff.mpr h] at hx
    cases hx
  · refine ⟨hm, encodedForm_word ?_ hu⟩
    rintro rfl
    cases hx

/-! ### Phrases -/

/-- White space before a word, unless it has been passed already. -/
def spaceIf (p : Bool) : Bytes := if p then [] else b! " "

theorem spaceIf_gap (p : Bool) : Gap c (spaceIf p) () := by
  cases p
  · exact gap_space
  · exact optCfws_nil

theorem spaceIf_fws (p : Bool) : OptFws (spaceIf p) (spaceIf p) := by
  cases p <;> exact optFws_wsp (by decide +kernel)

theorem spaceIf_true {p : Bool} (h : p = true) : spaceIf p = [] := by rw [h]; rfl

/-- A printed phrase: the white space after it has been passed if the last word is not encoded. -/
theorem unicodePhrase_names {t : Bytes} (ht : Gap c t ()) : ∀ (p : Bool) (words : List Bytes),
    UnicodePhrase c.feat.mime words →
    Names c p (spaceIf p ++ (unicodePhrase words ++ t)) words true ∨
    Names c p (spaceIf p ++ unicodePhrase words) words false
  | _, [], h => absurd rfl h.1
  | p, [x], h => by
    cases hx : printableB x with
    | true =>
      left
      have := printPhrase_names (c := c) ht (spaceIf p) p [x] (spaceIf_gap p) spaceIf_true
        ⟨by simp, by simpa using printableB_iff.mp hx⟩
      simpa [unicodePhrase, unicodeWord, hx, printPhrase] using this
    | false =>
      right
      obtain ⟨hm, hw⟩ := unicodeWord_encoded (h.2 x (by simp)) hx
      have := Names.encoded (c := c) (s := []) hm (spaceIf_fws p) spaceIf_true hw .nil
      simpa [unicodePhrase, unicodeWord, hx] using this
  | p, x :: y :: xs, h => by
    have hr : UnicodePhrase c.feat.mime (y :: xs) := ⟨by simp, fun z hz => h.2 z (List.mem_cons_of_mem _ hz)⟩
    cases hx : printableB x with
    | true =>
      have step : ∀ {s q}, Names c true s (y :: xs) q → Names c p (spaceIf p ++ (printWord x ++ (b! " " ++ s))) (x :: y :: xs) q := by
        intro s q hs
        unfold printWord
        split
        · rename_i hx
          simp only [Bool.and_eq_true, bne_iff_ne, List.all_eq_true, Bool.not_eq_true'] at hx
          exact .atom (spaceIf_gap p) spaceIf_true hx.1.1 hx.1.2 (fun _ => looksEncoded_iff.mp hx.2) gap_space
            (by simp) hs
        · exact .quoted (spaceIf_gap p) spaceIf_true (quote_quoted (printableB_iff.mp hx)) gap_space hs
      rcases unicodePhrase_names ht true (y :: xs) hr with ih | ih
      · left
        have := step ih
        simpa [unicodePhrase, unicodeWord, hx, spaceIf] using this
      · right
        have := step ih
        simpa [unicodePhrase, unicodeWord, hx, spaceIf] using this
    | false =>
      obtain ⟨hm, hw⟩ := unicodeWord_encoded (h.2 x (by simp)) hx
      rcases unicodePhrase_names ht false (y :: xs) hr with ih | ih
      · left
        have := Names.encoded hm (spaceIf_fws p) spaceIf_true hw ih
        simpa [unicodePhrase, unicodeWord, hx, spaceIf] using this
      · right
        have := Names.encoded hm (spaceIf_fws p) spaceIf_true hw ih
        simpa [unicodePhrase, unicodeWord, hx, spaceIf] using this

theorem unicodePhrase_space {words : List Bytes} (h : UnicodePhrase c.feat.mime words) :
    ∃ q, Names c false (b! " " ++ unicodePhrase words) words q := by
  rcases unicodePhrase_names (c := c) optCfws_nil false words h with hn | hn
  · exact ⟨true, by simpa [spaceIf] using hn⟩
  · exact ⟨false, hn⟩

theorem unicodeMailbox_layout {m : Mailbox} (h : UnicodeMailbox c.feat.mime m) :
    MailboxL c (b! " " ++ unicodeMailbox m) m := by
  obtain ⟨name, a⟩ := m
  obtain ⟨h1, h2⟩ := h
  cases name with
  | none => exact printMailbox_layout (m := ⟨none, a⟩) gap_space ⟨by simp, h2⟩
  | some words =>
    have ha : ∀ {g}, Gap c g () → AngleAddrOf (CommentN c.stack) c.feat.compatibilityFixes
        (g ++ (b! "<" ++ (printEmailAddress a ++ (b! ">" ++ ([] ++ []))))) a := fun hg =>
      gram_then hg (gram_then (a := ()) rfl (gram_then (printAddress_grammar h2)
        (gram_then (a := ()) rfl (gram_then optCfws_nil ⟨rfl, rfl⟩))))
    unfold unicodeMailbox
    dsimp only
    rcases unicodePhrase_names (c := c) gap_space false words (h1 words rfl) with hn | hn
    · have := MailboxL.named hn (h1 words rfl).1 (ha optCfws_nil) (fun _ => ⟨_, rfl⟩)
      simpa [spaceIf] using this
    · have := MailboxL.named hn (h1 words rfl).1 (ha gap_space) (by simp)
      simpa [spaceIf] using this

theorem unicodePhrase_groupName {words : List Bytes} (h : UnicodePhrase c.feat.mime words) :
    GroupName c (b! " " ++ unicodePhrase words) words := by
  refine ⟨h.1, unicodePhrase_space h, ?_⟩
  intro f white x v s e hf hx hm
  obtain ⟨w, ws, t, rfl, ew, ht⟩ : ∃ w ws t, words = w :: ws ∧ unicodePhrase words = unicodeWord w ++ t ∧
      NotBefore (fun b => atext b || b == 46) t := by
    match words, h with
    | [], h => exact absurd rfl h.1
    | [w], _ => exact ⟨w, [], [], rfl, by simp [unicodePhrase], nofun⟩
    | w :: w' :: ws, _ =>
      refine ⟨w, _, b! " " ++ unicodePhrase (w' :: ws), rfl, by simp [unicodePhrase], ?_⟩
      intro b s e
      cases e
      decide
  rw [ew] at e
  cases hp : printableB w with
  | true =>
    rw [unicodeWord, hp] at e
    refine (printWord_notEncoded (c := c) gap_space ?_ e hf hx).elim
    intro b s e
    have := ht b s e
    simp only [Bool.or_eq_false_iff] at this
    exact this.1
  | false =>
    obtain ⟨-, hw⟩ := unicodeWord_encoded (h.2 w (by simp)) hp
    rw [unicodeWord, hp] at e
    simp only [Bool.false_eq_true, if_false] at e
    have head : ∀ {g x v r : Bytes}, Gap c g () → EncodedWord c x v → skipCfws c (g ++ (x ++ r)) = .ok (x ++ r) := by
      intro g x v r hg hx
      obtain ⟨xt, rfl⟩ := encodedWord_head hx
      exact skipCfws_append hg (cfwsEnd_cons (by decide) (by decide) (by decide))
    have e2 := head (r := s) (gap_optFws (c := c) hf) hx
    rw [← e, head gap_space hw] at e2
    have e2 := Outcome.ok.inj e2
    have e3 := encodedWord_append (r := s) hx
    rw [← e2, encodedWord_append hw] at e3
    cases e3
    rw [← List.append_cancel_right e2]
    exact ⟨encodedForm_atext _, ht⟩

/-! ### Lists -/

theorem commas_layout {L : Bytes → α → Prop} {p : α → Bytes} {ok : α → Prop}
    (hp : ∀ a, ok a → L (b! " " ++ p a) a) : ∀ as : List α, as ≠ [] →
      (∀ a ∈ as, ok a) → Commas L (b! " " ++ printCommas (as.map p)) as
  | [], h, _ => absurd rfl h
  | [a], _, h => .one (hp a (h a (by simp)))
  | a :: b :: as, _, h => by
    have ih := commas_layout hp (b :: as) (by simp) fun x hx => h x (List.mem_cons_of_mem _ hx)
    have := Commas.cons (hp a (h a (by simp))) ih
    simpa [printCommas] using this

theorem commas_last {p : α → Bytes} {ok : α → Prop} (hp : ∀ a, ok a → ∃ u b, p a = u ++ [b] ∧ Spec.wsp b = false) :
    ∀ as : List α, as ≠ [] → (∀ a ∈ as, ok a) → ∃ u b, printCommas (as.map p) = u ++ [b] ∧ Spec.wsp b = false
  | [], h, _ => absurd rfl h
  | [a], _, h => hp a (h a (by simp))
  | a :: b :: as, _, h => by
    obtain ⟨u, x, e, hx⟩ := commas_last hp (b :: as) (by simp) fun x hx => h x (List.mem_cons_of_mem _ hx)
    exact ⟨p a ++ b! ", " ++ u, x, by simp only [List.map_cons] at e; simp [printCommas, e], hx⟩

theorem unicodeAddress_layout {a : Address} (h : UnicodeAddress c.feat.mime a) :
    AddressL c (b! " " ++ unicodeAddress a) a := by
  cases a with
  | mailbox m => exact .mailbox (unicodeMailbox_layout h)
  | group n ms =>
    obtain ⟨hn, hm⟩ := h
    have hn' := unicodePhrase_groupName hn
    unfold unicodeAddress
    by_cases hms : ms = []
    · subst hms
      have := AddressL.emptyGroup hn' gap_space optCfws_nil
      simpa [printCommas] using this
    · have hl := commas_layout (fun _ h => unicodeMailbox_layout (c := c) h) ms hms hm
      have := AddressL.group hn' hl optCfws_nil
      simpa using this

theorem unicodeWord_last (x : Bytes) : ∃ u b, unicodeWord x = u ++ [b] ∧ Spec.wsp b = false := by
  unfold unicodeWord
  split
  · have := printPhrase_last [x] (by simp)
    simpa [printPhrase] using this
  · exact ⟨b! "=?utf-8?b?" ++ b64Encode x ++ b! "?", 61, by simp [encodedForm], by decide⟩

theorem unicodePhrase_last : ∀ words : List Bytes, words ≠ [] →
    ∃ u b, unicodePhrase words = u ++ [b] ∧ Spec.wsp b = false
  | [], h => absurd rfl h
  | [x], _ => unicodeWord_last x
  | x :: y :: xs, _ => by
    obtain ⟨u, b, e, hb⟩ := unicodePhrase_last (y :: xs) (by simp)
    exact ⟨unicodeWord x ++ b! " " ++ u, b, by simp [unicodePhrase, e], hb⟩

theorem unicodeMailbox_last (m : Mailbox) : ∃ u b, unicodeMailbox m = u ++ [b] ∧ Spec.wsp b = false := by
  unfold unicodeMailbox
  split
  · have := printMailbox_last ⟨none, m.address⟩
    exact this
  · exact ⟨_, 62, rfl, by decide⟩

theorem unicodeAddress_last (a : Address) : ∃ u b, unicodeAddress a = u ++ [b] ∧ Spec.wsp b = false := by
  cases a with
  | mailbox m => exact unicodeMailbox_last m
  | group n ms => exact ⟨_, 59, rfl, by decide⟩

theorem unicodeMailboxes_layout {v : List Mailbox} (hne : v ≠ []) (h : ∀ a ∈ v, UnicodeMailbox c.feat.mime a) :
    Commas (MailboxL c) (b! " " ++ printCommas (v.map unicodeMailbox)) v ∧
    Solid (b! " " ++ printCommas (v.map unicodeMailbox)) :=
  ⟨commas_layout (fun _ h => unicodeMailbox_layout h) v hne h,
    solid_append (printCommas_last unicodeMailbox_last v hne)⟩

theorem unicodeAddresses_layout {v : List Address} (hne : v ≠ []) (h : ∀ a ∈ v, UnicodeAddress c.feat.mime a) :
    Commas (AddressL c) (b! " " ++ printCommas (v.map unicodeAddress)) v ∧
    Solid (b! " " ++ printCommas (v.map unicodeAddress)) :=
  ⟨commas_layout (fun _ h => unicodeAddress_layout h) v hne h,
    solid_append (printCommas_last unicodeAddress_last v hne)⟩

theorem unicodeKeywords_layout {v : List (List Bytes)} (hne : v ≠ []) (h : ∀ words ∈ v, UnicodePhrase c.feat.mime words) :
    Commas (KeywordL c) (b! " " ++ printCommas (v.map unicodePhrase)) v ∧
    Solid (b! " " ++ printCommas (v.map unicodePhrase)) :=
  ⟨commas_layout (fun _ h => ⟨h.1, unicodePhrase_space h⟩) v hne h,
    solid_append (commas_last (fun words (h : UnicodePhrase c.feat.mime words) => unicodePhrase_last words h.1) v hne h)⟩

theorem unicodeBcc_layout {v : List Address} (hst : 0 < c.stack) (h : ∀ a ∈ v, UnicodeAddress c.feat.mime a) :
    ValueL c (b! " " ++ unicodeBcc v) (.bcc v) := by
  unfold unicodeBcc
  split
  · rename_i hv
    subst hv
    exact bcc_layout (v := []) hst (by simp)
  · rename_i hne
    have := unicodeAddresses_layout (c := c) hne h
    exact ⟨.inl this.1, this.2⟩

/-! ### Texts -/

theorem marked_infix : ∀ x : Bytes, marked x = false → ¬ b! "=?" <:+: x
  | [], _, h => by
    obtain ⟨s, t, e⟩ := h
    simp at e
  | b :: x, hm, h => by
    simp only [marked, Bool.or_eq_false_iff] at hm
    rcases List.infix_cons_iff.mp h with h | h
    · exact looksEncoded_iff.mp hm.1 h
    · exact marked_infix x hm.2 h

theorem plainB_valid {x : Bytes} (h : plainB x = true) : ValidText true x := by
  simp only [plainB, Bool.and_eq_true, Bool.not_eq_true'] at h
  refine ⟨printableB_iff.mp h.1.1, ?_, fun _ => marked_infix x h.2⟩
  rintro u b rfl
  have := h.1.2
  rwa [List.getLast?_append, List.getLast?_singleton, Option.some_or, Option.any_some] at this

theorem unicodeText_layout {encoded : Bool} {x : Bytes} (h : UnicodeText encoded x) :
    TextL c encoded (unicodeText encoded x) x := by
  unfold UnicodeText at h
  unfold unicodeText
  cases encoded with
  | false => exact text_layout h
  | true =>
    simp only [if_true, Bool.true_and] at h ⊢
    cases hp : plainB x with
    | true => exact text_layout (plainB_valid hp)
    | false =>
      have hne : x ≠ [] := by
        rintro rfl
        cases hp
      have hl := Layout.encoded (f := []) (white := []) (optFws_wsp (by simp)) (encodedForm_word (c := c) hne h) .nil
      exact ⟨_, [], _, (List.append_nil _).symm, by simpa using hl, by simp, by simp [joinPieces]⟩

/-! ### Identifiers -/

theorem unicodeId_grammar {K : Gram Unit} {lax : Bool} {g₁ g₂ : Bytes} {id : Bytes × Bytes}
    (h1 : OptCfwsOf K g₁ ()) (h2 : OptCfwsOf K g₂ ()) (h : UnicodeId lax id) :
    MessageIdOf K lax (g₁ ++ printMessageId id ++ g₂) id := by
  obtain ⟨l, r⟩ := id
  obtain ⟨hl, hr⟩ := h
  refine ⟨g₁, _, (), by simp only [printMessageId, printId, List.append_assoc]; rfl, h1, _, _, (), rfl, rfl, _, _,
    l, rfl, hl, _, _, (), rfl, rfl, _, _, r, rfl, ?_, _, _, (), rfl, rfl, _, [], (), by simp, h2,
    rfl, rfl⟩
  cases hd : dotAtomB r with
  | true => exact .inl (dotAtomText_lax (dotAtomB_text hd))
  | false => exact .inr ⟨_, _, (), by simp only [Bool.not_false, if_true]; rfl, rfl, _, _, r, rfl, ⟨rfl, hr⟩, _, [], (), by simp, rfl, rfl, rfl⟩

theorem unicodeId_layout {id : Bytes × Bytes} (h : UnicodeId c.feat.compatibilityFixes id) :
    MessageIdOf (CommentN c.stack) c.feat.compatibilityFixes (b! " " ++ printMessageId id) id ∧
    Solid (b! " " ++ printMessageId id) := by
  refine ⟨?_, solid_append ⟨_, 62, rfl, by decide⟩⟩
  have := unicodeId_grammar (K := CommentN c.stack) optCfws_space optCfws_nil h
  rwa [List.append_nil] at this

theorem unicodeIds_layout : ∀ (ids : List (Bytes × Bytes)) (g : Bytes), Gap c g () → ids ≠ [] →
    (∀ id ∈ ids, UnicodeId c.feat.compatibilityFixes id) → IdsL c (g ++ printMessageIds ids) ids
  | [], _, _, h, _ => absurd rfl h
  | [id], g, hg, _, h => by
    have := unicodeId_grammar (K := CommentN c.stack) hg optCfws_nil (h id (by simp))
    rw [List.append_nil] at this
    exact .one this
  | id :: id' :: ids, g, hg, _, h => by
    have h1 := unicodeId_grammar (K := CommentN c.stack) hg optCfws_space (h id (by simp))
    have h2 := unicodeIds_layout (id' :: ids) [] optCfws_nil (by simp) fun x hx => h x (List.mem_cons_of_mem _ hx)
    have := IdsL.cons h1 (by
      cases ids <;> exact ⟨_, rfl⟩) h2
    simpa [printMessageIds, printIds, printMessageId] using this

/-! ### Parameters -/

theorem keepChar_token : ∀ b, keepChar b = true → tokenChar b = true ∧ b ≠ 37 := by decide +kernel

theorem segmentWritten_text {x : Bytes} (h : Utf8 x) : SegmentText c (b! "utf-8") (pctEncode keepChar x) x :=
  decodeParameter_iff.mp (C37_percent_round_trip c keepChar (by decide) x ((utf8Valid_iff x).mpr h))

theorem contains_lower (x : Bytes) : (x.map asciiLower).contains 42 = x.contains 42 := by
  induction x with
  | nil => rfl
  | cons b x ih =>
    rw [List.map_cons, List.contains_cons, List.contains_cons, ih]
    congr 1
    exact (by decide +kernel : ∀ b : UInt8, ((42 : UInt8) == asciiLower b) = ((42 : UInt8) == b)) b

/-- Whether a parameter is written between quotation marks depends on its name in lower case and its value. -/
def quotedB (reserved : List Bytes) (name value : Bytes) : Bool :=
  name.contains 42 || (printableB value && !reserved.contains name)

theorem unicodeParam_eq (reserved : List Bytes) (p : Bytes × Bytes) : unicodeParam reserved p =
    if quotedB reserved (p.1.map asciiLower) p.2 then plainWritten p else segmentWritten p := by
  unfold unicodeParam quotedB
  rw [contains_lower]

theorem unicodeParam_name (reserved : List Bytes) (p : Bytes × Bytes) :
    (unicodeParam reserved p).raw.name = p.1.map asciiLower := by
  unfold unicodeParam
  split <;> rfl

theorem unicodeParam_valid {reserved : List Bytes} {params : List (Bytes × Bytes)} (h : UnicodeParams params)
    {p : Bytes × Bytes} (hp : p ∈ params) : (unicodeParam reserved p).Valid c := by
  obtain ⟨h1, h2, h3, h4⟩ := h.1 p hp
  unfold unicodeParam
  split
  · rename_i hq
    simp only [Bool.or_eq_true, List.contains_iff_mem, Bool.and_eq_true, Bool.not_eq_true'] at hq
    refine ⟨optCfws_nil, optCfws_space, h1, h2, ?_, (fun k hk => by cases hk), ?_⟩
    · by_cases hs : 42 ∈ p.1
      · exact .inr ⟨rfl, rfl, (h4 hs).2⟩
      · exact .inl hs
    · rcases hq with hq | hq
      · exact (h4 hq).1
      · exact printableB_iff.mp hq.1
  · rename_i hq
    simp only [Bool.or_eq_true, List.contains_iff_mem, not_or] at hq
    refine ⟨optCfws_nil, optCfws_space, h1, h2, .inl hq.1, (fun k hk => by cases hk; omega), by simp [segmentWritten], ?_⟩
    intro b hb
    rcases List.mem_append.mp hb with hb | hb
    · exact (by decide +kernel : ∀ b ∈ b! "utf-8''", tokenChar b = true) b hb
    · exact pctEncode_token keepChar_token _ b hb

theorem lastWith_map {β : Type} (f : α → β) (p : β → Bool) (l : List α) :
    lastWith p (l.map f) = (lastWith (p ∘ f) l).map f := by
  unfold lastWith
  rw [List.filter_map, List.getLast?_map]

theorem lastWith_mem_of {p : α → Bool} {l : List α} {a : α} (h : lastWith p l = some a) : a ∈ l ∧ p a = true := by
  have := List.mem_of_getLast? h
  exact List.mem_filter.mp this

theorem lastWith_none {p : α → Bool} {l : List α} : lastWith p l = none ↔ ∀ a ∈ l, p a = false := by
  unfold lastWith
  rw [List.getLast?_eq_none_iff, List.filter_eq_nil_iff]
  simp

theorem lastWith_congr {p q : α → Bool} {l : List α} (h : ∀ a ∈ l, p a = q a) : lastWith p l = lastWith q l := by
  unfold lastWith
  rw [List.filter_congr h]

theorem unicodeParams_value {reserved : List Bytes} {params : List (Bytes × Bytes)} (h : UnicodeParams params) :
    ParamsL c (params.map fun p => (unicodeParam reserved p).raw) (lastValue params) := by
  have hseg : ∀ name k, 0 < k → segment (params.map fun p => (unicodeParam reserved p).raw) name k = none := by
    intro name k hk
    unfold segment
    rw [lastWith_none]
    intro a ha
    obtain ⟨p, -, rfl⟩ := List.mem_map.mp ha
    rw [unicodeParam_eq]
    split
    · simp [WrittenParam.raw, plainWritten]
    · have : ¬ 0 = k := by omega
      simp [WrittenParam.raw, segmentWritten, this]
  refine ⟨fun _ name => ⟨1, by omega, hseg name 1 (by omega)⟩, fun name => ?_⟩
  -- the last parameter with this name decides
  cases hl : lastWith (fun p : Bytes × Bytes => p.1.map asciiLower == name) params with
  | none =>
    have hno := lastWith_none.mp hl
    have h1 : segment (params.map fun p => (unicodeParam reserved p).raw) name 0 = none := by
      unfold segment
      rw [lastWith_none]
      intro a ha
      obtain ⟨p, hp, rfl⟩ := List.mem_map.mp ha
      rw [unicodeParam_name, hno p hp]
      rfl
    have h2 : plainParam (params.map fun p => (unicodeParam reserved p).raw) name = none := by
      unfold plainParam
      rw [lastWith_none]
      intro a ha
      obtain ⟨p, hp, rfl⟩ := List.mem_map.mp ha
      rw [unicodeParam_name, hno p hp]
      rfl
    unfold ParamValue lastValue
    rw [h1, h2, hl]
    rfl
  | some p =>
    obtain ⟨hp, hn⟩ := lastWith_mem_of hl
    have hn := beq_iff_eq.mp hn
    have same : ∀ q ∈ params, q.1.map asciiLower = name → q.2 = p.2 := fun q hq e => h.2 q hq p hp (e.trans hn.symm)
    have hv : lastValue params name = some p.2 := by
      unfold lastValue
      rw [hl]
      rfl
    cases hq : quotedB reserved name p.2 with
    | true =>
      have h1 : segment (params.map fun p => (unicodeParam reserved p).raw) name 0 = none := by
        unfold segment
        rw [lastWith_none]
        intro a ha
        obtain ⟨q, hq', rfl⟩ := List.mem_map.mp ha
        by_cases e : q.1.map asciiLower = name
        · rw [unicodeParam_eq, e, same q hq' e, hq]
          simp [WrittenParam.raw, plainWritten]
        · rw [unicodeParam_name, beq_eq_false_iff_ne.mpr e]
          rfl
      have h2 : plainParam (params.map fun p => (unicodeParam reserved p).raw) name = some (plainWritten p).raw := by
        unfold plainParam
        rw [lastWith_map, lastWith_congr (q := fun p => p.1.map asciiLower == name), hl]
        · simp only [Option.map_some, unicodeParam_eq, hn, hq, if_true]
        · intro q hq'
          simp only [Function.comp_apply]
          by_cases e : q.1.map asciiLower = name
          · rw [unicodeParam_eq, e, same q hq' e, hq]
            simp [WrittenParam.raw, plainWritten, e]
          · rw [unicodeParam_name, beq_eq_false_iff_ne.mpr e]
            rfl
      unfold ParamValue
      rw [h1, h2, hv]
      rfl
    | false =>
      have h1 : segment (params.map fun p => (unicodeParam reserved p).raw) name 0 = some (segmentWritten p).raw := by
        unfold segment
        rw [lastWith_map, lastWith_congr (q := fun p => p.1.map asciiLower == name), hl]
        · simp only [Option.map_some, unicodeParam_eq, hn, hq, Bool.false_eq_true, if_false]
        · intro q hq'
          simp only [Function.comp_apply]
          by_cases e : q.1.map asciiLower = name
          · rw [unicodeParam_eq, e, same q hq' e, hq]
            simp [WrittenParam.raw, segmentWritten, e]
          · rw [unicodeParam_name, beq_eq_false_iff_ne.mpr e]
            rfl
      unfold ParamValue
      rw [h1, hv]
      refine ⟨some (b! "utf-8"), p.2, .inr ⟨rfl, b! "utf-8", [], pctEncode keepChar p.2, ?_, by decide, by simp, by decide +kernel,
        segmentWritten_text (h.1 p hp).2.2.1⟩, [], nofun, hseg name 1 (by omega), by simp⟩
      simp [WrittenParam.raw, segmentWritten]

theorem unicodeContentType_layout {v : MailType} (ht : ValidName typeNames v.type)
    (hs : v.subtype ≠ [] ∧ ∀ b ∈ v.subtype, tokenChar b = true) (hp : UnicodeParams v.params) :
    ValueL c (unicodeContentType v) (MailHeader.contentType v).field := by
  refine ⟨b! " ", v.type, v.subtype, v.params.map (unicodeParam []), ?_, optCfws_space, named_written ht, hs, rfl, ?_, ?_⟩
  · unfold unicodeContentType
    simp only [List.append_assoc]
  · intro p hm
    obtain ⟨x, hx, rfl⟩ := List.mem_map.mp hm
    exact unicodeParam_valid hp hx
  · rw [List.map_map]
    exact unicodeParams_value hp

theorem unicodeItems_valid {v : MailDisposition} (h1 : ∀ x ∈ v.filename, Spec.Printable x)
    (h2 : ∀ d ∈ v.creation, InRange d) (h3 : ∀ d ∈ v.modification, InRange d) (h4 : ∀ d ∈ v.read, InRange d)
    (h5 : UnicodeParams v.params) : ∀ x ∈ unicodeItems v, x.Valid c := by
  intro x hx
  unfold unicodeItems at hx
  rcases List.mem_append.mp hx with hx | hx
  · exact writtenDisposition_valid c v.filename v.creation v.modification v.read [] h1 h2 h3 h4 (by simp) x hx
  · obtain ⟨p, hp, rfl⟩ := List.mem_map.mp hx
    refine ⟨unicodeParam_valid h5 hp, ?_⟩
    unfold unicodeParam
    split
    · rename_i hq
      intro _ _
      have key : p.1.map asciiLower ∉ reservedNames := by
        simp only [Bool.or_eq_true, Bool.and_eq_true, Bool.not_eq_true'] at hq
        rcases hq with hq | hq
        · rw [← contains_lower, List.contains_iff_mem] at hq
          intro hr
          exact (by decide +kernel : ∀ x ∈ reservedNames, (42 : UInt8) ∉ x) _ hr hq
        · exact fun hr => absurd (List.contains_iff_mem.mpr hr) (by rw [hq.2]; decide)
      refine ⟨fun e => key ?_, fun kind e => key ?_⟩
      · rw [show p.1.map asciiLower = _ from e]
        decide +kernel
      · rw [show p.1.map asciiLower = _ from e]
        cases kind <;> decide +kernel
    · intro h
      cases h

theorem unicodeDisposition_layout {v : MailDisposition} (h : (MailHeader.contentDisposition v).Encodable c) :
    ValueL c (unicodeDisposition v) (.contentDisposition v.value) := by
  obtain ⟨ht, h1, h2, h3, h4, h5⟩ := h
  refine ⟨b! " ", v.type, _, unicodeItems v, lastValue v.params, ?_, optCfws_space,
    named_written ht, unicodeItems_valid h1 h2 h3 h4 h5, ?_, ?_⟩
  · unfold unicodeDisposition
    simp only [List.append_assoc]
  · have e : otherParams (unicodeItems v) = v.params.map fun p => (unicodeParam reservedNames p).raw := by
      unfold unicodeItems otherParams
      rw [List.filterMap_append]
      have := otherParams_written v.filename v.creation v.modification v.read []
      unfold otherParams at this
      rw [this, List.filterMap_map]
      simp [Function.comp_def]
    rw [e]
    exact unicodeParams_value h5
  · have e : ∀ {β : Type} (f : DispositionItem → Option β), (∀ p, f (.parameter p) = none) →
        ((unicodeItems v).map WrittenItem.item).filterMap f =
          ((writtenDisposition v.filename v.creation v.modification v.read []).map WrittenItem.item).filterMap f := by
      intro β f hf
      unfold unicodeItems
      rw [List.map_append, List.filterMap_append, List.map_map, List.filterMap_map (l := v.params)]
      have : v.params.filterMap (f ∘ WrittenItem.item ∘ fun p => WrittenItem.other (unicodeParam reservedNames p)) = [] := by
        rw [List.filterMap_eq_nil_iff]
        intro x _
        exact hf _
      rw [this, List.append_nil]
    have := dispositionOf_written (named dispositionNames .unknown v.type) v.filename v.creation v.modification v.read [] (lastValue v.params)
    unfold dispositionOf at this ⊢
    rw [e itemFilename (fun _ => rfl), e itemCreation (fun _ => rfl), e itemModification (fun _ => rfl),
      e itemRead (fun _ => rfl), this]
    rfl

/-! ### Headers -/

theorem unicodeValue_layout {h : MailHeader} {name : Bytes} (hn : headerOf h.field = some name) (hv : h.Encodable c) :
    ValueL c (h.unicodeValue c.feat) h.field ∧ h.name.map asciiLower = name := by
  cases h with
  | other => cases hn
  | date v => cases hn; exact ⟨date_layout hv, rfl⟩
  | «from» v => cases hn; exact ⟨unicodeMailboxes_layout hv.1 hv.2, rfl⟩
  | sender v => cases hn; exact ⟨⟨unicodeMailbox_layout hv, solid_append (unicodeMailbox_last v)⟩, rfl⟩
  | replyTo v => cases hn; exact ⟨unicodeAddresses_layout hv.1 hv.2, rfl⟩
  | to v => cases hn; exact ⟨unicodeAddresses_layout hv.1 hv.2, rfl⟩
  | cc v => cases hn; exact ⟨unicodeAddresses_layout hv.1 hv.2, rfl⟩
  | bcc v => cases hn; exact ⟨unicodeBcc_layout hv.1 hv.2, rfl⟩
  | messageId v => cases hn; exact ⟨unicodeId_layout hv, rfl⟩
  | inReplyTo v =>
    cases hn; exact ⟨⟨unicodeIds_layout v _ optCfws_space hv.1 hv.2, messageIds_solid hv.1⟩, rfl⟩
  | references v =>
    cases hn; exact ⟨⟨unicodeIds_layout v _ optCfws_space hv.1 hv.2, messageIds_solid hv.1⟩, rfl⟩
  | subject v => cases hn; exact ⟨unicodeText_layout hv, rfl⟩
  | comments v => cases hn; exact ⟨unicodeText_layout hv, rfl⟩
  | keywords v => cases hn; exact ⟨unicodeKeywords_layout hv.1 hv.2, rfl⟩
  | mimeVersion mj mn => cases hn; exact ⟨mimeVersion_layout hv.1 hv.2, rfl⟩
  | contentType v => cases hn; exact ⟨unicodeContentType_layout hv.1 hv.2.1 hv.2.2, rfl⟩
  | contentTransferEncoding v => cases hn; exact ⟨encoding_layout hv, rfl⟩
  | contentId v => cases hn; exact ⟨unicodeId_layout hv, rfl⟩
  | contentDescription v => cases hn; exact ⟨unicodeText_layout (encoded := true) hv, rfl⟩
  | contentDisposition v => cases hn; exact ⟨unicodeDisposition_layout hv, rfl⟩

theorem linesL_map {β : Type} {L : Bytes → β → Prop} {p : α → Bytes} {f : α → β} :
    ∀ vs : List α, (∀ v ∈ vs, L (p v) (f v)) → LinesL L (vs.flatMap p) (vs.map f)
  | [], _ => .nil
  | v :: vs, h => .cons (h v (by simp)) (linesL_map vs fun x hx => h x (List.mem_cons_of_mem _ hx))

/-- The line of a header is one of its layouts. -/
theorem unicode_header_layout {h : MailHeader} (hv : h.Encodable c)
    (hr : ∀ name, headerOf h.field = some name → Recognized c.feat name) : HeaderL c (h.unicode c.feat) h.field := by
  unfold MailHeader.unicode
  cases hn : headerOf h.field with
  | some name =>
    obtain ⟨h1, h2⟩ := unicodeValue_layout hn hv
    exact .known hn (hr name hn) h2 h1
  | none =>
    cases h <;> try cases hn
    obtain ⟨h1, h2, h3, h4⟩ := hv
    exact .unknown h1 h2 h3 (unicodeText_layout h4)

theorem unicode_resent_layout {v : TraceField} (h : (resentHeader v).Encodable c) :
    ResentLineL c (unicodeResent c.feat v) v := by
  have e : (resentHeader v).field = resentField v := by cases v <;> rfl
  cases hn : headerOf (resentField v) with
  | none => cases v <;> cases hn
  | some name =>
    obtain ⟨h1, h2⟩ := unicodeValue_layout (e ▸ hn) h
    rw [e] at h1
    refine ⟨name, b! "Resent-" ++ (resentHeader v).name, (resentHeader v).unicodeValue c.feat, ?_, hn, ?_, h1⟩
    · simp [unicodeResent, MailHeader.unicode]
    · rw [List.map_append, h2]
      rfl

theorem unicode_traces_layout : ∀ ts : List MailTrace, (∀ t ∈ ts, t.Encodable c) → Separated ts →
    TracesL c (ts.flatMap (MailTrace.unicode c.feat)) (ts.map fun t => .trace t.path t.received t.resent)
  | [], _, _ => .nil
  | t :: ts, h, hs => by
    obtain ⟨h1, h2, h3, h4⟩ := h t (by simp)
    have ih := unicode_traces_layout ts (fun x hx => h x (List.mem_cons_of_mem _ hx)) (by
      cases ts with
      | nil => trivial
      | cons t' ts => exact hs.2)
    have := TracesL.cons (path := t.path) (linesL_flatMap t.path.toList fun v hv => returnPath_layout (c := c) fun a ha => h1 a (by
        subst ha; simpa using hv))
      (linesL_flatMap t.received fun v hv => received_layout (c := c) (h3 v hv).1 (h3 v hv).2) h2
      (linesL_flatMap t.resent fun v hv => unicode_resent_layout (h4 v hv)) (by
        intro hr v vs vs' fs' e
        cases ts with
        | nil => cases e
        | cons t' ts =>
          cases e
          exact hs.1 hr) ih
    simpa [MailTrace.unicode] using this

/-- The text of a message is one of its layouts. -/
theorem unicode_letter_layout {m : Letter} (hv : m.Encodable c) :
    MessageL c (m.unicode c.feat) (letterFields m) (m.body.map (encodeBody m.encoding)) := by
  refine .intro ?_ (linesL_map _ fun h hh => unicode_header_layout (hv.headers h hh) (hv.recognized h hh)) ?_ ?_
  · rcases hv.trace with h | h
    · exact .inr (by simp [h])
    · exact .inl ⟨h, unicode_traces_layout _ hv.traces hv.separated⟩
  · intro ht n v fs' e
    cases hh : m.headers with
    | nil => rw [hh] at e; cases e
    | cons h hs =>
      rw [hh] at e
      have e := field_unknown (List.cons.inj e).1
      exact hv.others ht (n, v) (headers_other (by rw [hh, e]; exact List.mem_cons_self))
  · cases hb : m.body with
    | none => exact .none
    | some b =>
      refine .some fun hm => ?_
      rw [encodeBody_plain hv.recognized hm]
      exact hv.body hm b hb

end EmailParser
