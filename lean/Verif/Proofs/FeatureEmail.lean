import Verif.Proofs.FeatureLines
import Verif.Proofs.Email
import Verif.Spec.Features
import Verif.Props.Body
import Verif.Props.Email
import Verif.Props.Lines
/-
E-mails read with different Cargo features.
-/
namespace EmailParser
open Spec

variable {α β : Type} {c : Cfg} {f f' : Features} {t : Bytes}

/-! ### Members -/

/-- A member does not depend on whether other headers are recognised. -/
theorem Matched.flatMap {xs ys : List Field} (h : Matched f f' xs ys) {g : Field → List β}
    (hc : ∀ x y, Counterpart f f' x y → g x = g y) (ht : f.trace ≠ f'.trace → ∀ x, InTrace x → g x = []) :
    ys.flatMap g = xs.flatMap g := by
  induction h with
  | nil => rfl
  | cons h _ ih => rw [List.flatMap_cons, List.flatMap_cons, ih, hc _ _ h]
  | left h h' _ ih => rw [List.flatMap_cons, ih, ht h _ h', List.nil_append]
  | right h h' _ ih => rw [List.flatMap_cons, ih, ht h _ h', List.nil_append]

theorem Matched.filterMap {xs ys : List Field} (h : Matched f f' xs ys) {g : Field → Option β}
    (hc : ∀ x y, Counterpart f f' x y → g x = g y) (ht : f.trace ≠ f'.trace → ∀ x, InTrace x → g x = none) :
    ys.filterMap g = xs.filterMap g := by
  induction h with
  | nil => rfl
  | cons h _ ih => rw [List.filterMap_cons, List.filterMap_cons, ih, hc _ _ h]
  | left h h' _ ih => rw [List.filterMap_cons, ih, ht h _ h']
  | right h h' _ ih => rw [List.filterMap_cons, ih, ht h _ h']

theorem Matched.findSome {xs ys : List Field} (h : Matched f f' xs ys) {g : Field → Option β}
    (hc : ∀ x y, Counterpart f f' x y → g x = g y) (ht : f.trace ≠ f'.trace → ∀ x, InTrace x → g x = none) :
    ys.findSome? g = xs.findSome? g := by
  rw [← List.head?_filterMap, ← List.head?_filterMap, h.filterMap hc ht]

/-- The values of a header that both recognise. -/
theorem Counterpart.values {x y : Field} (h : Counterpart f f' x y) {n : Bytes} {g : Field → β} {b : β}
    (hn : Recognized f n ∧ Recognized f' n) (hg : ∀ x, headerOf x ≠ some n → g x = b) : g x = g y := by
  cases h with
  | same => rfl
  | left h1 h2 h3 =>
    rw [hg, hg]
    · simp [headerOf]
    · rw [h1]
      rintro h
      cases h
      exact h3 hn.2
  | right h1 h2 h3 =>
    rw [hg, hg]
    · rw [h1]
      rintro h
      cases h
      exact h2 hn.1
    · simp [headerOf]

theorem InTrace.header {x : Field} (h : InTrace x) : headerOf x = none := by
  cases x <;> first | rfl | exact h.elim

theorem Matched.value {xs ys : List Field} (h : Matched f f' xs ys) {n : Bytes} {g : Field → Option β}
    (hn : Recognized f n ∧ Recognized f' n) (hg : ∀ x, headerOf x ≠ some n → g x = none) :
    ys.findSome? g = xs.findSome? g :=
  h.findSome (fun _ _ h => h.values hn hg) fun _ x hx => hg x (by rw [hx.header]; simp)

theorem Matched.values {xs ys : List Field} (h : Matched f f' xs ys) {n : Bytes} {g : Field → Option β}
    (hn : Recognized f n ∧ Recognized f' n) (hg : ∀ x, headerOf x ≠ some n → g x = none) :
    ys.filterMap g = xs.filterMap g :=
  h.filterMap (fun _ _ h => h.values hn hg) fun _ x hx => hg x (by rw [hx.header]; simp)

/-! ### Messages -/

/-- What is read after the header block. -/
def contentOf (mime : Bool) (t : Bytes) : Outcome (Option Bytes) :=
  if mime then
    if t.isEmpty then .ok none
    else do
      let (b, ()) ← tag t (b! "\r\n") "TAG ERROR: Headers must be followed by a CRLF sequence."
      .ok (some b)
  else body t

theorem contentOf_ended {m : Bool} {b : Option Bytes} (h : contentOf m t = .ok b) : Ended t := by
  unfold contentOf body at h
  cases t with
  | nil => exact .nil
  | cons a t =>
    rcases tag_cases (a :: t) (b! "\r\n") "TAG ERROR: Headers must be followed by a CRLF sequence." with
      ⟨r, e, -⟩ | ⟨_, h'⟩
    · rw [e]
      exact .crlf r
    · rw [h'] at h
      cases m <;> cases h

theorem parseMessage_content {i : Bytes} {fs : List Field} {b : Option Bytes} :
    parseMessage c i = .ok (fs, b) ↔ ∃ t, fields c i = .ok (t, fs) ∧ contentOf c.feat.mime t = .ok b := by
  unfold parseMessage contentOf
  constructor
  · intro h
    obtain ⟨⟨t, fs'⟩, h1, h2⟩ := bind_eq_ok.1 h
    dsimp only at h2
    split at h2
    · split at h2
      · cases h2
        exact ⟨t, h1, by simp [*]⟩
      · obtain ⟨⟨r, ⟨⟩⟩, h3, h4⟩ := bind_eq_ok.1 h2
        cases h4
        exact ⟨t, h1, by simp [*]⟩
    · obtain ⟨b', h3, h4⟩ := bind_eq_ok.1 h2
      cases h4
      exact ⟨t, h1, by simp [*]⟩
  · rintro ⟨t, h1, h2⟩
    rw [h1, ok_bind]
    dsimp only
    split at h2
    · rw [if_pos ‹_›]
      split at h2
      · cases h2
        rw [if_pos ‹_›]
      · obtain ⟨⟨r, ⟨⟩⟩, h3, h4⟩ := bind_eq_ok.1 h2
        cases h4
        rw [if_neg ‹_›, h3]
        rfl
    · rw [if_neg ‹_›, h2]
      rfl

theorem parse_parts {i : Bytes} {e : Email} (hc : c.feat.compiles) (h : Email.parse c i = .ok e) :
    ∃ w t fs b, i = w ++ t ∧ Ended t ∧ fields c i = .ok (t, fs) ∧ contentOf c.feat.mime t = .ok b ∧ HeaderLines w ∧
      NoDuplicate fs ∧ (∀ n, ¬ Missing c fs n) ∧ IsEmail c fs b e := by
  obtain ⟨fs, b, hp, -, h1, h2, h3⟩ := parse_ok c hc h
  obtain ⟨t, h4, h5⟩ := parseMessage_content.1 hp
  obtain ⟨w, e, hw⟩ := (fields_parses (c := c) i).of_ok h4
  exact ⟨w, t, fs, b, e, contentOf_ended h5, h4, h5, (lines_headerBlock (strOk_utf8 c) hc.2 _ _ hw).1, h1, h2, h3⟩

theorem noEncodedWords_head {w : Bytes} (h : NoEncodedWords (w ++ t)) (hw : HeaderLines w) : ¬ b! "=?" <:+: w := by
  rintro ⟨a, b, e⟩
  obtain ⟨h1, h2, h3⟩ := headerLines_first hw
  rcases h with h | h
  · refine h2 ?_
    rcases List.prefix_or_prefix_of_prefix h (List.prefix_append w t) with h' | h'
    · exact h'
    · have := h'.length_le
      have h'' := congrArg List.length e
      simp [CRLF] at this h''
      have e' := h'.eq_of_length (by simp [CRLF]; omega)
      rw [e']
      exact List.prefix_refl _
  · obtain ⟨j, hj, hj'⟩ := h a.length (by
      show _ <+: _
      rw [← e, List.append_assoc, List.append_assoc, List.drop_left]
      exact List.prefix_append _ _)
    have hl := h3 t j hj'
    have hlen := congrArg List.length e
    simp at hlen
    obtain rfl : j = a.length := by omega
    have : OccursAt (CRLF ++ CRLF) (w ++ t) a.length := hj'
    rw [OccursAt, ← e, List.append_assoc, List.append_assoc, List.drop_left] at this
    obtain ⟨s, hs⟩ := this
    simp [CRLF] at hs

theorem parse_switch (hcf : f.compatibilityFixes = c.feat.compatibilityFixes) :
    ({ c with feat := f } : Cfg) = c.switch f := by
  unfold Cfg.switch
  rw [← hcf]

theorem switch_feat (hcf : f.compatibilityFixes = c.feat.compatibilityFixes) : (c.switch f).feat = f := by
  unfold Cfg.switch
  rw [← hcf]

theorem unknown_same {x y : Field} {n : Bytes} (h : Counterpart f f' x y) (hn : Recognized f n ↔ Recognized f' n) :
    (unknownOf x).filter (·.1.map asciiLower == n) = (unknownOf y).filter (·.1.map asciiLower == n) := by
  cases h with
  | same => rfl
  | @left x name v h1 h2 h3 =>
    have : unknownOf x = none := by cases x <;> first | rfl | cases h1
    rw [this]
    have hne : name.map asciiLower ≠ n := by
      rintro rfl
      exact h3 (hn.1 h2)
    simp [unknownOf, Option.filter, hne]
  | @right _ name v h1 h2 h3 =>
    have : unknownOf y = none := by cases y <;> first | rfl | cases h1
    rw [this]
    have hne : name.map asciiLower ≠ n := by
      rintro rfl
      exact h2 (hn.2 h3)
    simp [unknownOf, Option.filter, hne]

theorem sameMembers {e e' : Email} {fs fs' : List Field} {b b' : Option Bytes} {d : Cfg}
    (hc : c.feat.compiles) (hd : d.feat.compiles)
    (hm : Matched c.feat d.feat fs fs') (hb : contentOf c.feat.mime t = .ok b) (hb' : contentOf d.feat.mime t = .ok b')
    (he : IsEmail c fs b e) (he' : IsEmail d fs' b' e') : SameMembers c.feat d.feat e e' where
  «from» h h' := by
    rw [he.from, he'.from, if_pos h, if_pos h']
    exact hm.value (n := b! "from") ⟨recognized_from.2 h, recognized_from.2 h'⟩ fun x hx => by cases x <;> first | rfl | exact absurd rfl hx
  sender h h' := by
    rw [he.sender, he'.sender, if_pos h, if_pos h']
    rw [hm.value (g := senderOf) (n := b! "sender") ⟨recognized_sender.2 h, recognized_sender.2 h'⟩ fun x hx => by cases x <;> first | rfl | exact absurd rfl hx,
      hm.value (g := fromOf) (n := b! "from") ⟨recognized_from.2 (hc.1 h), recognized_from.2 (hd.1 h')⟩ fun x hx => by cases x <;> first | rfl | exact absurd rfl hx]
  date h h' := by
    rw [he.date, he'.date, if_pos h, if_pos h']
    exact hm.value (n := b! "date") ⟨recognized_date.2 h, recognized_date.2 h'⟩ fun x hx => by cases x <;> first | rfl | exact absurd rfl hx
  subject h h' := by
    rw [he.subject, he'.subject]
    exact hm.value (n := b! "subject") ⟨recognized_subject.2 h, recognized_subject.2 h'⟩ fun x hx => by cases x <;> first | rfl | exact absurd rfl hx
  to h h' := by
    rw [he.to, he'.to]
    exact hm.value (n := b! "to") ⟨recognized_to.2 h, recognized_to.2 h'⟩ fun x hx => by cases x <;> first | rfl | exact absurd rfl hx
  cc h h' := by
    rw [he.cc, he'.cc]
    exact hm.value (n := b! "cc") ⟨recognized_cc.2 h, recognized_cc.2 h'⟩ fun x hx => by cases x <;> first | rfl | exact absurd rfl hx
  bcc h h' := by
    rw [he.bcc, he'.bcc]
    exact hm.value (n := b! "bcc") ⟨recognized_bcc.2 h, recognized_bcc.2 h'⟩ fun x hx => by cases x <;> first | rfl | exact absurd rfl hx
  messageId h h' := by
    rw [he.messageId, he'.messageId]
    exact hm.value (n := b! "message-id") ⟨recognized_message_id.2 h, recognized_message_id.2 h'⟩ fun x hx => by cases x <;> first | rfl | exact absurd rfl hx
  inReplyTo h h' := by
    rw [he.inReplyTo, he'.inReplyTo]
    exact hm.value (n := b! "in-reply-to") ⟨recognized_in_reply_to.2 h, recognized_in_reply_to.2 h'⟩ fun x hx => by cases x <;> first | rfl | exact absurd rfl hx
  references h h' := by
    rw [he.references, he'.references]
    exact hm.value (n := b! "references") ⟨recognized_references.2 h, recognized_references.2 h'⟩ fun x hx => by cases x <;> first | rfl | exact absurd rfl hx
  replyTo h h' := by
    rw [he.replyTo, he'.replyTo]
    exact hm.value (n := b! "reply-to") ⟨recognized_reply_to.2 h, recognized_reply_to.2 h'⟩ fun x hx => by cases x <;> first | rfl | exact absurd rfl hx
  comments h h' := by
    rw [he.comments, he'.comments]
    have hg : ∀ x, headerOf x ≠ some (b! "comments") → commentsOf x = none := fun x hx => by cases x <;> first | rfl | exact absurd rfl hx
    exact hm.filterMap (fun _ _ h'' => h''.values ⟨recognized_comments.2 h, recognized_comments.2 h'⟩ hg)
      fun _ x hx => hg x (by rw [hx.header]; simp)
  keywords h h' := by
    rw [he.keywords, he'.keywords]
    have hg : ∀ x, headerOf x ≠ some (b! "keywords") → keywordsOf x = [] := fun x hx => by cases x <;> first | rfl | exact absurd rfl hx
    exact hm.flatMap (fun _ _ h'' => h''.values ⟨recognized_keywords.2 h, recognized_keywords.2 h'⟩ hg)
      fun _ x hx => hg x (by rw [hx.header]; simp)
  trace h h' := by
    rw [he.trace, he'.trace]
    refine hm.filterMap (fun x y hxy => ?_) fun h'' => absurd (h.trans h'.symm) h''
    cases hxy with
    | same => rfl
    | @left x _ _ h1 => cases x <;> first | rfl | cases h1
    | right h1 => cases y <;> first | rfl | cases h1
  body h h' := by
    rw [he.body, he'.body, h, h']
    rw [h] at hb
    rw [h', hb] at hb'
    cases hb'
    rfl
  mimeEntity h h' := by
    obtain ⟨raw, h1, h2, h3, h4, h5, h6, h7, h8⟩ := he.entity h
    obtain ⟨raw', h1', h2', h3', h4', h5', h6', h7', h8'⟩ := he'.entity h'
    rw [h] at hb
    rw [h', hb] at hb'
    cases hb'
    rw [h1, h1']
    have e1 : fs'.findSome? contentTypeOf = fs.findSome? contentTypeOf :=
      hm.value (n := b! "content-type") ⟨recognized_content_type.2 h, recognized_content_type.2 h'⟩ fun x hx => by cases x <;> first | rfl | exact absurd rfl hx
    have e2 : fs'.findSome? contentDescriptionOf = fs.findSome? contentDescriptionOf :=
      hm.value (n := b! "content-description") ⟨recognized_content_description.2 h, recognized_content_description.2 h'⟩ fun x hx => by cases x <;> first | rfl | exact absurd rfl hx
    have e3 : fs'.findSome? contentIdOf = fs.findSome? contentIdOf :=
      hm.value (n := b! "content-id") ⟨recognized_content_id.2 h, recognized_content_id.2 h'⟩ fun x hx => by cases x <;> first | rfl | exact absurd rfl hx
    have e4 : fs'.findSome? contentDispositionOf = fs.findSome? contentDispositionOf :=
      hm.value (n := b! "content-disposition") ⟨recognized_content_disposition.2 h, recognized_content_disposition.2 h'⟩ fun x hx => by cases x <;> first | rfl | exact absurd rfl hx
    have e5 : fs'.findSome? encodingOf = fs.findSome? encodingOf :=
      hm.value (n := b! "content-transfer-encoding") ⟨recognized_content_transfer_encoding.2 h, recognized_content_transfer_encoding.2 h'⟩ fun x hx => by cases x <;> first | rfl | exact absurd rfl hx
    have ev : raw'.value = raw.value := by
      cases b with
      | none => rw [h7 rfl, h7' rfl]
      | some b =>
        have a := h8 b rfl
        have a' := h8' b rfl
        rw [e5, a] at a'
        exact (Outcome.ok.inj a').symm
    rw [e1, ← h2] at h2'
    rw [e2, ← h3] at h3'
    rw [e3, ← h4] at h4'
    rw [e4, ← h5] at h5'
    rw [← h6] at h6'
    obtain ⟨⟩ := raw
    obtain ⟨⟩ := raw'
    simp only [Prod.mk.injEq] at *
    simp [*]
  unknownFields n hn ht := by
    rw [he.unknownFields, he'.unknownFields, List.filter_filterMap, List.filter_filterMap]
    refine hm.filterMap (fun x y h => unknown_same h hn) fun h x hx => ?_
    cases x with
    | unknown name v =>
      have : name.map asciiLower ≠ n := by
        rintro rfl
        exact (ht.resolve_left h) hx
      simp [unknownOf, Option.filter, this]
    | _ => rfl

/-! ### Fewer headers -/

theorem Spec.FewerHeaders.recognized (h : FewerHeaders f f') {n : Bytes} (hn : Recognized f n) : Recognized f' n := by
  unfold Recognized at *
  have := h.mime
  rcases hn with ⟨a, b⟩ | ⟨a, b⟩ | ⟨a, b⟩ | ⟨a, b⟩ | ⟨a, b⟩ | ⟨a, b⟩ | ⟨a, b⟩ | ⟨a, b⟩ | ⟨a, b⟩ | ⟨a, b⟩ | ⟨a, b⟩ |
    ⟨a, b⟩ | ⟨a, b⟩ | ⟨a, b⟩
  · exact .inl ⟨h.date a, b⟩
  · exact .inr (.inl ⟨h.from a, b⟩)
  · exact .inr (.inr (.inl ⟨h.sender a, b⟩))
  · exact .inr (.inr (.inr (.inl ⟨h.replyTo a, b⟩)))
  · exact .inr (.inr (.inr (.inr (.inl ⟨h.to a, b⟩))))
  · exact .inr (.inr (.inr (.inr (.inr (.inl ⟨h.cc a, b⟩)))))
  · exact .inr (.inr (.inr (.inr (.inr (.inr (.inl ⟨h.bcc a, b⟩))))))
  · exact .inr (.inr (.inr (.inr (.inr (.inr (.inr (.inl ⟨h.messageId a, b⟩)))))))
  · exact .inr (.inr (.inr (.inr (.inr (.inr (.inr (.inr (.inl ⟨h.inReplyTo a, b⟩))))))))
  · exact .inr (.inr (.inr (.inr (.inr (.inr (.inr (.inr (.inr (.inl ⟨h.references a, b⟩)))))))))
  · exact .inr (.inr (.inr (.inr (.inr (.inr (.inr (.inr (.inr (.inr (.inl ⟨h.subject a, b⟩))))))))))
  · exact .inr (.inr (.inr (.inr (.inr (.inr (.inr (.inr (.inr (.inr (.inr (.inl ⟨h.comments a, b⟩)))))))))))
  · exact .inr (.inr (.inr (.inr (.inr (.inr (.inr (.inr (.inr (.inr (.inr (.inr (.inl ⟨h.keywords a, b⟩))))))))))))
  · exact .inr (.inr (.inr (.inr (.inr (.inr (.inr (.inr (.inr (.inr (.inr (.inr (.inr ⟨this ▸ a, b⟩))))))))))))

/-- A header line in the sense of RFC 5322. -/
def IsHeaderText (l : Bytes) : Prop := ∃ name x w, HeaderText name x w l

theorem unknownField_text {l : Bytes} (h : IsHeaderText l) : ∃ y, unknownField c l = .ok ([], y) := by
  obtain ⟨name, x, w, h⟩ := h
  obtain ⟨v, hv, -⟩ := unknown_line (c := c) h.name_ne h.name_chars h.folding stops_nil
  have := lineText_eq h (t := [])
  rw [List.append_nil] at this
  exact ⟨_, by rw [this, unknownField, mapValue, hv]; rfl⟩

theorem matchParsers_single {i : Bytes} {p : Bytes → Res α} {a : Bytes × α} (h : p i = .ok a) :
    matchParsers i [p] = .ok a := by rw [matchParsers, h]

/-- No header is recognised. -/
def Cfg.plain (c : Cfg) : Cfg :=
  c.switch ⟨false, false, false, false, false, false, false, false, false, false, false, false, false, false, false, false, false⟩

theorem IsHeaderText.hline (c : Cfg) {l : Bytes} (h : IsHeaderText l) : HLine l := by
  obtain ⟨y, hy⟩ := unknownField_text (c := c.plain) h
  refine .mk (field_lines (c := c.plain)) (v := y) ?_ fun i hi => field_ended hi
  rw [field_unnamed, matchParsers_single hy]
  intro e he
  have := headerTable_recognized e he
  simp [Recognized, Cfg.plain, Cfg.switch] at this

theorem field_fewer {l : Bytes} {x : Field} (hf : FewerHeaders (c.switch f).feat c.feat) (hu : Usual c f l)
    (hx : field c l = .ok ([], x)) (hl : IsHeaderText l) : ∃ y, field (c.switch f) l = .ok ([], y) := by
  by_cases h : ∃ e ∈ headerTable (c.switch f), (e.1 ++ b! ":") <+: l.map asciiLower
  · obtain ⟨⟨n, p⟩, hm, hn⟩ := h
    obtain ⟨q, hq, hpq⟩ := headerTable_pair (c := c.switch f) (f := c.feat) _ hm
      (hf.recognized (headerTable_recognized _ hm))
    rw [switch_switch] at hq
    rw [field_named hq hn] at hx
    rw [field_named hm hn]
    have := matchParsers_like (hpq l hu.switch) (matchParsers_like (ps := []) (qs := [])
      (unknownField_like l hu.switch) .err)
    rw [switch_switch, hx] at this
    generalize matchParsers l [p, unknownField (c.switch f)] = z at this
    cases this
    exact ⟨x, rfl⟩
  · obtain ⟨y, hy⟩ := unknownField_text (c := c.switch f) hl
    refine ⟨y, ?_⟩
    rw [field_unnamed fun e he he' => h ⟨e, he, he'⟩, matchParsers_single hy]

theorem TraceLine.fewer {l : Bytes} (h : TraceLine l) (hl : IsHeaderText l) : ∃ y, field c l = .ok ([], y) := by
  obtain ⟨y, hy⟩ := unknownField_text (c := c) hl
  refine ⟨y, ?_⟩
  rw [field_unnamed fun e he he' => h.unrecognized e he he', matchParsers_single hy]

theorem LinesOf.exists {ls : List Bytes} (h : ∀ l ∈ ls, ∃ y, field c l = .ok ([], y)) : ∃ us, LinesOf c ls us := by
  induction ls with
  | nil => exact ⟨[], .nil⟩
  | cons l ls ih =>
    obtain ⟨y, hy⟩ := h l (by simp)
    obtain ⟨us, hu⟩ := ih fun l hl => h l (by simp [hl])
    exact ⟨y :: us, .cons hy hu⟩

theorem LinesOf.field {ls : List Bytes} {us : List Field} (h : LinesOf c ls us) : ∀ l ∈ ls, ∃ y, field c l = .ok ([], y) := by
  induction h with
  | nil => exact fun _ h => by cases h
  | cons h _ ih =>
    intro l hl
    rcases List.mem_cons.1 hl with rfl | hl
    · exact ⟨_, h⟩
    · exact ih l hl

theorem fields_fewer {ls : List Bytes} {t' : Bytes} {fs : List Field} (hf : FewerHeaders (c.switch f).feat c.feat)
    (hls : ∀ l ∈ ls, IsHeaderText l) (ht : Ended t) (ht' : Ended t') (h : fields c (ls.flatten ++ t) = .ok (t', fs)) :
    t' = t ∧ ∃ fs', fields (c.switch f) (ls.flatten ++ t) = .ok (t, fs') := by
  have hu : ∀ i, Usual c f i := fun i => .inl ⟨hf.mime, hf.unrecognizedHeaders⟩
  obtain ⟨pre, post, ts, us, e, hpre, hoff, htr, hl, rfl⟩ := fields_hlines h ht'
  have key : ls = pre ++ post ∧ t = t' := by
    refine HLine.split (fun l h => (hls l h).hline c) ?_ ?_ ht ht'
    · exact fun l h => (List.mem_append.1 h).elim (fun h => (hpre l h).1) (hl.hline l)
    · rw [List.flatten_append, List.append_assoc, ← e]
  obtain ⟨rfl, rfl⟩ := key
  refine ⟨rfl, ?_⟩
  obtain ⟨us', hl'⟩ := LinesOf.exists (c := c.switch f) (ls := post) fun l h => by
    obtain ⟨x, hx⟩ := hl.field l h
    exact field_fewer hf (hu l) hx (hls l (by simp [h]))
  by_cases htrace : (c.switch f).feat.trace = c.feat.trace
  · have hc := traces_like (f := f) htrace _ (hu ((pre ++ post).flatten ++ t))
    rw [htr] at hc
    generalize hz : traces (c.switch f) ((pre ++ post).flatten ++ t) = z at hc
    cases hc
    refine ⟨ts ++ us', ?_⟩
    rw [fields, hz, ok_bind]
    dsimp only
    rw [hl'.many ht.stops (field_ended ht)]
    rfl
  · have hoff' : (c.switch f).feat.trace = false := by
      cases h1 : (c.switch f).feat.trace with
      | false => rfl
      | true => exact absurd (h1.trans (hf.trace h1).symm) htrace
    obtain ⟨us₁, hl₁⟩ := LinesOf.exists (c := c.switch f) (ls := pre ++ post) fun l h => by
      rcases List.mem_append.1 h with h | h
      · exact (hpre l h).fewer (hls l (by simp [h]))
      · exact hl'.field l h
    refine ⟨us₁, ?_⟩
    rw [fields, traces, hoff']
    simp only [Bool.false_eq_true, if_false, ok_bind]
    rw [hl₁.many ht.stops (field_ended ht)]
    rfl

/-- Once-only fields. -/
theorem Matched.once {xs ys : List Field} (h : Matched f f' xs ys) (hr : ∀ n, Recognized f' n → Recognized f n) :
    (ys.filterMap onceName).Sublist (xs.filterMap onceName) := by
  have ht : ∀ x, InTrace x → onceName x = none := fun x hx => by cases x <;> first | rfl | exact hx.elim
  induction h with
  | nil => exact .slnil
  | cons h _ ih =>
    cases h with
    | same x =>
      rw [List.filterMap_cons, List.filterMap_cons]
      split
      · exact ih
      · exact ih.cons_cons _
    | left h1 =>
      rw [List.filterMap_cons, List.filterMap_cons]
      show (List.filterMap onceName _).Sublist _
      split
      · exact ih
      · exact ih.cons _
    | right h1 h2 h3 => exact absurd (hr _ h3) h2
  | left h h' _ ih => rw [List.filterMap_cons, ht _ h']; exact ih
  | right h h' _ ih => rw [List.filterMap_cons, ht _ h']; exact ih

theorem parse_fewer {ls : List Bytes} {e : Email} (hc : c.feat.compiles) (hd : (c.switch f).feat.compiles)
    (hf : FewerHeaders (c.switch f).feat c.feat) (hls : ∀ l ∈ ls, IsHeaderText l) (ht : Ended t)
    (h : Email.parse c (ls.flatten ++ t) = .ok e) : ∃ e', Email.parse (c.switch f) (ls.flatten ++ t) = .ok e' := by
  obtain ⟨w, t', fs, b, ew, ht', h1, h2, hw, h3, h4, h5⟩ := parse_parts hc h
  obtain ⟨rfl, fs', h6⟩ := fields_fewer hf hls ht ht' h1
  have ew := List.append_cancel_right ew
  subst ew
  obtain ⟨-, hm⟩ := fields_matched h1 h6 ht ht (.inl ⟨hf.mime, hf.unrecognizedHeaders⟩)
  have hp : parseMessage (c.switch f) (ls.flatten ++ t') = .ok (fs', b) :=
    parseMessage_content.2 ⟨t', h6, by rw [hf.mime]; exact h2⟩
  rw [email_parse_eq, hp]
  show ∃ e', emailFrom (c.switch f) fs' b = .ok e'
  have hr := (emailFrom_iff hd fs' b _).1 rfl
  generalize emailFrom (c.switch f) fs' b = r at hr
  have hfrom : (c.switch f).feat.from = true → fs'.filterMap fromOf = fs.filterMap fromOf := fun h =>
    hm.values (n := b! "from") ⟨recognized_from.2 (hf.from h), recognized_from.2 h⟩ fun x hx => by
      cases x <;> first | rfl | exact absurd rfl hx
  have hdate : (c.switch f).feat.date = true → fs'.filterMap dateOf = fs.filterMap dateOf := fun h =>
    hm.values (n := b! "date") ⟨recognized_date.2 (hf.date h), recognized_date.2 h⟩ fun x hx => by
      cases x <;> first | rfl | exact absurd rfl hx
  have hsender : (c.switch f).feat.sender = true → fs'.filterMap senderOf = fs.filterMap senderOf := fun h =>
    hm.values (n := b! "sender") ⟨recognized_sender.2 (hf.sender h), recognized_sender.2 h⟩ fun x hx => by
      cases x <;> first | rfl | exact absurd rfl hx
  cases hr with
  | email h7 h8 h9 => exact ⟨_, rfl⟩
  | duplicate hdup => exact (hdup.not (List.Nodup.sublist (hm.once fun n => hf.recognized) h3)).elim
  | @missing n h7 h8 =>
    refine absurd (h4 n) (not_not_intro ?_)
    rcases h8 with ⟨rfl, h9, h10⟩ | ⟨rfl, h9, h10⟩ | ⟨rfl, h9, h10, h11⟩
    · refine .inl ⟨rfl, hf.from h9, fun x hx => ?_⟩
      exact List.filterMap_eq_nil_iff.1 ((hfrom h9).symm.trans (List.filterMap_eq_nil_iff.2 h10)) x hx
    · refine .inr (.inl ⟨rfl, hf.date h9, fun x hx => ?_⟩)
      exact List.filterMap_eq_nil_iff.1 ((hdate h9).symm.trans (List.filterMap_eq_nil_iff.2 h10)) x hx
    · refine .inr (.inr ⟨rfl, hf.sender h9, fun x hx => ?_, fun x hx as ha => ?_⟩)
      · exact List.filterMap_eq_nil_iff.1 ((hsender h9).symm.trans (List.filterMap_eq_nil_iff.2 h10)) x hx
      · have : as ∈ fs.filterMap fromOf := List.mem_filterMap.2 ⟨x, hx, ha⟩
        rw [← hfrom (hd.1 h9)] at this
        obtain ⟨y, hy, hy'⟩ := List.mem_filterMap.1 this
        exact h11 y hy as hy'
  | @undecodable b' er h7 h8 hmime hb hdec =>
    have h' : c.feat.mime = true := hf.mime ▸ hmime
    obtain ⟨raw, -, -, -, -, -, -, -, hv⟩ := h5.entity h'
    have e5 : fs'.findSome? encodingOf = fs.findSome? encodingOf :=
      hm.value (n := b! "content-transfer-encoding")
        ⟨recognized_content_transfer_encoding.2 h', recognized_content_transfer_encoding.2 hmime⟩ fun x hx => by
          cases x <;> first | rfl | exact absurd rfl hx
    rw [e5, hv b' hb] at hdec
    cases hdec

end EmailParser
