import Verif.Props.Separate
import Verif.Props.Join
import Verif.Spec.Edit
/-
C97: a header of a message can be edited.
-/
namespace EmailParser
open Spec

variable (c : Cfg)

/-- The value of a header that may be given only once. -/
theorem findSome_once {α : Type} {g : Field → Option α} {n : String} (hg : ∀ f v, g f = some v → onceName f = some n)
    {xs ys : List Field} {f : Field} {v : α} (h : NoDuplicate (xs ++ f :: ys)) (hf : g f = some v) :
    (xs ++ f :: ys).findSome? g = some v := by
  have hn : xs.findSome? g = none := by
    rw [List.findSome?_eq_none_iff]
    intro x hx
    cases hv : g x with
    | none => rfl
    | some u =>
      unfold NoDuplicate at h
      rw [List.filterMap_append, List.filterMap_cons, hg f v hf, List.nodup_append] at h
      exact absurd rfl (h.2.2 n (List.mem_filterMap.2 ⟨x, hx, hg x u hv⟩) n (by simp))
  simp [List.findSome?_append, hn, hf]

theorem recognized_feature {n : Bytes} (h : Recognized c.feat n) :
    (n = b! "from" → c.feat.from = true) ∧ (n = b! "date" → c.feat.date = true) ∧ (n = b! "sender" → c.feat.sender = true) ∧
    (n ∈ [b! "content-type", b! "content-id", b! "content-description", b! "content-disposition"] → c.feat.mime = true) := by
  simp only [Recognized, List.mem_cons, List.not_mem_nil, or_false] at h
  rcases h with ⟨h, rfl⟩ | ⟨h, rfl⟩ | ⟨h, rfl⟩ | ⟨h, rfl⟩ | ⟨h, rfl⟩ | ⟨h, rfl⟩ | ⟨h, rfl⟩ | ⟨h, rfl⟩ | ⟨h, rfl⟩ |
    ⟨h, rfl⟩ | ⟨h, rfl⟩ | ⟨h, rfl⟩ | ⟨h, rfl⟩ | ⟨h, rfl | rfl | rfl | rfl | rfl | rfl⟩ <;>
  refine ⟨fun e => ?_, fun e => ?_, fun e => ?_, fun e => ?_⟩ <;>
  first
  | exact h
  | exact absurd e (by decide +kernel)

theorem headerOf_disjoint {f f' : Field} {a b : Bytes} (h : headerOf f = headerOf f') (ha : headerOf f = some a)
    (hb : headerOf f' = some b) : a = b := Option.some.inj ((ha.symm.trans h).trans hb)

/-- Fields of the same header are of the same kind. -/
theorem same_once {f f' : Field} {n : Bytes} (h : headerOf f = some n) (h' : headerOf f' = some n) : onceName f = onceName f' := by
  have e : headerOf f = headerOf f' := h.trans h'.symm
  have hn : headerOf f ≠ none := by rw [h]; nofun
  cases f with
  | trace => exact absurd rfl hn
  | unknown => exact absurd rfl hn
  | _ =>
    cases f' with
    | trace => cases e
    | unknown => cases e
    | _ => first | rfl | exact absurd (headerOf_disjoint e rfl rfl) (by decide +kernel)

/-- Only fields of one header have a value of that kind. -/
theorem same_none {α : Type} {g : Field → Option α} {k : Bytes} (hg : ∀ f, (∃ v, g f = some v) ↔ headerOf f = some k)
    {f f' : Field} {n : Bytes} (h : headerOf f = some n) (h' : headerOf f' = some n) (hf : g f' = none) : g f = none := by
  cases hv : g f with
  | none => rfl
  | some v =>
    have := (hg f).1 ⟨v, hv⟩
    obtain ⟨v', hv'⟩ := (hg f').2 (h'.trans (h.symm.trans this))
    rw [hf] at hv'
    cases hv'

theorem value_iff {α : Type} {g : Field → Option α} {k : Bytes} (h1 : ∀ f v, g f = some v → headerOf f = some k)
    (h2 : ∀ f, headerOf f = some k → ∃ v, g f = some v) (f : Field) : (∃ v, g f = some v) ↔ headerOf f = some k :=
  ⟨fun ⟨v, h⟩ => h1 f v h, h2 f⟩

theorem from_iff (f : Field) : (∃ v, fromOf f = some v) ↔ headerOf f = some (b! "from") := by
  refine value_iff (by rintro (_ | _) v h <;> cases h <;> rfl) (fun f h => ?_) f
  cases f with
  | «from» v => exact ⟨v, rfl⟩
  | trace => cases h
  | unknown => cases h
  | _ => exact absurd (Option.some.inj h) (by decide +kernel)

theorem date_iff (f : Field) : (∃ v, dateOf f = some v) ↔ headerOf f = some (b! "date") := by
  refine value_iff (by rintro (_ | _) v h <;> cases h <;> rfl) (fun f h => ?_) f
  cases f with
  | date v => exact ⟨v, rfl⟩
  | trace => cases h
  | unknown => cases h
  | _ => exact absurd (Option.some.inj h) (by decide +kernel)

theorem sender_iff (f : Field) : (∃ v, senderOf f = some v) ↔ headerOf f = some (b! "sender") := by
  refine value_iff (by rintro (_ | _) v h <;> cases h <;> rfl) (fun f h => ?_) f
  cases f with
  | sender v => exact ⟨v, rfl⟩
  | trace => cases h
  | unknown => cases h
  | _ => exact absurd (Option.some.inj h) (by decide +kernel)

theorem encoding_iff (f : Field) : (∃ v, encodingOf f = some v) ↔ headerOf f = some (b! "content-transfer-encoding") := by
  refine value_iff (by rintro (_ | _) v h <;> cases h <;> rfl) (fun f h => ?_) f
  cases f with
  | contentTransferEncoding v => exact ⟨v, rfl⟩
  | trace => cases h
  | unknown => cases h
  | _ => exact absurd (Option.some.inj h) (by decide +kernel)

theorem fromOf_some {f : Field} {v : List Mailbox} (h : fromOf f = some v) : f = .from v := by
  cases f <;> cases h
  rfl

/-- The edit of one field in the list of all fields. -/
theorem fields_edited {fs us : List Field} {b : Option Bytes} {f f' : Field} {n : Bytes} (ho : headerOf f = some n)
    (ho' : headerOf f' = some n) (hne : n ≠ b! "content-transfer-encoding")
    (hk : KeepsSender c f f' ∨ ∃ s, Field.sender s ∈ fs ++ f :: us) {e : Email}
    (h1 : NoDuplicate (fs ++ f :: us)) (h2 : ∀ m, ¬ Missing c (fs ++ f :: us) m) (h3 : IsEmail c (fs ++ f :: us) b e) {o : Outcome Email}
    (h : EmailResult c (fs ++ f' :: us) b o) : ∃ e', o = .ok e' ∧ NoDuplicate (fs ++ f' :: us) ∧ IsEmail c (fs ++ f' :: us) b e' := by
  have hd : NoDuplicate (fs ++ f' :: us) := by
    unfold NoDuplicate at h1 ⊢
    rw [List.filterMap_append, List.filterMap_cons] at h1 ⊢
    rwa [same_once ho ho'] at h1
  have hall : ∀ {p : Field → Prop}, (p f' → p f) → (∀ g ∈ fs ++ f' :: us, p g) → ∀ g ∈ fs ++ f :: us, p g := by
    intro p hp h g hg
    simp only [List.mem_append, List.mem_cons] at hg
    rcases hg with hg | rfl | hg
    · exact h g (by simp [hg])
    · exact hp (h f' (by simp))
    · exact h g (by simp [hg])
  cases h with
  | duplicate hx => exact absurd hd (firstDuplicate_not hx)
  | @missing m _ hx _ =>
    refine absurd ?_ (h2 m)
    rcases hx with ⟨g1, g2, g3⟩ | ⟨g1, g2, g3⟩ | ⟨g1, g2, g3, g4⟩
    · exact .inl ⟨g1, g2, hall (same_none from_iff ho ho') g3⟩
    · exact .inr (.inl ⟨g1, g2, hall (same_none date_iff ho ho') g3⟩)
    · refine .inr (.inr ⟨g1, g2, hall (same_none sender_iff ho ho') g3, hall (fun hp v hv => ?_) g4⟩)
      have hfr := (from_iff f).1 ⟨v, hv⟩
      obtain ⟨v', hv'⟩ := (from_iff f').2 (ho'.trans (ho.symm.trans hfr))
      rcases hk with hk | ⟨s, hs⟩
      case inr =>
        simp only [List.mem_append, List.mem_cons] at hs
        rcases hs with hs | rfl | hs
        · cases g3 (.sender s) (by simp [hs])
        · cases hv
        · cases g3 (.sender s) (by simp [hs])
      rcases hk v v' (fromOf_some hv) (fromOf_some hv') with hx | hx | hx
      · rw [hx] at g2; cases g2
      · exact absurd hx (hp v' hv')
      · exact hx
  | undecodable _ _ hm hb hx =>
    exfalso
    obtain ⟨r, -, -, -, -, -, -, -, h12⟩ := h3.entity hm
    have h12 := h12 _ hb
    have hno : ∀ {g}, headerOf g = some n → encodingOf g = none := by
      intro g hg
      cases hv : encodingOf g with
      | none => rfl
      | some v => exact absurd (Option.some.inj (hg.symm.trans ((encoding_iff g).1 ⟨v, hv⟩))) hne
    have : (fs ++ f :: us).findSome? encodingOf = (fs ++ f' :: us).findSome? encodingOf := by
      simp [List.findSome?_append, hno ho, hno ho']
    rw [this, hx] at h12
    cases h12
  | email _ _ h => exact ⟨_, rfl, hd, h⟩

/-- The values before and after the edit. -/
theorem values_edited {fs us : List Field} {b : Option Bytes} {f f' : Field} {n : Bytes} (hr : Recognized c.feat n)
    (ho : headerOf f = some n) (ho' : headerOf f' = some n) (hne : n ≠ b! "content-transfer-encoding") {e e' : Email}
    (h1 : NoDuplicate (fs ++ f :: us)) (h1' : NoDuplicate (fs ++ f' :: us)) (h3 : IsEmail c (fs ++ f :: us) b e)
    (h3' : IsEmail c (fs ++ f' :: us) b e') : Edited e e' f f' := by
  obtain ⟨r1, r2, r3, r4⟩ := recognized_feature c hr
  have heq : headerOf f = headerOf f' := ho.trans ho'.symm
  have wrong : ∀ {a b : Bytes}, headerOf f = some a → headerOf f' = some b → a ≠ b → Edited e e' f f' :=
    fun ha hb hab => absurd (headerOf_disjoint heq ha hb) hab
  have once : ∀ {α : Type} (g : Field → Option α) (k : String) {v v' : α}, (∀ f v, g f = some v → onceName f = some k) →
      g f = some v → g f' = some v' → (fs ++ f :: us).findSome? g = some v ∧ (fs ++ f' :: us).findSome? g = some v' :=
    fun g k _ _ hg ha hb => ⟨findSome_once hg h1 ha, findSome_once hg h1' hb⟩
  cases f with
  | trace => cases ho
  | unknown => cases ho
  | replyTo v =>
    cases f' with
    | replyTo v' =>
      have h := once replyToOf "Reply-To" (by rintro (_ | _) v h <;> cases h <;> rfl) rfl rfl
      exact ⟨h3.replyTo.trans h.1, h3'.replyTo.trans h.2⟩
    | trace => cases ho'
    | unknown => cases ho'
    | _ => exact wrong rfl rfl (by decide +kernel)
  | to v =>
    cases f' with
    | to v' =>
      have h := once toOf "To" (by rintro (_ | _) v h <;> cases h <;> rfl) rfl rfl
      exact ⟨h3.to.trans h.1, h3'.to.trans h.2⟩
    | trace => cases ho'
    | unknown => cases ho'
    | _ => exact wrong rfl rfl (by decide +kernel)
  | cc v =>
    cases f' with
    | cc v' =>
      have h := once ccOf "Cc" (by rintro (_ | _) v h <;> cases h <;> rfl) rfl rfl
      exact ⟨h3.cc.trans h.1, h3'.cc.trans h.2⟩
    | trace => cases ho'
    | unknown => cases ho'
    | _ => exact wrong rfl rfl (by decide +kernel)
  | bcc v =>
    cases f' with
    | bcc v' =>
      have h := once bccOf "Bcc" (by rintro (_ | _) v h <;> cases h <;> rfl) rfl rfl
      exact ⟨h3.bcc.trans h.1, h3'.bcc.trans h.2⟩
    | trace => cases ho'
    | unknown => cases ho'
    | _ => exact wrong rfl rfl (by decide +kernel)
  | messageId v =>
    cases f' with
    | messageId v' =>
      have h := once messageIdOf "Message-ID" (by rintro (_ | _) v h <;> cases h <;> rfl) rfl rfl
      exact ⟨h3.messageId.trans h.1, h3'.messageId.trans h.2⟩
    | trace => cases ho'
    | unknown => cases ho'
    | _ => exact wrong rfl rfl (by decide +kernel)
  | inReplyTo v =>
    cases f' with
    | inReplyTo v' =>
      have h := once inReplyToOf "In-Reply-To" (by rintro (_ | _) v h <;> cases h <;> rfl) rfl rfl
      exact ⟨h3.inReplyTo.trans h.1, h3'.inReplyTo.trans h.2⟩
    | trace => cases ho'
    | unknown => cases ho'
    | _ => exact wrong rfl rfl (by decide +kernel)
  | references v =>
    cases f' with
    | references v' =>
      have h := once referencesOf "References" (by rintro (_ | _) v h <;> cases h <;> rfl) rfl rfl
      exact ⟨h3.references.trans h.1, h3'.references.trans h.2⟩
    | trace => cases ho'
    | unknown => cases ho'
    | _ => exact wrong rfl rfl (by decide +kernel)
  | subject v =>
    cases f' with
    | subject v' =>
      have h := once subjectOf "Subject" (by rintro (_ | _) v h <;> cases h <;> rfl) rfl rfl
      exact ⟨h3.subject.trans h.1, h3'.subject.trans h.2⟩
    | trace => cases ho'
    | unknown => cases ho'
    | _ => exact wrong rfl rfl (by decide +kernel)
  | date v =>
    cases f' with
    | date v' =>
      have h := once dateOf "Date" (by rintro (_ | _) v h <;> cases h <;> rfl) rfl rfl
      have hc := r2 (Option.some.inj ho).symm
      exact ⟨by rw [h3.date, hc, h.1]; rfl, by rw [h3'.date, hc, h.2]; rfl⟩
    | trace => cases ho'
    | unknown => cases ho'
    | _ => exact wrong rfl rfl (by decide +kernel)
  | «from» v =>
    cases f' with
    | «from» v' =>
      have h := once fromOf "From" (by rintro (_ | _) v h <;> cases h <;> rfl) rfl rfl
      have hc := r1 (Option.some.inj ho).symm
      exact ⟨by rw [h3.from, hc, h.1]; rfl, by rw [h3'.from, hc, h.2]; rfl⟩
    | trace => cases ho'
    | unknown => cases ho'
    | _ => exact wrong rfl rfl (by decide +kernel)
  | sender v =>
    cases f' with
    | sender v' =>
      have h := once senderOf "Sender" (by rintro (_ | _) v h <;> cases h <;> rfl) rfl rfl
      have hc := r3 (Option.some.inj ho).symm
      exact ⟨by rw [h3.sender, hc, h.1]; rfl, by rw [h3'.sender, hc, h.2]; rfl⟩
    | trace => cases ho'
    | unknown => cases ho'
    | _ => exact wrong rfl rfl (by decide +kernel)
  | comments v =>
    cases f' with
    | comments v' =>
      exact ⟨fs.filterMap commentsOf, us.filterMap commentsOf, by rw [h3.comments, List.filterMap_append]; rfl,
        by rw [h3'.comments, List.filterMap_append]; rfl⟩
    | trace => cases ho'
    | unknown => cases ho'
    | _ => exact wrong rfl rfl (by decide +kernel)
  | keywords v =>
    cases f' with
    | keywords v' =>
      exact ⟨fs.flatMap keywordsOf, us.flatMap keywordsOf, by rw [h3.keywords, List.flatMap_append, List.append_assoc]; rfl,
        by rw [h3'.keywords, List.flatMap_append, List.append_assoc]; rfl⟩
    | trace => cases ho'
    | unknown => cases ho'
    | _ => exact wrong rfl rfl (by decide +kernel)
  | contentId v =>
    cases f' with
    | contentId v' =>
      have h := once contentIdOf "Content-Id" (by rintro (_ | _) v h <;> cases h <;> rfl) rfl rfl
      have hm := r4 (by rw [← Option.some.inj ho]; decide +kernel)
      obtain ⟨r, e1, -, -, e4, -, -, -, -⟩ := h3.entity hm
      obtain ⟨r', e1', -, -, e4', -, -, -, -⟩ := h3'.entity hm
      exact ⟨by rw [e1, Option.map_some, e4, h.1], by rw [e1', Option.map_some, e4', h.2]⟩
    | trace => cases ho'
    | unknown => cases ho'
    | _ => exact wrong rfl rfl (by decide +kernel)
  | contentDescription v =>
    cases f' with
    | contentDescription v' =>
      have h := once contentDescriptionOf "Content-Description" (by rintro (_ | _) v h <;> cases h <;> rfl) rfl rfl
      have hm := r4 (by rw [← Option.some.inj ho]; decide +kernel)
      obtain ⟨r, e1, -, e3, -, -, -, -, -⟩ := h3.entity hm
      obtain ⟨r', e1', -, e3', -, -, -, -, -⟩ := h3'.entity hm
      exact ⟨by rw [e1, Option.map_some, e3, h.1], by rw [e1', Option.map_some, e3', h.2]⟩
    | trace => cases ho'
    | unknown => cases ho'
    | _ => exact wrong rfl rfl (by decide +kernel)
  | contentDisposition v =>
    cases f' with
    | contentDisposition v' =>
      have h := once contentDispositionOf "Content-Disposition" (by rintro (_ | _) v h <;> cases h <;> rfl) rfl rfl
      have hm := r4 (by rw [← Option.some.inj ho]; decide +kernel)
      obtain ⟨r, e1, -, -, -, e5, -, -, -⟩ := h3.entity hm
      obtain ⟨r', e1', -, -, -, e5', -, -, -⟩ := h3'.entity hm
      exact ⟨by rw [e1, Option.map_some, e5, h.1], by rw [e1', Option.map_some, e5', h.2]⟩
    | trace => cases ho'
    | unknown => cases ho'
    | _ => exact wrong rfl rfl (by decide +kernel)
  | contentType t s q =>
    cases f' with
    | contentType t' s' q' =>
      have h := once contentTypeOf "Content-Type" (by rintro (_ | _) v h <;> cases h <;> rfl) rfl rfl
      have hm := r4 (by rw [← Option.some.inj ho]; decide +kernel)
      obtain ⟨r, e1, e2, -⟩ := h3.entity hm
      obtain ⟨r', e1', e2', -⟩ := h3'.entity hm
      exact ⟨by rw [e1, Option.map_some, e2, h.1]; rfl, by rw [e1', Option.map_some, e2', h.2]; rfl⟩
    | trace => cases ho'
    | unknown => cases ho'
    | _ => exact wrong rfl rfl (by decide +kernel)
  | mimeVersion a d =>
    cases f' with
    | mimeVersion a' d' =>
      trivial
    | trace => cases ho'
    | unknown => cases ho'
    | _ => exact wrong rfl rfl (by decide +kernel)
  | contentTransferEncoding v => exact absurd (Option.some.inj ho).symm hne

theorem notTrace_recognized {n : Bytes} (h : Recognized c.feat n) : NotTrace n := by
  simp only [Recognized, List.mem_cons, List.not_mem_nil, or_false] at h
  rcases h with ⟨-, rfl⟩ | ⟨-, rfl⟩ | ⟨-, rfl⟩ | ⟨-, rfl⟩ | ⟨-, rfl⟩ | ⟨-, rfl⟩ | ⟨-, rfl⟩ | ⟨-, rfl⟩ | ⟨-, rfl⟩ |
    ⟨-, rfl⟩ | ⟨-, rfl⟩ | ⟨-, rfl⟩ | ⟨-, rfl⟩ | ⟨-, rfl | rfl | rfl | rfl | rfl | rfl⟩ <;>
  exact ⟨by decide +kernel, by decide +kernel, by decide +kernel⟩

/-- The field of a line that is not a trace line is among the fields. -/
theorem line_among {ls : List Bytes} {q t t' name x w : Bytes} {fs : List Field} {f : Field}
    (hls : ∀ l ∈ ls, ∃ name x w, HeaderText name x w l) (ht : Ended t) (ht' : Ended t')
    (hq : q ∈ ls) (hl : HeaderText name x w q) (hn : NotTrace (name.map asciiLower)) (hf : field c q = .ok ([], f))
    (h : fields c (ls.flatten ++ t) = .ok (t', fs)) : f ∈ fs := by
  obtain ⟨p, s, rfl⟩ := List.append_of_mem hq
  have hqu : Quiet c ((q :: s).flatten ++ t) := by
    rw [List.flatten_cons, List.append_assoc]
    exact notTrace_quiet c hl hn
  rw [List.flatten_append, List.append_assoc] at h
  obtain ⟨-, fs₁, us, rfl, h6, -⟩ := fields_replaced c hls ht ht' hqu hqu h
  cases h6 with
  | cons h8 _ =>
    rw [hf] at h8
    cases h8
    simp

/-! ### C97 -/

/-- One header line of an accepted message is replaced by another one of the same header: the new message is accepted too, its e-mail
has the new value where the old one has the old value, and agrees with it in everything else.  Several authors need a sender. -/
theorem C97_edited (hc : c.feat.compiles) (ls₁ ls₂ : List Bytes) (t : Bytes)
    (hls : ∀ l ∈ ls₁ ++ ls₂, ∃ name x w, HeaderText name x w l) (ht : t = [] ∨ CRLF <+: t) (name x w l name' x' w' l' : Bytes)
    (hl : HeaderText name x w l) (hl' : HeaderText name' x' w' l') (f f' : Field)
    (ho : headerOf f = some (name.map asciiLower)) (ho' : headerOf f' = some (name'.map asciiLower))
    (hf : field c l = .ok ([], f)) (hf' : field c l' = .ok ([], f')) (hs : name.map asciiLower = name'.map asciiLower)
    (hne : name.map asciiLower ≠ b! "content-transfer-encoding")
    (hk : KeepsSender c f f' ∨ ∃ q ∈ ls₁ ++ ls₂, ∃ s, field c q = .ok ([], .sender s)) (e : Email)
    (h : Email.parse c ((ls₁ ++ l :: ls₂).flatten ++ t) = .ok e) :
    ∃ e', Email.parse c ((ls₁ ++ l' :: ls₂).flatten ++ t) = .ok e' ∧ Edited e e' f f' ∧ AgreeBut [name.map asciiLower] e e' ∧
      e'.unknownFields = e.unknownFields := by
  have ht : Ended t := by
    rcases ht with rfl | ⟨u, rfl⟩
    · exact .nil
    · exact .crlf u
  have hr : Recognized c.feat (name.map asciiLower) := by
    rcases C11_kind c name x w l [] [] f hl stops_nil (by rw [List.append_nil]; exact hf) with h | ⟨-, v, rfl⟩
    · exact h.1
    · cases ho
  have hn := notTrace_recognized c hr
  have hls' : ∀ q ∈ ls₁ ++ l :: ls₂, ∃ name x w, HeaderText name x w q := by
    intro q hq
    simp only [List.mem_append, List.mem_cons] at hq
    rcases hq with hq | rfl | hq
    · exact hls q (by simp [hq])
    · exact ⟨name, x, w, hl⟩
    · exact hls q (by simp [hq])
  have hq : Quiet c ((l :: ls₂).flatten ++ t) := by
    rw [List.flatten_cons, List.append_assoc]
    exact notTrace_quiet c hl hn
  have hq' : Quiet c ((l' :: ls₂).flatten ++ t) := by
    rw [List.flatten_cons, List.append_assoc]
    exact notTrace_quiet c hl' (hs ▸ hn)
  obtain ⟨fs, b, hp, -, h1, h2, h3⟩ := parse_ok c hc h
  obtain ⟨t', h4, h5⟩ := parseMessage_content.1 hp
  have hk : KeepsSender c f f' ∨ ∃ s, Field.sender s ∈ fs := by
    refine hk.imp id fun ⟨q, hq, s, hs⟩ => ⟨s, ?_⟩
    obtain ⟨n, y, u, hy⟩ := hls q hq
    have hm : q ∈ ls₁ ++ l :: ls₂ := by
      simp only [List.mem_append, List.mem_cons] at hq ⊢
      exact hq.imp id .inr
    rcases C11_kind c n y u q [] [] _ hy stops_nil (by rw [List.append_nil]; exact hs) with h | ⟨-, v, h⟩
    · exact line_among c hls' ht (contentOf_ended h5) hm hy (notTrace_recognized c h.1) hs h4
    · cases h
  rw [List.flatten_append, List.append_assoc] at h4
  obtain ⟨rfl, fs₁, us, rfl, h6, h7⟩ := fields_replaced c hls' ht (contentOf_ended h5) hq hq' h4
  cases h6 with
  | @cons _ f₀ _ us h8 h9 =>
    rw [hf] at h8
    cases h8
    have h10 := h7 _ (.cons hf' h9)
    rw [← hs] at ho'
    have hres : EmailResult c (fs₁ ++ f' :: us) b (Email.parse c ((ls₁ ++ l' :: ls₂).flatten ++ t')) := by
      rw [List.flatten_append, List.append_assoc, email_parse_eq, parseMessage_content.2 ⟨t', h10, h5⟩]
      exact (emailFrom_iff hc _ _ _).1 rfl
    obtain ⟨e', h11, h1', h3'⟩ := fields_edited c ho ho' hne hk h1 h2 h3 hres
    refine ⟨e', h11, values_edited c hr ho ho' hne h1 h1' h3 h3', agree_fields c ?_ h3 h3', ?_⟩
    · rw [List.filter_append, List.filter_append, List.filter_cons_of_neg, List.filter_cons_of_neg]
      · rw [off_named ho']; simp
      · rw [off_named ho]; simp
    · have hu : ∀ {g : Field}, headerOf g = some (name.map asciiLower) → unknownOf g = none := by
        intro g hg
        cases g with
        | unknown => cases hg
        | _ => rfl
      rw [h3.unknownFields, h3'.unknownFields]
      simp [List.filterMap_append, hu ho, hu ho']

/-- Recipients and the like can be added to a message: the text of another line of the same header after a comma. -/
theorem C97_added (hc : c.feat.compiles) (ls₁ ls₂ : List Bytes) (t : Bytes)
    (hls : ∀ l ∈ ls₁ ++ ls₂, ∃ name x w, HeaderText name x w l) (ht : t = [] ∨ CRLF <+: t) (name x w l name' x' w' l' y l₂ : Bytes)
    (hl : HeaderText name x w l) (hl' : HeaderText name' x' w' l') (hl₂ : HeaderText name y (w ++ b! "," ++ w') l₂)
    (hp : Plain c name w) (hp' : Plain c name' w') (f f' g : Field)
    (ho : headerOf f = some (name.map asciiLower)) (ho' : headerOf f' = some (name'.map asciiLower))
    (hf : field c l = .ok ([], f)) (hf' : field c l' = .ok ([], f')) (hg : together f f' = some g)
    (hk : KeepsSender c f g ∨ ∃ q ∈ ls₁ ++ ls₂, ∃ s, field c q = .ok ([], .sender s))
    (e : Email) (h : Email.parse c ((ls₁ ++ l :: ls₂).flatten ++ t) = .ok e) :
    ∃ e', Email.parse c ((ls₁ ++ l₂ :: ls₂).flatten ++ t) = .ok e' ∧ Edited e e' f g ∧ AgreeBut [name.map asciiLower] e e' ∧
      e'.unknownFields = e.unknownFields := by
  have hj := C96_join c name x w l name' x' w' l' [] f f' g hl hl' hp hp' stops_nil ho ho' (by rwa [List.append_nil])
    (by rwa [List.append_nil]) hg
  rw [List.append_nil, ← hl₂.text] at hj
  have hog : headerOf g = headerOf f := by
    unfold together at hg
    split at hg <;> cases hg <;> rfl
  have hne : name.map asciiLower ≠ b! "content-transfer-encoding" := by
    intro hx
    rw [hx] at ho
    unfold together at hg
    split at hg <;> cases hg <;> exact absurd (Option.some.inj ho) (by decide +kernel)
  exact C97_edited c hc ls₁ ls₂ t hls ht name x w l name y _ l₂ hl hl₂ f g ho (hog.trans ho) hf hj rfl hne hk e h

/-- References can be added to a message: the text of another line of the same header. -/
theorem C97_referenced (hc : c.feat.compiles) (ls₁ ls₂ : List Bytes) (t : Bytes)
    (hls : ∀ l ∈ ls₁ ++ ls₂, ∃ name x w, HeaderText name x w l) (ht : t = [] ∨ CRLF <+: t) (name x w l name' x' w' l' y l₂ : Bytes)
    (hl : HeaderText name x w l) (hl' : HeaderText name' x' w' l') (hl₂ : HeaderText name y (w ++ w') l₂)
    (hp : Plain c name (w ++ w')) (hp' : Plain c name' w') (f f' g : Field)
    (ho : headerOf f = some (name.map asciiLower)) (ho' : headerOf f' = some (name'.map asciiLower))
    (hf : field c l = .ok ([], f)) (hf' : field c l' = .ok ([], f')) (hg : identifiersTogether f f' = some g)
    (e : Email) (h : Email.parse c ((ls₁ ++ l :: ls₂).flatten ++ t) = .ok e) :
    ∃ e', Email.parse c ((ls₁ ++ l₂ :: ls₂).flatten ++ t) = .ok e' ∧ Edited e e' f g ∧ AgreeBut [name.map asciiLower] e e' ∧
      e'.unknownFields = e.unknownFields := by
  have hj := C96_identifiers c name x w l name' x' w' l' y l₂ [] f f' g hl hl' hl₂ hp hp' stops_nil ho ho'
    (by rwa [List.append_nil]) (by rwa [List.append_nil]) hg
  rw [List.append_nil] at hj
  have key : headerOf g = headerOf f ∧ headerOf f ≠ some (b! "content-transfer-encoding") ∧ KeepsSender c f g := by
    unfold identifiersTogether at hg
    split at hg <;> cases hg <;> exact ⟨rfl, fun h => absurd (Option.some.inj h) (by decide +kernel), fun _ _ h => nomatch h⟩
  exact C97_edited c hc ls₁ ls₂ t hls ht name x w l name y _ l₂ hl hl₂ f g ho (key.1.trans ho) hf hj rfl
    (fun hx => key.2.1 (by rw [ho, hx])) (.inl key.2.2) e h

theorem lastOf_late {α : Type} {g : EntityHeader → Option α} {xs ys : List EntityHeader} {f : EntityHeader} {v : α}
    (hf : g f = some v) (h : ∀ y ∈ ys, g y = none) : lastOf g (xs ++ f :: ys) = some v := by
  have : ys.filterMap g = [] := List.filterMap_eq_nil_iff.2 h
  simp [lastOf, List.filterMap_append, hf, this]

theorem alone_kinds {ls : List Bytes} {hs : List EntityHeader} (h : Alone (entityHeader c) ls hs)
    (hls : ∀ l ∈ ls, ∃ name x w, HeaderText name x w l) {n : Bytes}
    (hn : ∀ l ∈ ls, ∀ name x w, HeaderText name x w l → name.map asciiLower ≠ n) :
    ∀ f ∈ hs, headerOf (partField f) ≠ some n := by
  induction h with
  | nil => exact fun f hf => absurd hf List.not_mem_nil
  | @cons l v ls vs h1 h2 ih =>
    intro f hf he
    rcases List.mem_cons.1 hf with rfl | hf
    · obtain ⟨name, x, w, hl⟩ := hls l (by simp)
      rcases entityHeader_kind c hl h1 with ⟨a, b, rfl⟩ | hk
      · cases he
      · exact hn l (by simp) name x w hl (Option.some.inj (hk.symm.trans he))
    · exact ih (fun l hl => hls l (by simp [hl])) (fun l hl => hn l (by simp [hl])) f hf he

/-- The same for a header line of a part, with any other line in its place: the part is accepted, and the new line has its effect
unless a later one has the same name. -/
theorem C97_part (hm : c.feat.mime = true) (ls₁ ls₂ : List Bytes) (t : Bytes)
    (hls : ∀ l ∈ ls₁ ++ ls₂, ∃ name x w, HeaderText name x w l) (ht : t = [] ∨ CRLF <+: t) (name x w l name' x' w' l' : Bytes)
    (hl : HeaderText name x w l) (hl' : HeaderText name' x' w' l') (f' : EntityHeader) (hf' : entityHeader c l' = .ok ([], f'))
    (hne : name.map asciiLower ≠ b! "content-transfer-encoding") (hne' : name'.map asciiLower ≠ b! "content-transfer-encoding")
    (hlast : ∀ q ∈ ls₂, ∀ n y u, HeaderText n y u q → n.map asciiLower ≠ name'.map asciiLower) (e : RawEntity)
    (h : rawEntity c ((ls₁ ++ l :: ls₂).flatten ++ t) = .ok e) :
    ∃ e', rawEntity c ((ls₁ ++ l' :: ls₂).flatten ++ t) = .ok e' ∧ PartShows e' f' ∧
      PartAgreeBut [name.map asciiLower, name'.map asciiLower] e e' := by
  have agree := (C92_part c hm ls₁ ls₂ t hls ht name x w l name' x' w' l' hl hl' e h).1
  have ht : Ended t := by
    rcases ht with rfl | ⟨u, rfl⟩
    · exact .nil
    · exact .crlf u
  have hls' : ∀ {name x w l : Bytes}, HeaderText name x w l → ∀ q ∈ ls₁ ++ l :: ls₂, ∃ name x w, HeaderText name x w q := by
    intro name x w l hl q hq
    simp only [List.mem_append, List.mem_cons] at hq
    rcases hq with hq | rfl | hq
    · exact hls q (by simp [hq])
    · exact ⟨name, x, w, hl⟩
    · exact hls q (by simp [hq])
  obtain ⟨hs, b, v, h1, h2, h3, rfl⟩ := (part_lines c hm (hls' hl) ht).1 h
  obtain ⟨hs₁, hs₂, rfl, h4, h5⟩ := alone_split c h1
  cases h5 with
  | @cons _ f _ hs₂ h5 h6 =>
    have hno : ∀ {n y u q g}, HeaderText n y u q → entityHeader c q = .ok ([], g) →
        n.map asciiLower ≠ b! "content-transfer-encoding" → partEncodingOf g = none := by
      intro n y u q g hq hg hn
      rcases entityHeader_kind c hq hg with ⟨a, d, rfl⟩ | hk
      · rfl
      · cases g with
        | encoding z => exact absurd (Option.some.inj hk).symm hn
        | _ => rfl
    rw [partEncoding, lastOf_other (hno hl h5 hne), ← lastOf_other (hno hl' hf' hne'), ← partEncoding] at h3
    have h7 := (part_lines c hm (hls' hl') ht).2 ⟨_, b, v, alone_append c h4 (.cons hf' h6), h2, h3, rfl⟩
    refine ⟨_, h7, ?_, agree _ h7⟩
    have later := alone_kinds c h6 (fun q hq => hls q (by simp [hq])) hlast
    have hk := entityHeader_kind c hl' hf'
    have value : ∀ {α : Type} (g : EntityHeader → Option α) {v : α}, g f' = some v →
        (∀ y u, g y = some u → headerOf (partField y) = headerOf (partField f')) → headerOf (partField f') ≠ none →
        lastOf g (hs₁ ++ f' :: hs₂) = some v := by
      intro α g v hv hg hnn
      have hk : headerOf (partField f') = some (name'.map asciiLower) := by
        rcases hk with ⟨a, d, rfl⟩ | hk
        · exact absurd rfl hnn
        · exact hk
      refine lastOf_late hv fun y hy => ?_
      cases hgy : g y with
      | none => rfl
      | some u => exact absurd ((hg y u hgy).trans hk) (later y hy)
    cases f' with
    | encoding => trivial
    | type q =>
      have := value typeOf rfl (by rintro (_ | _) v h <;> cases h <;> rfl) nofun
      simp only [PartShows, partValue, this, Option.getD_some]
    | id q => exact value idOf rfl (by rintro (_ | _) v h <;> cases h <;> rfl) nofun
    | description q => exact value descriptionOf rfl (by rintro (_ | _) v h <;> cases h <;> rfl) nofun
    | disposition q => exact value partDispositionOf rfl (by rintro (_ | _) v h <;> cases h <;> rfl) nofun
    | other a d => simp [PartShows, partValue, otherOf]

/-! ### Examples -/

private def author : Bytes := b! "From: Doe <a@b>\r\n"
private def written : Bytes := b! "Date: 1 Jan 2020 00:00:00 +0000\r\n"
private def recipient : Bytes := b! "To: x@y (z)\r\n"
private def recipients : Bytes := b! "To: x@y (z), g:;\r\n"

private def result (i : Bytes) : Option (Option (List Mailbox) × Option (List Address) × Option Mailbox) :=
  match Email.parse (Cfg.concrete .full) i with
  | .ok e => some (e.from, e.to, e.sender)
  | _ => none

private theorem result_ok {i : Bytes} (h : (result i).isSome = true) : ∃ e, Email.parse (Cfg.concrete .full) i = .ok e := by
  unfold result at h
  split at h
  · exact ⟨_, ‹_›⟩
  · cases h

private def addresses (l : Bytes) : Option (Bytes × Option (List Address)) :=
  match field (Cfg.concrete .full) l with
  | .ok (t, .to v) => some (t, some v)
  | .ok (t, _) => some (t, none)
  | _ => none

private theorem addresses_to {l : Bytes} {v : List Address} (h : addresses l = some ([], some v)) :
    field (Cfg.concrete .full) l = .ok ([], .to v) := by
  unfold addresses at h
  split at h <;> cases h
  assumption

/-- A group is added to the recipients of a message. -/
example : ∃ e e', Email.parse (Cfg.concrete .full) ([author, recipient, written].flatten ++ b! "\r\nbody") = .ok e ∧
    Email.parse (Cfg.concrete .full) ([author, recipients, written].flatten ++ b! "\r\nbody") = .ok e' ∧
    e.to = some [.mailbox ⟨none, b! "x", b! "y"⟩] ∧ e'.to = some [.mailbox ⟨none, b! "x", b! "y"⟩, .group [b! "g"] []] ∧
    AgreeBut [b! "to"] e e' := by
  obtain ⟨e, he⟩ := result_ok (i := [author, recipient, written].flatten ++ b! "\r\nbody") (by decide +kernel)
  have h1 : addresses recipient = some ([], some [.mailbox ⟨none, b! "x", b! "y"⟩]) := by decide +kernel
  have h2 : addresses (b! "To: g:;\r\n") = some ([], some [.group [b! "g"] []]) := by decide +kernel
  obtain ⟨e', h3, h4, h5, -⟩ := C97_added (Cfg.concrete .full) ⟨fun _ => rfl, fun _ => rfl⟩ [author] [written] (b! "\r\nbody")
    (by
      simp only [List.singleton_append, List.mem_cons, List.not_mem_nil, or_false]
      rintro l (rfl | rfl)
      · exact ⟨_, _, _, exact_line (b! "From") (b! " Doe <a@b>") (by decide +kernel)⟩
      · exact ⟨_, _, _, exact_line (b! "Date") (b! " 1 Jan 2020 00:00:00 +0000") (by decide +kernel)⟩)
    (.inr ⟨b! "body", rfl⟩) (b! "To") _ _ _ (b! "To") _ _ _ _ _
    (exact_line (b! "To") (b! " x@y (z)") (by decide +kernel))
    (exact_line (b! "To") (b! " g:;") (by decide +kernel))
    (exact_line (b! "To") (b! " x@y (z), g:;") (by decide +kernel))
    ⟨by decide +kernel, fun _ => ⟨by decide +kernel, by decide +kernel, fun _ => by decide +kernel⟩⟩
    ⟨by decide +kernel, fun _ => ⟨by decide +kernel, by decide +kernel, fun _ => by decide +kernel⟩⟩
    _ _ _ rfl rfl (addresses_to h1) (addresses_to h2) rfl (.inl fun _ _ h => nomatch h) e he
  exact ⟨e, e', he, h3, h4.1, h4.2, h5⟩

private def referenceLine (l : Bytes) : Option (Bytes × Option (List (Bytes × Bytes))) :=
  match field (Cfg.concrete .full) l with
  | .ok (t, .references v) => some (t, some v)
  | .ok (t, _) => some (t, none)
  | _ => none

private theorem referenceLine_ok {l : Bytes} {v : List (Bytes × Bytes)} (h : referenceLine l = some ([], some v)) :
    field (Cfg.concrete .full) l = .ok ([], .references v) := by
  unfold referenceLine at h
  split at h <;> cases h
  assumption

/-- A reference is added to a message. -/
example : ∃ e e', Email.parse (Cfg.concrete .full) ([author, b! "References: <a@b>\r\n", written].flatten ++ b! "\r\nbody") = .ok e ∧
    Email.parse (Cfg.concrete .full) ([author, b! "References: <a@b> <c@d>\r\n", written].flatten ++ b! "\r\nbody") = .ok e' ∧
    e.references = some [(b! "a", b! "b")] ∧ e'.references = some [(b! "a", b! "b"), (b! "c", b! "d")] ∧
    AgreeBut [b! "references"] e e' := by
  obtain ⟨e, he⟩ := result_ok (i := [author, b! "References: <a@b>\r\n", written].flatten ++ b! "\r\nbody") (by decide +kernel)
  have h1 : referenceLine (b! "References: <a@b>\r\n") = some ([], some [(b! "a", b! "b")]) := by decide +kernel
  have h2 : referenceLine (b! "References: <c@d>\r\n") = some ([], some [(b! "c", b! "d")]) := by decide +kernel
  obtain ⟨e', h3, h4, h5, -⟩ := C97_referenced (Cfg.concrete .full) ⟨fun _ => rfl, fun _ => rfl⟩ [author] [written] (b! "\r\nbody")
    (by
      simp only [List.singleton_append, List.mem_cons, List.not_mem_nil, or_false]
      rintro l (rfl | rfl)
      · exact ⟨_, _, _, exact_line (b! "From") (b! " Doe <a@b>") (by decide +kernel)⟩
      · exact ⟨_, _, _, exact_line (b! "Date") (b! " 1 Jan 2020 00:00:00 +0000") (by decide +kernel)⟩)
    (.inr ⟨b! "body", rfl⟩) (b! "References") _ _ _ (b! "References") _ _ _ _ _
    (exact_line (b! "References") (b! " <a@b>") (by decide +kernel))
    (exact_line (b! "References") (b! " <c@d>") (by decide +kernel))
    (exact_line (b! "References") (b! " <a@b> <c@d>") (by decide +kernel))
    ⟨by decide +kernel, fun _ => ⟨by decide +kernel, by decide +kernel, fun _ => by decide +kernel⟩⟩
    ⟨by decide +kernel, fun _ => ⟨by decide +kernel, by decide +kernel, fun _ => by decide +kernel⟩⟩
    _ _ _ rfl rfl (referenceLine_ok h1) (referenceLine_ok h2) rfl e he
  exact ⟨e, e', he, h3, h4.1, h4.2, h5⟩

/-- A second author without a sender is refused: the condition on the sender is needed. -/
example : result ([author, written].flatten ++ b! "\r\nbody") =
      some (some [⟨some [b! "Doe"], b! "a", b! "b"⟩], none, some ⟨some [b! "Doe"], b! "a", b! "b"⟩) ∧
    result ([b! "From: Doe <a@b>, c@d\r\n", written].flatten ++ b! "\r\nbody") = none ∧
    ¬ KeepsSender (Cfg.concrete .full) (.from [⟨some [b! "Doe"], b! "a", b! "b"⟩])
      (.from [⟨some [b! "Doe"], b! "a", b! "b"⟩, ⟨none, b! "c", b! "d"⟩]) := by
  refine ⟨by decide +kernel, by decide +kernel, fun h => ?_⟩
  rcases h _ _ rfl rfl with h | h | h
  · cases h
  · cases h
  · exact h rfl

/-- With a sender it is accepted. -/
example : result ([author, b! "Sender: e@f\r\n", written].flatten ++ b! "\r\nbody") =
      some (some [⟨some [b! "Doe"], b! "a", b! "b"⟩], none, some ⟨none, b! "e", b! "f"⟩) ∧
    result ([b! "From: Doe <a@b>, c@d\r\n", b! "Sender: e@f\r\n", written].flatten ++ b! "\r\nbody") =
      some (some [⟨some [b! "Doe"], b! "a", b! "b"⟩, ⟨none, b! "c", b! "d"⟩], none, some ⟨none, b! "e", b! "f"⟩) := by
  constructor <;> decide +kernel

/-- A wrong encoding can make the body unreadable: the exception is needed. -/
example : (result ([author, written, b! "Content-Transfer-Encoding: 7bit\r\n"].flatten ++ b! "\r\nA")).isSome = true ∧
    result ([author, written, b! "Content-Transfer-Encoding: base64\r\n"].flatten ++ b! "\r\nA") = none := by
  constructor <;> decide +kernel

private def descriptionLine (l : Bytes) : Option (Bytes × Option Bytes) :=
  match entityHeader (Cfg.concrete .full) l with
  | .ok (t, .description v) => some (t, some v)
  | .ok (t, _) => some (t, none)
  | _ => none

private def partResult (i : Bytes) : Option (Option (Bytes × Bytes) × Option Bytes × Bytes) :=
  match rawEntity (Cfg.concrete .full) i with
  | .ok e => some (e.id, e.description, e.value)
  | _ => none

/-- A line of a part is replaced by a description. -/
example : ∃ e e', rawEntity (Cfg.concrete .full) ([b! "Content-Id: <a@b>\r\n", b! "X: y\r\n"].flatten ++ b! "\r\nbody") = .ok e ∧
    rawEntity (Cfg.concrete .full) ([b! "Content-Description: z\r\n", b! "X: y\r\n"].flatten ++ b! "\r\nbody") = .ok e' ∧
    e'.description = some (b! " z") ∧ e'.value = e.value := by
  have h1 : (partResult ([b! "Content-Id: <a@b>\r\n", b! "X: y\r\n"].flatten ++ b! "\r\nbody")).isSome = true := by
    decide +kernel
  have h2 : descriptionLine (b! "Content-Description: z\r\n") = some ([], some (b! " z")) := by decide +kernel
  obtain ⟨e, he⟩ : ∃ e, rawEntity (Cfg.concrete .full)
      ([b! "Content-Id: <a@b>\r\n", b! "X: y\r\n"].flatten ++ b! "\r\nbody") = .ok e := by
    unfold partResult at h1
    split at h1
    · exact ⟨_, ‹_›⟩
    · cases h1
  have h3 : entityHeader (Cfg.concrete .full) (b! "Content-Description: z\r\n") = .ok ([], .description (b! " z")) := by
    unfold descriptionLine at h2
    split at h2 <;> cases h2
    assumption
  have hx := exact_line (b! "X") (b! " y") (by decide +kernel)
  obtain ⟨e', h4, h5, h6⟩ := C97_part (Cfg.concrete .full) rfl [] [b! "X: y\r\n"] (b! "\r\nbody")
    (by
      simp only [List.nil_append, List.mem_cons, List.not_mem_nil, or_false]
      rintro l rfl
      exact ⟨_, _, _, hx⟩)
    (.inr ⟨b! "body", rfl⟩) _ _ _ _ _ _ _ _
    (exact_line (b! "Content-Id") (b! " <a@b>") (by decide +kernel))
    (exact_line (b! "Content-Description") (b! " z") (by decide +kernel)) _ h3 (by decide +kernel) (by decide +kernel)
    (by
      simp only [List.mem_cons, List.not_mem_nil, or_false]
      rintro q rfl n y u hq hn
      have := congrArg List.head? (hq.text.symm.trans hx.text)
      have hn := congrArg List.head? hn
      cases n with
      | nil => exact hq.name_ne rfl
      | cons a n =>
        simp only [List.cons_append, List.head?_cons, Option.some.injEq, List.map_cons] at this hn
        subst this
        revert hn
        decide +kernel) e he
  exact ⟨e, e', he, h4, h5, (h6.value (by decide +kernel)).symm⟩

end EmailParser
