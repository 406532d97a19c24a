import Verif.Props.Inert
import Verif.Spec.Separate
/-
C92: a header line has an effect on the member of its own name only.
-/
namespace EmailParser
open Spec

variable (c : Cfg)

/-! ### Fields of other names -/

/-- Fields that are neither unknown nor of one of the given names. -/
def off (names : List Bytes) : Field → Bool
  | .unknown _ _ => false
  | f => match headerOf f with
    | some n => !names.contains n
    | none => true

theorem off_filterMap {α : Type} {ns : List Bytes} {g : Field → Option α} (hg : ∀ f, off ns f = false → g f = none) (xs : List Field) :
    (xs.filter (off ns)).filterMap g = xs.filterMap g := by
  rw [List.filterMap_filter]
  congr 1
  funext f
  cases h : off ns f with
  | true => rfl
  | false => simp [hg f h]

theorem off_findSome {α : Type} {ns : List Bytes} {g : Field → Option α} (hg : ∀ f, off ns f = false → g f = none) (xs : List Field) :
    (xs.filter (off ns)).findSome? g = xs.findSome? g := by
  rw [← List.head?_filterMap, off_filterMap hg, List.head?_filterMap]

theorem off_flatMap {α : Type} {ns : List Bytes} {g : Field → List α} (hg : ∀ f, off ns f = false → g f = []) (xs : List Field) :
    (xs.filter (off ns)).flatMap g = xs.flatMap g := by
  induction xs with
  | nil => rfl
  | cons f xs ih =>
    rw [List.flatMap_cons, ← ih, List.filter_cons]
    cases h : off ns f with
    | true => simp
    | false => simp [hg f h]

theorem off_named {ns : List Bytes} {f : Field} {n : Bytes} (h : headerOf f = some n) : off ns f = !ns.contains n := by
  cases f with
  | unknown a b => cases h
  | _ => simp only [off, h]

theorem off_trace {ns : List Bytes} {f : Field} (h : off ns f = false) : traceOf f = none := by
  cases f with
  | trace a b d => cases h
  | _ => rfl

theorem off_none {α : Type} {ns : List Bytes} {g : Field → Option α} {n : Bytes} (hg : ∀ f v, g f = some v → headerOf f = some n)
    (hn : n ∉ ns) (f : Field) (hf : off ns f = false) : g f = none := by
  cases hv : g f with
  | none => rfl
  | some v =>
    rw [off_named (hg f v hv)] at hf
    simp [hn] at hf

theorem off_keywords {ns : List Bytes} (hn : b! "keywords" ∉ ns) (f : Field) (hf : off ns f = false) : keywordsOf f = [] := by
  cases f with
  | keywords v =>
    rw [off_named rfl] at hf
    simp [hn] at hf
  | _ => rfl

theorem agree_fields {ns : List Bytes} {xs ys : List Field} (h : xs.filter (off ns) = ys.filter (off ns)) {b : Option Bytes} {e e' : Email}
    (he : IsEmail c xs b e) (he' : IsEmail c ys b e') : AgreeBut ns e e' := by
  have hs : ∀ {α : Type} (g : Field → Option α), (∀ f, off ns f = false → g f = none) → xs.findSome? g = ys.findSome? g :=
    fun g hg => by rw [← off_findSome hg xs, h, off_findSome hg]
  have hm : ∀ {α : Type} (g : Field → Option α), (∀ f, off ns f = false → g f = none) → xs.filterMap g = ys.filterMap g :=
    fun g hg => by rw [← off_filterMap hg xs, h, off_filterMap hg]
  have key : ∀ {α : Type} (g : Field → Option α) (n : Bytes), (∀ f v, g f = some v → headerOf f = some n) → n ∉ ns →
      ∀ f, off ns f = false → g f = none := fun g n hg hn => off_none hg hn
  have hent : (e.mimeEntity = none ∧ e'.mimeEntity = none) ∨ ∃ r r', e.mimeEntity = some r ∧ e'.mimeEntity = some r' ∧
      (b! "content-type" ∉ ns → (r.mimeType, r.subtype, r.parameters) = (r'.mimeType, r'.subtype, r'.parameters)) ∧
      (b! "content-description" ∉ ns → r.description = r'.description) ∧ (b! "content-id" ∉ ns → r.id = r'.id) ∧
      (b! "content-disposition" ∉ ns → r.disposition = r'.disposition) ∧
      (b! "content-transfer-encoding" ∉ ns → r.value = r'.value) ∧ r.additionalHeaders = r'.additionalHeaders := by
    cases hmi : c.feat.mime with
    | false => exact .inl ⟨he.noEntity hmi, he'.noEntity hmi⟩
    | true =>
      obtain ⟨r, e1, e2, e3, e4, e5, e6, e7, e8⟩ := he.entity hmi
      obtain ⟨r', f1, f2, f3, f4, f5, f6, f7, f8⟩ := he'.entity hmi
      refine .inr ⟨r, r', e1, f1, fun hn => ?_, fun hn => ?_, fun hn => ?_, fun hn => ?_, fun hn => ?_, e6.trans f6.symm⟩
      · rw [e2, f2, hs _ (key contentTypeOf _ (by rintro (_ | _) v h <;> cases h <;> rfl) hn)]
      · rw [e3, f3, hs _ (key contentDescriptionOf _ (by rintro (_ | _) v h <;> cases h <;> rfl) hn)]
      · rw [e4, f4, hs _ (key contentIdOf _ (by rintro (_ | _) v h <;> cases h <;> rfl) hn)]
      · rw [e5, f5, hs _ (key contentDispositionOf _ (by rintro (_ | _) v h <;> cases h <;> rfl) hn)]
      · cases b with
        | none => rw [e7 rfl, f7 rfl]
        | some b =>
          have h1 := e8 b rfl
          rw [hs _ (key encodingOf _ (by rintro (_ | _) v h <;> cases h <;> rfl) hn), f8 b rfl] at h1
          exact (Outcome.ok.inj h1).symm
  have from' : b! "from" ∉ ns → xs.findSome? fromOf = ys.findSome? fromOf := fun hn =>
    hs _ (key _ _ (by rintro (_ | _) v h <;> cases h <;> rfl) hn)
  constructor
  case body => rw [he.body, he'.body]
  case trace =>
    rw [he.trace, he'.trace]
    exact hm _ fun f => off_trace
  case «from» => intro hn; rw [he.from, he'.from, from' hn]
  case sender =>
    intro hn hn'
    rw [he.sender, he'.sender, from' hn', hs _ (key senderOf _ (by rintro (_ | _) v h <;> cases h <;> rfl) hn)]
  case date => intro hn; rw [he.date, he'.date, hs _ (key dateOf _ (by rintro (_ | _) v h <;> cases h <;> rfl) hn)]
  case subject => intro hn; rw [he.subject, he'.subject, hs _ (key subjectOf _ (by rintro (_ | _) v h <;> cases h <;> rfl) hn)]
  case to => intro hn; rw [he.to, he'.to, hs _ (key toOf _ (by rintro (_ | _) v h <;> cases h <;> rfl) hn)]
  case cc => intro hn; rw [he.cc, he'.cc, hs _ (key ccOf _ (by rintro (_ | _) v h <;> cases h <;> rfl) hn)]
  case bcc => intro hn; rw [he.bcc, he'.bcc, hs _ (key bccOf _ (by rintro (_ | _) v h <;> cases h <;> rfl) hn)]
  case messageId =>
    intro hn; rw [he.messageId, he'.messageId, hs _ (key messageIdOf _ (by rintro (_ | _) v h <;> cases h <;> rfl) hn)]
  case inReplyTo =>
    intro hn; rw [he.inReplyTo, he'.inReplyTo, hs _ (key inReplyToOf _ (by rintro (_ | _) v h <;> cases h <;> rfl) hn)]
  case references =>
    intro hn; rw [he.references, he'.references, hs _ (key referencesOf _ (by rintro (_ | _) v h <;> cases h <;> rfl) hn)]
  case replyTo =>
    intro hn; rw [he.replyTo, he'.replyTo, hs _ (key replyToOf _ (by rintro (_ | _) v h <;> cases h <;> rfl) hn)]
  case comments =>
    intro hn; rw [he.comments, he'.comments, hm _ (key commentsOf _ (by rintro (_ | _) v h <;> cases h <;> rfl) hn)]
  case keywords =>
    intro hn
    have hk := off_keywords hn
    rw [he.keywords, he'.keywords, ← off_flatMap hk xs, h, off_flatMap hk]
  all_goals
    rcases hent with ⟨h1, h2⟩ | ⟨r, r', h1, h2, h3, h4, h5, h6, h7, h8⟩
    · simp [h1, h2]
    · rw [h1, h2]
      first
      | rfl
      | exact fun hn => congrArg some (h3 hn)
      | exact fun hn => congrArg some (h4 hn)
      | exact fun hn => congrArg some (h5 hn)
      | exact fun hn => congrArg some (h6 hn)
      | exact fun hn => congrArg some (h7 hn)
      | exact congrArg some h8

/-! ### Lines -/

theorem LinesOf.unique {ls : List Bytes} {us us' : List Field} (h : LinesOf c ls us) (h' : LinesOf c ls us') : us = us' := by
  induction h generalizing us' with
  | nil => cases h'; rfl
  | cons h1 h2 ih =>
    cases h' with
    | cons h3 h4 =>
      rw [h1] at h3
      cases h3
      rw [ih h4]

/-- The field of a line is of its name, or unknown. -/
theorem line_off {name x w l : Bytes} {f : Field} (hl : HeaderText name x w l) (hf : field c l = .ok ([], f)) {ns : List Bytes}
    (hn : name.map asciiLower ∈ ns) : off ns f = false := by
  rcases C11_kind c name x w l [] [] f hl stops_nil (by rw [List.append_nil]; exact hf) with ⟨-, h⟩ | ⟨-, v, rfl⟩
  · rw [off_named h]
    simp [hn]
  · rfl

/-- Where a line can be taken out. -/
theorem afterTrace_place {ls₁ ls₂ : List Bytes} {name x w l t : Bytes} (ha : AfterTrace ls₁ ls₂) (hl : HeaderText name x w l)
    (hn : NotTrace (name.map asciiLower)) (ht : Ended t) :
    ∃ p a, ls₁ = p ++ a ∧ Quiet c ((a ++ ls₂).flatten ++ t) ∧ Quiet c ((a ++ l :: ls₂).flatten ++ t) := by
  rcases ha with ⟨q, hq, n, x', w', h1, h2⟩ | ha
  · obtain ⟨p, a, rfl⟩ := List.append_of_mem hq
    refine ⟨p, q :: a, rfl, ?_, ?_⟩ <;>
    · rw [List.cons_append, List.flatten_cons, List.append_assoc]
      exact notTrace_quiet c h1 h2
  · refine ⟨ls₁, [], by simp, ?_, ?_⟩
    · cases ls₂ with
      | nil => exact ht.quiet
      | cons q ls₂ =>
        obtain ⟨n, x', w', h1, h2⟩ := ha q rfl
        rw [List.nil_append, List.flatten_cons, List.append_assoc]
        exact notTrace_quiet c h1 h2
    · rw [List.nil_append, List.flatten_cons, List.append_assoc]
      exact notTrace_quiet c hl hn

/-- The kinds of fields and their names. -/
def kindHeader (k : String) : Option Bytes :=
  [("Date", b! "date"), ("From", b! "from"), ("Sender", b! "sender"), ("Reply-To", b! "reply-to"), ("To", b! "to"), ("Cc", b! "cc"),
    ("Bcc", b! "bcc"), ("Message-ID", b! "message-id"), ("In-Reply-To", b! "in-reply-to"), ("References", b! "references"),
    ("Subject", b! "subject"), ("Comments", b! "comments"), ("Keywords", b! "keywords"), ("Mime-Version", b! "mime-version"),
    ("Content-Type", b! "content-type"), ("Content-Transfer-Encoding", b! "content-transfer-encoding"),
    ("Content-Id", b! "content-id"), ("Content-Description", b! "content-description"),
    ("Content-Disposition", b! "content-disposition")].lookup k

theorem kindHeader_eq (f : Field) : kindHeader (fieldKind f) = headerOf f := by
  cases f <;> dsimp only [fieldKind, onceName, headerOf, Option.getD] <;> decide +kernel

/-! ### C92 -/

/-- Replacing one header line by another one: if both messages are accepted, the e-mails agree in all members but those of the names
of the two lines. -/
theorem C92_replaced (hc : c.feat.compiles) (ls₁ ls₂ : List Bytes) (t : Bytes)
    (hls : ∀ l ∈ ls₁ ++ ls₂, ∃ name x w, HeaderText name x w l) (ht : t = [] ∨ CRLF <+: t) (name x w l name' x' w' l' : Bytes)
    (hl : HeaderText name x w l) (hn : NotTrace (name.map asciiLower))
    (hl' : HeaderText name' x' w' l') (hn' : NotTrace (name'.map asciiLower)) (e e' : Email)
    (h : Email.parse c ((ls₁ ++ l :: ls₂).flatten ++ t) = .ok e) (h' : Email.parse c ((ls₁ ++ l' :: ls₂).flatten ++ t) = .ok e') :
    AgreeBut [name.map asciiLower, name'.map asciiLower] e e' := by
  have ht : Ended t := by
    rcases ht with rfl | ⟨u, rfl⟩
    · exact .nil
    · exact .crlf u
  have hls' : ∀ q ∈ ls₁ ++ l :: ls₂, ∃ name x w, HeaderText name x w q := by
    intro q hq
    simp only [List.mem_append, List.mem_cons] at hq
    rcases hq with hq | rfl | hq
    · exact hls q (by simp [hq])
    · exact ⟨name, x, w, hl⟩
    · exact hls q (by simp [hq])
  have hls'' : ∀ q ∈ ls₁ ++ l' :: ls₂, ∃ name x w, HeaderText name x w q := by
    intro q hq
    simp only [List.mem_append, List.mem_cons] at hq
    rcases hq with hq | rfl | hq
    · exact hls q (by simp [hq])
    · exact ⟨name', x', w', hl'⟩
    · exact hls q (by simp [hq])
  have hq : Quiet c ((l :: ls₂).flatten ++ t) := by
    rw [List.flatten_cons, List.append_assoc]
    exact notTrace_quiet c hl hn
  have hq' : Quiet c ((l' :: ls₂).flatten ++ t) := by
    rw [List.flatten_cons, List.append_assoc]
    exact notTrace_quiet c hl' hn'
  obtain ⟨fs, b, hp, -, -, -, h3⟩ := parse_ok c hc h
  obtain ⟨fs', b', hp', -, -, -, h3'⟩ := parse_ok c hc h'
  obtain ⟨t₁, h4, h5⟩ := parseMessage_content.1 hp
  obtain ⟨t₂, h4', h5'⟩ := parseMessage_content.1 hp'
  rw [List.flatten_append, List.append_assoc] at h4 h4'
  obtain ⟨rfl, fs₁, us, rfl, h6, h7⟩ := fields_replaced c hls' ht (contentOf_ended h5) hq hq' h4
  obtain ⟨rfl, fs₂, us', rfl, h6', -⟩ := fields_replaced c hls'' ht (contentOf_ended h5') hq' hq h4'
  have hb : b' = b := by rw [h5] at h5'; exact (Outcome.ok.inj h5').symm
  subst hb
  have h8 := h7 _ h6'
  rw [h4'] at h8
  simp only [Outcome.ok.injEq, Prod.mk.injEq, true_and, List.append_cancel_right_eq] at h8
  subst h8
  cases h6 with
  | @cons _ f _ gs h9 h10 =>
    cases h6' with
    | @cons _ f' _ gs' h9' h10' =>
      have hg : gs' = gs := h10'.unique c h10
      subst hg
      refine agree_fields c ?_ h3 h3'
      rw [List.filter_append, List.filter_append, List.filter_cons_of_neg, List.filter_cons_of_neg]
      · rw [line_off c hl' h9' (by simp)]; simp
      · rw [line_off c hl h9 (by simp)]; simp

/-- Removing one header line outside of the trace: if both messages are accepted, the e-mails agree in all members but that of its
name; and only a `From`, `Date` or `Sender` line can be needed for the message to be accepted. -/
theorem C92_removed (hc : c.feat.compiles) (ls₁ ls₂ : List Bytes) (t : Bytes)
    (hls : ∀ l ∈ ls₁ ++ ls₂, ∃ name x w, HeaderText name x w l) (ht : t = [] ∨ CRLF <+: t) (name x w l : Bytes)
    (hl : HeaderText name x w l) (hn : NotTrace (name.map asciiLower)) (ha : AfterTrace ls₁ ls₂) (e : Email)
    (h : Email.parse c ((ls₁ ++ l :: ls₂).flatten ++ t) = .ok e) :
    (∀ e', Email.parse c ((ls₁ ++ ls₂).flatten ++ t) = .ok e' → AgreeBut [name.map asciiLower] e e') ∧
    (name.map asciiLower ∉ [b! "from", b! "date", b! "sender"] → ∃ e', Email.parse c ((ls₁ ++ ls₂).flatten ++ t) = .ok e') := by
  have ht : Ended t := by
    rcases ht with rfl | ⟨u, rfl⟩
    · exact .nil
    · exact .crlf u
  obtain ⟨p, a, rfl, hq, hq'⟩ := afterTrace_place c ha hl hn ht
  have hls' : ∀ q ∈ p ++ (a ++ l :: ls₂), ∃ name x w, HeaderText name x w q := by
    intro q hq
    simp only [List.mem_append, List.mem_cons] at hq
    rcases hq with hq | hq | rfl | hq
    · exact hls q (by simp [hq])
    · exact hls q (by simp [hq])
    · exact ⟨name, x, w, hl⟩
    · exact hls q (by simp [hq])
  obtain ⟨fs, b, hp, -, h1, h2, h3⟩ := parse_ok c hc h
  obtain ⟨t', h4, h5⟩ := parseMessage_content.1 hp
  rw [List.append_assoc, List.flatten_append, List.append_assoc] at h4
  obtain ⟨rfl, fs₁, us, rfl, h6, h7⟩ := fields_replaced c hls' ht (contentOf_ended h5) hq' hq h4
  obtain ⟨us₁, us₂, rfl, h8, h9⟩ := lines_split c h6 rfl
  cases h9 with
  | @cons _ f _ us₂ h9 h10 =>
    have h11 := h7 _ (h8.append c h10)
    have hoff := line_off c hl h9 (ns := [name.map asciiLower]) (by simp)
    have e0 : ∀ o, Email.parse c ((p ++ a ++ ls₂).flatten ++ t') = o ↔ EmailResult c (fs₁ ++ (us₁ ++ us₂)) b o := by
      intro o
      rw [List.append_assoc, List.flatten_append, List.append_assoc, email_parse_eq, parseMessage_content.2 ⟨t', h11, h5⟩]
      exact emailFrom_iff hc _ _ _
    refine ⟨fun e' h' => ?_, fun hr => ?_⟩
    · obtain ⟨fs', b', hp', -, -, -, h3'⟩ := parse_ok c hc h'
      rw [List.append_assoc, List.flatten_append, List.append_assoc, parseMessage_content.2 ⟨t', h11, h5⟩] at hp'
      cases hp'
      refine agree_fields c ?_ h3 h3'
      simp [List.filter_cons_of_neg, hoff]
    · have hsub : (fs₁ ++ (us₁ ++ us₂)).Sublist (fs₁ ++ (us₁ ++ f :: us₂)) :=
        (List.Sublist.refl _).append ((List.Sublist.refl _).append (List.sublist_cons_self _ _))
      have hd : NoDuplicate (fs₁ ++ (us₁ ++ us₂)) := h1.sublist (hsub.filterMap _)
      have hfield : ∀ {α : Type} (g : Field → Option α) (n : Bytes), n ∈ [b! "from", b! "date", b! "sender"] →
          (∀ f v, g f = some v → headerOf f = some n) → g f = none := by
        intro α g n hm hg
        refine off_none hg (ns := [name.map asciiLower]) ?_ f hoff
        rintro h
        simp only [List.mem_singleton] at h
        exact hr (h ▸ hm)
      have hall : ∀ {p : Field → Prop}, p f → (∀ g ∈ fs₁ ++ (us₁ ++ us₂), p g) → ∀ g ∈ fs₁ ++ (us₁ ++ f :: us₂), p g := by
        intro p hp h g hg
        simp only [List.mem_append, List.mem_cons] at hg
        rcases hg with hg | hg | rfl | hg
        · exact h g (by simp [hg])
        · exact h g (by simp [hg])
        · exact hp
        · exact h g (by simp [hg])
      have hfrom := hfield fromOf (b! "from") (by simp) (by rintro (_ | _) v h <;> cases h <;> rfl)
      have hres := (e0 _).1 rfl
      revert hres
      generalize Email.parse c ((p ++ a ++ ls₂).flatten ++ t') = o
      intro hres
      cases hres with
      | duplicate hx => exact absurd hd (firstDuplicate_not hx)
      | @missing m _ hx _ =>
        refine absurd ?_ (h2 m)
        rcases hx with ⟨g1, g2, g3⟩ | ⟨g1, g2, g3⟩ | ⟨g1, g2, g3, g4⟩
        · exact .inl ⟨g1, g2, hall hfrom g3⟩
        · exact .inr (.inl ⟨g1, g2, hall (hfield dateOf (b! "date") (by simp) (by rintro (_ | _) v h <;> cases h <;> rfl)) g3⟩)
        · exact .inr (.inr ⟨g1, g2, hall (hfield senderOf (b! "sender") (by simp) (by rintro (_ | _) v h <;> cases h <;> rfl)) g3,
            hall (fun v hv => by rw [hfrom] at hv; cases hv) g4⟩)
      | undecodable _ _ hm hb hx =>
        exfalso
        obtain ⟨r, -, -, -, -, -, -, -, h12⟩ := h3.entity hm
        have h12 := h12 _ hb
        cases hv : encodingOf f with
        | none =>
          have : (fs₁ ++ (us₁ ++ f :: us₂)).findSome? encodingOf = (fs₁ ++ (us₁ ++ us₂)).findSome? encodingOf := by
            simp [List.findSome?_append, hv]
          rw [this, hx] at h12
          cases h12
        | some v =>
          have : (fs₁ ++ (us₁ ++ us₂)).findSome? encodingOf = none := by
            rw [List.findSome?_eq_none_iff]
            intro g hg
            cases hv' : encodingOf g with
            | none => rfl
            | some v' =>
              have once : ∀ f v, encodingOf f = some v → onceName f = some "Content-Transfer-Encoding" := by
                rintro (_ | _) v h <;> cases h <;> rfl
              exfalso
              have hnd : ((fs₁ ++ us₁).filterMap onceName ++ "Content-Transfer-Encoding" :: us₂.filterMap onceName).Nodup := by
                have := h1
                unfold NoDuplicate at this
                rw [← List.append_assoc, List.filterMap_append, List.filterMap_cons, once f v hv] at this
                exact this
              have hin : "Content-Transfer-Encoding" ∈ (fs₁ ++ us₁).filterMap onceName ++ us₂.filterMap onceName := by
                rw [← List.filterMap_append, List.mem_filterMap]
                exact ⟨g, by simpa using hg, once g v' hv'⟩
              rw [List.nodup_append, List.nodup_cons] at hnd
              rcases List.mem_append.1 hin with hin | hin
              · exact hnd.2.2 _ hin _ (by simp) rfl
              · exact hnd.2.1.1 hin
          rw [this] at hx
          cases hx
      | email _ _ _ => exact ⟨_, rfl⟩

/-- Swapping two neighbouring header lines of different names: one message is accepted if and only if the other one is, and only the
order of the unknown fields can differ. -/
theorem C92_swapped (hc : c.feat.compiles) (ls₁ ls₂ : List Bytes) (t : Bytes)
    (hls : ∀ l ∈ ls₁ ++ ls₂, ∃ name x w, HeaderText name x w l) (ht : t = [] ∨ CRLF <+: t) (name x w l name' x' w' l' : Bytes)
    (hl : HeaderText name x w l) (hn : NotTrace (name.map asciiLower))
    (hl' : HeaderText name' x' w' l') (hn' : NotTrace (name'.map asciiLower)) (hne : name.map asciiLower ≠ name'.map asciiLower)
    (e : Email) (h : Email.parse c ((ls₁ ++ l :: l' :: ls₂).flatten ++ t) = .ok e) :
    ∃ us, us.Perm e.unknownFields ∧
      Email.parse c ((ls₁ ++ l' :: l :: ls₂).flatten ++ t) = .ok { e with unknownFields := us } := by
  have ht : Ended t := by
    rcases ht with rfl | ⟨u, rfl⟩
    · exact .nil
    · exact .crlf u
  have hls' : ∀ q ∈ ls₁ ++ l :: l' :: ls₂, ∃ name x w, HeaderText name x w q := by
    intro q hq
    simp only [List.mem_append, List.mem_cons] at hq
    rcases hq with hq | rfl | rfl | hq
    · exact hls q (by simp [hq])
    · exact ⟨name, x, w, hl⟩
    · exact ⟨name', x', w', hl'⟩
    · exact hls q (by simp [hq])
  have hq : Quiet c ((l :: l' :: ls₂).flatten ++ t) := by
    rw [List.flatten_cons, List.append_assoc]
    exact notTrace_quiet c hl hn
  have hq' : Quiet c ((l' :: l :: ls₂).flatten ++ t) := by
    rw [List.flatten_cons, List.append_assoc]
    exact notTrace_quiet c hl' hn'
  obtain ⟨fs, b, hp, -, h1, h2, h3⟩ := parse_ok c hc h
  obtain ⟨t', h4, h5⟩ := parseMessage_content.1 hp
  rw [List.flatten_append, List.append_assoc] at h4
  obtain ⟨rfl, fs₁, us, rfl, h6, h7⟩ := fields_replaced c hls' ht (contentOf_ended h5) hq hq' h4
  cases h6 with
  | @cons _ f _ us h8 h9 =>
    cases h9 with
    | @cons _ f' _ us h9 h10 =>
      have h11 := h7 _ (.cons h9 (.cons h8 h10))
      rw [List.flatten_append, List.append_assoc, email_parse_eq, parseMessage_content.2 ⟨t', h11, h5⟩]
      show ∃ us', _ ∧ emailFrom c (fs₁ ++ f' :: f :: us) b = _
      have hk := C11_kind c name x w l [] [] f hl stops_nil (by rw [List.append_nil]; exact h8)
      have hk' := C11_kind c name' x' w' l' [] [] f' hl' stops_nil (by rw [List.append_nil]; exact h9)
      have swap : fieldKind f ≠ fieldKind f' → ∃ us', us'.Perm e.unknownFields ∧
          emailFrom c (fs₁ ++ f' :: f :: us) b = .ok { e with unknownFields := us' } := by
        intro hkk
        refine ⟨e.unknownFields, .refl _, ?_⟩
        rw [← C18_order_irrelevant c hc fs₁ us f f' hkk b]
        rw [email_parse_eq, hp] at h
        exact h
      by_cases hkk : fieldKind f = fieldKind f'
      · have hh := congrArg kindHeader hkk
        rw [kindHeader_eq, kindHeader_eq] at hh
        rcases hk with ⟨-, hk⟩ | ⟨-, v, rfl⟩ <;> rcases hk' with ⟨-, hk'⟩ | ⟨-, v', rfl⟩
        · rw [hk, hk'] at hh
          exact absurd (Option.some.inj hh) hne
        · rw [hk] at hh; cases hh
        · rw [hk'] at hh; cases hh
        · have hkn : (fs₁ ++ Field.unknown name v :: Field.unknown name' v' :: us).filter known =
              (fs₁ ++ Field.unknown name' v' :: Field.unknown name v :: us).filter known := by simp [known]
          refine ⟨_, ?_, (emailFrom_iff hc _ _ _).2
            (.email (alike_noDuplicate hkn h1) (fun n hn => h2 n (alike_missing c hkn hn)) (alike_email c hkn h3))⟩
          rw [h3.unknownFields, List.filterMap_append, List.filterMap_append]
          exact (List.Perm.refl _).append (List.Perm.swap _ _ _)
      · exact swap hkk

/-! ### Parts -/

theorem entityHeader_kind {name x w l r : Bytes} {f : EntityHeader} (hl : HeaderText name x w l) (h : entityHeader c l = .ok (r, f)) :
    (∃ n v, f = .other n v) ∨ headerOf (partField f) = some (name.map asciiLower) := by
  rw [entityHeader_table] at h
  obtain ⟨p, hp, h⟩ := matchParsers_ok h
  rcases List.mem_append.1 hp with hp | hp
  · obtain ⟨y, hy, rfl⟩ := List.mem_map.1 hp
    have hpre : (y.1 ++ b! ":") <+: l.map asciiLower := by
      refine Classical.byContradiction fun hc => ?_
      obtain ⟨z, hz⟩ := partTable_other y hy hc
      rw [h] at hz
      cases hz
    rw [hl.text, List.append_assoc, List.append_assoc, List.map_append, List.map_append, ← List.append_assoc] at hpre
    have hname := prefix_name (ftext_colon_lower hl.name_chars) (partTable_names y hy).2
      (by simpa [show asciiLower 58 = 58 from rfl] using hpre)
    rw [← hname]
    right
    simp only [partTable, List.mem_cons, List.not_mem_nil, or_false] at hy
    rcases hy with rfl | rfl | rfl | rfl | rfl <;>
    · obtain ⟨⟨i, v⟩, -, h2⟩ := bind_eq_ok.1 h
      cases h2
      rfl
  · simp only [List.mem_singleton] at hp
    subst hp
    obtain ⟨⟨i, v⟩, -, h2⟩ := bind_eq_ok.1 h
    cases h2
    exact .inl ⟨_, _, rfl⟩

theorem part_off {name x w l r : Bytes} {f : EntityHeader} (hl : HeaderText name x w l) (h : entityHeader c l = .ok (r, f))
    {ns : List Bytes} (hn : name.map asciiLower ∈ ns) : off ns (partField f) = false := by
  rcases entityHeader_kind c hl h with ⟨n, v, rfl⟩ | h
  · rfl
  · rw [off_named h]
    simp [hn]

theorem part_lastOf {α : Type} {ns : List Bytes} {g : EntityHeader → Option α} {n : Bytes} {xs ys : List EntityHeader}
    (h : xs.filter (fun f => off ns (partField f)) = ys.filter fun f => off ns (partField f))
    (hg : ∀ f v, g f = some v → headerOf (partField f) = some n) (hn : n ∉ ns) : lastOf g xs = lastOf g ys := by
  have key : ∀ zs : List EntityHeader, (zs.filter fun f => off ns (partField f)).filterMap g = zs.filterMap g := by
    intro zs
    rw [List.filterMap_filter]
    congr 1
    funext f
    cases hf : off ns (partField f) with
    | true => rfl
    | false =>
      cases hv : g f with
      | none => rfl
      | some v =>
        rw [off_named (hg f v hv)] at hf
        simp [hn] at hf
  unfold lastOf
  rw [← key xs, h, key]

theorem part_agree {ns : List Bytes} {xs ys : List EntityHeader} {b v v' : Bytes}
    (h : xs.filter (fun f => off ns (partField f)) = ys.filter fun f => off ns (partField f))
    (hv : decodeValue b ((partEncoding xs).getD .sevenBit) = .ok v) (hv' : decodeValue b ((partEncoding ys).getD .sevenBit) = .ok v') :
    PartAgreeBut ns (partValue xs v) (partValue ys v') := by
  refine ⟨fun hn => ?_, fun hn => ?_, fun hn => ?_, fun hn => ?_, fun hn => ?_⟩
  · have := part_lastOf (g := typeOf) h (by rintro (_ | _) v h <;> cases h <;> rfl) hn
    simp [partValue, this]
  · exact part_lastOf (g := descriptionOf) h (by rintro (_ | _) v h <;> cases h <;> rfl) hn
  · exact part_lastOf (g := idOf) h (by rintro (_ | _) v h <;> cases h <;> rfl) hn
  · exact part_lastOf (g := partDispositionOf) h (by rintro (_ | _) v h <;> cases h <;> rfl) hn
  · have := part_lastOf (g := partEncodingOf) h (by rintro (_ | _) v h <;> cases h <;> rfl) hn
    rw [partEncoding, this, ← partEncoding, hv'] at hv
    exact (Outcome.ok.inj hv).symm

theorem alone_unique {ls : List Bytes} {us us' : List EntityHeader} (h : Alone (entityHeader c) ls us)
    (h' : Alone (entityHeader c) ls us') : us = us' := by
  induction h generalizing us' with
  | nil => cases h'; rfl
  | cons h1 h2 ih =>
    cases h' with
    | cons h3 h4 =>
      rw [h1] at h3
      cases h3
      rw [ih h4]

theorem partEnd_unique {t b b' : Bytes} (h : PartEnd t b) (h' : PartEnd t b') : b = b' := by
  cases h <;> cases h' <;> rfl

/-- The same for the header lines of parts: one line replaced by another, or removed.  Only a line that says how the part is encoded
can be needed for the part to be accepted. -/
theorem C92_part (hm : c.feat.mime = true) (ls₁ ls₂ : List Bytes) (t : Bytes)
    (hls : ∀ l ∈ ls₁ ++ ls₂, ∃ name x w, HeaderText name x w l) (ht : t = [] ∨ CRLF <+: t) (name x w l name' x' w' l' : Bytes)
    (hl : HeaderText name x w l) (hl' : HeaderText name' x' w' l') (e : RawEntity)
    (h : rawEntity c ((ls₁ ++ l :: ls₂).flatten ++ t) = .ok e) :
    (∀ e', rawEntity c ((ls₁ ++ l' :: ls₂).flatten ++ t) = .ok e' →
      PartAgreeBut [name.map asciiLower, name'.map asciiLower] e e') ∧
    (∀ e', rawEntity c ((ls₁ ++ ls₂).flatten ++ t) = .ok e' → PartAgreeBut [name.map asciiLower] e e') ∧
    (name.map asciiLower ≠ b! "content-transfer-encoding" → ∃ e', rawEntity c ((ls₁ ++ ls₂).flatten ++ t) = .ok e') := by
  have ht : Ended t := by
    rcases ht with rfl | ⟨u, rfl⟩
    · exact .nil
    · exact .crlf u
  have hls' : ∀ {name x w l : Bytes}, HeaderText name x w l → ∀ q ∈ ls₁ ++ l :: ls₂, ∃ name x w, HeaderText name x w q := by
    intro name x w l hl q hq
    simp only [List.mem_append, List.mem_cons] at hq
    rcases hq with hq | rfl | hq
    · exact hls q (by simp [hq])
    · exact ⟨name, x, w, hl⟩
    · exact hls q (by simp [hq])
  obtain ⟨hs, b, v, h1, h2, h3, rfl⟩ := (part_lines c hm (hls' hl) ht).1 h
  obtain ⟨hs₁, hs₂, rfl, h4, h5⟩ := alone_split c h1
  cases h5 with
  | @cons _ f _ hs₂ h5 h6 =>
    refine ⟨fun e' h' => ?_, fun e' h' => ?_, fun hne => ?_⟩
    · obtain ⟨hs', b', v', h1', h2', h3', rfl⟩ := (part_lines c hm (hls' hl') ht).1 h'
      obtain ⟨hs₁', hs₂', rfl, h4', h5'⟩ := alone_split c h1'
      cases h5' with
      | @cons _ f' _ hs₂' h5' h6' =>
        cases partEnd_unique h2 h2'
        cases alone_unique c h4 h4'
        cases alone_unique c h6 h6'
        refine part_agree ?_ h3 h3'
        rw [List.filter_append, List.filter_append, List.filter_cons_of_neg, List.filter_cons_of_neg]
        · rw [part_off c hl' h5' (by simp)]; simp
        · rw [part_off c hl h5 (by simp)]; simp
    · obtain ⟨hs', b', v', h1', h2', h3', rfl⟩ := (part_lines c hm hls ht).1 h'
      cases partEnd_unique h2 h2'
      cases alone_unique c (alone_append c h4 h6) h1'
      refine part_agree ?_ h3 h3'
      rw [List.filter_append, List.filter_append, List.filter_cons_of_neg]
      rw [part_off c hl h5 (by simp)]; simp
    · refine ⟨_, (part_lines c hm hls ht).2 ⟨_, b, v, alone_append c h4 h6, h2, ?_, rfl⟩⟩
      have : partEncodingOf f = none := by
        cases hv : partEncodingOf f with
        | none => rfl
        | some y =>
          rcases entityHeader_kind c hl h5 with ⟨n, v, rfl⟩ | hk
          · cases hv
          · cases f with
            | encoding z => exact absurd (Option.some.inj hk).symm hne
            | _ => cases hv
      rw [partEncoding, lastOf_other this] at h3
      exact h3

/-! Examples -/

private def read (i : Bytes) : Option (List Bytes × Option Nat × List (Bytes × Bytes)) :=
  (outcomeValue (Email.parse (Cfg.concrete .full) i)).map fun e =>
    (e.subject.toList ++ e.comments, e.to.map (·.length), e.unknownFields)

private def first : Bytes := b! "From: a@b\r\nSubject: x\r\nTo: c@d\r\nDate: 1 Jan 2020 00:00:00 +0000\r\n\r\ny"
private def replaced : Bytes := b! "From: a@b\r\nComments: x\r\n z\r\nTo: c@d\r\nDate: 1 Jan 2020 00:00:00 +0000\r\n\r\ny"
private def swapped : Bytes := b! "From: a@b\r\nTo: c@d\r\nSubject: x\r\nDate: 1 Jan 2020 00:00:00 +0000\r\n\r\ny"
private def malformed : Bytes := b! "From: a@b\r\nSubject: x\r\nTo: c@d,\r\nDate: 1 Jan 2020 00:00:00 +0000\r\n\r\ny"

example : read first = some ([b! " x"], some 1, []) := by decide +kernel
example : read replaced = some ([b! " x z"], some 1, []) := by decide +kernel
example : read swapped = read first := by decide +kernel

/-- A malformed line has no effect on the others either. -/
example : read malformed = some ([b! " x"], none, [(b! "To", b! " c@d,")]) := by decide +kernel

/-- The hypotheses hold for these lines. -/
example : HeaderText (b! "Subject") (b! " x") (b! " x") (b! "Subject: x\r\n") ∧ NotTrace ((b! "Subject").map asciiLower) :=
  ⟨⟨rfl, by decide, by decide +kernel, .space (s := b! " ") (by decide +kernel) (fun b s e => by cases e; decide +kernel)
    (.char (by decide +kernel) .nil)⟩, by decide, by decide, by decide⟩

private def readPart (i : Bytes) : Option (Option (Bytes × Bytes) × Option Bytes × Bytes) :=
  (outcomeValue (rawEntity (Cfg.concrete .full) i)).map fun e => (e.id, e.description, e.value)

private def part : Bytes := b! "Content-Id: <a@b>\r\nContent-Description: x\r\nContent-Transfer-Encoding: base64\r\n\r\neQ=="
private def otherPart : Bytes := b! "Content-Id: <a@b>\r\nContent-Description: x\r\nContent-Transfer-Encoding: 8bit\r\n\r\neQ=="
private def lessPart : Bytes := b! "Content-Description: x\r\nContent-Transfer-Encoding: base64\r\n\r\neQ=="

example : readPart part = some (some (b! "a", b! "b"), some (b! " x"), b! "y") := by decide +kernel
example : readPart otherPart = some (some (b! "a", b! "b"), some (b! " x"), b! "eQ==") := by decide +kernel
example : readPart lessPart = some (none, some (b! " x"), b! "y") := by decide +kernel

end EmailParser
