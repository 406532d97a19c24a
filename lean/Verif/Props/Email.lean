import Verif.Proofs.Email
import Verif.Model.Concrete
/-
C09, C14 to C19: from the header fields to the e-mail.  `Spec.EmailResult`, `Spec.IsEmail`,
`Spec.FirstDuplicate` and `Spec.Missing` are defined in Verif/Spec/Email.lean.
-/
namespace EmailParser
open Spec

variable (c : Cfg)

/-- Used in the examples. -/
def outcomeError {α : Type} : Outcome α → Option Error
  | .err e => some e
  | _ => none

def outcomeValue {α : Type} : Outcome α → Option α
  | .ok a => some a
  | _ => none

/-! ### The result as a function of the fields -/

theorem star_mem {α : Type} {G : Gram α} {w : Bytes} {vs : List α} (h : Gram.star G w vs) :
    ∀ v ∈ vs, ∃ before u after, w = before ++ u ++ after ∧ G u v := by
  induction h with
  | nil => intro v hv; cases hv
  | cons hg _ ih =>
    rename_i w₁ w₂ a as hs
    intro v hv
    rcases List.mem_cons.1 hv with rfl | hv
    · exact ⟨[], w₁, w₂, by simp, hg⟩
    · obtain ⟨x, u, y, rfl, hu⟩ := ih v hv
      exact ⟨w₁ ++ x, u, y, by simp, hu⟩

/-- A field of the header block is derived from its own part of the text. -/
theorem header_mem {w : Bytes} {fs : List Field} (h : HeaderBlock c w fs) {f : Field} (hf : f ∈ fs) :
    ∃ before u after, w = before ++ u ++ after ∧ (FieldG c u f ∨ TraceBlock c u f) := by
  obtain ⟨w₁, w₂, ts, rfl, h1, w₃, w₄, us, rfl, h2, rfl, rfl⟩ := h
  rcases List.mem_append.1 hf with hf | hf
  · unfold TraceBlocks at h1
    split at h1
    · obtain ⟨x, u, y, rfl, hu⟩ := star_mem h1 f hf
      exact ⟨x, u, y ++ (w₃ ++ []), by simp, .inr hu⟩
    · obtain ⟨-, rfl⟩ := h1; cases hf
  · obtain ⟨x, u, y, rfl, hu⟩ := star_mem h2 f hf
    exact ⟨w₁ ++ x, u, y, by simp, .inl hu⟩

/-- The header block at the beginning of a message. -/
theorem message_header {i : Bytes} {fs : List Field} {b : Option Bytes} (h : Message c i (fs, b)) :
    ∃ head tail, i = head ++ tail ∧ HeaderBlock c head fs := by
  obtain ⟨w₁, w₂, gs, rfl, h1, h2⟩ := h
  rcases h2 with ⟨-, h⟩ | ⟨_, _, _, -, -, h, -⟩
  · cases h; exact ⟨w₁, w₂, rfl, h1⟩
  · cases h; exact ⟨w₁, w₂, rfl, h1⟩

theorem parse_ok {i : Bytes} {e : Email} (hc : c.feat.compiles) (h : Email.parse c i = .ok e) :
    ∃ fs b, parseMessage c i = .ok (fs, b) ∧ Message c i (fs, b) ∧ NoDuplicate fs ∧
      (∀ n, ¬ Missing c fs n) ∧ IsEmail c fs b e := by
  rw [email_parse_eq] at h
  obtain ⟨⟨fs, b⟩, hp, h⟩ := bind_eq_ok.1 h
  have hm := (parseMessage_sat (c := c) i).of_ok hp
  have hr := (emailFrom_iff hc fs b _).1 h
  cases hr with
  | email h1 h2 h3 => exact ⟨fs, b, hp, hm, h1, h2, h3⟩

/-! ### C14 -/

/-- An accepted message contains a `Date` header with a date of RFC 5322, and that is the date
reported; no other `Date` header was parsed. -/
theorem C14_date_required (hc : c.feat.compiles) (hd : c.feat.date = true) (i : Bytes) (e : Email)
    (h : Email.parse c i = .ok e) :
    ∃ d before w after, e.date = some d ∧ i = before ++ w ++ after ∧
      HeaderLine (b! "Date:") DateTimeG w d ∧
      ∃ fs b, parseMessage c i = .ok (fs, b) ∧ fs.filterMap dateOf = [d] := by
  obtain ⟨fs, b, hp, hm, hn, hmi, he⟩ := parse_ok c hc h
  have h0 := hmi "Date"
  rw [missing_date_iff] at h0
  cases hx : fs.findSome? dateOf with
  | none => exact absurd ⟨hd, hx⟩ h0
  | some d =>
    obtain ⟨f, hf, hv⟩ := List.exists_of_findSome?_eq_some hx
    obtain ⟨head, tail, rfl, hh⟩ := message_header c hm
    obtain ⟨x, w, y, rfl, hw⟩ := header_mem c hh hf
    have hw' : HeaderLine (b! "Date:") DateTimeG w d := by
      cases f <;> simp only [dateOf, Option.some.injEq, reduceCtorEq] at hv
      subst hv
      rcases hw with ⟨-, hw⟩ | ⟨_, _, _, -, -, _, _, _, -, -, _, _, _, -, -, -, hw⟩
      · exact hw
      · cases hw
    refine ⟨d, x, w, y ++ tail, ?_, by simp, hw', fs, b, hp, ?_⟩
    · rw [he.date, if_pos hd, hx]
    · exact filterMap_once (n := "Date") (fun f => by cases f <;> simp [dateOf, onceName]) hn hx

/-- The same for `From`: the authors reported are those of the only `From` header. -/
theorem C14_from_required (hc : c.feat.compiles) (hd : c.feat.from = true) (i : Bytes) (e : Email)
    (h : Email.parse c i = .ok e) :
    ∃ d before w after, e.from = some d ∧ i = before ++ w ++ after ∧
      HeaderLine (b! "From:") (MailboxList c) w d ∧
      ∃ fs b, parseMessage c i = .ok (fs, b) ∧ fs.filterMap fromOf = [d] := by
  obtain ⟨fs, b, hp, hm, hn, hmi, he⟩ := parse_ok c hc h
  have h0 := hmi "From"
  rw [missing_from_iff] at h0
  cases hx : fs.findSome? fromOf with
  | none => exact absurd ⟨hd, hx⟩ h0
  | some d =>
    obtain ⟨f, hf, hv⟩ := List.exists_of_findSome?_eq_some hx
    obtain ⟨head, tail, rfl, hh⟩ := message_header c hm
    obtain ⟨x, w, y, rfl, hw⟩ := header_mem c hh hf
    have hw' : HeaderLine (b! "From:") (MailboxList c) w d := by
      cases f <;> simp only [fromOf, Option.some.injEq, reduceCtorEq] at hv
      subst hv
      rcases hw with ⟨-, hw⟩ | ⟨_, _, _, -, -, _, _, _, -, -, _, _, _, -, -, -, hw⟩
      · exact hw
      · cases hw
    refine ⟨d, x, w, y ++ tail, ?_, by simp, hw', fs, b, hp, ?_⟩
    · rw [he.from, if_pos hd, hx]
    · exact filterMap_once (n := "From") fromOf_once hn hx

def requiredExample : Bytes :=
  b! "From: a@b\r\nDate: 1 Jan 2020 00:00:00 +0000\r\nTo: c@d\r\nComments: x\r\nComments: y\r\n\r\nz"

example : (outcomeValue (Email.parse (Cfg.concrete Features.default) requiredExample)).bind
      (fun e => e.date.map fun d => (d.date.day, d.date.year)) = some (1, 2020) := by
  decide +kernel

example : outcomeError (Email.parse (Cfg.concrete Features.default) (b! "From: a@b\r\n")) =
    some (.missingHeader "Date") := by decide +kernel

/-! ### C15 -/

/-- Two fields of the same once-only kind make `Email::parse` fail with the error that names the
kind, the first repetition being the one reported. -/
theorem C15_duplicates_rejected (i : Bytes) (fs before after : List Field) (b : Option Bytes)
    (f g : Field) (name : String) (hp : parseMessage c i = .ok (fs, b))
    (hfs : fs = before ++ f :: after) (hf : onceName f = some name)
    (hg : g ∈ before) (hgn : onceName g = some name)
    (hfirst : NoDuplicate before) :
    Email.parse c i = .err (.duplicateHeader name) := by
  rw [email_parse_eq, hp]
  show (EmailAcc.addAll {} fs).bind _ = _
  rw [addAll_duplicate fs name ⟨before, f, after, hfs, hfirst, hf, g, hg, hgn⟩]
  rfl

/-- In particular a message in which a once-only kind is repeated is never accepted. -/
theorem C15_repeated_kind_never_accepted (i : Bytes) (fs a b d : List Field) (f g : Field)
    (body : Option Bytes) (name : String) (hp : parseMessage c i = .ok (fs, body))
    (hfs : fs = a ++ f :: b ++ g :: d) (hf : onceName f = some name) (hg : onceName g = some name) :
    ∃ name', Email.parse c i = .err (.duplicateHeader name') := by
  have hd : ¬ NoDuplicate fs := by
    subst hfs
    unfold NoDuplicate
    rw [List.filterMap_append, List.filterMap_append, List.filterMap_cons_some hf,
      List.filterMap_cons_some hg]
    intro h
    exact (List.nodup_append.1 h).2.2 name (by simp) name (by simp) rfl
  rcases duplicate_cases fs with h | ⟨n, h⟩
  · exact absurd h hd
  · obtain ⟨x, f', y, h1, h2, h3, g', h4, h5⟩ := h
    exact ⟨n, C15_duplicates_rejected c i fs x y body f' g' n hp h1 h3 h4 h5 h2⟩

/-- If parsing succeeds, every once-only kind occurs at most once, and the value of each member is the
one of the only field of that kind. -/
theorem C15_success_means_unique (hc : c.feat.compiles) (i : Bytes) (e : Email)
    (h : Email.parse c i = .ok e) : ∃ fs b, parseMessage c i = .ok (fs, b) ∧
      (fs.filterMap onceName).Nodup ∧
      (∀ v, .subject v ∈ fs → e.subject = some v) ∧ (∀ v, .to v ∈ fs → e.to = some v) ∧
      (∀ v, .cc v ∈ fs → e.cc = some v) ∧ (∀ v, .bcc v ∈ fs → e.bcc = some v) ∧
      (∀ v, .messageId v ∈ fs → e.messageId = some v) ∧
      (∀ v, .inReplyTo v ∈ fs → e.inReplyTo = some v) ∧
      (∀ v, .references v ∈ fs → e.references = some v) ∧
      (∀ v, .replyTo v ∈ fs → e.replyTo = some v) := by
  obtain ⟨fs, b, hp, hm, hn, hmi, he⟩ := parse_ok c hc h
  refine ⟨fs, b, hp, hn, ?_, ?_, ?_, ?_, ?_, ?_, ?_, ?_⟩
  · intro v hv; rw [he.subject]
    exact findSome_unique (n := "Subject") (by intro f; cases f <;> simp [subjectOf, onceName]) hn hv rfl
  · intro v hv; rw [he.to]
    exact findSome_unique (n := "To") (by intro f; cases f <;> simp [toOf, onceName]) hn hv rfl
  · intro v hv; rw [he.cc]
    exact findSome_unique (n := "Cc") (by intro f; cases f <;> simp [ccOf, onceName]) hn hv rfl
  · intro v hv; rw [he.bcc]
    exact findSome_unique (n := "Bcc") (by intro f; cases f <;> simp [bccOf, onceName]) hn hv rfl
  · intro v hv; rw [he.messageId]
    exact findSome_unique (n := "Message-ID") (by intro f; cases f <;> simp [messageIdOf, onceName]) hn hv rfl
  · intro v hv; rw [he.inReplyTo]
    exact findSome_unique (n := "In-Reply-To") (by intro f; cases f <;> simp [inReplyToOf, onceName]) hn hv rfl
  · intro v hv; rw [he.references]
    exact findSome_unique (n := "References") (by intro f; cases f <;> simp [referencesOf, onceName]) hn hv rfl
  · intro v hv; rw [he.replyTo]
    exact findSome_unique (n := "Reply-To") (by intro f; cases f <;> simp [replyToOf, onceName]) hn hv rfl

example : outcomeError (Email.parse (Cfg.concrete Features.default)
    (b! "From: a@b\r\nTo: c@d\r\nTo: c@d\r\nFrom: a@b\r\n")) =
    some (.duplicateHeader "To") := by decide +kernel

example : (outcomeValue (Email.parse (Cfg.concrete Features.default) requiredExample)).map
      (fun e => (e.to, e.cc)) =
    some (some [.mailbox { name := none, address := ⟨b! "c", b! "d"⟩ }], none) := by
  decide +kernel

/-! ### C16 -/

/-- The sender reported is the one of the `Sender` header if there is one, otherwise the only
author. -/
theorem C16_sender_reported (hc : c.feat.compiles) (hs : c.feat.sender = true) (i : Bytes)
    (e : Email) (h : Email.parse c i = .ok e) : ∃ fs b, parseMessage c i = .ok (fs, b) ∧
      ((∃ s, .sender s ∈ fs ∧ e.sender = some s) ∨
        ((∀ s, .sender s ∉ fs) ∧ ∃ author, e.from = some [author] ∧ e.sender = some author)) := by
  obtain ⟨fs, b, hp, hm, hn, hmi, he⟩ := parse_ok c hc h
  refine ⟨fs, b, hp, ?_⟩
  have h0 := hmi "Sender"
  rw [missing_sender_iff hn] at h0
  rw [he.sender, if_pos hs, he.from, if_pos (hc.1 hs)]
  cases hx : fs.findSome? senderOf with
  | some s =>
    left
    obtain ⟨f, hf, hv⟩ := List.exists_of_findSome?_eq_some hx
    cases f <;> simp only [senderOf, Option.some.injEq, reduceCtorEq] at hv
    subst hv
    exact ⟨_, hf, rfl⟩
  | none =>
    right
    refine ⟨fun s hs' => ?_, ?_⟩
    · have := List.findSome?_eq_none_iff.1 hx _ hs'
      cases this
    · have h1 : ((fs.findSome? fromOf).getD []).length = 1 :=
        Classical.byContradiction fun hl => h0 ⟨hs, hx, hl⟩
      cases hy : fs.findSome? fromOf with
      | none => rw [hy] at h1; simp at h1
      | some l =>
        rw [hy] at h1
        match l, h1 with
        | [m], _ => exact ⟨m, rfl, rfl⟩

/-- Several authors, or none, and no `Sender` header: parsing fails, and if nothing else is wrong the
error is the missing `Sender`. -/
theorem C16_sender_missing (hc : c.feat.compiles) (hs : c.feat.sender = true) (i : Bytes)
    (fs : List Field) (b : Option Bytes) (hp : parseMessage c i = .ok (fs, b))
    (hd : NoDuplicate fs) (hdate : ∃ d, .date d ∈ fs) (authors : List Mailbox)
    (hf : .from authors ∈ fs) (hl : authors.length ≠ 1) (hno : ∀ s, .sender s ∉ fs) :
    Email.parse c i = .err (.missingHeader "Sender") := by
  rw [email_parse_eq, hp]
  show emailFrom c fs b = _
  rw [emailFrom_iff hc]
  have hfrom := findSome_unique fromOf_once hd hf rfl
  refine .missing hd ((missing_sender_iff hd).2 ⟨hs, ?_, ?_⟩) fun n hn => ?_
  · rw [List.findSome?_eq_none_iff]
    intro f hf'
    cases f with
    | sender s => exact absurd hf' (hno s)
    | _ => rfl
  · rw [hfrom]; exact hl
  · rcases missing_name hn with rfl | rfl | rfl
    · rw [missing_from_iff, hfrom] at hn
      cases hn.2
    · obtain ⟨d, hd'⟩ := hdate
      rw [missing_date_iff, List.findSome?_eq_none_iff] at hn
      cases hn.2 _ hd'
    · exact Nat.le_refl _

def twoAuthors (sender : Bytes) : Bytes :=
  b! "From: a@b, c@d\r\nDate: 1 Jan 2020 00:00:00 +0000\r\n" ++ sender ++ b! "\r\n"

example : outcomeError (Email.parse (Cfg.concrete Features.default) (twoAuthors [])) =
    some (.missingHeader "Sender") := by decide +kernel
example : (outcomeValue (Email.parse (Cfg.concrete Features.default)
      (twoAuthors (b! "Sender: e@f\r\n")))).bind (·.sender) =
    some { name := none, address := ⟨b! "e", b! "f"⟩ } := by decide +kernel
example : (outcomeValue (Email.parse (Cfg.concrete Features.default) requiredExample)).bind
    (·.sender) = some { name := none, address := ⟨b! "a", b! "b"⟩ } := by decide +kernel

/-! ### C17 -/

/-- Every member of the e-mail is determined by the fields: comments, keywords, trace blocks and
unknown fields are kept in order and with multiplicity, optional members are present iff a field of
that kind is. -/
theorem C17_nothing_lost (hc : c.feat.compiles) (i : Bytes) (e : Email)
    (h : Email.parse c i = .ok e) : ∃ fs b, parseMessage c i = .ok (fs, b) ∧ IsEmail c fs b e := by
  obtain ⟨fs, b, hp, -, -, -, he⟩ := parse_ok c hc h
  exact ⟨fs, b, hp, he⟩

/-- And conversely the fields determine the e-mail. -/
theorem C17_email_determined (hc : c.feat.compiles) (i : Bytes) (fs : List Field)
    (b : Option Bytes) (hp : parseMessage c i = .ok (fs, b)) (e : Email) :
    Email.parse c i = .ok e ↔
      NoDuplicate fs ∧ (∀ n, ¬ Missing c fs n) ∧ IsEmail c fs b e := by
  rw [email_parse_eq, hp]
  show emailFrom c fs b = _ ↔ _
  rw [emailFrom_iff hc]
  constructor
  · intro h; cases h with | email h1 h2 h3 => exact ⟨h1, h2, h3⟩
  · rintro ⟨h1, h2, h3⟩; exact .email h1 h2 h3

example : (outcomeValue (Email.parse (Cfg.concrete Features.default) requiredExample)).map
      (fun e => (e.comments, e.body)) = some ([b! " x", b! " y"], some (b! "z")) := by
  decide +kernel

/-! ### C18 -/

/-- The kind of a field. -/
def fieldKind : Field → String
  | .comments _ => "Comments"
  | .keywords _ => "Keywords"
  | .trace _ _ _ => "trace"
  | .unknown _ _ => "unknown"
  | f => (onceName f).getD ""

theorem findSome_swap {α : Type} {g : Field → Option α} {k : String}
    (hg : ∀ f, (g f).isSome = true → fieldKind f = k) {f f' : Field}
    (hk : fieldKind f ≠ fieldKind f') (xs ys : List Field) :
    (xs ++ f :: f' :: ys).findSome? g = (xs ++ f' :: f :: ys).findSome? g := by
  rw [List.findSome?_append, List.findSome?_append]
  congr 1
  cases h : g f with
  | none => cases h' : g f' <;> simp [h, h']
  | some v =>
    cases h' : g f' with
    | none => simp [h, h']
    | some v' => exact absurd ((hg f (by rw [h]; rfl)).trans (hg f' (by rw [h']; rfl)).symm) hk

theorem filterMap_swap {α : Type} {g : Field → Option α} {k : String}
    (hg : ∀ f, (g f).isSome = true → fieldKind f = k) {f f' : Field}
    (hk : fieldKind f ≠ fieldKind f') (xs ys : List Field) :
    (xs ++ f :: f' :: ys).filterMap g = (xs ++ f' :: f :: ys).filterMap g := by
  rw [List.filterMap_append, List.filterMap_append]
  congr 1
  cases h : g f with
  | none => cases h' : g f' <;> simp [h, h']
  | some v =>
    cases h' : g f' with
    | none => simp [h, h']
    | some v' => exact absurd ((hg f (by rw [h]; rfl)).trans (hg f' (by rw [h']; rfl)).symm) hk

/-- Swapping two neighbouring fields of different kinds changes neither whether the e-mail is
accepted nor any member of it.  (Stated on the parsed fields.) -/
theorem C18_order_irrelevant (hc : c.feat.compiles) (xs ys : List Field) (f f' : Field)
    (hk : fieldKind f ≠ fieldKind f') (content : Option Bytes) (e : Email) :
    emailFrom c (xs ++ f :: f' :: ys) content = .ok e ↔
      emailFrom c (xs ++ f' :: f :: ys) content = .ok e := by
  have main : ∀ f f' : Field, fieldKind f ≠ fieldKind f' →
      emailFrom c (xs ++ f :: f' :: ys) content = .ok e →
      emailFrom c (xs ++ f' :: f :: ys) content = .ok e := by
    intro f f' hk
    have hmem : ∀ x, x ∈ xs ++ f' :: f :: ys ↔ x ∈ xs ++ f :: f' :: ys := by
      intro x; simp only [List.mem_append, List.mem_cons]
      constructor
      · rintro (h | h | h | h) <;> simp [h]
      · rintro (h | h | h | h) <;> simp [h]
    rw [emailFrom_iff hc, emailFrom_iff hc]
    intro h
    cases h with
    | email hd hm he =>
      refine .email ?_ (fun n hn => hm n ?_) ?_
      · unfold NoDuplicate at hd ⊢
        refine (List.Perm.nodup_iff ?_).1 hd
        exact ((List.Perm.swap f' f ys).append_left xs).filterMap _
      · unfold Missing at hn ⊢
        simpa only [hmem] using hn
      · have hs := fun {α : Type} {g : Field → Option α} {k : String}
          (hg : ∀ f, (g f).isSome = true → fieldKind f = k) => findSome_swap hg hk xs ys
        have hfm := fun {α : Type} {g : Field → Option α} {k : String}
          (hg : ∀ f, (g f).isSome = true → fieldKind f = k) => filterMap_swap hg hk xs ys
        have hkw : (xs ++ f' :: f :: ys).flatMap keywordsOf =
            (xs ++ f :: f' :: ys).flatMap keywordsOf := by
          rw [List.flatMap_append, List.flatMap_append]
          congr 1
          simp only [List.flatMap_cons]
          have h1 : ∀ f, keywordsOf f ≠ [] → fieldKind f = "Keywords" := by
            intro f; cases f <;> simp [keywordsOf, fieldKind]
          by_cases h : keywordsOf f = []
          · rw [h]; simp
          · by_cases h' : keywordsOf f' = []
            · rw [h']; simp
            · exact absurd ((h1 f h).trans (h1 f' h').symm) hk
        refine ⟨?_, ?_, ?_, ?_, ?_, ?_, ?_, ?_, ?_, ?_, ?_, ?_, ?_, ?_, ?_, ?_, ?_, ?_⟩
        · rw [he.from, hs (k := "From") (by intro f; cases f <;> simp [fromOf, fieldKind, onceName])]
        · rw [he.date, hs (k := "Date") (by intro f; cases f <;> simp [dateOf, fieldKind, onceName])]
        · rw [he.sender,
            hs (g := fromOf) (k := "From") (by intro f; cases f <;> simp [fromOf, fieldKind, onceName]),
            hs (k := "Sender") (by intro f; cases f <;> simp [senderOf, fieldKind, onceName])]
        · rw [he.subject, hs (k := "Subject") (by intro f; cases f <;> simp [subjectOf, fieldKind, onceName])]
        · rw [he.to, hs (k := "To") (by intro f; cases f <;> simp [toOf, fieldKind, onceName])]
        · rw [he.cc, hs (k := "Cc") (by intro f; cases f <;> simp [ccOf, fieldKind, onceName])]
        · rw [he.bcc, hs (k := "Bcc") (by intro f; cases f <;> simp [bccOf, fieldKind, onceName])]
        · rw [he.messageId, hs (k := "Message-ID") (by intro f; cases f <;> simp [messageIdOf, fieldKind, onceName])]
        · rw [he.inReplyTo, hs (k := "In-Reply-To") (by intro f; cases f <;> simp [inReplyToOf, fieldKind, onceName])]
        · rw [he.references, hs (k := "References") (by intro f; cases f <;> simp [referencesOf, fieldKind, onceName])]
        · rw [he.replyTo, hs (k := "Reply-To") (by intro f; cases f <;> simp [replyToOf, fieldKind, onceName])]
        · rw [he.comments, hfm (k := "Comments") (by intro f; cases f <;> simp [commentsOf, fieldKind])]
        · rw [he.keywords, hkw]
        · rw [he.trace, hfm (k := "trace") (by intro f; cases f <;> simp [traceOf, fieldKind])]
        · rw [he.unknownFields, hfm (k := "unknown") (by intro f; cases f <;> simp [unknownOf, fieldKind])]
        · exact he.body
        · exact he.noEntity
        · intro hm
          obtain ⟨r, h0, h1, h2, h3, h4, h5, h6, h7⟩ := he.entity hm
          refine ⟨r, h0, ?_, ?_, ?_, ?_, h5, h6, ?_⟩
          · rw [h1, hs (k := "Content-Type") (by intro f; cases f <;> simp [contentTypeOf, fieldKind, onceName])]
          · rw [h2, hs (k := "Content-Description") (by intro f; cases f <;> simp [contentDescriptionOf, fieldKind, onceName])]
          · rw [h3, hs (k := "Content-Id") (by intro f; cases f <;> simp [contentIdOf, fieldKind, onceName])]
          · rw [h4, hs (k := "Content-Disposition") (by intro f; cases f <;> simp [contentDispositionOf, fieldKind, onceName])]
          · rw [← hs (k := "Content-Transfer-Encoding") (by intro f; cases f <;> simp [encodingOf, fieldKind, onceName])]
            exact h7
  exact ⟨main f f' hk, main f' f hk.symm⟩

/-- Two orders of the same fields. -/
example : (outcomeValue (emailFrom (Cfg.concrete Features.default)
    [.subject (b! "s"), .from [⟨none, ⟨b! "a", b! "b"⟩⟩], .unknown (b! "x") (b! "y"),
      .date ⟨none, ⟨1, .january, 2020⟩, ⟨⟨0, 0, 0⟩, ⟨true, 0, 0⟩⟩⟩] none)).map
      (fun e => (e.subject, e.unknownFields)) =
    some (some (b! "s"), [(b! "x", b! "y")]) := by decide +kernel

/-! ### C19 and C09 -/

/-- The result, and hence the error reported, is exactly the one of the specification: a syntax error
of the message comes first, then the first duplicate, then a missing `From`, `Date`, `Sender`, then
an undecodable body (`Spec.EmailResult`, `Spec.missingRank`). -/
theorem C19_error_precedence (hc : c.feat.compiles) (i : Bytes) :
    (∀ e, parseMessage c i = .err e → Email.parse c i = .err e) ∧
    (∀ fs b, parseMessage c i = .ok (fs, b) →
      ∀ r, Email.parse c i = r ↔ EmailResult c fs b r) := by
  constructor
  · intro e h; rw [email_parse_eq, h]; rfl
  · intro fs b h r
    rw [email_parse_eq, h]
    exact emailFrom_iff hc fs b r

/-- Missing `From`, missing `Date`, duplicate and undecodable body: the duplicate is reported;
without it `From`, without that `Date`, without that the body. -/
example :
    outcomeError (Email.parse (Cfg.concrete Features.full)
      (b! "Content-Transfer-Encoding: x\r\nTo: a@b\r\nTo: a@b\r\n\r\nz")) =
      some (.duplicateHeader "To") ∧
    outcomeError (Email.parse (Cfg.concrete Features.full)
      (b! "Content-Transfer-Encoding: x\r\nTo: a@b\r\n\r\nz")) = some (.missingHeader "From") ∧
    outcomeError (Email.parse (Cfg.concrete Features.full)
      (b! "Content-Transfer-Encoding: x\r\nFrom: a@b\r\n\r\nz")) =
      some (.missingHeader "Date") ∧
    outcomeError (Email.parse (Cfg.concrete Features.full)
      (b! "Content-Transfer-Encoding: x\r\nFrom: a@b\r\nDate: 1 Jan 2020 00:00:00 +0000\r\n\r\nz")) =
      some (.unknown "Unknown format") := by decide +kernel

/-- The errors of transfer decoding. -/
theorem decodeValue_err {b : Bytes} {t : ContentTransferEncoding} {e : Error}
    (h : decodeValue b t = .err e) :
    (t = .base64 ∧ (e = .unknown "Missing at least 3 bytes" ∨ e = .unknown "Missing at least 2 bytes" ∨
      e = .unknown "Missing at least 1 byte" ∨ e = .unknown "Data after end of data")) ∨
    ((∃ name, t = .unknown name) ∧ e = .unknown "Unknown format") := by
  cases t with
  | base64 =>
    left
    refine ⟨rfl, ?_⟩
    have h : decodeBase64 b = .err e := h
    rw [decodeBase64_eq] at h
    exact b64Decode_err h
  | unknown n => cases h; exact .inr ⟨⟨n, rfl⟩, rfl⟩
  | quotedPrintable => simp [decodeValue, decodeQp_eq] at h
  | _ => cases h

/-- The complete list of the errors of `Email::parse`.  No other error, in particular none of a
header parser, is ever returned. -/
theorem C09_errors (hc : c.feat.compiles) (i : Bytes) (e : Error) (h : Email.parse c i = .err e) :
    e = .explicit "TAG ERROR: Headers must be followed by a CRLF sequence." ∨
    (c.feat.mime = false ∧
      e = .explicit "TAG ERROR: In a body, a line must end with a CRLF sequence.") ∨
    (∃ f name, onceName f = some name ∧ e = .duplicateHeader name) ∨
    (c.feat.from = true ∧ e = .missingHeader "From") ∨
    (c.feat.date = true ∧ e = .missingHeader "Date") ∨
    (c.feat.sender = true ∧ e = .missingHeader "Sender") ∨
    (c.feat.mime = true ∧ (e = .unknown "Unknown format" ∨ e = .unknown "Missing at least 3 bytes" ∨
      e = .unknown "Missing at least 2 bytes" ∨ e = .unknown "Missing at least 1 byte" ∨
      e = .unknown "Data after end of data")) := by
  rw [email_parse_eq] at h
  rcases bind_eq_err.1 h with h | ⟨⟨fs, b⟩, hp, h⟩
  · rw [parseMessage_eq] at h
    rcases bind_eq_err.1 h with h | ⟨r, -, h⟩
    · exact absurd h (fields_no_err _ _)
    · rcases bind_eq_err.1 h with h | ⟨b, -, h⟩
      · have h2 := afterHeaders_spec (c := c) r.1
        rw [h] at h2
        rcases h2 with ⟨rfl, -⟩ | ⟨hm, rfl, -⟩
        · exact .inl rfl
        · exact .inr (.inl ⟨hm, rfl⟩)
      · cases h
  · have hr := (emailFrom_iff hc fs b (.err e)).1 h
    clear h
    cases hr with
    | duplicate hdup =>
      obtain ⟨_, f, _, -, -, hf, -⟩ := hdup
      exact .inr (.inr (.inl ⟨f, _, hf, rfl⟩))
    | missing hd hm _ =>
      rcases hm with ⟨rfl, h, -⟩ | ⟨rfl, h, -⟩ | ⟨rfl, h, -⟩
      · exact .inr (.inr (.inr (.inl ⟨h, rfl⟩)))
      · exact .inr (.inr (.inr (.inr (.inl ⟨h, rfl⟩))))
      · exact .inr (.inr (.inr (.inr (.inr (.inl ⟨h, rfl⟩)))))
    | undecodable _ _ hm _ he =>
      refine .inr (.inr (.inr (.inr (.inr (.inr ⟨hm, ?_⟩)))))
      rcases decodeValue_err ((decodeValue_eq _ _).trans he) with ⟨-, h | h | h | h⟩ | ⟨-, h⟩ <;> simp [h]

/-- A malformed date is not an error by itself: the header is kept as an unknown field. -/
example : (outcomeValue (parseMessage (Cfg.concrete Features.default) (b! "Date: yesterday\r\n"))).map
    (fun r => r.1.filterMap unknownOf) = some [(b! "Date", b! " yesterday")] := by decide +kernel
example : outcomeError (Email.parse (Cfg.concrete Features.default) (b! "From: a@b\r\nnothing")) =
    some (.explicit "TAG ERROR: Headers must be followed by a CRLF sequence.") := by decide +kernel

/-- The errors `Email::parse` can report. -/
def reportedErrors : List Error :=
  .explicit "TAG ERROR: Headers must be followed by a CRLF sequence." ::
  .explicit "TAG ERROR: In a body, a line must end with a CRLF sequence." ::
  ["From", "Date", "Sender"].map .missingHeader ++
  ["Unknown format", "Missing at least 3 bytes", "Missing at least 2 bytes", "Missing at least 1 byte",
    "Data after end of data"].map .unknown ++
  ["Date", "From", "Sender", "Reply-To", "To", "Cc", "Bcc", "Message-ID", "In-Reply-To", "References", "Subject",
    "Mime-Version", "Content-Type", "Content-Transfer-Encoding", "Content-Id", "Content-Description",
    "Content-Disposition"].map .duplicateHeader

/-- The text of an error (`impl Display for Error`) tells which of the errors it is, whatever was parsed. -/
theorem C09_display (c c' : Cfg) (hc : c.feat.compiles) (hc' : c'.feat.compiles) (i i' : Bytes) (e e' : Error)
    (h : Email.parse c i = .err e) (h' : Email.parse c' i' = .err e') (hd : e.display = e'.display) : e = e' := by
  have key : ∀ {c : Cfg} {i : Bytes} {e : Error}, c.feat.compiles → Email.parse c i = .err e →
      e ∈ reportedErrors := by
    intro c i e hc h
    rcases C09_errors c hc i e h with rfl | ⟨-, rfl⟩ | ⟨f, name, hf, rfl⟩ | ⟨-, rfl⟩ | ⟨-, rfl⟩ | ⟨-, rfl⟩ |
      ⟨-, rfl | rfl | rfl | rfl | rfl⟩
    case inr.inr.inl => cases f <;> cases hf <;> decide +kernel
    all_goals decide +kernel
  have inj : ∀ a ∈ reportedErrors, ∀ b ∈ reportedErrors, a.display = b.display → a = b := by decide +kernel
  exact inj e (key hc h) e' (key hc' h') hd

example : (outcomeError (Email.parse (Cfg.concrete Features.default) (b! "To: a@b\r\n\r\n"))).map Error.display =
    some "A valid From header is required." := by decide +kernel
example : (outcomeError (Email.parse (Cfg.concrete Features.default) (b! "To: a@b\r\nTo: a@b\r\n\r\n"))).map Error.display =
    some "There are too many To headers in this mail." := by decide +kernel

end EmailParser
