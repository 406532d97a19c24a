import Verif.Spec.Email
import Verif.Proofs.Message
/-
From the header fields to the e-mail (src/email.rs).
-/
namespace EmailParser
open Spec

variable {α : Type} {c : Cfg}

/-- The variables of `Email::parse` after the loop, as a function of the fields. -/
def accOf (fs : List Field) : EmailAcc where
  «from» := fs.findSome? fromOf
  sender := fs.findSome? senderOf
  subject := fs.findSome? subjectOf
  date := fs.findSome? dateOf
  to := fs.findSome? toOf
  cc := fs.findSome? ccOf
  bcc := fs.findSome? bccOf
  messageId := fs.findSome? messageIdOf
  inReplyTo := fs.findSome? inReplyToOf
  references := fs.findSome? referencesOf
  replyTo := fs.findSome? replyToOf
  comments := fs.filterMap commentsOf
  keywords := fs.flatMap keywordsOf
  trace := fs.filterMap traceOf
  mimeVersion := fs.findSome? mimeVersionOf
  contentType := fs.findSome? contentTypeOf
  contentTransferEncoding := fs.findSome? encodingOf
  contentId := fs.findSome? contentIdOf
  contentDescription := fs.findSome? contentDescriptionOf
  contentDisposition := fs.findSome? contentDispositionOf
  unknownFields := fs.filterMap unknownOf

theorem findSome_eq_none {g : Field → Option α} {n : String}
    (hg : ∀ f, (g f).isSome = true ↔ onceName f = some n) (fs : List Field) :
    fs.findSome? g = none ↔ n ∉ fs.filterMap onceName := by
  rw [List.findSome?_eq_none_iff]
  simp only [List.mem_filterMap, not_exists, not_and]
  constructor
  · intro h f hf hn
    have := (hg f).2 hn
    rw [h f hf] at this
    cases this
  · intro h f hf
    cases hx : g f with
    | none => rfl
    | some v => exact absurd ((hg f).1 (by rw [hx]; rfl)) (h f hf)

attribute [local simp] dateOf fromOf senderOf replyToOf toOf ccOf bccOf messageIdOf inReplyToOf
  referencesOf subjectOf mimeVersionOf contentTypeOf encodingOf contentIdOf contentDescriptionOf
  contentDispositionOf commentsOf keywordsOf traceOf unknownOf

theorem add_accOf (fs : List Field) (f : Field) : (accOf fs).add f =
    match onceName f with
    | none => .ok (accOf (fs ++ [f]))
    | some n => if n ∈ fs.filterMap onceName then .err (.duplicateHeader n)
        else .ok (accOf (fs ++ [f])) := by
  have key : ∀ {α : Type} {g : Field → Option α} {n : String} {v : α} {set : Option α → EmailAcc}
      (_ : ∀ f, (g f).isSome = true ↔ onceName f = some n)
      (_ : fs.findSome? g = none → set (some v) = accOf (fs ++ [f])),
      setOnce n (fs.findSome? g) v set = if n ∈ fs.filterMap onceName then .err (.duplicateHeader n)
        else .ok (accOf (fs ++ [f])) := by
    intro α g n v set hg hs
    have h := findSome_eq_none hg fs
    cases hx : fs.findSome? g with
    | none => rw [if_neg (h.1 hx)]; simp only [setOnce, hs hx]
    | some w =>
      rw [if_pos (Classical.byContradiction fun hn => by rw [h.2 hn] at hx; cases hx)]
      rfl
  have hof : ∀ {α : Type} (g : Field → Option α), (fs ++ [f]).findSome? g =
      (fs.findSome? g).or (g f) := by
    intro α g; simp [List.findSome?_append]
  have hmap : ∀ {α : Type} (g : Field → Option α), (fs ++ [f]).filterMap g =
      fs.filterMap g ++ (g f).toList := by
    intro α g; cases h : g f <;> simp [h]
  have hflat : (fs ++ [f]).flatMap keywordsOf = fs.flatMap keywordsOf ++ keywordsOf f := by simp
  cases f
  case comments => simp [EmailAcc.add, onceName, accOf, hof, hmap]
  case keywords => simp [EmailAcc.add, onceName, accOf, hof, hmap, hflat]
  case trace => simp [EmailAcc.add, onceName, accOf, hof, hmap, hflat]
  case unknown => simp [EmailAcc.add, onceName, accOf, hof, hmap, hflat]
  case date =>
    dsimp only [EmailAcc.add, onceName]
    refine key (g := dateOf) ?_ ?_
    · intro f; cases f <;> simp [onceName, dateOf]
    · intro h; simp [accOf, hof, hmap, hflat, h]
  case «from» =>
    dsimp only [EmailAcc.add, onceName]
    refine key (g := fromOf) ?_ ?_
    · intro f; cases f <;> simp [onceName, fromOf]
    · intro h; simp [accOf, hof, hmap, hflat, h]
  case sender =>
    dsimp only [EmailAcc.add, onceName]
    refine key (g := senderOf) ?_ ?_
    · intro f; cases f <;> simp [onceName, senderOf]
    · intro h; simp [accOf, hof, hmap, hflat, h]
  case replyTo =>
    dsimp only [EmailAcc.add, onceName]
    refine key (g := replyToOf) ?_ ?_
    · intro f; cases f <;> simp [onceName, replyToOf]
    · intro h; simp [accOf, hof, hmap, hflat, h]
  case to =>
    dsimp only [EmailAcc.add, onceName]
    refine key (g := toOf) ?_ ?_
    · intro f; cases f <;> simp [onceName, toOf]
    · intro h; simp [accOf, hof, hmap, hflat, h]
  case cc =>
    dsimp only [EmailAcc.add, onceName]
    refine key (g := ccOf) ?_ ?_
    · intro f; cases f <;> simp [onceName, ccOf]
    · intro h; simp [accOf, hof, hmap, hflat, h]
  case bcc =>
    dsimp only [EmailAcc.add, onceName]
    refine key (g := bccOf) ?_ ?_
    · intro f; cases f <;> simp [onceName, bccOf]
    · intro h; simp [accOf, hof, hmap, hflat, h]
  case messageId =>
    dsimp only [EmailAcc.add, onceName]
    refine key (g := messageIdOf) ?_ ?_
    · intro f; cases f <;> simp [onceName, messageIdOf]
    · intro h; simp [accOf, hof, hmap, hflat, h]
  case inReplyTo =>
    dsimp only [EmailAcc.add, onceName]
    refine key (g := inReplyToOf) ?_ ?_
    · intro f; cases f <;> simp [onceName, inReplyToOf]
    · intro h; simp [accOf, hof, hmap, hflat, h]
  case references =>
    dsimp only [EmailAcc.add, onceName]
    refine key (g := referencesOf) ?_ ?_
    · intro f; cases f <;> simp [onceName, referencesOf]
    · intro h; simp [accOf, hof, hmap, hflat, h]
  case subject =>
    dsimp only [EmailAcc.add, onceName]
    refine key (g := subjectOf) ?_ ?_
    · intro f; cases f <;> simp [onceName, subjectOf]
    · intro h; simp [accOf, hof, hmap, hflat, h]
  case mimeVersion =>
    dsimp only [EmailAcc.add, onceName]
    refine key (g := mimeVersionOf) ?_ ?_
    · intro f; cases f <;> simp [onceName, mimeVersionOf]
    · intro h; simp [accOf, hof, hmap, hflat, h]
  case contentType =>
    dsimp only [EmailAcc.add, onceName]
    refine key (g := contentTypeOf) ?_ ?_
    · intro f; cases f <;> simp [onceName, contentTypeOf]
    · intro h; simp [accOf, hof, hmap, hflat, h]
  case contentTransferEncoding =>
    dsimp only [EmailAcc.add, onceName]
    refine key (g := encodingOf) ?_ ?_
    · intro f; cases f <;> simp [onceName, encodingOf]
    · intro h; simp [accOf, hof, hmap, hflat, h]
  case contentId =>
    dsimp only [EmailAcc.add, onceName]
    refine key (g := contentIdOf) ?_ ?_
    · intro f; cases f <;> simp [onceName, contentIdOf]
    · intro h; simp [accOf, hof, hmap, hflat, h]
  case contentDescription =>
    dsimp only [EmailAcc.add, onceName]
    refine key (g := contentDescriptionOf) ?_ ?_
    · intro f; cases f <;> simp [onceName, contentDescriptionOf]
    · intro h; simp [accOf, hof, hmap, hflat, h]
  case contentDisposition =>
    dsimp only [EmailAcc.add, onceName]
    refine key (g := contentDispositionOf) ?_ ?_
    · intro f; cases f <;> simp [onceName, contentDispositionOf]
    · intro h; simp [accOf, hof, hmap, hflat, h]

theorem addAll_append (a : EmailAcc) (fs gs : List Field) :
    a.addAll (fs ++ gs) = (a.addAll fs).bind fun a => a.addAll gs := by
  induction fs generalizing a with
  | nil => rfl
  | cons f fs ih =>
    show (a.add f).bind (fun a => a.addAll (fs ++ gs)) =
      ((a.add f).bind fun a => a.addAll fs).bind fun a => a.addAll gs
    cases a.add f with
    | ok a => exact ih a
    | err e => rfl
    | abort k => rfl

theorem noDuplicate_append {fs gs : List Field} (h : NoDuplicate (fs ++ gs)) : NoDuplicate fs := by
  unfold NoDuplicate at h ⊢
  rw [List.filterMap_append] at h
  exact h.sublist (List.sublist_append_left _ _)

/-- Fields without duplicates are all collected. -/
theorem addAll_ok (fs : List Field) (h : NoDuplicate fs) : EmailAcc.addAll {} fs = .ok (accOf fs) := by
  suffices ∀ gs fs, NoDuplicate (fs ++ gs) → (accOf fs).addAll gs = .ok (accOf (fs ++ gs)) from
    this fs [] h
  intro gs
  induction gs with
  | nil => intro fs _; rw [List.append_nil]; rfl
  | cons f gs ih =>
    intro fs h
    show ((accOf fs).add f).bind (fun a => a.addAll gs) = _
    have he : fs ++ f :: gs = fs ++ [f] ++ gs := by simp
    have hadd : (accOf fs).add f = .ok (accOf (fs ++ [f])) := by
      rw [add_accOf]
      cases hn : onceName f with
      | none => rfl
      | some n =>
        dsimp only
        rw [if_neg]
        intro hm
        unfold NoDuplicate at h
        rw [List.filterMap_append, List.filterMap_cons_some hn] at h
        exact (List.nodup_append.1 h).2.2 n hm n (by simp) rfl
    rw [hadd, he]
    exact ih _ (he ▸ h)

/-- The first duplicate is reported. -/
theorem addAll_duplicate (fs : List Field) (n : String) (h : FirstDuplicate fs n) :
    EmailAcc.addAll {} fs = .err (.duplicateHeader n) := by
  obtain ⟨before, f, after, rfl, hb, hf, g, hg, hgn⟩ := h
  rw [addAll_append, addAll_ok before hb]
  show ((accOf before).add f).bind _ = _
  rw [add_accOf, hf]
  dsimp only
  rw [if_pos (List.mem_filterMap.2 ⟨g, hg, hgn⟩)]
  rfl

theorem duplicate_cases (fs : List Field) : NoDuplicate fs ∨ ∃ n, FirstDuplicate fs n := by
  suffices ∀ gs fs, NoDuplicate fs → NoDuplicate (fs ++ gs) ∨ ∃ n, FirstDuplicate (fs ++ gs) n from
    this fs [] (by simp [NoDuplicate])
  intro gs
  induction gs with
  | nil => intro fs h; rw [List.append_nil]; exact .inl h
  | cons f gs ih =>
    intro fs h
    have he : fs ++ f :: gs = fs ++ [f] ++ gs := by simp
    by_cases hd : ∃ n, onceName f = some n ∧ n ∈ fs.filterMap onceName
    · obtain ⟨n, hn, hm⟩ := hd
      obtain ⟨g, hg, hgn⟩ := List.mem_filterMap.1 hm
      exact .inr ⟨n, fs, f, gs, rfl, h, hn, g, hg, hgn⟩
    · rw [he]
      apply ih
      unfold NoDuplicate at h ⊢
      rw [List.filterMap_append]
      cases hn : onceName f with
      | none => rw [List.filterMap_cons_none hn]; simpa using h
      | some n =>
        rw [List.filterMap_cons_some hn]
        refine List.nodup_append.2 ⟨h, by simp, fun a ha b hb => ?_⟩
        simp only [List.filterMap_nil, List.mem_singleton] at hb
        subst hb
        rintro rfl
        exact hd ⟨a, hn, ha⟩

theorem Spec.FirstDuplicate.unique {fs : List Field} {n m : String} (h : FirstDuplicate fs n)
    (h' : FirstDuplicate fs m) : n = m := by
  have h1 := addAll_duplicate fs n h
  rw [addAll_duplicate fs m h'] at h1
  cases h1; rfl

theorem Spec.FirstDuplicate.not {fs : List Field} {n : String} (h : FirstDuplicate fs n) :
    ¬ NoDuplicate fs := by
  intro h'
  have h1 := addAll_duplicate fs n h
  rw [addAll_ok fs h'] at h1
  cases h1

/-- The errors of base64 decoding. -/
theorem b64Decode_err {st : B64State} {ts : List B64Token} {e : Error}
    (h : b64Decode st ts = .err e) : e = .unknown "Missing at least 3 bytes" ∨
      e = .unknown "Missing at least 2 bytes" ∨ e = .unknown "Missing at least 1 byte" ∨
      e = .unknown "Data after end of data" := by
  induction ts generalizing st with
  | nil => cases st <;> cases h <;> simp
  | cons t ts ih =>
    cases st <;> cases t <;> simp only [b64Decode] at h
    all_goals first
      | exact ih h
      | (cases h; simp; done)
      | (rcases bind_eq_err.1 h with h | ⟨_, _, h⟩
         · exact ih h
         · cases h)

/-! ### The checks after the loop -/

theorem required_eq (b : Bool) (name : String) (x : Option α) : required b name x =
    if b = true ∧ x = none then .err (.missingHeader name)
    else .ok (if b then x else none) := by
  unfold required
  cases b <;> cases x <;> simp

theorem inferSender_eq (b : Bool) (s : Option Mailbox) (fr : Option (List Mailbox)) :
    inferSender b s fr =
    if b = true ∧ s = none ∧ (fr.getD []).length ≠ 1 then .err (.missingHeader "Sender")
    else .ok (if b then s.or (fr.bind List.head?) else none) := by
  unfold inferSender
  cases b with
  | false => simp
  | true =>
    cases s with
    | some s => simp
    | none =>
      cases fr with
      | none => simp
      | some l =>
        match l with
        | [] => simp
        | [m] => simp
        | a :: b :: l => simp

/-- `Email::parse` after `parse_message`. -/
def emailFrom (c : Cfg) (fs : List Field) (content : Option Bytes) : Outcome Email :=
  (EmailAcc.addAll {} fs).bind fun a => a.finish c content

theorem email_parse_eq (i : Bytes) : Email.parse c i =
    (parseMessage c i).bind fun r => emailFrom c r.1 r.2 := rfl

theorem missing_from_iff {fs : List Field} :
    Missing c fs "From" ↔ c.feat.from = true ∧ fs.findSome? fromOf = none := by
  rw [List.findSome?_eq_none_iff]
  constructor
  · rintro (⟨-, h⟩ | ⟨h, -⟩ | ⟨h, -⟩)
    · exact h
    all_goals exact absurd h (by decide)
  · rintro ⟨h1, h2⟩; exact .inl ⟨rfl, h1, h2⟩

theorem missing_date_iff {fs : List Field} :
    Missing c fs "Date" ↔ c.feat.date = true ∧ fs.findSome? dateOf = none := by
  rw [List.findSome?_eq_none_iff]
  constructor
  · rintro (⟨h, -⟩ | ⟨-, h⟩ | ⟨h, -⟩)
    · exact absurd h (by decide)
    · exact h
    · exact absurd h (by decide)
  · rintro ⟨h1, h2⟩; exact .inr (.inl ⟨rfl, h1, h2⟩)

/-- Without duplicates, a field is the one found. -/
theorem findSome_unique {g : Field → Option α} {n : String}
    (hg : ∀ f, (g f).isSome = true ↔ onceName f = some n) :
    ∀ {fs : List Field}, NoDuplicate fs → ∀ {f : Field} {v : α}, f ∈ fs → g f = some v →
      fs.findSome? g = some v
  | [], _, f, v, hf, _ => by cases hf
  | x :: fs, hd, f, v, hf, hv => by
    cases hx : g x with
    | some u =>
      rw [List.findSome?_cons_of_isSome (by rw [hx]; rfl), hx]
      rcases List.mem_cons.1 hf with rfl | hf
      · rw [← hx, hv]
      · exfalso
        have h1 := (hg x).1 (by rw [hx]; rfl)
        have h2 := (hg f).1 (by rw [hv]; rfl)
        unfold NoDuplicate at hd
        rw [List.filterMap_cons_some h1] at hd
        exact (List.nodup_cons.1 hd).1 (List.mem_filterMap.2 ⟨f, hf, h2⟩)
    | none =>
      rw [List.findSome?_cons_of_isNone (by rw [hx]; rfl)]
      have hf : f ∈ fs := by
        rcases List.mem_cons.1 hf with rfl | hf
        · rw [hx] at hv; cases hv
        · exact hf
      refine findSome_unique hg ?_ hf hv
      unfold NoDuplicate at hd ⊢
      exact hd.sublist ((List.sublist_cons_self _ _).filterMap _)

theorem filterMap_once {g : Field → Option α} {n : String}
    (hg : ∀ f, (g f).isSome = true ↔ onceName f = some n) :
    ∀ {fs : List Field}, NoDuplicate fs → ∀ {v : α}, fs.findSome? g = some v → fs.filterMap g = [v]
  | [], _, v, h => by cases h
  | x :: fs, hd, v, h => by
    have hd' : NoDuplicate fs := by
      unfold NoDuplicate at hd ⊢
      exact hd.sublist ((List.sublist_cons_self _ _).filterMap _)
    cases hx : g x with
    | none =>
      rw [List.findSome?_cons_of_isNone (by rw [hx]; rfl)] at h
      rw [List.filterMap_cons_none hx, filterMap_once hg hd' h]
    | some u =>
      rw [List.findSome?_cons_of_isSome (by rw [hx]; rfl), hx] at h
      cases h
      rw [List.filterMap_cons_some hx]
      congr 1
      rw [List.filterMap_eq_nil_iff]
      intro f hf
      cases hy : g f with
      | none => rfl
      | some w =>
        have h1 := (hg x).1 (by rw [hx]; rfl)
        have h2 := (hg f).1 (by rw [hy]; rfl)
        unfold NoDuplicate at hd
        rw [List.filterMap_cons_some h1] at hd
        exact absurd (List.mem_filterMap.2 ⟨f, hf, h2⟩) (List.nodup_cons.1 hd).1

theorem fromOf_once (f : Field) : (fromOf f).isSome = true ↔ onceName f = some "From" := by
  cases f <;> simp [onceName]

theorem missing_sender_iff {fs : List Field} (hd : NoDuplicate fs) :
    Missing c fs "Sender" ↔ c.feat.sender = true ∧ fs.findSome? senderOf = none ∧
      ((fs.findSome? fromOf).getD []).length ≠ 1 := by
  rw [List.findSome?_eq_none_iff]
  constructor
  · rintro (⟨h, -⟩ | ⟨h, -⟩ | ⟨-, h1, h2, h3⟩)
    · exact absurd h (by decide)
    · exact absurd h (by decide)
    · refine ⟨h1, h2, ?_⟩
      cases hx : fs.findSome? fromOf with
      | none => simp
      | some v =>
        obtain ⟨f, hf, hv⟩ := List.exists_of_findSome?_eq_some hx
        exact h3 f hf v hv
  · rintro ⟨h1, h2, h3⟩
    refine .inr (.inr ⟨rfl, h1, h2, fun f hf v hv => ?_⟩)
    rw [findSome_unique fromOf_once hd hf hv] at h3
    exact h3

theorem missing_name {fs : List Field} {n : String} (h : Missing c fs n) :
    n = "From" ∨ n = "Date" ∨ n = "Sender" := by
  rcases h with ⟨h, -⟩ | ⟨h, -⟩ | ⟨h, -⟩ <;> simp [h]

theorem defaultType_eq : defaultType = plainText := rfl

theorem entity_eq (hm : c.feat.mime = true) (a : EmailAcc) (b : Option Bytes) :
    a.entity c b = (decodeBody (a.contentTransferEncoding.getD .sevenBit) b).bind fun v => .ok (some
      { mimeType := (a.contentType.getD defaultType).1
        subtype := (a.contentType.getD defaultType).2.1
        description := a.contentDescription
        id := a.contentId
        parameters := (a.contentType.getD defaultType).2.2
        disposition := a.contentDisposition
        value := v.getD []
        additionalHeaders := [] }) := by
  unfold EmailAcc.entity
  rw [if_pos hm]
  rfl

/-- What `decodeValue` gives is what RFC 2045 says. -/
theorem decodeValue_eq (encoding : Option ContentTransferEncoding) (body : Bytes) :
    decodeValue body (encoding.getD .sevenBit) = decoding encoding body := by
  cases encoding with
  | none => rfl
  | some e => cases e <;> simp [decodeValue, decoding, decodeBase64_eq, decodeQp_eq]

theorem emailFrom_result (hc : c.feat.compiles) (fs : List Field) (content : Option Bytes) :
    EmailResult c fs content (emailFrom c fs content) := by
  unfold emailFrom
  rcases duplicate_cases fs with hd | ⟨n, hd⟩
  · rw [addAll_ok fs hd]
    show EmailResult c fs content ((accOf fs).finish c content)
    unfold EmailAcc.finish
    rw [required_eq]
    by_cases hf : Missing c fs "From"
    · have hf' := missing_from_iff.1 hf
      rw [if_pos (show c.feat.from = true ∧ (accOf fs).from = none from hf')]
      refine .missing hd hf fun m _ => ?_
      simp [missingRank]
    have hf' := mt missing_from_iff.2 hf
    rw [if_neg (show ¬ (c.feat.from = true ∧ (accOf fs).from = none) from hf'), required_eq]
    simp only [ok_bind]
    by_cases hdt : Missing c fs "Date"
    · have hdt' := missing_date_iff.1 hdt
      rw [if_pos (show c.feat.date = true ∧ (accOf fs).date = none from hdt')]
      refine .missing hd hdt fun m hm => ?_
      rcases missing_name hm with rfl | rfl | rfl
      · exact absurd hm hf
      · simp
      · simp [missingRank]
    have hdt' := mt missing_date_iff.2 hdt
    rw [if_neg (show ¬ (c.feat.date = true ∧ (accOf fs).date = none) from hdt'), inferSender_eq]
    simp only [ok_bind]
    have hfr : c.feat.sender = true → (if c.feat.from = true then (accOf fs).from else none) =
        fs.findSome? fromOf := fun h => if_pos (hc.1 h)
    by_cases hs : Missing c fs "Sender"
    · obtain ⟨h1, h2, h3⟩ := (missing_sender_iff hd).1 hs
      rw [hfr h1, if_pos ⟨h1, h2, h3⟩]
      refine .missing hd hs fun m hm => ?_
      rcases missing_name hm with rfl | rfl | rfl
      · exact absurd hm hf
      · exact absurd hm hdt
      · simp
    have hs' := mt (missing_sender_iff hd).2 hs
    have hno : ∀ n, ¬ Missing c fs n := by
      intro n hn
      rcases missing_name hn with rfl | rfl | rfl
      · exact hf hn
      · exact hdt hn
      · exact hs hn
    rw [if_neg (by
      rintro ⟨h1, h2, h3⟩
      rw [hfr h1] at h3
      exact hs' ⟨h1, h2, h3⟩)]
    simp only [ok_bind]
    have hsender : (if c.feat.sender = true then (accOf fs).sender.or
        ((if c.feat.from = true then (accOf fs).from else none).bind List.head?) else none) =
        if c.feat.sender = true then (fs.findSome? senderOf).or
          ((fs.findSome? fromOf).bind List.head?) else none := by
      by_cases h : c.feat.sender = true
      · rw [if_pos h, if_pos h, hfr h]; rfl
      · rw [if_neg h, if_neg h]
    rw [hsender]
    cases hm : c.feat.mime with
    | false =>
      have he : (accOf fs).entity c content = .ok none := by
        unfold EmailAcc.entity; rw [hm]; rfl
      rw [he]
      refine .email hd hno ?_
      constructor <;> first | rfl | simp [hm]
    | true =>
      rw [entity_eq hm]
      cases content with
      | none =>
        refine .email hd hno ?_
        constructor <;> first | rfl | (simp [hm]; done) | skip
        intro _
        exact ⟨_, rfl, rfl, rfl, rfl, rfl, rfl, fun _ => rfl, fun b hb => by cases hb⟩
      | some b =>
        show EmailResult c fs (some b) (Outcome.bind (Outcome.bind (Outcome.bind
          (decodeValue b _) _) _) _)
        cases hx : decodeValue b ((accOf fs).contentTransferEncoding.getD .sevenBit) with
        | abort k => exact absurd hx (decodeValue_no_abort _ _ _)
        | err e => exact .undecodable hd hno hm rfl ((decodeValue_eq _ _).symm.trans hx)
        | ok v =>
          refine .email hd hno ?_
          constructor <;> first | rfl | (simp [hm]; done) | skip
          intro _
          exact ⟨_, rfl, rfl, rfl, rfl, rfl, rfl, (fun h => by cases h), fun b' hb => by
            cases hb
            exact (decodeValue_eq _ _).symm.trans hx⟩
  · rw [addAll_duplicate fs n hd]
    exact .duplicate hd

theorem IsEmail.unique {fs : List Field} {content : Option Bytes} {e e' : Email}
    (h : IsEmail c fs content e) (h' : IsEmail c fs content e') : e = e' := by
  have hent : e.mimeEntity = e'.mimeEntity := by
    cases hm : c.feat.mime with
    | false => rw [h.noEntity hm, h'.noEntity hm]
    | true =>
      obtain ⟨r, hr, h1, h2, h3, h4, h5, h6, h7⟩ := h.entity hm
      obtain ⟨r', hr', h1', h2', h3', h4', h5', h6', h7'⟩ := h'.entity hm
      rw [hr, hr']
      have ht := h1.trans h1'.symm
      have hv : r.value = r'.value := by
        cases content with
        | none => rw [h6 rfl, h6' rfl]
        | some b =>
          have := (h7 b rfl).symm.trans (h7' b rfl)
          injection this
      cases r; cases r'
      simp only [Prod.mk.injEq] at ht h2 h3 h4 h5 h2' h3' h4' h5' hv
      simp only [Option.some.injEq, RawEntity.mk.injEq]
      exact ⟨ht.1, ht.2.1, h2.trans h2'.symm, h3.trans h3'.symm, ht.2.2, h4.trans h4'.symm, hv,
        h5.trans h5'.symm⟩
  cases e; cases e'
  simp only [Email.mk.injEq]
  exact ⟨h.body.trans h'.body.symm, h.from.trans h'.from.symm, h.sender.trans h'.sender.symm,
    h.subject.trans h'.subject.symm, h.date.trans h'.date.symm, h.to.trans h'.to.symm,
    h.cc.trans h'.cc.symm, h.bcc.trans h'.bcc.symm, h.messageId.trans h'.messageId.symm,
    h.inReplyTo.trans h'.inReplyTo.symm, h.references.trans h'.references.symm,
    h.replyTo.trans h'.replyTo.symm, h.comments.trans h'.comments.symm,
    h.keywords.trans h'.keywords.symm, h.trace.trans h'.trace.symm, hent,
    h.unknownFields.trans h'.unknownFields.symm⟩

theorem EmailResult.unique {fs : List Field} {content : Option Bytes} {r r' : Outcome Email}
    (h : EmailResult c fs content r) (h' : EmailResult c fs content r') : r = r' := by
  cases h with
  | duplicate hd =>
    cases h' with
    | duplicate hd' => rw [Spec.FirstDuplicate.unique hd hd']
    | missing h => exact absurd h hd.not
    | undecodable h => exact absurd h hd.not
    | email h => exact absurd h hd.not
  | missing hd hm hr =>
    cases h' with
    | duplicate hd' => exact absurd hd hd'.not
    | missing hd' hm' hr' =>
      have h1 := hr _ hm'
      have h2 := hr' _ hm
      rcases missing_name hm with rfl | rfl | rfl <;> rcases missing_name hm' with rfl | rfl | rfl <;>
        simp [missingRank] at h1 h2 ⊢
    | undecodable _ h => exact absurd hm (h _)
    | email _ h => exact absurd hm (h _)
  | undecodable hd hno hm hc he =>
    cases h' with
    | duplicate hd' => exact absurd hd hd'.not
    | missing _ h => exact absurd h (hno _)
    | undecodable _ _ _ hc' he' =>
      subst hc; cases hc'
      rw [he] at he'; cases he'; rfl
    | email _ _ h =>
      obtain ⟨r, -, -, -, -, -, -, -, h7⟩ := h.entity hm
      have := h7 _ hc
      rw [he] at this; cases this
  | email hd hno hi =>
    cases h' with
    | duplicate hd' => exact absurd hd hd'.not
    | missing _ h => exact absurd h (hno _)
    | undecodable _ _ hm hc he =>
      obtain ⟨r, -, -, -, -, -, -, -, h7⟩ := hi.entity hm
      have := h7 _ hc
      rw [he] at this; cases this
    | email _ _ h => rw [IsEmail.unique hi h]

theorem emailFrom_iff (hc : c.feat.compiles) (fs : List Field) (content : Option Bytes)
    (r : Outcome Email) : emailFrom c fs content = r ↔ EmailResult c fs content r := by
  constructor
  · rintro rfl; exact emailFrom_result hc fs content
  · exact EmailResult.unique (emailFrom_result hc fs content)

end EmailParser
