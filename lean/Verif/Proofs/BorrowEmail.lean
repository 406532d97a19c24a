import Verif.Proofs.BorrowFields
import Verif.Proofs.Message
/-
The whole e-mail: agreement with the model without ownership, and where its strings are.
-/
namespace EmailParser
open Spec HasStrings

/-- The content is `v`, and `P` holds of all strings. -/
def Good {α β : Type} [HasStrings α β] (m : Memory) (P : CowStr → Prop) (v : β) (s : α) : Prop :=
  content m s = v ∧ ∀ t ∈ strings s, P t

variable {c : Cfg} {p : Place} {lo : Nat} {m : Memory} {P : CowStr → Prop}

theorem Good.nil {α β : Type} [HasStrings α β] : Good (α := List α) (β := List β) m P [] [] := ⟨rfl, by intro t ht; cases ht⟩

theorem Good.none {α β : Type} [HasStrings α β] : Good (α := Option α) (β := Option β) m P none none :=
  ⟨rfl, by intro t ht; cases ht⟩

theorem Good.some {α β : Type} [HasStrings α β] {v : β} {s : α} (h : Good m P v s) : Good m P (some v) (some s) :=
  ⟨congrArg Option.some h.1, h.2⟩

theorem Good.mono {α β : Type} [HasStrings α β] {P' : CowStr → Prop} {v : β} {s : α} (h : Good m P v s)
    (hP : ∀ t, P t → P' t) : Good m P' v s := ⟨h.1, fun t ht => hP t (h.2 t ht)⟩

theorem Good.append {α β : Type} [HasStrings α β] {v v' : List β} {s s' : List α} (h : Good m P v s) (h' : Good m P v' s') :
    Good m P (v ++ v') (s ++ s') := by
  refine ⟨?_, fun t ht => ?_⟩
  · show List.map _ _ = _
    rw [List.map_append]
    exact congr (congrArg _ h.1) h'.1
  · have : t ∈ strings s ++ strings s' := by
      show t ∈ s.flatMap strings ++ s'.flatMap strings
      rw [← List.flatMap_append]
      exact ht
    exact (List.mem_append.mp this).elim (h.2 t) (h'.2 t)

theorem Good.single {α β : Type} [HasStrings α β] {v : β} {s : α} (h : Good m P v s) : Good m P [v] [s] := by
  refine ⟨congrArg (fun v => [v]) h.1, fun t ht => h.2 t ?_⟩
  obtain ⟨x, hx, ht⟩ := List.mem_flatMap.mp (show t ∈ [s].flatMap strings from ht)
  rw [List.mem_singleton.mp hx] at ht
  exact ht

/-- The variables of `Email::parse`, after the fields `fs`. -/
structure AccGood (m : Memory) (P : CowStr → Prop) (fs : List Field) (a : EmailAcc) (b : CowEmailAcc) : Prop where
  «from» : Good m P a.from b.from
  sender : Good m P a.sender b.sender
  subject : Good m P a.subject b.subject
  date : Good m P a.date b.date
  to : Good m P a.to b.to
  cc : Good m P a.cc b.cc
  bcc : Good m P a.bcc b.bcc
  messageId : Good m P a.messageId b.messageId
  inReplyTo : Good m P a.inReplyTo b.inReplyTo
  references : Good m P a.references b.references
  replyTo : Good m P a.replyTo b.replyTo
  comments : Good m P a.comments b.comments
  keywords : Good m P a.keywords b.keywords
  trace : Good m P a.trace b.trace
  mimeVersion : Good m P a.mimeVersion b.mimeVersion
  contentType : Good m P a.contentType b.contentType
  contentTransferEncoding : Good m P a.contentTransferEncoding b.contentTransferEncoding
  contentId : Good m P a.contentId b.contentId
  contentDescription : Good m P a.contentDescription b.contentDescription
  contentDisposition : Good m P a.contentDisposition b.contentDisposition
  unknownFields : Good m P a.unknownFields b.unknownFields
  seen : ∀ e, a.contentTransferEncoding = some e → Field.contentTransferEncoding e ∈ fs

theorem accGood_nil {fs : List Field} : AccGood m P fs {} {} where
  «from» := .none
  sender := .none
  subject := .none
  date := .none
  to := .none
  cc := .none
  bcc := .none
  messageId := .none
  inReplyTo := .none
  references := .none
  replyTo := .none
  comments := .nil
  keywords := .nil
  trace := .nil
  mimeVersion := .none
  contentType := .none
  contentTransferEncoding := .none
  contentId := .none
  contentDescription := .none
  contentDisposition := .none
  unknownFields := .nil
  seen := by intro e h; cases h

theorem setOnce_good {α β : Type} [HasStrings α β] {fs : List Field} {n : String} {old : Option β} {old' : Option α} {v : β}
    {s : α} {set : Option β → EmailAcc} {set' : Option α → CowEmailAcc} (ho : Good m P old old')
    (hs : AccGood m P fs (set (some v)) (set' (some s))) :
    AlikeO (cowSetOnce n old' s set') (setOnce n old v set) (AccGood m P fs) := by
  obtain ⟨rfl, -⟩ := ho
  cases old' with
  | none => exact hs
  | some x => exact rfl

theorem add_good {fs : List Field} {a : EmailAcc} {b : CowEmailAcc} (h : AccGood m P fs a b) {v : Field} {s : CowField}
    (hs : Good m P v s) (hv : v ∈ fs) : AlikeO (b.add s) (a.add v) (AccGood m P fs) := by
  obtain ⟨rfl, hs⟩ := hs
  have ok : ∀ {α β : Type} [HasStrings α β] {x : α}, strings x = strings s → Good m P (content m x) x :=
    fun e => ⟨rfl, fun t ht => hs t (e ▸ ht)⟩
  cases s with
  | date v =>
    show AlikeO (CowEmailAcc.add b _) (EmailAcc.add a (.date v)) _
    dsimp only [CowEmailAcc.add, EmailAcc.add]
    refine setOnce_good h.date ?_
    exact { h with date := .some (ok rfl) }
  | «from» v =>
    show AlikeO (CowEmailAcc.add b _) (EmailAcc.add a (.from (content m v))) _
    dsimp only [CowEmailAcc.add, EmailAcc.add]
    refine setOnce_good h.from ?_
    exact { h with «from» := .some (ok rfl) }
  | sender v =>
    show AlikeO (CowEmailAcc.add b _) (EmailAcc.add a (.sender (content m v))) _
    dsimp only [CowEmailAcc.add, EmailAcc.add]
    refine setOnce_good h.sender ?_
    exact { h with sender := .some (ok rfl) }
  | replyTo v =>
    show AlikeO (CowEmailAcc.add b _) (EmailAcc.add a (.replyTo (content m v))) _
    dsimp only [CowEmailAcc.add, EmailAcc.add]
    refine setOnce_good h.replyTo ?_
    exact { h with replyTo := .some (ok rfl) }
  | to v =>
    show AlikeO (CowEmailAcc.add b _) (EmailAcc.add a (.to (content m v))) _
    dsimp only [CowEmailAcc.add, EmailAcc.add]
    refine setOnce_good h.to ?_
    exact { h with to := .some (ok rfl) }
  | cc v =>
    show AlikeO (CowEmailAcc.add b _) (EmailAcc.add a (.cc (content m v))) _
    dsimp only [CowEmailAcc.add, EmailAcc.add]
    refine setOnce_good h.cc ?_
    exact { h with cc := .some (ok rfl) }
  | bcc v =>
    show AlikeO (CowEmailAcc.add b _) (EmailAcc.add a (.bcc (content m v))) _
    dsimp only [CowEmailAcc.add, EmailAcc.add]
    refine setOnce_good h.bcc ?_
    exact { h with bcc := .some (ok rfl) }
  | messageId v =>
    show AlikeO (CowEmailAcc.add b _) (EmailAcc.add a (.messageId (content m v))) _
    dsimp only [CowEmailAcc.add, EmailAcc.add]
    refine setOnce_good h.messageId ?_
    exact { h with messageId := .some (ok rfl) }
  | inReplyTo v =>
    show AlikeO (CowEmailAcc.add b _) (EmailAcc.add a (.inReplyTo (content m v))) _
    dsimp only [CowEmailAcc.add, EmailAcc.add]
    refine setOnce_good h.inReplyTo ?_
    exact { h with inReplyTo := .some (ok rfl) }
  | references v =>
    show AlikeO (CowEmailAcc.add b _) (EmailAcc.add a (.references (content m v))) _
    dsimp only [CowEmailAcc.add, EmailAcc.add]
    refine setOnce_good h.references ?_
    exact { h with references := .some (ok rfl) }
  | subject v =>
    show AlikeO (CowEmailAcc.add b _) (EmailAcc.add a (.subject (content m v))) _
    dsimp only [CowEmailAcc.add, EmailAcc.add]
    refine setOnce_good h.subject ?_
    exact { h with subject := .some (ok rfl) }
  | comments v => exact { h with comments := h.comments.append (.single (ok rfl)) }
  | keywords v => exact { h with keywords := h.keywords.append (ok rfl) }
  | mimeVersion x y =>
    show AlikeO (CowEmailAcc.add b _) (EmailAcc.add a (.mimeVersion x y)) _
    dsimp only [CowEmailAcc.add, EmailAcc.add]
    refine setOnce_good (v := (x, y)) (s := (x, y)) h.mimeVersion ?_
    exact { h with mimeVersion := .some (ok (x := (x, y)) rfl) }
  | contentType t st q =>
    show AlikeO (CowEmailAcc.add b _) (EmailAcc.add a (.contentType (content m t) (content m st) (content m q))) _
    dsimp only [CowEmailAcc.add, EmailAcc.add]
    refine setOnce_good h.contentType ?_
    exact { h with contentType := .some (ok (x := (t, st, q)) rfl) }
  | contentTransferEncoding v =>
    show AlikeO (CowEmailAcc.add b _) (EmailAcc.add a (.contentTransferEncoding (content m v))) _
    dsimp only [CowEmailAcc.add, EmailAcc.add]
    refine setOnce_good h.contentTransferEncoding ?_
    exact { h with contentTransferEncoding := .some (ok rfl), seen := by intro e he; cases he; exact hv }
  | contentId v =>
    show AlikeO (CowEmailAcc.add b _) (EmailAcc.add a (.contentId (content m v))) _
    dsimp only [CowEmailAcc.add, EmailAcc.add]
    refine setOnce_good h.contentId ?_
    exact { h with contentId := .some (ok rfl) }
  | contentDescription v =>
    show AlikeO (CowEmailAcc.add b _) (EmailAcc.add a (.contentDescription (content m v))) _
    dsimp only [CowEmailAcc.add, EmailAcc.add]
    refine setOnce_good h.contentDescription ?_
    exact { h with contentDescription := .some (ok rfl) }
  | contentDisposition v =>
    show AlikeO (CowEmailAcc.add b _) (EmailAcc.add a (.contentDisposition (content m v))) _
    dsimp only [CowEmailAcc.add, EmailAcc.add]
    refine setOnce_good h.contentDisposition ?_
    exact { h with contentDisposition := .some (ok rfl) }
  | trace r l f => exact { h with trace := h.trace.append (.single (ok (x := (r, l, f)) rfl)) }
  | unknown n v => exact { h with unknownFields := h.unknownFields.append (.single (ok (x := (n, v)) rfl)) }

theorem addAll_good {fs : List Field} : ∀ (ss : List CowField) (vs : List Field) {a : EmailAcc} {b : CowEmailAcc},
    AccGood m P fs a b → Good m P vs ss → (∀ v ∈ vs, v ∈ fs) → AlikeO (b.addAll ss) (a.addAll vs) (AccGood m P fs)
  | [], vs, a, b, h, hs, hv => by
    obtain ⟨rfl, -⟩ := hs
    exact h
  | s :: ss, vs, a, b, h, hs, hv => by
    obtain ⟨rfl, hs⟩ := hs
    have hs : ∀ t ∈ strings s ++ strings ss, P t := hs
    have hv : ∀ v ∈ content m s :: content m ss, v ∈ fs := hv
    exact (add_good h ⟨rfl, fun t ht => hs t (List.mem_append_left _ ht)⟩ (hv _ (List.mem_cons_self ..))).bind
      fun a b h => addAll_good ss _ h ⟨rfl, fun t ht => hs t (List.mem_append_right _ ht)⟩
        fun v h => hv v (List.mem_cons_of_mem _ h)

/-! ### The body -/

/-- The encodings with which the body is decoded. -/
def Encoded (e : ContentTransferEncoding) : Prop := e = .base64 ∨ e = .quotedPrintable

theorem cowDecodeValue_alike {e : ContentTransferEncoding} {e' : CowTransferEncoding} {v : Bytes} {s : CowStr}
    (he : content m e' = e) (hs : content m s = v) :
    AlikeO (cowDecodeValue m s e') (decodeValue v e) fun x t => content m t = x ∧ (t = s ∨ Owned t ∧ Encoded e) := by
  subst he hs
  cases e' with
  | base64 =>
    show AlikeO (decodeBase64 (s.content m) >>= _) (decodeBase64 (s.content m)) _
    cases decodeBase64 (s.content m) with
    | ok x => exact ⟨rfl, .inr ⟨trivial, .inl rfl⟩⟩
    | err e => exact rfl
    | abort k => exact rfl
  | quotedPrintable =>
    show AlikeO (decodeQp (s.content m) >>= _) (decodeQp (s.content m)) _
    cases decodeQp (s.content m) with
    | ok x => exact ⟨rfl, .inr ⟨trivial, .inr rfl⟩⟩
    | err e => exact rfl
    | abort k => exact rfl
  | sevenBit => exact ⟨rfl, .inl rfl⟩
  | heightBit => exact ⟨rfl, .inl rfl⟩
  | binary => exact ⟨rfl, .inl rfl⟩
  | unknown x => exact rfl

theorem defaultType_content {l : Literals} (hl : LiteralsAt m l) : content m l.defaultType = defaultType := by
  obtain ⟨h1, h2, h3⟩ := hl
  have e1 : content m (CowStr.borrowed l.plain 5) = b! "plain" := h1
  have e2 : (CowStr.borrowed l.charset 7).content m = b! "charset" := h2
  have e3 : (CowStr.borrowed l.usAscii 8).content m = b! "us-ascii" := h3
  show (ContentType.text, content m (CowStr.borrowed l.plain 5),
    cowParams m [(.borrowed l.charset 7, .borrowed l.usAscii 8)]) = _
  rw [e1]
  unfold defaultType
  congr 2
  funext n
  show List.lookup n [(_, _)] = _
  rw [e2, e3, List.lookup_cons]
  unfold Params.insert Params.empty
  by_cases h : n = b! "charset"
  · rw [if_pos h, h]; rfl
  · rw [if_neg h, beq_false_of_ne h]; rfl

theorem defaultType_good {l : Literals} (hl : LiteralsAt m l) : Good m (IsLiteral l) defaultType l.defaultType := by
  refine ⟨defaultType_content hl, fun t ht => ?_⟩
  have ht : t ∈ [CowStr.borrowed l.plain 5, .borrowed l.charset 7, .borrowed l.usAscii 8] := ht
  simpa [IsLiteral] using ht

theorem Good.getD {α β : Type} [HasStrings α β] {x : Option β} {y : Option α} {v : β} {s : α} (h : Good m P x y)
    (hs : Good m P v s) : Good m P (x.getD v) (y.getD s) := by
  obtain ⟨rfl, h⟩ := h
  cases y with
  | none => exact hs
  | some y => exact ⟨rfl, h⟩

theorem Good.fst {α α' β β' : Type} [HasStrings α β] [HasStrings α' β'] {v : β × β'} {s : α × α'} (h : Good m P v s) :
    Good m P v.1 s.1 := ⟨congrArg Prod.fst h.1, fun t ht => h.2 t (List.mem_append_left _ ht)⟩

theorem Good.snd {α α' β β' : Type} [HasStrings α β] [HasStrings α' β'] {v : β × β'} {s : α × α'} (h : Good m P v s) :
    Good m P v.2 s.2 := ⟨congrArg Prod.snd h.1, fun t ht => h.2 t (List.mem_append_right _ ht)⟩

theorem required_good {α β : Type} [HasStrings α β] {f : Bool} {n : String} {x : Option β} {y : Option α} (h : Good m P x y) :
    AlikeO (required f n y) (required f n x) (Good m P) := by
  obtain ⟨rfl, h⟩ := h
  cases f with
  | false => exact Good.none
  | true =>
    cases y with
    | none => exact rfl
    | some y => exact ⟨rfl, h⟩

theorem inferSender_good {f : Bool} {x : Option Mailbox} {y : Option CowMailbox} {xs : Option (List Mailbox)}
    {ys : Option (List CowMailbox)} (h : Good m P x y) (hs : Good m P xs ys) :
    AlikeO (cowInferSender f y ys) (inferSender f x xs) (Good m P) := by
  obtain ⟨rfl, h⟩ := h
  obtain ⟨hx, hp⟩ := hs.getD (v := []) (s := []) .nil
  unfold cowInferSender inferSender
  cases f with
  | false => exact Good.none
  | true =>
    cases y with
    | some y => exact ⟨rfl, h⟩
    | none =>
      rw [if_pos rfl, if_pos rfl, ← hx]
      show AlikeO (if _ then _ else _) (if (List.map (content m) (ys.getD [])).length = 1 then
        match List.map (content m) (ys.getD []) with
        | m :: _ => Outcome.ok (some m)
        | [] => .abort .panic
        else .err (.missingHeader "Sender")) _
      rw [List.length_map]
      cases hl : ys.getD [] with
      | nil => exact rfl
      | cons z zs =>
        dsimp only [List.map_cons]
        split
        · refine ⟨rfl, fun t ht => hp t ?_⟩
          rw [hl]
          exact List.mem_append_left _ ht
        · exact rfl

/-- A MIME entity: the contents are right, `P` holds of all strings except for the value. -/
def EntityKept (m : Memory) (P Q : CowStr → Prop) (v : RawEntity) (s : CowRawEntity) : Prop :=
  content m s = v ∧ (∀ t ∈ strings s, P t ∨ t = s.value) ∧ Q s.value

theorem entityGood {Q : CowStr → Prop} {t : ContentType × Bytes × Params} {t' : CowContentType × CowStr × CowParams}
    {d : Option Bytes} {d' : Option CowStr} {i : Option (Bytes × Bytes)} {i' : Option (CowStr × CowStr)}
    {e : Option Disposition} {e' : Option CowDisposition} {v : Bytes} {v' : CowStr} {a : List (Bytes × Bytes)}
    {a' : List (CowStr × CowStr)} (ht : Good m P t t') (hd : Good m P d d') (hi : Good m P i i') (he : Good m P e e')
    (hv : content m v' = v) (ha : Good m P a a') (hq : Q v') :
    EntityKept m P Q ⟨t.1, t.2.1, d, i, t.2.2, e, v, a⟩ ⟨t'.1, t'.2.1, d', i', t'.2.2, e', v', a'⟩ := by
  refine ⟨?_, fun x hx => ?_, hq⟩
  · show RawEntity.mk (content m t'.1) (content m t'.2.1) (content m d') (content m i') (content m t'.2.2) (content m e')
      (content m v') (content m a') = _
    rw [ht.fst.1, ht.snd.fst.1, ht.snd.snd.1, hd.1, hi.1, he.1, hv, ha.1]
  · have hx : x ∈ strings t'.1 ++ strings t'.2.1 ++ strings d' ++ strings i' ++ strings t'.2.2 ++ strings e' ++ strings v' ++
      strings a' := hx
    simp only [List.mem_append] at hx
    rcases hx with ((((((hx | hx) | hx) | hx) | hx) | hx) | hx) | hx
    · exact .inl (ht.fst.2 x hx)
    · exact .inl (ht.snd.fst.2 x hx)
    · exact .inl (hd.2 x hx)
    · exact .inl (hi.2 x hx)
    · exact .inl (ht.snd.snd.2 x hx)
    · exact .inl (he.2 x hx)
    · exact .inr (List.mem_singleton.mp hx)
    · exact .inl (ha.2 x hx)

theorem cowDecodeBody_alike {e : ContentTransferEncoding} {e' : CowTransferEncoding} {v : Option Bytes} {s : Option CowStr}
    (he : content m e' = e) (hs : content m s = v) :
    AlikeO (cowDecodeBody m e' s) (decodeBody e v) fun x t =>
      content m t = x ∧ (t = s ∨ (∃ y, t = some y ∧ Owned y) ∧ Encoded e) := by
  subst hs
  cases s with
  | none => exact ⟨rfl, .inl rfl⟩
  | some s =>
    refine AlikeO.bind (cowDecodeValue_alike he rfl) fun x t ⟨h1, h2⟩ => ⟨congrArg some h1, ?_⟩
    rcases h2 with rfl | ⟨h2, h3⟩
    · exact .inl rfl
    · exact .inr ⟨⟨t, rfl, h2⟩, h3⟩

/-- The value of the MIME entity of an e-mail with the header fields `fs`. -/
def ValueGood (fs : List Field) (p : Place) (body : Option CowStr) (t : CowStr) : Prop :=
  t = body.getD (emptyString p.empty) ∨ Owned t ∧ ∃ e, Encoded e ∧ Field.contentTransferEncoding e ∈ fs

/-- The MIME entity of an e-mail. -/
def OptEntityGood (m : Memory) (P Q : CowStr → Prop) : Option RawEntity → Option CowRawEntity → Prop
  | none, none => True
  | some v, some s => EntityKept m P Q v s
  | _, _ => False

theorem entity_good {l : Literals} (hl : LiteralsAt p.memory l) (hP : ∀ t, IsLiteral l t → P t) {fs : List Field} {a : EmailAcc}
    {b : CowEmailAcc} (h : AccGood p.memory P fs a b) {body : Option Bytes} {body' : Option CowStr}
    (hb : content p.memory body' = body) :
    AlikeO (b.entity c p l body') (a.entity c body) fun v s =>
      OptEntityGood p.memory P (ValueGood fs p body') v s ∧ s.isSome = c.feat.mime := by
  unfold CowEmailAcc.entity EmailAcc.entity
  split
  · next hm =>
    have he : content p.memory (b.contentTransferEncoding.getD .sevenBit) = a.contentTransferEncoding.getD .sevenBit :=
      (h.contentTransferEncoding.getD (v := .sevenBit) (s := CowTransferEncoding.sevenBit)
        ⟨rfl, by intro t ht; cases ht⟩).1
    have ht : Good p.memory P (a.contentType.getD defaultType) (b.contentType.getD l.defaultType) :=
      h.contentType.getD ((defaultType_good hl).mono hP)
    dsimp only
    refine (cowDecodeBody_alike he hb).bind fun x t hx => ?_
    refine ⟨entityGood ht h.contentDescription h.contentId h.contentDisposition ?_ .nil ?_, hm.symm⟩
    · obtain ⟨rfl, -⟩ := hx
      cases t with
      | none => rfl
      | some t => rfl
    · obtain ⟨-, hx⟩ := hx
      rcases hx with rfl | ⟨⟨y, rfl, hy⟩, hx⟩
      · exact .inl rfl
      · refine .inr ⟨hy, _, hx, h.seen _ ?_⟩
        cases hc : a.contentTransferEncoding with
        | none => rw [hc] at hx; rcases hx with hx | hx <;> cases hx
        | some e => rfl
  · next hm => exact ⟨trivial, (Bool.eq_false_iff.mpr hm).symm⟩

/-- The whole e-mail. -/
structure EmailGood (c : Cfg) (p : Place) (P : CowStr → Prop) (fs : List Field) (body : Option CowStr) (v : Email)
    (s : CowEmail) : Prop where
  contents : content p.memory s = v
  strings : ∀ t ∈ strings s, P t ∨ ∃ r, s.mimeEntity = some r ∧ t = r.value
  value : ∀ r, s.mimeEntity = some r → ValueGood fs p body r.value
  body : s.body = if c.feat.mime then none else body
  entity : s.mimeEntity.isSome = c.feat.mime

theorem finish_good {l : Literals} (hl : LiteralsAt p.memory l) (hP : ∀ t, IsLiteral l t → P t) {fs : List Field} {a : EmailAcc}
    {b : CowEmailAcc} (h : AccGood p.memory P fs a b) {body : Option Bytes} {body' : Option CowStr}
    (hb : Good p.memory P body body') :
    AlikeO (b.finish c p l body') (a.finish c body) (EmailGood c p P fs body') := by
  unfold CowEmailAcc.finish EmailAcc.finish
  refine (required_good h.from).bind fun fr fr' hfr => ?_
  refine (required_good h.date).bind fun d d' hd => ?_
  refine (inferSender_good h.sender hfr).bind fun sd sd' hsd => ?_
  refine (entity_good hl hP h hb.1).bind fun e e' ⟨he, hsome⟩ => ?_
  have hbody : Good p.memory P (if c.feat.mime then none else body) (if c.feat.mime then none else body') := by
    split
    · exact .none
    · exact hb
  have hent : content p.memory e' = e := by
    cases e <;> cases e' <;> first | exact he.elim | skip
    · rfl
    · exact congrArg some he.1
  have hd : d' = d := by
    obtain ⟨rfl, -⟩ := hd
    cases d' <;> rfl
  refine EmailGood.mk ?_ (fun t ht => ?_) (fun r hr => ?_) rfl hsome
  · show Email.mk (content p.memory (if c.feat.mime then none else body')) (content p.memory fr') (content p.memory sd')
      (content p.memory b.subject) d' (content p.memory b.to) (content p.memory b.cc) (content p.memory b.bcc)
      (content p.memory b.messageId) (content p.memory b.inReplyTo) (content p.memory b.references)
      (content p.memory b.replyTo) (content p.memory b.comments) (content p.memory b.keywords) (content p.memory b.trace)
      (content p.memory e') (content p.memory b.unknownFields) = _
    rw [hbody.1, hfr.1, hsd.1, h.subject.1, hd, h.to.1, h.cc.1, h.bcc.1, h.messageId.1, h.inReplyTo.1, h.references.1,
      h.replyTo.1, h.comments.1, h.keywords.1, h.trace.1, hent, h.unknownFields.1]
  · have ht : t ∈ HasStrings.strings (if c.feat.mime then none else body') ++ HasStrings.strings fr' ++
      HasStrings.strings sd' ++ HasStrings.strings b.subject ++ HasStrings.strings b.to ++ HasStrings.strings b.cc ++
      HasStrings.strings b.bcc ++ HasStrings.strings b.messageId ++ HasStrings.strings b.inReplyTo ++
      HasStrings.strings b.references ++ HasStrings.strings b.replyTo ++ HasStrings.strings b.comments ++
      HasStrings.strings b.keywords ++ HasStrings.strings b.trace ++ HasStrings.strings e' ++
      HasStrings.strings b.unknownFields := ht
    simp only [List.mem_append] at ht
    rcases ht with ((((((((((((((ht | ht) | ht) | ht) | ht) | ht) | ht) | ht) | ht) | ht) | ht) | ht) | ht) | ht) | ht) | ht
    · exact .inl (hbody.2 t ht)
    · exact .inl (hfr.2 t ht)
    · exact .inl (hsd.2 t ht)
    · exact .inl (h.subject.2 t ht)
    · exact .inl (h.to.2 t ht)
    · exact .inl (h.cc.2 t ht)
    · exact .inl (h.bcc.2 t ht)
    · exact .inl (h.messageId.2 t ht)
    · exact .inl (h.inReplyTo.2 t ht)
    · exact .inl (h.references.2 t ht)
    · exact .inl (h.replyTo.2 t ht)
    · exact .inl (h.comments.2 t ht)
    · exact .inl (h.keywords.2 t ht)
    · exact .inl (h.trace.2 t ht)
    · cases e' with
      | none => cases ht
      | some e' =>
        cases e with
        | none => exact he.elim
        | some e => exact (he.2.1 t ht).imp id fun h => ⟨e', rfl, h⟩
    · exact .inl (h.unknownFields.2 t ht)
  · cases e' with
    | none => cases hr
    | some e' =>
      cases e with
      | none => exact he.elim
      | some e =>
        cases hr
        exact he.2.2

/-- The body, as a slice of what follows the header fields. -/
def BodyGood (p : Place) (rest : Bytes) (v : Option Bytes) (s : Option CowStr) : Prop :=
  rest = [] ∧ v = none ∧ s = none ∨ ∃ body, rest = 13 :: 10 :: body ∧ v = some body ∧ s = some (p.slice body body)

/-- What `parse_message` returns: the header fields with their text, and the body. -/
def MessageGood (c : Cfg) (p : Place) (data : Bytes) (v : List Field × Option Bytes) (s : List CowField × Option CowStr) : Prop :=
  ∃ head rest, data = head ++ rest ∧ fields c data = .ok (rest, v.1) ∧ Keeps p (p.addr data) head v.1 s.1 ∧
    BodyGood p rest v.2 s.2

theorem cowParseMessage_good {data : Bytes} (hd : At p data) :
    AlikeO (cowParseMessage c p data) (parseMessage c data) (MessageGood c p data) := by
  have h := cowFields_reads (c := c) (p := p) (lo := p.addr data) (i := data) ⟨hd, Nat.le_refl _⟩
  unfold cowParseMessage parseMessage
  unfold Alike at h
  cases hx : cowFields c p data with
  | err e => cases hy : fields c data <;> rw [hx, hy] at h <;> first | exact h.elim | exact h
  | abort k => cases hy : fields c data <;> rw [hx, hy] at h <;> first | exact h.elim | exact h
  | ok a =>
    cases hy : fields c data with
    | err e => rw [hx, hy] at h; exact h.elim
    | abort k => rw [hx, hy] at h; exact h.elim
    | ok b =>
      rw [hx, hy] at h
      obtain ⟨r, s⟩ := a
      obtain ⟨r', v⟩ := b
      obtain ⟨rfl, head, hw, hk⟩ := h
      show AlikeO (if c.feat.mime then _ else _) (if c.feat.mime then _ else _) _
      split
      · show AlikeO (if r.isEmpty then _ else _) (if r.isEmpty then _ else _) _
        split
        · next he => exact ⟨head, r, hw, hy, hk, .inl ⟨List.isEmpty_iff.mp he, rfl, rfl⟩⟩
        · cases ht : tag r (b! "\r\n") "TAG ERROR: Headers must be followed by a CRLF sequence." with
          | err e => exact rfl
          | abort k => exact rfl
          | ok a => exact ⟨head, r, hw, hy, hk, .inr ⟨a.1, tag_ok_iff.mp ht, rfl, rfl⟩⟩
      · show AlikeO (body r >>= _) (body r >>= _) _
        have hb := body_spec r
        cases hx : body r with
        | err e => exact rfl
        | abort k => exact rfl
        | ok a =>
          rw [hx] at hb
          cases a with
          | none => exact ⟨head, r, hw, hy, hk, .inl ⟨hb, rfl, rfl⟩⟩
          | some w => exact ⟨head, r, hw, hy, hk, .inr ⟨w, hb.1, rfl, rfl⟩⟩

/-- What holds of a string of the e-mail whose header fields are the text `head`. -/
def StringGood (p : Place) (l : Literals) (lo : Nat) (head : Bytes) (t : CowStr) : Prop := IsLiteral l t ∨ Kept p lo head t

theorem cowEmail_good {l : Literals} (hl : LiteralsAt p.memory l) {data : Bytes} (hd : At p data) :
    AlikeO (CowEmail.parse c p l data) (Email.parse c data) fun v s =>
      ∃ head rest fs body body', data = head ++ rest ∧ fields c data = .ok (rest, fs) ∧ BodyGood p rest body body' ∧
        EmailGood c p (StringGood p l (p.addr data) head) fs body' v s := by
  unfold CowEmail.parse Email.parse
  refine (cowParseMessage_good hd).bind ?_
  rintro ⟨fs, body⟩ ⟨ss, body'⟩ ⟨head, rest, hw, hf, hk, hb⟩
  dsimp only at hf hk hb ⊢
  have hs : Good p.memory (StringGood p l (p.addr data) head) fs ss := ⟨hk.1, fun t ht => .inr (hk.2 t ht)⟩
  refine (addAll_good (fs := fs) ss fs accGood_nil hs fun _ h => h).bind fun a b h => ?_
  have hb' : Good p.memory (StringGood p l (p.addr data) head) body body' := by
    rcases hb with ⟨rfl, rfl, rfl⟩ | ⟨w, rfl, rfl, rfl⟩
    · exact .none
    · refine Good.some ?_
      have h2 : Here p (p.addr data) (head ++ [13, 10] ++ (w ++ [])) := by
        have : data = head ++ [13, 10] ++ (w ++ []) := by rw [hw]; simp
        rw [← this]
        exact ⟨hd, Nat.le_refl _⟩
      have h3 := keeps_slice (w := head) h2
      rw [List.append_nil] at h3
      exact ⟨h3.1, fun t ht => .inr (h3.2 t ht)⟩
  exact (finish_good hl (fun t ht => .inl ht) h hb').mono fun v s hv => ⟨head, rest, fs, body, body', hw, hf, hb, hv⟩

end EmailParser
