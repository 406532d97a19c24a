import Verif.Props.Relay
import Verif.Spec.Inert
/-
C91: header lines without a meaning of their own do not change what is read of the others.
-/
namespace EmailParser
open Spec

variable (c : Cfg)

/-! ### Fields that are not unknown -/

/-- Fields with a meaning of their own. -/
def known : Field → Bool
  | .unknown _ _ => false
  | _ => true

theorem known_filterMap {α : Type} {g : Field → Option α} (hg : ∀ n v, g (.unknown n v) = none) (xs : List Field) :
    (xs.filter known).filterMap g = xs.filterMap g := by
  rw [List.filterMap_filter]
  congr 1
  funext f
  cases f <;> simp [known, hg]

theorem known_findSome {α : Type} {g : Field → Option α} (hg : ∀ n v, g (.unknown n v) = none) (xs : List Field) :
    (xs.filter known).findSome? g = xs.findSome? g := by
  rw [← List.head?_filterMap, known_filterMap hg, List.head?_filterMap]

theorem known_flatMap {α : Type} {g : Field → List α} (hg : ∀ n v, g (.unknown n v) = []) (xs : List Field) :
    (xs.filter known).flatMap g = xs.flatMap g := by
  induction xs with
  | nil => rfl
  | cons f xs ih =>
    rw [List.flatMap_cons, ← ih, List.filter_cons]
    cases f <;> simp [known, hg]

section
variable {xs ys : List Field} (h : xs.filter known = ys.filter known)
include h

theorem alike_findSome {α : Type} {g : Field → Option α} (hg : ∀ n v, g (.unknown n v) = none) :
    ys.findSome? g = xs.findSome? g := by rw [← known_findSome hg ys, ← h, known_findSome hg]

theorem alike_filterMap {α : Type} {g : Field → Option α} (hg : ∀ n v, g (.unknown n v) = none) :
    ys.filterMap g = xs.filterMap g := by rw [← known_filterMap hg ys, ← h, known_filterMap hg]

theorem alike_flatMap {α : Type} {g : Field → List α} (hg : ∀ n v, g (.unknown n v) = []) :
    ys.flatMap g = xs.flatMap g := by rw [← known_flatMap hg ys, ← h, known_flatMap hg]

theorem alike_noDuplicate (hn : NoDuplicate xs) : NoDuplicate ys := by
  unfold NoDuplicate
  rw [alike_filterMap h fun _ _ => rfl]
  exact hn

theorem alike_missing {n : String} (hn : Missing c ys n) : Missing c xs n := by
  have hmem : ∀ f, known f = true → (f ∈ xs ↔ f ∈ ys) := fun f hf => by
    have : f ∈ xs.filter known ↔ f ∈ ys.filter known := by rw [h]
    simpa [hf] using this
  have key : ∀ {p : Field → Prop}, (∀ n v, p (.unknown n v)) → (∀ f ∈ ys, p f) → ∀ f ∈ xs, p f := by
    intro p h1 h2 f hf
    cases hk : known f with
    | true => exact h2 f ((hmem f hk).1 hf)
    | false =>
      cases f with
      | unknown n v => exact h1 n v
      | _ => cases hk
  rcases hn with ⟨h1, h2, h3⟩ | ⟨h1, h2, h3⟩ | ⟨h1, h2, h3, h4⟩
  · exact .inl ⟨h1, h2, key (fun _ _ => rfl) h3⟩
  · exact .inr (.inl ⟨h1, h2, key (fun _ _ => rfl) h3⟩)
  · exact .inr (.inr ⟨h1, h2, key (fun _ _ => rfl) h3, key (fun _ _ => nofun) h4⟩)

theorem alike_email {b : Option Bytes} {e : Email} (he : IsEmail c xs b e) :
    IsEmail c ys b { e with unknownFields := ys.filterMap unknownOf } where
  «from» := by rw [alike_findSome h fun _ _ => rfl]; exact he.from
  date := by rw [alike_findSome h fun _ _ => rfl]; exact he.date
  sender := by rw [alike_findSome h fun _ _ => rfl, alike_findSome h fun _ _ => rfl]; exact he.sender
  subject := by rw [alike_findSome h fun _ _ => rfl]; exact he.subject
  to := by rw [alike_findSome h fun _ _ => rfl]; exact he.to
  cc := by rw [alike_findSome h fun _ _ => rfl]; exact he.cc
  bcc := by rw [alike_findSome h fun _ _ => rfl]; exact he.bcc
  messageId := by rw [alike_findSome h fun _ _ => rfl]; exact he.messageId
  inReplyTo := by rw [alike_findSome h fun _ _ => rfl]; exact he.inReplyTo
  references := by rw [alike_findSome h fun _ _ => rfl]; exact he.references
  replyTo := by rw [alike_findSome h fun _ _ => rfl]; exact he.replyTo
  comments := by
    show e.comments = _
    rw [alike_filterMap h fun _ _ => rfl]; exact he.comments
  keywords := by rw [alike_flatMap h fun _ _ => rfl]; exact he.keywords
  trace := by
    show e.trace = _
    rw [alike_filterMap h fun _ _ => rfl]; exact he.trace
  unknownFields := rfl
  body := he.body
  noEntity := he.noEntity
  entity := by
    intro hm
    have := he.entity hm
    rw [← alike_findSome h fun _ _ => rfl, ← alike_findSome h fun _ _ => rfl, ← alike_findSome h fun _ _ => rfl,
      ← alike_findSome h fun _ _ => rfl, ← alike_findSome h fun _ _ => rfl] at this
    exact this

end

/-! ### Lines -/

theorem notTrace_quiet {name x w l t : Bytes} (hl : HeaderText name x w l) (hn : NotTrace (name.map asciiLower)) :
    Quiet c (l ++ t) := by
  have hcase : ∀ b ∈ name.map asciiLower, ftext b = true := by
    intro b hb
    obtain ⟨b', hb', rfl⟩ := List.mem_map.1 hb
    exact (by decide +kernel : ∀ b, ftext b = true → ftext (asciiLower b) = true) b' (hl.name_chars b' hb')
  have e0 : (l ++ t).map asciiLower = name.map asciiLower ++ 58 :: (w ++ CRLF ++ t).map asciiLower := by
    have e2 : asciiLower 58 = 58 := rfl
    simp [hl.text, e2]
  refine NoTraceName.quiet c ⟨?_, ?_, ?_⟩ ?_
  · rintro ⟨u, hu⟩
    rw [e0] at hu
    exact hn.2.1 (name_of_prefix (n := b! "return-path") (x := u) (by decide +kernel) hcase hu).symm
  · rintro ⟨u, hu⟩
    rw [e0] at hu
    exact hn.1 (name_of_prefix (n := b! "received") (x := u) (by decide +kernel) hcase hu).symm
  · intro hp
    rw [e0] at hp
    rcases List.prefix_or_prefix_of_prefix hp (List.prefix_append (name.map asciiLower) _) with h | h
    · exact hn.2.2 h
    · obtain ⟨u, hu⟩ := h
      cases u with
      | nil => exact hn.2.2 ⟨[], by rw [← hu]; simp⟩
      | cons a u =>
        rw [← hu, List.prefix_append_right_inj] at hp
        obtain ⟨v, hv⟩ := hp
        simp only [List.cons_append, List.cons.injEq] at hv
        obtain ⟨rfl, -⟩ := hv
        exact absurd (show (58 : UInt8) ∈ b! "resent-" by rw [← hu]; simp) (by decide)
  · intro b s e
    cases name with
    | nil => exact absurd rfl hl.name_ne
    | cons a name =>
      rw [hl.text] at e
      simp only [List.cons_append, List.cons.injEq] at e
      obtain ⟨rfl, -⟩ := e
      exact (by decide +kernel : ∀ b, ftext b = true → wsp b = false) a (hl.name_chars a (by simp))

/-- Lines after the trace, which can be replaced. -/
theorem traces_replaced {p s : List Bytes} {t S' : Bytes} {r : Bytes} {ts : List Field}
    (hp : ∀ l ∈ p, ∃ name x w, HeaderText name x w l)
    (hq : Quiet c (s.flatten ++ t)) (hq' : Quiet c S') (h : traces c (p.flatten ++ (s.flatten ++ t)) = .ok (r, ts)) :
    ∃ y, r = y ++ (s.flatten ++ t) ∧ traces c (p.flatten ++ S') = .ok (y ++ S', ts) := by
  have hat : At (s.flatten ++ t) S' (p.flatten ++ (s.flatten ++ t)) (p.flatten ++ S') := by
    rcases List.eq_nil_or_concat p with rfl | ⟨p, l, rfl⟩
    · exact .done
    · obtain ⟨name, x, w, hl⟩ := hp l (by simp)
      have e : ∀ t, (p.concat l).flatten ++ t = (p.flatten ++ (name ++ b! ":" ++ w)) ++ 13 :: 10 :: t := by
        intro t
        simp [hl.text, CRLF]
      rw [e, e]
      exact .inside _
  rcases (traces_block hq hq').cases hat with ⟨u, u', v, hu, h1, h2⟩ | ⟨e, e', h1, h2⟩ | ⟨k, h1, h2⟩
  · rw [h] at h1
    cases h1
    cases hu with
    | inside w => exact ⟨w ++ CRLF, by simp [CRLF], by rw [h2]; simp [CRLF]⟩
    | done => exact ⟨[], rfl, h2⟩
  · rw [h] at h1; cases h1
  · rw [h] at h1; cases h1

theorem lines_split {ls : List Bytes} {a b : List Bytes} {us : List Field} (h : LinesOf c ls us) (e : ls = a ++ b) :
    ∃ us₁ us₂, us = us₁ ++ us₂ ∧ LinesOf c a us₁ ∧ LinesOf c b us₂ := by
  induction a generalizing ls us with
  | nil => exact ⟨[], us, rfl, .nil, by subst e; exact h⟩
  | cons l a ih =>
    subst e
    cases h with
    | cons h1 h2 =>
      obtain ⟨us₁, us₂, rfl, h3, h4⟩ := ih h2 rfl
      exact ⟨_ :: us₁, us₂, rfl, .cons h1 h3, h4⟩

/-- The lines after the trace are read one by one. -/
theorem fields_replaced {p s s' : List Bytes} {t t' : Bytes} {fs : List Field}
    (hls : ∀ l ∈ p ++ s, ∃ name x w, HeaderText name x w l) (ht : Ended t) (ht' : Ended t')
    (hq : Quiet c (s.flatten ++ t)) (hq' : Quiet c (s'.flatten ++ t))
    (h : fields c (p.flatten ++ (s.flatten ++ t)) = .ok (t', fs)) :
    t' = t ∧ ∃ fs₁ us, fs = fs₁ ++ us ∧ LinesOf c s us ∧
      ∀ us', LinesOf c s' us' → fields c (p.flatten ++ (s'.flatten ++ t)) = .ok (t, fs₁ ++ us') := by
  obtain ⟨pre, post, ts, us, e1, hpre, hoff, h2, hl2, rfl⟩ := fields_hlines h ht'
  have hh : ∀ l ∈ p ++ s, HLine l := fun l h => IsHeaderText.hline c (hls l h)
  have key : p ++ s = pre ++ post ∧ t = t' := by
    refine HLine.split hh ?_ ?_ ht ht'
    · exact fun l h => (List.mem_append.1 h).elim (fun h => (hpre l h).1) (hl2.hline l)
    · rw [List.flatten_append, List.append_assoc, e1, List.flatten_append, List.append_assoc]
  obtain ⟨e2, rfl⟩ := key
  refine ⟨rfl, ?_⟩
  obtain ⟨y, hy, h3⟩ := traces_replaced c (fun l h => hls l (by simp [h])) hq hq' h2
  have hpost : ∃ a, p = pre ++ a ∧ post = a ++ s := by
    rcases List.append_eq_append_iff.1 e2 with ⟨a, h4, h5⟩ | ⟨a, h4, h5⟩
    · have : a = [] := by
        cases a with
        | nil => rfl
        | cons l a =>
          have := congrArg List.length hy
          obtain ⟨⟨u, hu⟩, -⟩ := (hh l (by simp [h5])).shape
          rw [h5, hu] at this
          simp at this
          omega
      subst this
      exact ⟨[], by simpa using h4.symm, by simpa using h5.symm⟩
    · exact ⟨a, h4, h5⟩
  obtain ⟨a, rfl, rfl⟩ := hpost
  obtain ⟨us₁, us₂, rfl, h6, h7⟩ := lines_split c hl2 rfl
  refine ⟨ts ++ us₁, us₂, by simp, h7, fun us' hs' => ?_⟩
  have hy : y = a.flatten := by
    rw [List.flatten_append, List.append_assoc] at hy
    exact (List.append_cancel_right hy).symm
  subst hy
  have hm := (h6.append c hs').many ht.stops (field_ended ht)
  rw [List.flatten_append, List.append_assoc] at hm
  unfold fields
  rw [h3]
  simp only [ok_bind]
  rw [hm]
  simp

/-- Where a line can be put. -/
theorem afterTrace_split {ls₁ ls₂ : List Bytes} {name x w l t : Bytes} (ha : AfterTrace ls₁ ls₂)
    (hl : InertLine c.feat name x w l) (ht : Ended t) :
    ∃ p a, ls₁ = p ++ a ∧ Quiet c ((a ++ ls₂).flatten ++ t) ∧ Quiet c ((a ++ l :: ls₂).flatten ++ t) := by
  rcases ha with ⟨q, hq, n, x', w', h1, h2⟩ | ha
  · obtain ⟨p, a, rfl⟩ := List.append_of_mem hq
    refine ⟨p, q :: a, rfl, ?_, ?_⟩ <;>
    · rw [List.cons_append, List.flatten_cons, List.append_assoc]
      exact notTrace_quiet c h1 h2
  · refine ⟨ls₁, [], by simp, ?_, ?_⟩
    · cases ls₂ with
      | nil => exact ht.quiet
      | cons q ls₂ =>
        obtain ⟨n, x', w', h1, h2⟩ := ha q rfl
        rw [List.nil_append, List.flatten_cons, List.append_assoc]
        exact notTrace_quiet c h1 h2
    · rw [List.nil_append, List.flatten_cons, List.append_assoc]
      exact notTrace_quiet c hl.text hl.notTrace

/-! ### C91 -/

/-- A line without a meaning of its own put anywhere after the trace: the message is still accepted, and the only difference is one
more unknown field. -/
theorem C91_added (hc : c.feat.compiles) (ls₁ ls₂ : List Bytes) (t : Bytes)
    (hls : ∀ l ∈ ls₁ ++ ls₂, ∃ name x w, HeaderText name x w l) (ht : t = [] ∨ CRLF <+: t) (name x w l : Bytes)
    (hl : InertLine c.feat name x w l) (ha : AfterTrace ls₁ ls₂) (e : Email)
    (h : Email.parse c ((ls₁ ++ ls₂).flatten ++ t) = .ok e) :
    ∃ v us₁ us₂, e.unknownFields = us₁ ++ us₂ ∧ Kept c l (name, v) ∧
      Email.parse c ((ls₁ ++ l :: ls₂).flatten ++ t) = .ok { e with unknownFields := us₁ ++ (name, v) :: us₂ } := by
  have ht : Ended t := by
    rcases ht with rfl | ⟨u, rfl⟩
    · exact .nil
    · exact .crlf u
  obtain ⟨p, a, rfl, hq, hq'⟩ := afterTrace_split c ha hl ht
  obtain ⟨fs, b, hp, -, h1, h2, h3⟩ := parse_ok c hc h
  obtain ⟨t', h4, h5⟩ := parseMessage_content.1 hp
  rw [List.append_assoc, List.flatten_append, List.append_assoc] at h4
  obtain ⟨rfl, fs₁, us, rfl, h6, h7⟩ := fields_replaced c (by simpa [← List.append_assoc] using hls) ht (contentOf_ended h5) hq hq' h4
  obtain ⟨us₁, us₂, rfl, h8, h9⟩ := lines_split c h6 rfl
  obtain ⟨v, hv, hv'⟩ := C11_unknown c name x w l [] hl.text hl.unrecognized stops_nil
  rw [List.append_nil] at hv
  have h10 := h7 _ (h8.append c (.cons hv h9))
  refine ⟨v, (fs₁ ++ us₁).filterMap unknownOf, us₂.filterMap unknownOf, ?_, ⟨x, w, hl.text, hv'⟩, ?_⟩
  · rw [h3.unknownFields, ← List.append_assoc, List.filterMap_append]
  · have hk : (fs₁ ++ (us₁ ++ us₂)).filter known = (fs₁ ++ (us₁ ++ Field.unknown name v :: us₂)).filter known := by
      simp [known]
    rw [List.append_assoc, List.flatten_append, List.append_assoc, email_parse_eq, parseMessage_content.2 ⟨t', h10, h5⟩]
    show emailFrom c _ b = _
    rw [emailFrom_iff hc]
    have := EmailResult.email (alike_noDuplicate hk h1) (fun n hn => h2 n (alike_missing c hk hn)) (alike_email c hk h3)
    have e1 : (fs₁ ++ (us₁ ++ Field.unknown name v :: us₂)).filterMap unknownOf =
        (fs₁ ++ us₁).filterMap unknownOf ++ (name, v) :: us₂.filterMap unknownOf := by
      rw [← List.append_assoc, List.filterMap_append]
      rfl
    rw [e1] at this
    exact this

/-- Such a line taken away: the message is still accepted, and the only difference is one unknown field less.  So a message that is
refused is refused with any such lines. -/
theorem C91_removed (hc : c.feat.compiles) (ls₁ ls₂ : List Bytes) (t : Bytes)
    (hls : ∀ l ∈ ls₁ ++ ls₂, ∃ name x w, HeaderText name x w l) (ht : t = [] ∨ CRLF <+: t) (name x w l : Bytes)
    (hl : InertLine c.feat name x w l) (ha : AfterTrace ls₁ ls₂) (e : Email)
    (h : Email.parse c ((ls₁ ++ l :: ls₂).flatten ++ t) = .ok e) :
    ∃ v us₁ us₂, e.unknownFields = us₁ ++ (name, v) :: us₂ ∧ Kept c l (name, v) ∧
      Email.parse c ((ls₁ ++ ls₂).flatten ++ t) = .ok { e with unknownFields := us₁ ++ us₂ } := by
  have ht : Ended t := by
    rcases ht with rfl | ⟨u, rfl⟩
    · exact .nil
    · exact .crlf u
  obtain ⟨p, a, rfl, hq, hq'⟩ := afterTrace_split c ha hl ht
  obtain ⟨fs, b, hp, -, h1, h2, h3⟩ := parse_ok c hc h
  obtain ⟨t', h4, h5⟩ := parseMessage_content.1 hp
  rw [List.append_assoc, List.flatten_append, List.append_assoc] at h4
  have hls' : ∀ l' ∈ p ++ (a ++ l :: ls₂), ∃ name x w, HeaderText name x w l' := by
    intro l' h
    simp only [List.mem_append, List.mem_cons] at h
    rcases h with h | h | rfl | h
    · exact hls l' (by simp [h])
    · exact hls l' (by simp [h])
    · exact ⟨name, x, w, hl.text⟩
    · exact hls l' (by simp [h])
  obtain ⟨rfl, fs₁, us, rfl, h6, h7⟩ := fields_replaced c hls' ht (contentOf_ended h5) hq' hq h4
  obtain ⟨us₁, us₂, rfl, h8, h9⟩ := lines_split c h6 rfl
  obtain ⟨v, hv, hv'⟩ := C11_unknown c name x w l [] hl.text hl.unrecognized stops_nil
  rw [List.append_nil] at hv
  cases h9 with
  | @cons _ f _ us₂ h9 h10 =>
    rw [hv] at h9
    cases h9
    have h11 := h7 _ (h8.append c h10)
    refine ⟨v, (fs₁ ++ us₁).filterMap unknownOf, us₂.filterMap unknownOf, ?_, ⟨x, w, hl.text, hv'⟩, ?_⟩
    · rw [h3.unknownFields, ← List.append_assoc, List.filterMap_append]
      rfl
    · have hk : (fs₁ ++ (us₁ ++ Field.unknown name v :: us₂)).filter known = (fs₁ ++ (us₁ ++ us₂)).filter known := by
        simp [known]
      rw [List.append_assoc, List.flatten_append, List.append_assoc, email_parse_eq, parseMessage_content.2 ⟨t', h11, h5⟩]
      show emailFrom c _ b = _
      rw [emailFrom_iff hc]
      have := EmailResult.email (alike_noDuplicate hk h1) (fun n hn => h2 n (alike_missing c hk hn)) (alike_email c hk h3)
      have e1 : (fs₁ ++ (us₁ ++ us₂)).filterMap unknownOf =
          (fs₁ ++ us₁).filterMap unknownOf ++ us₂.filterMap unknownOf := by
        rw [← List.append_assoc, List.filterMap_append]
      rw [e1] at this
      exact this

/-! ### Parts -/

theorem headerLines_stops {w : Bytes} (h : HeaderLines w) : Stops wsp w := by
  obtain ⟨ls, rfl, hl⟩ := h
  cases ls with
  | nil => exact stops_nil
  | cons l ls =>
    obtain ⟨-, name, t, rfl, hne, hn⟩ := hl l (by simp)
    cases name with
    | nil => exact absurd rfl hne
    | cons x name =>
      intro y s e
      simp only [List.map_cons, List.flatten_cons, List.cons_append, List.cons.injEq] at e
      obtain ⟨rfl, -⟩ := e
      exact (by decide +kernel : ∀ b, ftext b = true → wsp b = false) x (hn x (by simp))

theorem entityHeader_lines (hm : c.feat.mime = true) : LineParser [] (entityHeader c) := by
  refine shape_of_parses (entityHeader_local c) (entityHeader_parses hm) (fun w v h => ?_) fun _ h => absurd List.nil_prefix h
  have hl := (lines_entityHeader c hm w v h).1
  have hne := entityHeader_progress w v h
  exact ⟨(headerLines_first hl).1.resolve_left hne, headerLines_stops hl, List.nil_prefix⟩

theorem alone_hline (hm : c.feat.mime = true) {ls : List Bytes} {hs : List EntityHeader} (h : Alone (entityHeader c) ls hs) :
    ∀ l ∈ ls, HLine l :=
  h.all fun _ _ h => .mk (entityHeader_lines c hm) h fun _ hi => entityHeader_ended c hi

theorem alone_many (hm : c.feat.mime = true) {ls : List Bytes} {hs : List EntityHeader} {t : Bytes}
    (h : Alone (entityHeader c) ls hs) (ht : Ended t) : many (ls.flatten ++ t) (entityHeader c) = .ok (t, hs) := by
  induction h with
  | nil => exact many_err (entityHeader_ended c ht)
  | @cons l v ls vs h h' ih =>
    have hst := HLine.stops (alone_hline c hm h') ht.stops
    have hl := (entityHeader_lines c hm).followed h hst
    rw [List.flatten_cons, List.append_assoc]
    exact many_cons hl ((entityHeader_lines c hm).shrinks _ _ _ hl) ih

theorem part_lines (hm : c.feat.mime = true) {ls : List Bytes} {t : Bytes} {e : RawEntity}
    (hls : ∀ l ∈ ls, ∃ name x w, HeaderText name x w l) (ht : Ended t) :
    rawEntity c (ls.flatten ++ t) = .ok e ↔ ∃ hs body v, Alone (entityHeader c) ls hs ∧ PartEnd t body ∧
      decodeValue body ((partEncoding hs).getD .sevenBit) = .ok v ∧ e = partValue hs v := by
  have key : ∀ {hs body}, Alone (entityHeader c) ls hs → PartEnd t body → rawEntity c (ls.flatten ++ t) =
      (decodeValue body ((partEncoding hs).getD .sevenBit)).bind fun v => .ok (partValue hs v) := by
    intro hs body h1 h2
    have h3 := alone_many c hm h1 ht
    simp only [← entityOf_partValue, ← encoding_foldl]
    cases h2 with
    | none =>
      refine rawEntity_eq ?_ List.nil_suffix
      unfold headerPart
      rw [h3]
      rfl
    | body => exact rawEntity_of_headers c h3
  constructor
  · intro h
    obtain ⟨r, hr, -⟩ := bind_eq_ok.1 h
    unfold headerPart at hr
    obtain ⟨⟨t', hs⟩, h1, h2⟩ := bind_eq_ok.1 hr
    have ht' : Ended t' := by
      cases t' with
      | nil => exact .nil
      | cons a t' =>
        simp only [List.isEmpty_cons, Bool.false_eq_true, if_false] at h2
        obtain ⟨⟨t'', _⟩, h3, -⟩ := bind_eq_ok.1 h2
        rcases tag_cases (a :: t') (b! "\r\n") "TAG ERROR: A MIME entity header part must be followed by a CRLF sequence." with
          ⟨r, e, -⟩ | ⟨_, h'⟩
        · rw [e]
          exact .crlf r
        · rw [h'] at h3
          cases h3
    obtain ⟨ls', e1, h4⟩ := manyLoop_alone (entityHeader_lines c hm) ht'.stops _ h1
    obtain ⟨rfl, rfl⟩ := HLine.split (fun l h => IsHeaderText.hline c (hls l h)) (alone_hline c hm h4) e1 ht ht'
    obtain ⟨body, hb⟩ := partEnd_of ht
    rw [key h4 hb] at h
    obtain ⟨v, h5, h6⟩ := bind_eq_ok.1 h
    cases h6
    exact ⟨hs, body, v, h4, hb, h5, rfl⟩
  · rintro ⟨hs, body, v, h1, h2, h3, rfl⟩
    rw [key h1 h2, h3]
    rfl

theorem alone_append {ls ls' : List Bytes} {hs hs' : List EntityHeader} (h : Alone (entityHeader c) ls hs)
    (h' : Alone (entityHeader c) ls' hs') : Alone (entityHeader c) (ls ++ ls') (hs ++ hs') := by
  induction h with
  | nil => exact h'
  | cons h _ ih => exact .cons h ih

theorem alone_split {a b : List Bytes} {hs : List EntityHeader} (h : Alone (entityHeader c) (a ++ b) hs) :
    ∃ hs₁ hs₂, hs = hs₁ ++ hs₂ ∧ Alone (entityHeader c) a hs₁ ∧ Alone (entityHeader c) b hs₂ := by
  induction a generalizing hs with
  | nil => exact ⟨[], hs, rfl, .nil, h⟩
  | cons l a ih =>
    cases h with
    | cons h1 h2 =>
      obtain ⟨us₁, us₂, rfl, h3, h4⟩ := ih h2
      exact ⟨_ :: us₁, us₂, rfl, .cons h1 h3, h4⟩

theorem entityHeader_other {name x w l : Bytes} (h : HeaderText name x w l) (hn : name.map asciiLower ∉ partNames) :
    ∃ v, entityHeader c l = .ok ([], .other name v) ∧ Kept c l (name, v) := by
  obtain ⟨v, h1, h2⟩ := unknown_line (c := c) h.name_ne h.name_chars h.folding stops_nil
  refine ⟨v, ?_, x, w, h, h2⟩
  have e0 : lineText name w [] = l := by rw [← lineText_eq h, List.append_nil]
  rw [e0] at h1
  rw [entityHeader_table, matchParsers_append]
  have : ∃ e, matchParsers l ((partTable c).map (·.2)) = .err e := by
    refine matchParsers_all_err fun p hp => ?_
    obtain ⟨e, he, rfl⟩ := List.mem_map.mp hp
    refine partTable_other e he fun hpre => hn ?_
    rw [h.text, List.append_assoc, List.append_assoc, List.map_append, List.map_append, ← List.append_assoc] at hpre
    have := prefix_name (ftext_colon_lower h.name_chars) (partTable_names e he).2 (by simpa [show asciiLower 58 = 58 from rfl] using hpre)
    rw [← this]
    exact (partTable_names e he).1
  obtain ⟨e, he⟩ := this
  simp only [he, matchParsers, mapValue, h1, ok_bind]

theorem lastOf_other {α : Type} {g : EntityHeader → Option α} {hs₁ hs₂ : List EntityHeader} {h : EntityHeader}
    (hg : g h = none) : lastOf g (hs₁ ++ h :: hs₂) = lastOf g (hs₁ ++ hs₂) := by
  simp [lastOf, hg]

/-- In a part, lines with other names than those of the five MIME headers: the part is accepted with the line exactly if it is
accepted without, and the only difference is one more additional header. -/
theorem C91_part (hm : c.feat.mime = true) (ls₁ ls₂ : List Bytes) (t : Bytes)
    (hls : ∀ l ∈ ls₁ ++ ls₂, ∃ name x w, HeaderText name x w l) (ht : t = [] ∨ CRLF <+: t) (name x w l : Bytes)
    (hl : HeaderText name x w l) (hn : name.map asciiLower ∉ partNames) :
    ∃ v, Kept c l (name, v) ∧
      (∀ e, rawEntity c ((ls₁ ++ ls₂).flatten ++ t) = .ok e → ∃ us₁ us₂, e.additionalHeaders = us₁ ++ us₂ ∧
        rawEntity c ((ls₁ ++ l :: ls₂).flatten ++ t) = .ok { e with additionalHeaders := us₁ ++ (name, v) :: us₂ }) ∧
      ∀ e, rawEntity c ((ls₁ ++ l :: ls₂).flatten ++ t) = .ok e → ∃ us₁ us₂, e.additionalHeaders = us₁ ++ (name, v) :: us₂ ∧
        rawEntity c ((ls₁ ++ ls₂).flatten ++ t) = .ok { e with additionalHeaders := us₁ ++ us₂ } := by
  have ht : Ended t := by
    rcases ht with rfl | ⟨u, rfl⟩
    · exact .nil
    · exact .crlf u
  obtain ⟨v, hv, hk⟩ := entityHeader_other c hl hn
  have hls' : ∀ l' ∈ ls₁ ++ l :: ls₂, ∃ name x w, HeaderText name x w l' := by
    intro l' h
    simp only [List.mem_append, List.mem_cons] at h
    rcases h with h | rfl | h
    · exact hls l' (by simp [h])
    · exact ⟨name, x, w, hl⟩
    · exact hls l' (by simp [h])
  refine ⟨v, hk, fun e h => ?_, fun e h => ?_⟩
  · obtain ⟨hs, body, y, h1, h2, h3, rfl⟩ := (part_lines c hm hls ht).1 h
    obtain ⟨hs₁, hs₂, rfl, h4, h5⟩ := alone_split c h1
    refine ⟨hs₁.filterMap otherOf, hs₂.filterMap otherOf, by simp [partValue], ?_⟩
    refine (part_lines c hm hls' ht).2 ⟨_, body, y, alone_append c h4 (.cons hv h5), h2, ?_, ?_⟩
    · rw [partEncoding, lastOf_other rfl]
      exact h3
    · simp [partValue, lastOf, typeOf, descriptionOf, idOf, partDispositionOf, otherOf]
  · obtain ⟨hs, body, y, h1, h2, h3, rfl⟩ := (part_lines c hm hls' ht).1 h
    obtain ⟨hs₁, hs₂, rfl, h4, h5⟩ := alone_split c h1
    cases h5 with
    | @cons _ z _ hs₂ h5 h6 =>
      rw [hv] at h5
      cases h5
      refine ⟨hs₁.filterMap otherOf, hs₂.filterMap otherOf, by simp [partValue, otherOf], ?_⟩
      refine (part_lines c hm hls ht).2 ⟨_, body, y, alone_append c h4 h6, h2, ?_, ?_⟩
      · rw [partEncoding, lastOf_other rfl] at h3
        exact h3
      · simp [partValue, lastOf, typeOf, descriptionOf, idOf, partDispositionOf]

/-! Examples -/

private def read (i : Bytes) : Option (Option Bytes × Nat × List (Bytes × Bytes)) :=
  (outcomeValue (Email.parse (Cfg.concrete .full) i)).map fun e => (e.subject, e.trace.length, e.unknownFields)

private def readPart (i : Bytes) : Option (Option (Bytes × Bytes) × Bytes × List (Bytes × Bytes)) :=
  (outcomeValue (rawEntity (Cfg.concrete .full) i)).map fun e => (e.id, e.value, e.additionalHeaders)

private def plain : Bytes := b! "From: a@b\r\nSubject: x\r\nDate: 1 Jan 2020 00:00:00 +0000\r\n\r\ny"
private def marked : Bytes := b! "From: a@b\r\nSubject: x\r\nX-Spam: no\r\n maybe\r\nDate: 1 Jan 2020 00:00:00 +0000\r\n\r\ny"
private def inTrace : Bytes :=
  b! "Received: by c; 1 Jan 2020 00:00:00 +0000\r\nX-Spam: no\r\nReceived: by b; 1 Jan 2020 00:00:00 +0000\r\nFrom: a@b\r\nDate: 1 Jan 2020 00:00:00 +0000\r\n\r\ny"

example : read plain = some (some (b! " x"), 0, []) := by decide +kernel
example : read marked = some (some (b! " x"), 0, [(b! "X-Spam", b! " no maybe")]) := by decide +kernel

/-- Mailing lists and filters add such lines; in a trace they are not inert (`C90_hidden`). -/
example : read inTrace =
    some (none, 1, [(b! "X-Spam", b! " no"), (b! "Received", b! " by b; 1 Jan 2020 00:00:00 +0000")]) := by decide +kernel

/-- Such a line, and a place for it. -/
example : InertLine .full (b! "X-Spam") (b! " no maybe") (b! " no\r\n maybe") (b! "X-Spam: no\r\n maybe\r\n") ∧
    AfterTrace [b! "Received: by b; 1 Jan 2020 00:00:00 +0000\r\n"] [] := by
  have hx : ∀ b y, wsp b = false → NotBefore wsp (b :: y) := fun b y h b' s' e => by cases e; exact h
  refine ⟨⟨⟨rfl, by simp, by decide +kernel, ?_⟩, ?_, by decide, by decide, by decide⟩, .inr nofun⟩
  · exact .space (s := b! " ") (by decide +kernel) (hx _ _ (by decide +kernel)) (.char (by decide +kernel) (.char (by decide +kernel)
      (.fold (s := []) (s' := b! " ") (x := b! "maybe") (by simp) (by decide +kernel) (by decide) (by decide) (hx _ _ (by decide +kernel))
        (.char (by decide +kernel) (.char (by decide +kernel) (.char (by decide +kernel) (.char (by decide +kernel)
          (.char (by decide +kernel) .nil))))))))
  · unfold Recognized
    decide +kernel

private def part : Bytes := b! "Content-Id: <a@b>\r\n\r\ny"
private def partFrom : Bytes := b! "From: a@b\r\nContent-Id: <a@b>\r\n\r\ny"

example : readPart part = some (some (b! "a", b! "b"), b! "y", []) := by decide +kernel
example : readPart partFrom = some (some (b! "a", b! "b"), b! "y", [(b! "From", b! " a@b")]) := by decide +kernel

end EmailParser
