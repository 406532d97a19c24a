import Verif.Proofs.Features
import Verif.Proofs.Trace
import Verif.Proofs.Lines
/-
The header lines of a message do not depend on the Cargo features.
-/
namespace EmailParser
open Spec (Alone)

variable {α β : Type} {c : Cfg} {f : Features} {t : Bytes}

/-! ### Lines -/

/-- A header line: some parser of header lines accepts it. -/
inductive HLine (l : Bytes) : Prop
  | mk {α : Type} {n : Bytes} {p : Bytes → Res α} {v : α} :
    LineParser n p → p l = .ok ([], v) → (∀ i, Ended i → ∃ e, p i = .err e) → HLine l

theorem HLine.shape {l : Bytes} (h : HLine l) : (∃ u, l = u ++ [13, 10]) ∧ Stops Spec.wsp l := by
  obtain ⟨hp, h, -⟩ := h
  obtain ⟨h1, h2, -⟩ := hp.shape l [] _ (by rw [List.append_nil]; exact h)
  exact ⟨h1, h2⟩

theorem HLine.le {l l' s s' : Bytes} (h : HLine l) (h' : HLine l') (e : l ++ s = l' ++ s') (hs : Stops Spec.wsp s)
    (hs' : Stops Spec.wsp s') : s'.length ≤ s.length := by
  obtain ⟨⟨u, rfl⟩, -⟩ := h'.shape
  obtain ⟨hp, h, -⟩ := h
  have h := hp.followed h hs
  rw [e, List.append_assoc] at h
  rcases hp.line.cases (w := u) (t := s') (t' := s') ⟨hs', hs'⟩ with
    ⟨u', s, v, e, h1, h2⟩ | ⟨v, h1, h2⟩ | ⟨e, e', h1, h2⟩ | ⟨k, h1, h2⟩
  all_goals
    have h1 := h.symm.trans h1
    cases h1
  · simp; omega
  · exact Nat.le_refl _

theorem HLine.unique {l l' s s' : Bytes} (h : HLine l) (h' : HLine l') (e : l ++ s = l' ++ s')
    (hs : Stops Spec.wsp s) (hs' : Stops Spec.wsp s') : l = l' ∧ s = s' := by
  have h1 := h.le h' e hs hs'
  have h2 := h'.le h e.symm hs' hs
  exact List.append_inj' e (by omega)

theorem HLine.stops {ls : List Bytes} (h : ∀ l ∈ ls, HLine l) (ht : Stops Spec.wsp t) :
    Stops Spec.wsp (ls.flatten ++ t) := by
  cases ls with
  | nil => simpa using ht
  | cons l ls =>
    rw [List.flatten_cons, List.append_assoc]
    exact stops_line (h l (by simp)).shape.2 (h l (by simp)).shape.1

theorem HLine.not_ended {l s : Bytes} (h : HLine l) (hs : Stops Spec.wsp s) : ¬ Ended (l ++ s) := by
  obtain ⟨hp, h, he⟩ := h
  intro h'
  obtain ⟨e, he⟩ := he _ h'
  rw [hp.followed h hs] at he
  cases he

/-- A text is split into header lines in one way only. -/
theorem HLine.split : ∀ {ls ls' : List Bytes} {t t' : Bytes}, (∀ l ∈ ls, HLine l) → (∀ l ∈ ls', HLine l) →
    ls.flatten ++ t = ls'.flatten ++ t' → Ended t → Ended t' → ls = ls' ∧ t = t'
  | [], [], _, _, _, _, e, _, _ => ⟨rfl, by simpa using e⟩
  | [], l :: ls, t, t', _, h', e, ht, ht' => by
    exfalso
    refine (h' l (by simp)).not_ended (HLine.stops (fun l hl => h' l (.tail _ hl)) ht'.stops) ?_
    have e : t = l ++ (ls.flatten ++ t') := by simpa using e
    exact e ▸ ht
  | l :: ls, [], t, t', h, _, e, ht, ht' => by
    exfalso
    refine (h l (by simp)).not_ended (HLine.stops (fun l hl => h l (.tail _ hl)) ht.stops) ?_
    have e : l ++ (ls.flatten ++ t) = t' := by simpa using e
    exact e ▸ ht'
  | l :: ls, l' :: ls', t, t', h, h', e, ht, ht' => by
    simp only [List.flatten_cons, List.append_assoc] at e
    obtain ⟨rfl, e'⟩ := (h l (by simp)).unique (h' l' (by simp)) e
      (HLine.stops (fun l hl => h l (.tail _ hl)) ht.stops) (HLine.stops (fun l hl => h' l (.tail _ hl)) ht'.stops)
    obtain ⟨rfl, rfl⟩ := HLine.split (fun l hl => h l (.tail _ hl)) (fun l hl => h' l (.tail _ hl)) e' ht ht'
    exact ⟨rfl, rfl⟩

/-! ### Parsers of lines -/

theorem LineParser.alone {n l : Bytes} {p : Bytes → Res α} {v : α} (hp : LineParser n p)
    (h : p (l ++ t) = .ok (t, v)) (ht : Stops Spec.wsp t) : p l = .ok ([], v) := by
  obtain ⟨⟨u, rfl⟩, -⟩ := hp.shape l t v h
  rcases hp.line.cases (w := u) (t := t) (t' := []) ⟨ht, stops_nil⟩ with
    ⟨u', s, v, e, h1, h2⟩ | ⟨v, h1, h2⟩ | ⟨e, e', h1, h2⟩ | ⟨k, h1, h2⟩
  all_goals rw [show u ++ [13, 10] ++ t = u ++ 13 :: 10 :: t by simp] at h; rw [h] at h1
  · simp only [Outcome.ok.injEq, Prod.mk.injEq] at h1
    have := congrArg List.length h1.1
    simp at this
    omega
  · simp only [Outcome.ok.injEq, Prod.mk.injEq, true_and] at h1
    subst h1
    exact h2
  · simp at h1
  · simp at h1

theorem manyLoop_alone {n : Bytes} {p : Bytes → Res α} (hp : LineParser n p) (ht : Stops Spec.wsp t) :
    ∀ k {i : Bytes} {vs : List α}, manyLoop p k i = .ok (t, vs) → ∃ ls, i = ls.flatten ++ t ∧ Alone p ls vs
  | 0, _, _, h => by cases h
  | k + 1, i, vs, h => by
    unfold manyLoop at h
    split at h
    · next r v hx =>
      obtain ⟨⟨_, vs'⟩, h1, h2⟩ := bind_eq_ok.1 h
      cases h2
      obtain ⟨ls, rfl, ha⟩ := manyLoop_alone hp ht k h1
      obtain ⟨l, rfl⟩ := hp.whole _ _ _ hx
      exact ⟨l :: ls, by simp, .cons (hp.alone hx (ha.stops hp ht)) ha⟩
    · cases h
      exact ⟨[], rfl, .nil⟩
    · cases h

theorem field_lines : LineParser [] (field c) :=
  shape_of_parses field_local field_parses (fun _ _ h => ⟨(field_shape h).1, (field_shape h).2, List.nil_prefix⟩)
    fun _ h => absurd List.nil_prefix h

theorem LinesOf.of_alone {ls : List Bytes} {fs : List Field} (h : Alone (field c) ls fs) : LinesOf c ls fs := by
  induction h with
  | nil => exact .nil
  | cons h _ ih => exact .cons h ih

theorem LinesOf.hline {ls : List Bytes} {fs : List Field} (h : LinesOf c ls fs) : ∀ l ∈ ls, HLine l := by
  induction h with
  | nil => exact fun _ h => by cases h
  | @cons l x ls fs h _ ih =>
    intro l' hl
    rcases List.mem_cons.1 hl with rfl | hl
    · exact .mk field_lines h fun i hi => field_ended hi
    · exact ih l' hl

/-! ### Lines of traces -/

/-- The line has the name of a trace header. -/
def TraceLine (l : Bytes) : Prop := HLine l ∧ ∃ n ∈ Spec.traceNames, (n ++ b! ":") <+: l.map asciiLower

theorem headerLine_named {n : Bytes} {G : Spec.Gram α} {w r : Bytes} {v : α} (h : Spec.HeaderLine n G w v) :
    n.map asciiLower <+: (w ++ r).map asciiLower := by
  rw [List.map_append]
  exact (headerLine_begins h).trans (List.prefix_append _ _)

theorem returnPath_traceLine {l : Bytes} {v : Option EmailAddress} (h : returnPath c l = .ok ([], v)) : TraceLine l := by
  refine ⟨.mk returnPath_lines h fun i hi => (hi.quiet (c := c)).returnPath, b! "return-path", by decide, ?_⟩
  obtain ⟨w, rfl, hw⟩ := (returnPath_parses (c := c) l).of_ok h
  exact headerLine_named hw

theorem received_traceLine {l : Bytes} {v : List ReceivedToken × DateTime} (h : received c l = .ok ([], v)) :
    TraceLine l := by
  refine ⟨.mk received_lines h fun i hi => (hi.quiet (c := c)).received, b! "received", by decide, ?_⟩
  obtain ⟨w, rfl, hw⟩ := (received_parses (c := c) l).of_ok h
  exact headerLine_named hw

theorem resent_traceLine {l : Bytes} {v : TraceField} (h : matchParsers l (traceFieldParsers c) = .ok ([], v)) :
    TraceLine l := by
  refine ⟨.mk resent_lines h fun i hi => (hi.quiet (c := c)).resent, ?_⟩
  obtain ⟨w, rfl, hw⟩ := (traceFields_parses (c := c) l).of_ok h
  obtain ⟨w₁, w₂, _, rfl, h₁, h₂⟩ := hw
  have h₁ : w₁.map asciiLower = b! "resent-" := h₁
  have key : ∀ {α : Type} {n m : Bytes} {G : Spec.Gram α} {v : α}, Spec.HeaderLine n G w₂ v →
      b! "resent-" ++ n.map asciiLower = m ++ b! ":" → (m ++ b! ":") <+: ((w₁ ++ w₂) ++ []).map asciiLower := by
    intro α n m G v h e
    rw [← e, List.append_nil, List.map_append, h₁]
    exact List.prefix_append_right_inj _ |>.mpr (headerLine_begins h)
  cases v
  · exact ⟨b! "resent-date", by decide, key h₂ (by decide)⟩
  · exact ⟨b! "resent-from", by decide, key h₂ (by decide)⟩
  · exact ⟨b! "resent-sender", by decide, key h₂ (by decide)⟩
  · exact ⟨b! "resent-to", by decide, key h₂ (by decide)⟩
  · exact ⟨b! "resent-cc", by decide, key h₂ (by decide)⟩
  · exact ⟨b! "resent-bcc", by decide, key h₂ (by decide)⟩
  · exact ⟨b! "resent-message-id", by decide, key h₂ (by decide)⟩

theorem Spec.Alone.all {p : Bytes → Res α} {P : Bytes → Prop} {ls : List Bytes} {vs : List α} (h : Alone p ls vs)
    (hP : ∀ l v, p l = .ok ([], v) → P l) : ∀ l ∈ ls, P l := by
  induction h with
  | nil => exact fun _ h => by cases h
  | cons h _ ih =>
    intro l hl
    rcases List.mem_cons.1 hl with rfl | hl
    · exact hP _ _ h
    · exact ih l hl

theorem traceBlock_split {i : Bytes} {x : Field} (h : traceBlock c i = .ok (t, x)) (ht : Stops Spec.wsp t) :
    ∃ ls : List Bytes, i = ls.flatten ++ t ∧ ∀ l ∈ ls, TraceLine l := by
  unfold traceBlock trace at h
  obtain ⟨⟨r₁, v₁⟩, h1, h2⟩ := bind_eq_ok.1 h
  obtain ⟨⟨r₂, v₂⟩, h3, h4⟩ := bind_eq_ok.1 h2
  cases h4
  obtain ⟨ls₃, rfl, a₃⟩ := manyLoop_alone resent_lines ht _ h3
  have ht₃ := a₃.stops resent_lines ht
  obtain ⟨⟨r₄, v₄⟩, h5, h6⟩ := bind_eq_ok.1 h1
  obtain ⟨⟨r₅, v₅⟩, h7, h8⟩ := bind_eq_ok.1 h6
  cases h8
  unfold many1 at h7
  obtain ⟨⟨r₆, v₆⟩, h9, h10⟩ := bind_eq_ok.1 h7
  obtain ⟨⟨r₇, v₇⟩, h11, h12⟩ := bind_eq_ok.1 h10
  cases h12
  obtain ⟨ls₂, rfl, a₂⟩ := manyLoop_alone received_lines ht₃ _ h11
  obtain ⟨l, rfl⟩ := received_lines.whole _ _ _ h9
  have a₂ : Alone (received c) (l :: ls₂) _ := .cons (received_lines.alone h9 (a₂.stops received_lines ht₃)) a₂
  have ht₂ := a₂.stops received_lines ht₃
  rw [List.flatten_cons, List.append_assoc] at ht₂
  have key : ∃ ls₁ : List Bytes, i = ls₁.flatten ++ (l ++ (ls₂.flatten ++ (ls₃.flatten ++ t))) ∧ ∀ l ∈ ls₁, TraceLine l := by
    unfold optional at h5
    split at h5
    · next r v hx =>
      cases h5
      obtain ⟨l', rfl⟩ := returnPath_lines.whole _ _ _ hx
      refine ⟨[l'], by simp, fun l'' hl => ?_⟩
      rw [List.mem_singleton.1 hl]
      exact returnPath_traceLine (returnPath_lines.alone hx ht₂)
    · cases h5
      exact ⟨[], by simp, nofun⟩
    · cases h5
  obtain ⟨ls₁, rfl, ha⟩ := key
  refine ⟨ls₁ ++ (l :: ls₂) ++ ls₃, by simp, fun l' hl => ?_⟩
  rcases List.mem_append.1 hl with hl | hl
  · rcases List.mem_append.1 hl with hl | hl
    · exact ha _ hl
    · exact a₂.all (fun _ _ h => received_traceLine h) _ hl
  · exact a₃.all (fun _ _ h => resent_traceLine h) _ hl

theorem traceBlocks_split (ht : Stops Spec.wsp t) : ∀ k {i : Bytes} {xs : List Field},
    manyLoop (traceBlock c) k i = .ok (t, xs) →
      ∃ ls : List Bytes, i = ls.flatten ++ t ∧ ∀ l ∈ ls, TraceLine l
  | 0, _, _, h => by cases h
  | k + 1, i, vs, h => by
    unfold manyLoop at h
    split at h
    · next r v hx =>
      obtain ⟨⟨_, vs'⟩, h1, h2⟩ := bind_eq_ok.1 h
      cases h2
      obtain ⟨ls, rfl, ha⟩ := traceBlocks_split ht k h1
      obtain ⟨ls', rfl, ha'⟩ := traceBlock_split hx (HLine.stops (fun l hl => (ha l hl).1) ht)
      refine ⟨ls' ++ ls, by simp, fun l hl => ?_⟩
      rcases List.mem_append.1 hl with hl | hl
      · exact ha' l hl
      · exact ha l hl
    · cases h
      exact ⟨[], rfl, nofun⟩
    · cases h

/-- The lines of a header block that is read to its end. -/
theorem fields_hlines {i : Bytes} {fs : List Field} (h : fields c i = .ok (t, fs)) (ht : Ended t) :
    ∃ (pre post : List Bytes) (ts us : List Field), i = pre.flatten ++ (post.flatten ++ t) ∧ (∀ l ∈ pre, TraceLine l) ∧
      (c.feat.trace = false → pre = [] ∧ ts = []) ∧ traces c i = .ok (post.flatten ++ t, ts) ∧ LinesOf c post us ∧ fs = ts ++ us := by
  unfold fields at h
  obtain ⟨⟨r₁, ts⟩, h1, h2⟩ := bind_eq_ok.1 h
  obtain ⟨⟨r₂, us⟩, h3, h4⟩ := bind_eq_ok.1 h2
  cases h4
  obtain ⟨post, rfl, ha⟩ := manyLoop_alone field_lines ht.stops _ h3
  have hl := LinesOf.of_alone ha
  have h1' := h1
  unfold traces at h1
  split at h1
  · next hc =>
    obtain ⟨pre, rfl, hp⟩ := traceBlocks_split (hl.stops ht.stops) _ h1
    exact ⟨pre, post, ts, us, rfl, hp, by simp [hc], h1', hl, rfl⟩
  · cases h1
    exact ⟨[], post, [], us, rfl, nofun, fun _ => ⟨rfl, rfl⟩, h1', hl, rfl⟩

/-! ### Both sets of features -/

/-- A trace, or a header of a trace that is reported as unknown. -/
def InTrace : Field → Prop
  | .trace _ _ _ => True
  | .unknown name _ => name.map asciiLower ∈ Spec.traceNames
  | _ => False

/-- The fields read with two sets of features. -/
inductive Matched (f f' : Features) : List Field → List Field → Prop
  | nil : Matched f f' [] []
  | cons {x y : Field} {xs ys : List Field} : Counterpart f f' x y → Matched f f' xs ys → Matched f f' (x :: xs) (y :: ys)
  | left {x : Field} {xs ys : List Field} : f.trace ≠ f'.trace → InTrace x → Matched f f' xs ys → Matched f f' (x :: xs) ys
  | right {y : Field} {xs ys : List Field} : f.trace ≠ f'.trace → InTrace y → Matched f f' xs ys → Matched f f' xs (y :: ys)

theorem Matched.symm {f f' : Features} {xs ys : List Field} (h : Matched f f' xs ys) : Matched f' f ys xs := by
  induction h with
  | nil => exact .nil
  | cons h _ ih => exact .cons h.symm ih
  | left h h' _ ih => exact .right h.symm h' ih
  | right h h' _ ih => exact .left h.symm h' ih

theorem Matched.append_same {f f' : Features} {xs ys : List Field} (h : Matched f f' xs ys) :
    ∀ zs, Matched f f' (zs ++ xs) (zs ++ ys)
  | [] => h
  | z :: zs => .cons (.same z) (h.append_same zs)

theorem Matched.append_left {f f' : Features} {xs ys : List Field} (ht : f.trace ≠ f'.trace) (h : Matched f f' xs ys) :
    ∀ {zs : List Field}, (∀ z ∈ zs, InTrace z) → Matched f f' (zs ++ xs) ys
  | [], _ => h
  | z :: _, hz => .left ht (hz z (by simp)) (h.append_left ht fun z hz' => hz z (by simp [hz']))

theorem LinesOf.matched {ls : List Bytes} {us us' : List Field} (h : LinesOf c ls us) (h' : LinesOf (c.switch f) ls us')
    (hu : ∀ l ∈ ls, Usual c f l) : Matched c.feat (c.switch f).feat us us' := by
  induction h generalizing us' with
  | nil => cases h'; exact .nil
  | cons h _ ih =>
    obtain ⟨⟩ | ⟨h1, h2⟩ := h'
    exact .cons (field_same (hu _ (by simp)) h h1) (ih h2 fun l hl => hu l (by simp [hl]))

theorem At.append {r r' : Bytes} (h : At t [] r r') : r = r' ++ t := by
  cases h <;> simp

theorem HLine.at {ls : List Bytes} (h : ∀ l ∈ ls, HLine l) : At t [] (ls.flatten ++ t) ls.flatten := by
  rcases List.eq_nil_or_concat ls with rfl | ⟨ls, l, rfl⟩
  · exact .done
  · obtain ⟨⟨u, rfl⟩, -⟩ := (h l (by simp)).shape
    simpa using At.inside (t := t) (t' := []) (ls.flatten ++ u)

theorem TraceLine.unrecognized {l : Bytes} (h : TraceLine l) :
    ∀ e ∈ headerTable c, ¬ (e.1 ++ b! ":") <+: l.map asciiLower := by
  intro e he h'
  obtain ⟨-, n, hn, s, hs⟩ := h
  have h58 : 58 ∉ n := by
    revert n
    simp only [Spec.traceNames, List.mem_cons, List.not_mem_nil, or_false]
    rintro n (rfl | rfl | rfl | rfl | rfl | rfl | rfl | rfl | rfl) - <;> decide
  have hr : ¬ Spec.Recognized c.feat n := by
    simp only [Spec.traceNames, List.mem_cons, List.not_mem_nil, or_false] at hn
    rcases hn with e | e | e | e | e | e | e | e | e <;> rw [e] <;> simp [Spec.Recognized]
  rw [← hs] at h'
  have := prefix_name h58 (headerTable_colon e he) h'
  have hr' := headerTable_recognized e he
  rw [this] at hr'
  exact hr hr'

theorem TraceLine.unknown {l : Bytes} (h : TraceLine l) {x : Field} (hx : field c l = .ok ([], x)) : InTrace x := by
  rw [field_unnamed h.unrecognized] at hx
  obtain ⟨-, n, hn, hp⟩ := h
  have h58 : 58 ∉ n := by
    revert n
    simp only [Spec.traceNames, List.mem_cons, List.not_mem_nil, or_false]
    rintro n (rfl | rfl | rfl | rfl | rfl | rfl | rfl | rfl | rfl) - <;> decide
  have hx' : unknownField c l = .ok ([], x) := by
    unfold matchParsers at hx
    split at hx
    · cases hx; assumption
    · cases hx
    · cases hx
  obtain ⟨name, v, rfl, hname, hp'⟩ := unknownField_shape hx'
  obtain ⟨s, hs⟩ := hp'
  rw [← hs] at hp
  have := prefix_name hname h58 hp
  show name.map asciiLower ∈ Spec.traceNames
  rw [← this]
  exact hn

theorem LinesOf.inTrace {ls : List Bytes} {us : List Field} (h : LinesOf c ls us) (hl : ∀ l ∈ ls, TraceLine l) :
    ∀ x ∈ us, InTrace x := by
  induction h with
  | nil => exact fun _ h => by cases h
  | cons h _ ih =>
    intro x hx
    rcases List.mem_cons.1 hx with rfl | hx
    · exact (hl _ (by simp)).unknown h
    · exact ih (fun l h => hl l (by simp [h])) x hx

theorem LinesOf.split {pre post : List Bytes} {us : List Field} (h : LinesOf c (pre ++ post) us) :
    ∃ us₁ us₂, us = us₁ ++ us₂ ∧ LinesOf c pre us₁ ∧ LinesOf c post us₂ := by
  induction pre generalizing us with
  | nil => exact ⟨[], us, rfl, .nil, h⟩
  | cons l ls ih =>
    obtain ⟨⟩ | ⟨h1, h2⟩ := h
    obtain ⟨us₁, us₂, rfl, h3, h4⟩ := ih h2
    exact ⟨_ :: us₁, us₂, rfl, .cons h1 h3, h4⟩

theorem Usual.prefix {w r : Bytes} (h : Usual c f (w ++ r)) : Usual c f w :=
  h.imp id fun h hr => h (hr.trans (List.prefix_append _ _).isInfix)

theorem Usual.member {ls : List Bytes} (h : Usual c f ls.flatten) {l : Bytes} (hl : l ∈ ls) : Usual c f l := by
  obtain ⟨a, b, rfl⟩ := List.append_of_mem hl
  rw [List.flatten_append, List.flatten_cons] at h
  exact h.suffix.prefix

/-- The traces are trace fields. -/
theorem traces_inTrace {i r : Bytes} {ts : List Field} (h : traces c i = .ok (r, ts)) : ∀ x ∈ ts, InTrace x := by
  intro x hx
  obtain ⟨w, -, hw⟩ := (traces_parses (c := c) i).of_ok h
  unfold Spec.TraceBlocks at hw
  split at hw
  · obtain ⟨w, hw⟩ := star_value hw hx
    obtain ⟨_, _, a, -, -, _, _, b, -, ⟨_, _, _, -, -, _, _, _, -, -, -, rfl⟩, _, _, d, -, -, -, rfl⟩ := hw
    trivial
  · cases hw.2
    cases hx

/-- Traces on the left only. -/
theorem matched_left {pre post : List Bytes} {ts us us' : List Field}
    (htr : c.feat.trace ≠ (c.switch f).feat.trace) (hts : ∀ x ∈ ts, InTrace x) (hpre : ∀ l ∈ pre, TraceLine l)
    (h : LinesOf c post us) (h' : LinesOf (c.switch f) (pre ++ post) us') (hu : ∀ l ∈ post, Usual c f l) :
    Matched c.feat (c.switch f).feat (ts ++ us) us' := by
  obtain ⟨us₁, us₂, rfl, h3, h4⟩ := h'.split
  refine .append_left htr ?_ hts
  exact ((h.matched h4 hu).symm.append_left htr.symm (h3.inTrace hpre)).symm

theorem fields_matched {w t' : Bytes} {fs fs' : List Field} (h : fields c (w ++ t) = .ok (t, fs))
    (h' : fields (c.switch f) (w ++ t) = .ok (t', fs')) (ht : Ended t) (ht' : Ended t') (hu : Usual c f w) :
    t' = t ∧ Matched c.feat (c.switch f).feat fs fs' := by
  obtain ⟨pre, post, ts, us, e, hpre, hoff, htr, hl, rfl⟩ := fields_hlines h ht
  obtain ⟨pre', post', ts', us', e', hpre', hoff', htr', hl', rfl⟩ := fields_hlines h' ht'
  have key : pre ++ post = pre' ++ post' ∧ t = t' := by
    refine HLine.split ?_ ?_ ?_ ht ht'
    · exact fun l h => (List.mem_append.1 h).elim (fun h => (hpre l h).1) (hl.hline l)
    · exact fun l h => (List.mem_append.1 h).elim (fun h => (hpre' l h).1) (hl'.hline l)
    · rw [List.flatten_append, List.flatten_append, List.append_assoc, List.append_assoc, ← e, ← e']
  obtain ⟨hlines, rfl⟩ := key
  refine ⟨rfl, ?_⟩
  have ew : w = (pre ++ post).flatten := by
    rw [← List.append_assoc] at e
    rw [List.flatten_append]
    exact List.append_cancel_right e
  have hu1 : ∀ l ∈ post, Usual c f l := fun l hl => Usual.member (ew ▸ hu) (by simp [hl])
  have hu2 : ∀ l ∈ post', Usual c f l := fun l hl => Usual.member (hlines ▸ ew ▸ hu) (by simp [hl])
  by_cases htrace : (c.switch f).feat.trace = c.feat.trace
  · -- The same traces.
    have hat : At t [] (w ++ t) w := by
      rw [ew]
      exact HLine.at fun l h => (List.mem_append.1 h).elim (fun h => (hpre l h).1) (hl.hline l)
    rcases (traces_block (c := c) ht.quiet Ended.nil.quiet).cases hat with
      ⟨s, s', v, hs, h1, h2⟩ | ⟨e, e', h1, h2⟩ | ⟨k, h1, h2⟩ <;> rw [htr] at h1 <;> cases h1
    rcases (traces_block (c := c.switch f) ht.quiet Ended.nil.quiet).cases hat with
      ⟨s₂, s₂', v₂, hs₂, h3, h4⟩ | ⟨e, e', h3, h4⟩ | ⟨k, h3, h4⟩ <;> rw [htr'] at h3 <;> cases h3
    have hc := traces_like (f := f) htrace w hu
    rw [h2, h4] at hc
    cases hc
    have e1 := hs.append
    have e2 := hs₂.append
    obtain ⟨rfl, -⟩ := HLine.split hl.hline hl'.hline (e1.trans e2.symm) ht ht
    exact (hl.matched hl' hu1).append_same ts
  · cases hc : c.feat.trace with
    | false =>
      obtain ⟨rfl, rfl⟩ := hoff hc
      refine (matched_left (c := c.switch f) (f := c.feat) htrace (traces_inTrace htr') hpre' hl' ?_ fun l hl => (hu2 l hl).switch).symm
      rw [switch_switch, ← hlines]
      exact hl
    | true =>
      have hc' : (c.switch f).feat.trace = false := by
        rw [hc] at htrace
        simpa using htrace
      obtain ⟨rfl, rfl⟩ := hoff' hc'
      rw [List.nil_append] at hlines ⊢
      exact matched_left (fun h => htrace h.symm) (traces_inTrace htr) hpre hl (hlines ▸ hl') hu1

end EmailParser
