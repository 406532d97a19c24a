import Verif.Proofs.Local.Block
import Verif.Proofs.Message
import Verif.Proofs.Overflow
import Verif.Spec.Trace
/-
Trace blocks: which header lines they consist of.
-/
namespace EmailParser
open Spec (Gram StartsTrace Alone)

variable {α β : Type} {c : Cfg} {t : Bytes}

/-! ### Lines read alone -/

/-- The parser reads single header lines, whose names begin with `n`. -/
structure LineParser (n : Bytes) (p : Bytes → Res α) : Prop where
  line : LocalLine p
  shape : ∀ l r v, p (l ++ r) = .ok (r, v) →
    (∃ u, l = u ++ [13, 10]) ∧ Stops Spec.wsp l ∧ n <+: l.map asciiLower
  whole : ∀ i r v, p i = .ok (r, v) → r <:+ i
  other : ∀ i, ¬ n <+: i.map asciiLower → ∃ e, p i = .err e

theorem stops_line {l t : Bytes} (h : Stops Spec.wsp l) (hl : ∃ u, l = u ++ [13, 10]) : Stops Spec.wsp (l ++ t) := by
  obtain ⟨u, rfl⟩ := hl
  intro b s e
  cases u with
  | nil => exact h b (10 :: []) (by simp at e; simp [e.1])
  | cons a u => exact h b (u ++ [13, 10]) (by simp at e; simp [e.1])

theorem shape_of_parses {A : Aborts} {G : Gram α} {n : Bytes} {p : Bytes → Res α} (hl : LocalLine p)
    (hp : Parses A G p)
    (hG : ∀ w v, G w v → (∃ u, w = u ++ [13, 10]) ∧ Stops Spec.wsp w ∧ n <+: w.map asciiLower)
    (ho : ∀ i, ¬ n <+: i.map asciiLower → ∃ e, p i = .err e) : LineParser n p := by
  refine ⟨hl, fun l r v h => ?_, fun i r v h => ?_, ho⟩
  · have hp := hp (l ++ r)
    rw [h] at hp
    obtain ⟨w, hi, hw⟩ := hp
    have hi := List.append_cancel_right hi
    subst hi
    exact hG _ _ hw
  · have hp := hp i
    rw [h] at hp
    obtain ⟨w, hi, hw⟩ := hp
    exact ⟨w, hi.symm⟩

theorem headerLine_begins {n w : Bytes} {G : Gram α} {v : α} (h : Spec.HeaderLine n G w v) :
    n.map asciiLower <+: w.map asciiLower := by
  obtain ⟨w₁, _, _, rfl, h₁, w₂, _, _, rfl, h₂, w₃, _, _, rfl, h₃, rfl, rfl⟩ := h
  rw [List.map_append, show w₁.map asciiLower = n.map asciiLower from h₁]
  exact List.prefix_append _ _

theorem returnPath_lines : LineParser (b! "return-path:") (returnPath c) :=
  shape_of_parses returnPath_local returnPath_parses
    (fun _ _ h => ⟨(headerLine_shape h rfl (by decide)).1, (headerLine_shape h rfl (by decide)).2, headerLine_begins h⟩)
    (fun _ h => headerLine_other rfl h)

theorem received_lines : LineParser (b! "received:") (received c) :=
  shape_of_parses received_local received_parses
    (fun _ _ h => ⟨(headerLine_shape h rfl (by decide)).1, (headerLine_shape h rfl (by decide)).2, headerLine_begins h⟩)
    (fun _ h => headerLine_other rfl h)

theorem resent_shape {w : Bytes} {f : TraceField} (h : Spec.ResentG c w f) :
    (∃ u, w = u ++ [13, 10]) ∧ Stops Spec.wsp w ∧ b! "resent-" <+: w.map asciiLower := by
  obtain ⟨w₁, w₂, _, rfl, h₁, h₂⟩ := h
  have h₁ : w₁.map asciiLower = b! "resent-" := h₁
  refine ⟨?_, ?_, by rw [List.map_append, h₁]; exact List.prefix_append _ _⟩
  · have : ∃ u, w₂ = u ++ [13, 10] := by
      cases f <;> exact (headerLine_shape h₂ rfl (by decide)).1
    obtain ⟨u, rfl⟩ := this
    exact ⟨w₁ ++ u, by simp⟩
  · cases w₁ with
    | nil => simp at h₁
    | cons a l =>
      intro x s e
      simp only [List.cons_append, List.cons.injEq] at e
      rw [← e.1]
      simp only [List.map_cons, List.cons.injEq] at h₁
      have : ∀ a, asciiLower a = 114 → Spec.wsp a = false := by decide +kernel
      exact this a h₁.1

theorem resent_lines : LineParser (b! "resent-") fun i => matchParsers i (traceFieldParsers c) := by
  refine shape_of_parses traceFields_local traceFields_parses (fun _ _ h => resent_shape h) fun i h => ?_
  refine matchParsers_all_err fun p hp => ?_
  have key : ∀ {α : Type} (m : String) (p : Bytes → Res α), ∃ e, resent m p i = .err e := by
    intro α m p
    obtain ⟨e, he⟩ := tagNoCase_err (m := m) (e := b! "Resent-") (e2 := b! "rESENT-") rfl h
    exact ⟨e, by rw [resent, he]; rfl⟩
  simp only [traceFieldParsers, List.mem_cons, List.not_mem_nil, or_false] at hp
  rcases hp with rfl | rfl | rfl | rfl | rfl | rfl | rfl <;> exact mapValue_ended (key _ _)

theorem LineParser.followed {n l : Bytes} {p : Bytes → Res α} {v : α} (hp : LineParser n p)
    (h : p l = .ok ([], v)) (ht : Stops Spec.wsp t) : p (l ++ t) = .ok (t, v) := by
  obtain ⟨⟨u, rfl⟩, -⟩ := hp.shape l [] v (by rw [List.append_nil]; exact h)
  rcases hp.line.cases (w := u) (t := []) (t' := t) ⟨stops_nil, ht⟩ with
    ⟨u', s, v, e, h1, h2⟩ | ⟨v, h1, h2⟩ | ⟨e, e', h1, h2⟩ | ⟨k, h1, h2⟩ <;> rw [h] at h1
  · simp at h1
  · cases h1
    simpa using h2
  · cases h1
  · cases h1

theorem Spec.Alone.stops {n : Bytes} {p : Bytes → Res α} (hp : LineParser n p) {ls : List Bytes} {vs : List α}
    (h : Alone p ls vs) (ht : Stops Spec.wsp t) : Stops Spec.wsp (ls.flatten ++ t) := by
  cases h with
  | nil => simpa using ht
  | @cons l _ _ _ h h' =>
    obtain ⟨h1, h2, -⟩ := hp.shape l [] _ (by rw [List.append_nil]; exact h)
    rw [List.flatten_cons, List.append_assoc]
    exact stops_line h2 h1

theorem LineParser.shrinks {n : Bytes} {p : Bytes → Res α} (hp : LineParser n p) : Shrinks p := by
  intro i r v h
  obtain ⟨l, rfl⟩ := hp.whole i r v h
  obtain ⟨⟨u, rfl⟩, -⟩ := hp.shape l r v h
  simp only [List.length_append, List.length_cons, List.length_nil]
  omega

theorem Spec.Alone.many {n : Bytes} {p : Bytes → Res α} (hp : LineParser n p) {ls : List Bytes} {vs : List α}
    (h : Alone p ls vs) (ht : Stops Spec.wsp t) (he : ∃ e, p t = .err e) :
    ∀ n, (ls.flatten ++ t).length < n → manyLoop p n (ls.flatten ++ t) = .ok (t, vs) := by
  induction h with
  | nil =>
    intro n hn
    obtain ⟨e, he⟩ := he
    cases n with
    | zero => omega
    | succ n => simp [manyLoop, he]
  | @cons l v ls vs h h' ih =>
    intro n hn
    cases n with
    | zero => omega
    | succ n =>
      have h2 := hp.followed h (h'.stops hp ht)
      have hs := hp.shrinks _ _ _ h2
      rw [List.flatten_cons, List.append_assoc] at hn ⊢
      rw [manyLoop, h2]
      dsimp only
      rw [ih n (by omega)]
      rfl

theorem Spec.Alone.err {n m : Bytes} {p : Bytes → Res α} {q : Bytes → Res β} (hp : LineParser n p) (hq : LineParser m q)
    (hnm : ¬ m <+: n ∧ ¬ n <+: m) {ls : List Bytes} {vs : List α} (h : Alone p ls vs) (he : ∃ e, q t = .err e) :
    ∃ e, q (ls.flatten ++ t) = .err e := by
  cases h with
  | nil => simpa using he
  | @cons l _ ls _ h h' =>
    refine hq.other _ fun hm => ?_
    obtain ⟨-, -, hn⟩ := hp.shape l [] _ (by rw [List.append_nil]; exact h)
    have hn' : n <+: ((l :: ls).flatten ++ t).map asciiLower := by
      rw [List.flatten_cons, List.append_assoc, List.map_append]
      exact hn.trans (List.prefix_append _ _)
    rcases List.prefix_or_prefix_of_prefix hm hn' with h | h
    · exact hnm.1 h
    · exact hnm.2 h

/-- One trace block: an optional `Return-Path` line, at least one `Received` line, any `Resent` lines. -/
theorem traceBlock_followed {rp rc rs : List Bytes} {vp : Option (Option EmailAddress)}
    {vc : List (List ReceivedToken × DateTime)} {vs : List TraceField} (hp : Alone (returnPath c) rp vp.toList)
    (hc : Alone (received c) rc vc) (hne : rc ≠ []) (hs : Alone (fun i => matchParsers i (traceFieldParsers c)) rs vs)
    (hst : Stops Spec.wsp t) (hrec : rs = [] → ∃ e, received c t = .err e)
    (hres : ∃ e, matchParsers t (traceFieldParsers c) = .err e) :
    traceBlock c (rp.flatten ++ rc.flatten ++ rs.flatten ++ t) = .ok (t, .trace vp vc vs) := by
  have e1 : ∃ e, received c (rs.flatten ++ t) = .err e := by
    cases hs with
    | nil => exact hrec rfl
    | @cons l v ls vs h h' =>
      refine received_lines.other _ fun hm => ?_
      obtain ⟨-, -, hn⟩ := resent_lines.shape l [] _ (by rw [List.append_nil]; exact h)
      have hn' : b! "resent-" <+: ((l :: ls).flatten ++ t).map asciiLower := by
        rw [List.flatten_cons, List.append_assoc, List.map_append]
        exact hn.trans (List.prefix_append _ _)
      rcases List.prefix_or_prefix_of_prefix hm hn' with h | h <;> exact absurd h (by decide)
  have st1 := hs.stops resent_lines hst
  have st2 := hc.stops received_lines st1
  unfold traceBlock trace
  rw [List.append_assoc, List.append_assoc]
  have h1 : optional (rp.flatten ++ (rc.flatten ++ (rs.flatten ++ t))) (returnPath c) =
      .ok (rc.flatten ++ (rs.flatten ++ t), vp) := by
    cases vp with
    | none =>
      cases hp
      have e2 : ∃ e, returnPath c (rc.flatten ++ (rs.flatten ++ t)) = .err e := by
        cases hc with
        | nil => exact absurd rfl hne
        | @cons l v ls vs h h' =>
          refine returnPath_lines.other _ fun hm => ?_
          obtain ⟨-, -, hn⟩ := received_lines.shape l [] _ (by rw [List.append_nil]; exact h)
          have hn' : b! "received:" <+: ((l :: ls).flatten ++ (rs.flatten ++ t)).map asciiLower := by
            rw [List.flatten_cons, List.append_assoc, List.map_append]
            exact hn.trans (List.prefix_append _ _)
          rcases List.prefix_or_prefix_of_prefix hm hn' with h | h <;> exact absurd h (by decide)
      obtain ⟨e, he⟩ := e2
      simp [optional, he]
    | some v =>
      cases hp with
      | cons h h' =>
        cases h'
        have := returnPath_lines.followed h st2
        simp [optional, this]
  have h2 : many1 (rc.flatten ++ (rs.flatten ++ t)) (received c) = .ok (rs.flatten ++ t, vc) := by
    cases hc with
    | nil => exact absurd rfl hne
    | cons h h' =>
      have hf := received_lines.followed h (h'.stops received_lines st1)
      unfold many1
      rw [List.flatten_cons, List.append_assoc, hf, ok_bind]
      dsimp only
      rw [h'.many received_lines st1 e1 _ (by simp)]
      rfl
  have h3 : many (rs.flatten ++ t) (fun i => matchParsers i (traceFieldParsers c)) = .ok (t, vs) :=
    hs.many resent_lines hst hres _ (by simp)
  simp only [h1, ok_bind, h2, h3]

theorem traceBlock_lines {rp rc rs : List Bytes} {vp : Option (Option EmailAddress)}
    {vc : List (List ReceivedToken × DateTime)} {vs : List TraceField} (hp : Alone (returnPath c) rp vp.toList)
    (hc : Alone (received c) rc vc) (hne : rc ≠ []) (hs : Alone (fun i => matchParsers i (traceFieldParsers c)) rs vs)
    (hq : Quiet c t) :
    traceBlock c (rp.flatten ++ rc.flatten ++ rs.flatten ++ t) = .ok (t, .trace vp vc vs) :=
  traceBlock_followed hp hc hne hs hq.stops (fun _ => hq.received) hq.resent

/-! ### When a trace block is read -/

theorem received_not_returnPath {i r : Bytes} {v : List ReceivedToken × DateTime} (h : received c i = .ok (r, v)) :
    ∃ e, returnPath c i = .err e := by
  refine returnPath_lines.other _ fun hm => ?_
  obtain ⟨l, rfl⟩ := received_lines.whole i r v h
  obtain ⟨-, -, hn⟩ := received_lines.shape l r v h
  have hn' : b! "received:" <+: (l ++ r).map asciiLower := by
    rw [List.map_append]
    exact hn.trans (List.prefix_append _ _)
  rcases List.prefix_or_prefix_of_prefix hm hn' with h | h <;> exact absurd h (by decide)

theorem traceBlock_starts {i : Bytes} (h : ∀ k, traceBlock c i ≠ .abort k) :
    (∃ r f, traceBlock c i = .ok (r, f)) ↔ StartsTrace c i := by
  constructor
  · rintro ⟨r, f, h⟩
    unfold traceBlock trace at h
    obtain ⟨⟨r₁, v₁⟩, h1, -⟩ := bind_eq_ok.1 h
    obtain ⟨⟨r₂, v₂⟩, h2, h3⟩ := bind_eq_ok.1 h1
    obtain ⟨⟨r₃, v₃⟩, h4, -⟩ := bind_eq_ok.1 h3
    unfold many1 at h4
    obtain ⟨⟨r₄, v₄⟩, h5, -⟩ := bind_eq_ok.1 h4
    unfold optional at h2
    cases hx : returnPath c i with
    | ok a =>
      obtain ⟨r', v'⟩ := a
      rw [hx] at h2
      cases h2
      exact .inr ⟨_, _, _, _, hx, h5⟩
    | err e =>
      rw [hx] at h2
      cases h2
      exact .inl ⟨_, _, h5⟩
    | abort k => rw [hx] at h2; cases h2
  · intro hs
    cases hx : traceBlock c i with
    | ok a => exact ⟨a.1, a.2, rfl⟩
    | abort k => exact absurd hx (h k)
    | err e =>
      exfalso
      have key : ∀ {i' : Bytes} {v : Option (Option EmailAddress)} {r' v'}, optional i (returnPath c) = .ok (i', v) →
          received c i' = .ok (r', v') → False := by
        intro i' v r' v' h1 h2
        unfold traceBlock trace at hx
        rw [h1, ok_bind] at hx
        dsimp only at hx
        unfold many1 at hx
        rw [h2, ok_bind] at hx
        dsimp only at hx
        cases h3 : manyLoop (received c) (r'.length + 1) r' with
        | err e => exact manyLoop_no_err _ _ _ h3
        | abort k => rw [h3] at hx; cases hx
        | ok a =>
          rw [h3] at hx
          simp only [ok_bind] at hx
          cases h4 : many a.1 (fun i => matchParsers i (traceFieldParsers c)) with
          | err e => exact manyLoop_no_err _ _ _ h4
          | abort k => rw [h4] at hx; cases hx
          | ok b => rw [h4] at hx; cases hx
      rcases hs with ⟨r, v, h⟩ | ⟨r, v, r', v', h, h'⟩
      · obtain ⟨e, he⟩ := received_not_returnPath h
        exact key (i' := i) (v := none) (by simp [optional, he]) h
      · exact key (by rw [optional, h]) h'

theorem star_value {G : Gram α} {w : Bytes} {vs : List α} (h : Gram.star G w vs) {v : α} (hv : v ∈ vs) :
    ∃ w, G w v := by
  induction h with
  | nil => cases hv
  | cons h _ ih =>
    rcases List.mem_cons.1 hv with rfl | hv
    · exact ⟨_, h⟩
    · exact ih hv

/-- The fields of a header block are trace blocks, each with at least one `Received` line, followed by other
fields. -/
theorem fields_split {i r : Bytes} {fs : List Field} (h : fields c i = .ok (r, fs)) :
    ∃ r' ts us, fs = ts ++ us ∧ traces c i = .ok (r', ts) ∧ (∀ f ∈ ts, ∃ a b d, f = .trace a b d ∧ b ≠ []) ∧
      ∀ a b d, Field.trace a b d ∉ us := by
  unfold fields at h
  obtain ⟨⟨r₁, ts⟩, h1, h2⟩ := bind_eq_ok.1 h
  obtain ⟨⟨r₂, us⟩, h3, h4⟩ := bind_eq_ok.1 h2
  cases h4
  refine ⟨r₁, ts, us, rfl, h1, ?_, ?_⟩
  · intro f hf
    have hp := traces_parses (c := c) i
    rw [h1] at hp
    obtain ⟨w, -, hw⟩ := hp
    unfold Spec.TraceBlocks at hw
    split at hw
    · obtain ⟨w, hw⟩ := star_value hw hf
      obtain ⟨_, _, a, -, -, _, _, b, -, ⟨_, _, _, -, -, _, _, _, -, -, -, rfl⟩, _, _, d, -, -, -, rfl⟩ := hw
      exact ⟨_, _, _, rfl, by simp⟩
    · cases hw.2
      cases hf
  · intro a b d hm
    have hp := many_parses field_progress (field_parses (c := c)) r₁
    dsimp only at hp
    rw [h3] at hp
    obtain ⟨w, -, hw⟩ := hp
    obtain ⟨w, hw⟩ := star_value hw hm
    exact hw

theorem fields_trace_iff {i r : Bytes} {fs : List Field} (h : fields c i = .ok (r, fs)) :
    (∃ a b d, Field.trace a b d ∈ fs) ↔ c.feat.trace = true ∧ StartsTrace c i := by
  obtain ⟨r', ts, us, rfl, h1, hts, hus⟩ := fields_split h
  have key : (∃ a b d, Field.trace a b d ∈ ts ++ us) ↔ ts ≠ [] := by
    constructor
    · rintro ⟨a, b, d, h⟩ rfl
      exact hus a b d (by simpa using h)
    · intro hne
      obtain ⟨f, ts, rfl⟩ := List.exists_cons_of_ne_nil hne
      obtain ⟨a, b, d, rfl, -⟩ := hts f (by simp)
      exact ⟨a, b, d, by simp⟩
  rw [key]
  unfold traces at h1
  split at h1
  · next ht =>
    unfold many manyLoop at h1
    have hab : ∀ k, traceBlock c i ≠ .abort k := by
      intro k hk
      rw [hk] at h1
      cases h1
    rw [← traceBlock_starts hab]
    cases hx : traceBlock c i with
    | abort k => exact absurd hx (hab k)
    | err e =>
      rw [hx] at h1
      cases h1
      simp
    | ok a =>
      rw [hx] at h1
      obtain ⟨b, -, h2⟩ := bind_eq_ok.1 h1
      cases h2
      simp [ht]
      exact ⟨_, _, rfl⟩
  · next ht =>
    cases h1
    simp [ht]

end EmailParser
