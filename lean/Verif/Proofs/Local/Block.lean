import Verif.Proofs.Local.Fields
/-
Locality of header blocks: what follows the header block does not change how it is read.
-/
namespace EmailParser
open Spec (Gram)

variable {α β : Type} {t t' : Bytes} {c : Cfg}

/-- Two positions at the same place of the same header block, which is followed by `t`, respectively `t'`. -/
inductive At (t t' : Bytes) : Bytes → Bytes → Prop
  | inside (w : Bytes) : At t t' (w ++ 13 :: 10 :: t) (w ++ 13 :: 10 :: t')
  | done : At t t' t t'

theorem At.eq {r r' : Bytes} (h : At t t' r r') (e : r = t) : r' = t' := by
  cases h with
  | inside w =>
    have := congrArg List.length e
    simp at this
    omega
  | done => rfl

/-- Two outcomes that agree, up to what follows the header block. -/
inductive SameAt (t t' : Bytes) {α : Type} : Res α → Res α → Prop
  | ok (r r' : Bytes) (v : α) : At t t' r r' → SameAt t t' (.ok (r, v)) (.ok (r', v))
  | err (e e' : Error) : SameAt t t' (.err e) (.err e')
  | abort (k : Abort) : SameAt t t' (.abort k) (.abort k)

/-- The parser does the same whether the header block is followed by `t` or by `t'`. -/
def Block (t t' : Bytes) (p : Bytes → Res α) : Prop := ∀ r r', At t t' r r' → SameAt t t' (p r) (p r')

theorem LocalLine.block {p : Bytes → Res α} (hp : LocalLine p) (ht : Tails t t') (h : ∃ e, p t = .err e)
    (h' : ∃ e, p t' = .err e) : Block t t' p := by
  intro r r' hr
  cases hr with
  | inside w =>
    rcases hp.cases (w := w) ht with ⟨u, s, v, e, h1, h2⟩ | ⟨v, h1, h2⟩ | ⟨e, e', h1, h2⟩ | ⟨k, h1, h2⟩ <;>
      rw [h1, h2]
    · exact .ok _ _ v (.inside s)
    · exact .ok _ _ v .done
    · exact .err _ _
    · exact .abort _
  | done =>
    obtain ⟨e, h⟩ := h
    obtain ⟨e', h'⟩ := h'
    rw [h, h']
    exact .err _ _

theorem SameAt.bind {x y : Res α} {f g : Bytes × α → Res β} (h : SameAt t t' x y)
    (hf : ∀ r r' v, At t t' r r' → SameAt t t' (f (r, v)) (g (r', v))) : SameAt t t' (x >>= f) (y >>= g) := by
  cases h with
  | ok r r' v h => exact hf r r' v h
  | err e e' => exact .err e e'
  | abort k => exact .abort k

theorem Block.cases {p : Bytes → Res α} (hp : Block t t' p) {r r' : Bytes} (h : At t t' r r') :
    (∃ s s' v, At t t' s s' ∧ p r = .ok (s, v) ∧ p r' = .ok (s', v)) ∨
    (∃ e e', p r = .err e ∧ p r' = .err e') ∨ (∃ k, p r = .abort k ∧ p r' = .abort k) := by
  have h := hp r r' h
  generalize p r = x at h
  generalize p r' = y at h
  cases h with
  | ok s s' v h => exact .inl ⟨s, s', v, h, rfl, rfl⟩
  | err e e' => exact .inr (.inl ⟨e, e', rfl, rfl⟩)
  | abort k => exact .inr (.inr ⟨k, rfl, rfl⟩)

theorem optional_block {p : Bytes → Res α} (hp : Block t t' p) : Block t t' fun i => optional i p := by
  intro r r' h
  dsimp only
  unfold optional
  rcases hp.cases h with ⟨s, s', v, hs, h1, h2⟩ | ⟨e, e', h1, h2⟩ | ⟨k, h1, h2⟩ <;> rw [h1, h2]
  · exact .ok _ _ _ hs
  · exact .ok _ _ _ h
  · exact .abort k

theorem manyLoop_block {p : Bytes → Res α} (hp : Block t t' p) (hs : Shrinks p) :
    ∀ n n' (r r' : Bytes), At t t' r r' → r.length < n → r'.length < n' →
      SameAt t t' (manyLoop p n r) (manyLoop p n' r')
  | 0, _, _, _, _, h, _ => by omega
  | _, 0, _, _, _, _, h => by omega
  | n + 1, n' + 1, r, r', h, hn, hn' => by
    unfold manyLoop
    rcases hp.cases h with ⟨s, s', v, h', h1, h2⟩ | ⟨e, e', h1, h2⟩ | ⟨k, h1, h2⟩ <;> rw [h1, h2]
    · have := hs _ _ _ h1
      have := hs _ _ _ h2
      exact .bind (manyLoop_block hp hs n n' s s' h' (by omega) (by omega)) fun r r' v h => .ok r r' _ h
    · exact .ok _ _ _ h
    · exact .abort k

theorem many_block {p : Bytes → Res α} (hp : Block t t' p) (hs : Shrinks p) : Block t t' fun i => many i p :=
  fun r r' h => manyLoop_block hp hs _ _ r r' h (by simp) (by simp)

theorem many1_block {p : Bytes → Res α} (hp : Block t t' p) (hs : Shrinks p) :
    Block t t' fun i => many1 i p :=
  fun r r' h => .bind (hp r r' h) fun r r' _ h =>
    .bind (manyLoop_block hp hs _ _ r r' h (by simp) (by simp)) fun r r' _ h => .ok r r' _ h

/-! ### Nothing is a header at the end -/

/-- No header begins here: the text is empty or begins with a line end. -/
inductive Ended : Bytes → Prop
  | nil : Ended []
  | crlf (b : Bytes) : Ended (13 :: 10 :: b)

theorem Ended.stops (h : Ended t) : Stops Spec.wsp t := by
  cases h <;> intro b r e <;> simp at e
  rw [← e.1]
  decide

theorem tagNoCase_ended {n : Bytes} {m : String} (h : Ended t) {b : UInt8} (hb : (n.map asciiLower).head? = some b)
    (hb' : b ≠ 13) : ∃ e, tagNoCase t n (n.map swapCase) m = .err e := by
  rcases tagNoCase_cases t n m with ⟨w, r, hi, hn, -⟩ | ⟨-, x, h⟩
  rotate_left
  · exact ⟨x, h⟩
  exfalso
  have hp : n.map asciiLower <+: t.map asciiLower := ⟨r.map asciiLower, by rw [hi, ← hn]; simp⟩
  clear hi
  cases h with
  | nil =>
    rw [List.map_nil, List.prefix_nil] at hp
    rw [hp] at hb
    simp at hb
  | crlf s =>
    obtain ⟨r, hr⟩ := hp
    cases hn : n.map asciiLower with
    | nil => rw [hn] at hb; simp at hb
    | cons a l =>
      rw [hn] at hr hb
      simp only [List.head?_cons, Option.some.injEq] at hb
      simp only [List.cons_append, List.map_cons, List.cons.injEq] at hr
      exact hb' (by rw [← hb, hr.1]; decide)

theorem headerLine_ended {n n2 : Bytes} {m m' : String} {p : Bytes → Res α} {b : UInt8} (h : Ended t)
    (hn : n2 = n.map swapCase) (hb : (n.map asciiLower).head? = some b) (hb' : b ≠ 13) :
    ∃ e, headerLine n n2 m m' p t = .err e := by
  subst hn
  obtain ⟨e, he⟩ := tagNoCase_ended (m := m) h hb hb'
  exact ⟨e, by rw [headerLine, he]; rfl⟩

theorem mapValue_ended {f : α → β} {p : Bytes → Res α} (h : ∃ e, p t = .err e) :
    ∃ e, mapValue f p t = .err e := by
  obtain ⟨e, he⟩ := h
  exact ⟨e, by rw [mapValue, he]; rfl⟩

theorem matchParsers_all_err : ∀ {ps : List (Bytes → Res α)}, (∀ p ∈ ps, ∃ e, p t = .err e) →
    ∃ e, matchParsers t ps = .err e
  | [], _ => ⟨_, rfl⟩
  | p :: ps, h => by
    obtain ⟨e, he⟩ := h p (by simp)
    rw [matchParsers, he]
    exact matchParsers_all_err fun q hq => h q (by simp [hq])

theorem unknown_ended (h : Ended t) : ∃ e, unknown c t = .err e := by
  have hs : Stops Spec.ftext t := by
    cases h <;> intro b r e <;> simp at e
    rw [← e.1]
    decide
  obtain ⟨e, he⟩ := takeWhile1_err hs
  refine ⟨e, ?_⟩
  rw [unknown, isFtext_eq, he]
  rfl

theorem fieldParsers_ended (h : Ended t) : ∀ p ∈ fieldParsers c, ∃ e, p t = .err e := by
  unfold fieldParsers
  refine append_forall ?_ (List.forall_mem_singleton.mpr (mapValue_ended (unknown_ended h)))
  refine append_forall ?_ (enabled_forall fun _ => mapValue_ended (headerLine_ended h rfl rfl (by decide)))
  refine append_forall ?_ (enabled_forall fun _ => mapValue_ended (headerLine_ended h rfl rfl (by decide)))
  refine append_forall ?_ (enabled_forall fun _ => mapValue_ended (headerLine_ended h rfl rfl (by decide)))
  refine append_forall ?_ (enabled_forall fun _ => mapValue_ended (headerLine_ended h rfl rfl (by decide)))
  refine append_forall ?_ (enabled_forall fun _ => mapValue_ended (headerLine_ended h rfl rfl (by decide)))
  refine append_forall ?_ (enabled_forall fun _ => mapValue_ended (headerLine_ended h rfl rfl (by decide)))
  refine append_forall ?_ (enabled_forall fun _ => mapValue_ended (headerLine_ended h rfl rfl (by decide)))
  refine append_forall ?_ (enabled_forall fun _ => mapValue_ended (headerLine_ended h rfl rfl (by decide)))
  refine append_forall ?_ (enabled_forall fun _ => mapValue_ended (headerLine_ended h rfl rfl (by decide)))
  refine append_forall ?_ (enabled_forall fun _ => mapValue_ended (headerLine_ended h rfl rfl (by decide)))
  refine append_forall ?_ (enabled_forall fun _ => mapValue_ended (headerLine_ended h rfl rfl (by decide)))
  refine append_forall ?_ (enabled_forall fun _ => mapValue_ended (headerLine_ended h rfl rfl (by decide)))
  refine append_forall ?_ (enabled_forall fun _ => mapValue_ended (headerLine_ended h rfl rfl (by decide)))
  refine append_forall ?_ (enabled_forall fun _ => mapValue_ended (headerLine_ended h rfl rfl (by decide)))
  refine append_forall ?_ (enabled_forall fun _ => mapValue_ended (headerLine_ended h rfl rfl (by decide)))
  refine append_forall ?_ (enabled_forall fun _ => mapValue_ended (headerLine_ended h rfl rfl (by decide)))
  refine append_forall ?_ (enabled_forall fun _ => mapValue_ended (headerLine_ended h rfl rfl (by decide)))
  refine append_forall ?_ (enabled_forall fun _ => mapValue_ended (headerLine_ended h rfl rfl (by decide)))
  exact enabled_forall fun _ => mapValue_ended (headerLine_ended h rfl rfl (by decide))

theorem field_ended (h : Ended t) : ∃ e, field c t = .err e := matchParsers_all_err (fieldParsers_ended h)

theorem resent_ended {m : String} {p : Bytes → Res α} (h : Ended t) : ∃ e, resent m p t = .err e := by
  obtain ⟨e, he⟩ := tagNoCase_ended (n := b! "Resent-") (m := m) h rfl (by decide)
  refine ⟨e, ?_⟩
  rw [resent, show b! "rESENT-" = (b! "Resent-").map swapCase from rfl, he]
  rfl

theorem traceFields_ended (h : Ended t) : ∃ e, matchParsers t (traceFieldParsers c) = .err e := by
  refine matchParsers_all_err fun p hp => ?_
  simp only [traceFieldParsers, List.mem_cons, List.not_mem_nil, or_false] at hp
  rcases hp with rfl | rfl | rfl | rfl | rfl | rfl | rfl <;> exact mapValue_ended (resent_ended h)

theorem field_block (h : Ended t) (h' : Ended t') : Block t t' (field c) :=
  field_local.block ⟨h.stops, h'.stops⟩ (field_ended h) (field_ended h')

/-- No trace header is read here. -/
structure Quiet (c : Cfg) (t : Bytes) : Prop where
  stops : Stops Spec.wsp t
  returnPath : ∃ e, returnPath c t = .err e
  received : ∃ e, received c t = .err e
  resent : ∃ e, matchParsers t (traceFieldParsers c) = .err e

theorem Ended.quiet (h : Ended t) : Quiet c t :=
  ⟨h.stops, headerLine_ended h rfl rfl (by decide), headerLine_ended h rfl rfl (by decide), traceFields_ended h⟩

theorem traceBlock_block (h : Quiet c t) (h' : Quiet c t') : Block t t' (traceBlock c) := by
  have hrp : Block t t' (returnPath c) := returnPath_local.block ⟨h.stops, h'.stops⟩ h.returnPath h'.returnPath
  have hrc : Block t t' (received c) := received_local.block ⟨h.stops, h'.stops⟩ h.received h'.received
  have hrs : Block t t' fun i => matchParsers i (traceFieldParsers c) :=
    traceFields_local.block ⟨h.stops, h'.stops⟩ h.resent h'.resent
  intro r r' hr
  unfold traceBlock
  refine .bind (x := trace c r) (y := trace c r') ?_ fun r r' v hr => ?_
  · unfold trace
    refine .bind (optional_block hrp r r' hr) fun r r' v hr => ?_
    refine .bind (many1_block hrc (shrinks_of (headerLine_progress (by decide)) received_parses) r r' hr)
      fun r r' v hr => ?_
    exact .ok r r' _ hr
  · refine .bind (many_block hrs (shrinks_of resent_progress traceFields_parses) r r' hr)
      fun r r' v hr => ?_
    exact .ok r r' _ hr

theorem traces_block (h : Quiet c t) (h' : Quiet c t') : Block t t' (traces c) := by
  intro r r' hr
  unfold traces
  split
  · exact many_block (traceBlock_block h h') (shrinks_of traceBlock_progress traceBlock_parses) r r' hr
  · exact .ok _ _ _ hr

theorem fields_block (h : Ended t) (h' : Ended t') : Block t t' (fields c) := by
  intro r r' hr
  unfold fields
  refine .bind (traces_block h.quiet h'.quiet r r' hr) fun r r' v hr => ?_
  exact .bind (many_block (field_block h h') (shrinks_of field_progress field_parses) r r' hr)
    fun r r' v hr => .ok r r' _ hr

theorem Block.followed {w : Bytes} {p : Bytes → Res α} {v : α} (hp : Block [] t' p)
    (h : p w = .ok ([], v)) (hw : w = [] ∨ ∃ u, w = u ++ [13, 10]) : p (w ++ t') = .ok (t', v) := by
  have hat : At [] t' w (w ++ t') := by
    rcases hw with rfl | ⟨u, rfl⟩
    · exact .done
    · simpa using At.inside (t := []) (t' := t') u
  rcases hp.cases hat with ⟨s, s', v', hs, h1, h2⟩ | ⟨e, e', h1, h2⟩ | ⟨k, h1, h2⟩
  · rw [h] at h1
    simp only [Outcome.ok.injEq, Prod.mk.injEq] at h1
    obtain ⟨rfl, rfl⟩ := h1
    rw [h2]
    rw [hs.eq rfl]
  · rw [h] at h1; simp at h1
  · rw [h] at h1; simp at h1

/-! ### Consecutive header lines -/

/-- The header lines `ls` have the fields `fs`, each when parsed alone. -/
inductive LinesOf (c : Cfg) : List Bytes → List Field → Prop
  | nil : LinesOf c [] []
  | cons {l : Bytes} {f : Field} {ls : List Bytes} {fs : List Field} :
    field c l = .ok ([], f) → LinesOf c ls fs → LinesOf c (l :: ls) (f :: fs)

theorem headerLine_shape {n : Bytes} {G : Gram α} {w : Bytes} {v : α} (h : Spec.HeaderLine n G w v) {b : UInt8}
    (hb : (n.map asciiLower).head? = some b) (hb' : Spec.wsp b = false) :
    (∃ u, w = u ++ [13, 10]) ∧ Stops Spec.wsp w := by
  obtain ⟨w₁, _, _, rfl, h₁, w₂, _, _, rfl, h₂, w₃, _, _, rfl, h₃, rfl, rfl⟩ := h
  refine ⟨⟨w₁ ++ w₂, by rw [show w₃ = [13, 10] from h₃]; simp⟩, ?_⟩
  rw [← h₁] at hb
  cases w₁ with
  | nil => simp at hb
  | cons a l =>
    simp only [List.map_cons, List.head?_cons, Option.some.injEq] at hb
    intro x s e
    simp only [List.cons_append, List.cons.injEq] at e
    rw [← e.1]
    subst hb
    have : ∀ a, Spec.wsp (asciiLower a) = false → Spec.wsp a = false := by decide +kernel
    exact this a hb'

theorem field_shape {w : Bytes} {f : Field} (h : Spec.FieldG c w f) :
    (∃ u, w = u ++ [13, 10]) ∧ Stops Spec.wsp w := by
  cases f with
  | trace => exact h.elim
  | unknown n v =>
    obtain ⟨w₁, _, _, rfl, ⟨he, h₁, h₁'⟩, w₂, _, _, rfl, h₂, w₃, _, _, rfl, h₃, w₄, _, _, rfl, h₄, rfl, e⟩ := h
    refine ⟨⟨w₁ ++ (w₂ ++ w₃), by rw [show w₄ = [13, 10] from h₄]; simp⟩, ?_⟩
    cases w₁ with
    | nil => exact absurd rfl h₁
    | cons a l =>
      intro x s e
      simp only [List.cons_append, List.cons.injEq] at e
      rw [← e.1]
      have : ∀ a, Spec.ftext a = true → Spec.wsp a = false := by decide +kernel
      exact this a (h₁' a (by simp))
  | _ => exact headerLine_shape h.2 rfl (by decide)

/-- A header field alone is read in the same way when something else follows. -/
theorem field_followed {l t : Bytes} {f : Field} (h : field c l = .ok ([], f)) (ht : Stops Spec.wsp t) :
    field c (l ++ t) = .ok (t, f) := by
  have hp := field_parses (c := c) l
  rw [h] at hp
  obtain ⟨w, hi, hw⟩ := hp
  rw [List.append_nil] at hi
  subst hi
  obtain ⟨⟨u, rfl⟩, -⟩ := field_shape hw
  rcases (field_local (c := c)).cases (w := u) (t := []) (t' := t) ⟨stops_nil, ht⟩ with
    ⟨u', s, v, e, h1, h2⟩ | ⟨v, h1, h2⟩ | ⟨e, e', h1, h2⟩ | ⟨k, h1, h2⟩
  · rw [h] at h1; simp at h1
  · rw [h] at h1
    simp only [Outcome.ok.injEq, Prod.mk.injEq, true_and] at h1
    subst h1
    simpa using h2
  · rw [h] at h1; simp at h1
  · rw [h] at h1; simp at h1

theorem field_alone {l t : Bytes} {f : Field} (h : field c (l ++ t) = .ok (t, f)) (ht : Stops Spec.wsp t) :
    field c l = .ok ([], f) := by
  have hp := field_parses (c := c) (l ++ t)
  rw [h] at hp
  obtain ⟨w, hi, hw⟩ := hp
  have hi := List.append_cancel_right hi
  subst hi
  obtain ⟨⟨u, rfl⟩, -⟩ := field_shape hw
  rcases (field_local (c := c)).cases (w := u) (t := t) (t' := []) ⟨ht, stops_nil⟩ with
    ⟨u', s, v, e, h1, h2⟩ | ⟨v, h1, h2⟩ | ⟨e, e', h1, h2⟩ | ⟨k, h1, h2⟩
  all_goals rw [show u ++ [13, 10] ++ t = u ++ 13 :: 10 :: t by simp] at h; rw [h] at h1
  · simp only [Outcome.ok.injEq, Prod.mk.injEq] at h1
    have := congrArg List.length h1.1
    simp at this
    omega
  · simp only [Outcome.ok.injEq, Prod.mk.injEq, true_and] at h1
    subst h1
    exact h2
  · simp at h1
  · simp at h1

theorem LinesOf.stops {ls : List Bytes} {fs : List Field} (h : LinesOf c ls fs) {t : Bytes}
    (ht : Stops Spec.wsp t) : Stops Spec.wsp (ls.flatten ++ t) := by
  cases h with
  | nil => simpa using ht
  | @cons l f ls fs h h' =>
    have hp := field_parses (c := c) l
    rw [h] at hp
    obtain ⟨w, hi, hw⟩ := hp
    rw [List.append_nil] at hi
    subst hi
    obtain ⟨⟨u, rfl⟩, hs⟩ := field_shape hw
    intro b s e
    cases u with
    | nil => exact hs b (10 :: []) (by simp at e; simp [e.1])
    | cons a u => exact hs b (u ++ [13, 10]) (by simp at e; simp [e.1])

/-- Header lines that parse alone parse one after the other. -/
theorem LinesOf.many {ls : List Bytes} {fs : List Field} (h : LinesOf c ls fs) {t : Bytes} (ht : Stops Spec.wsp t)
    (he : ∃ e, field c t = .err e) : many (ls.flatten ++ t) (field c) = .ok (t, fs) := by
  have key : ∀ n, (ls.flatten ++ t).length < n → manyLoop (field c) n (ls.flatten ++ t) = .ok (t, fs) := by
    induction h with
    | nil =>
      intro n hn
      obtain ⟨e, he⟩ := he
      cases n with
      | zero => omega
      | succ n => simp [manyLoop, he]
    | @cons l f ls fs h h' ih =>
      intro n hn
      cases n with
      | zero => omega
      | succ n =>
        have h2 := field_followed h (h'.stops ht)
        have hs := shrinks_of field_progress field_parses _ _ _ h2
        rw [List.flatten_cons, List.append_assoc] at hn ⊢
        rw [manyLoop, h2]
        dsimp only
        rw [ih n (by omega)]
        rfl
  exact key _ (by simp)

end EmailParser
