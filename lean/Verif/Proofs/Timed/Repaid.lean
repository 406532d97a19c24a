import Verif.Proofs.Timed.Lists
/-
Parsers whose cost is repaid by what they consume.

Most parsers, when they succeed, cost at most a constant for each byte they consume.  The exception
is when they stop in front of something that looks like a comment or white space and is not: they
have then looked at the rest of the line for nothing.  But nothing more can be read from there.
-/
namespace EmailParser.Timed
open Spec (Folded)

variable {α β γ : Type} {c : Cfg} {i : Bytes}

/-- The computation, when it succeeds, costs at most `A` for each consumed byte, unless what remains
satisfies `Q`. -/
def Repaid (Q : Bytes → Prop) (A C : Nat) (i : Bytes) (x : TRes α) : Prop :=
  Within x 0 (fun a k => Adv i a.1 ∧ (k + A * reach a.1 ≤ A * reach i + C ∨ Q a.1)) fun _ => True

/-- The computation fails, or leaves an input that satisfies `Q`. -/
def Leaves (Q : Bytes → Prop) (x : TRes α) : Prop := Within x 0 (fun a _ => Q a.1) fun _ => True

/-- No input. -/
def Never (_ : Bytes) : Prop := False

theorem leaves_iff {Q : Bytes → Prop} {x : TRes α} : Leaves Q x ↔ ∀ r v, x.out = .ok (r, v) → Q r := by
  unfold Leaves Within
  constructor
  · intro h r v e
    rw [e] at h
    exact h
  · intro h
    split
    · rename_i a e
      exact h a.1 a.2 e
    · trivial
    · trivial

theorem leaves_of_fails {Q : Bytes → Prop} {x : TRes α} (h : ∀ a, x.out ≠ .ok a) : Leaves Q x :=
  leaves_iff.mpr fun r v e => absurd e (h (r, v))

theorem Leaves.fails {x : TRes α} (h : Leaves Never x) (a : Bytes × α) : x.out ≠ .ok a :=
  fun e => leaves_iff.mp h a.1 a.2 e

theorem Leaves.bind {Q Q' : Bytes → Prop} {x : TRes α} {f : Bytes × α → TRes β} (h : Leaves Q x)
    (hf : ∀ r v, x.out = .ok (r, v) → Q r → Leaves Q' (f (r, v))) : Leaves Q' (x >>= f) := by
  refine Within.bind h ?_ (fun _ _ _ => trivial)
  rintro ⟨r, v⟩ k ho hq
  exact (hf r v ho hq).use (fun _ _ _ h => h) fun _ _ _ => trivial

namespace Repaid

variable {Q Q' : Bytes → Prop} {A B C D : Nat}

theorem adv {x : TRes α} (h : Repaid Q A C i x) {r : Bytes} {v : α} (ho : x.out = .ok (r, v)) : Adv i r := by
  unfold Repaid Within at h
  rw [ho] at h
  exact h.1

theorem paid {x : TRes α} (h : Repaid Q A C i x) {r : Bytes} {v : α} (ho : x.out = .ok (r, v)) :
    x.cost + A * reach r ≤ A * reach i + C ∨ Q r := by
  unfold Repaid Within at h
  rw [ho, Nat.zero_add] at h
  exact h.2

theorem of_out {x : TRes α}
    (h : ∀ r v, x.out = .ok (r, v) → Adv i r ∧ (x.cost + A * reach r ≤ A * reach i + C ∨ Q r)) : Repaid Q A C i x := by
  unfold Repaid Within
  split
  · rename_i a e
    rw [Nat.zero_add]
    exact h a.1 a.2 e
  · trivial
  · trivial

theorem rate {x : TRes α} (h : Repaid Q A C i x) (hAB : A ≤ B) : Repaid Q B C i x := by
  obtain ⟨d, rfl⟩ := Nat.exists_eq_add_of_le hAB
  refine Within.mono h ?_ fun _ h => h
  rintro ⟨r, v⟩ k ⟨ha, hk⟩
  have h1 : d * reach r ≤ d * reach i := Nat.mul_le_mul_left _ ha.le
  dsimp only at *
  simp only [Nat.add_mul]
  exact ⟨ha, hk.imp (fun h => by omega) id⟩

theorem base {x : TRes α} (h : Repaid Q A C i x) (hCD : C ≤ D) : Repaid Q A D i x :=
  Within.mono h (fun _ _ h => ⟨h.1, h.2.imp (fun h => by omega) id⟩) fun _ h => h

theorem weaken {x : TRes α} (h : Repaid Q A C i x) (hQ : ∀ r, Q r → Q' r) : Repaid Q' A C i x :=
  Within.mono h (fun _ _ h => ⟨h.1, h.2.imp id (hQ _)⟩) fun _ h => h

theorem ok {v : α} : Repaid Never A 0 i (.ok (i, v)) := within_ok.mpr ⟨.refl _, .inl (by count)⟩

theorem bind {x : TRes α} {f : Bytes × α → TRes β} (h : Repaid Q A C i x)
    (hf : ∀ r v, x.out = .ok (r, v) → Adv i r → Repaid Q' A D r (f (r, v)))
    (hq : ∀ r v, x.out = .ok (r, v) → Q r → Leaves Q' (f (r, v))) : Repaid Q' A (C + D) i (x >>= f) := by
  refine Within.bind h ?_ (fun _ _ _ => trivial)
  rintro ⟨r, v⟩ k ho ⟨ha, hk⟩
  have hr := hf r v ho ha
  dsimp only at *
  rcases hk with hk | hk
  · refine hr.use ?_ fun _ _ _ => trivial
    rintro ⟨s, w⟩ m _ ⟨h3, h4⟩
    exact ⟨ha.trans h3, h4.imp (fun h => by omega) id⟩
  · refine (hr.and (hq r v ho hk)).use ?_ fun _ _ _ => trivial
    rintro ⟨s, w⟩ m _ ⟨⟨h3, _⟩, h4⟩
    exact ⟨ha.trans h3, .inr h4⟩

theorem skip {f : Bytes → TRes β} (hA : 60 ≤ A) (hf : ∀ r, EmailParser.skipCfws c i = .ok r → Adv i r → Repaid Q A D r (f r))
    (hq : ∀ r, Blocked c r → Leaves Q (f r)) : Repaid Q A (30 + D) i (skipCfws c i >>= f) := by
  obtain ⟨d, rfl⟩ := Nat.exists_eq_add_of_le hA
  refine Within.bind (skipCfws_within i) ?_ (fun _ _ _ => trivial)
  rintro r k ho ⟨ha, hk⟩
  rw [skipCfws_out] at ho
  have hr := hf r ho ha
  have h1 : d * reach r ≤ d * reach i := Nat.mul_le_mul_left _ ha.le
  rcases hk with hk | ⟨hk, _⟩
  · refine hr.use ?_ fun _ _ _ => trivial
    rintro ⟨s, w⟩ m _ ⟨h3, h4⟩
    refine ⟨ha.trans h3, h4.imp (fun h => ?_) id⟩
    simp only [Nat.add_mul] at *
    omega
  · refine (hr.and (hq r hk)).use ?_ fun _ _ _ => trivial
    rintro ⟨s, w⟩ m _ ⟨⟨h3, _⟩, h4⟩
    exact ⟨ha.trans h3, .inr h4⟩

/-- Trailing comments and white space. -/
theorem skipEnd {v : α} (hA : 60 ≤ A) : Repaid (Blocked c) A 30 i (skipCfws c i >>= fun r => .ok (r, v)) :=
  skip (D := 0) hA (fun _ _ _ => ok.weaken fun _ h => h.elim) fun _ h => within_ok.mpr h

theorem lift {x : Outcome α} {f : α → TRes β} (hf : ∀ a, x = .ok a → Repaid Q A C i (f a)) :
    Repaid Q A C i (Timed.lift x >>= f) := by
  refine within_bind.mpr (within_lift ?_ trivial)
  intro a ha
  exact hf a ha

theorem tag {e : Bytes} (he : ∀ x ∈ e, lineChar x = true) {m : String} :
    Repaid Never A (e.length + 1) i (Timed.tag i e m) := by
  refine (tag_within he i m).mono ?_ fun _ _ => trivial
  rintro ⟨r, v⟩ k ⟨ha, _, _, rfl⟩
  have h1 : A * reach r ≤ A * reach i := Nat.mul_le_mul_left _ ha.le
  dsimp only
  exact ⟨ha, .inl (by omega)⟩

theorem takeWhile {p : UInt8 → Bool} (hp : ∀ x, p x = true → lineChar x = true) (hA : 1 ≤ A) :
    Repaid Never A 2 i (Timed.takeWhile i p) := by
  refine rate (A := 1) ((takeWhile_within hp i).mono ?_ fun _ _ => trivial) hA
  rintro ⟨r, v⟩ k ⟨ha, _, _, _, h1, h2⟩
  dsimp only at *
  exact ⟨ha, .inl (by omega)⟩

theorem takeWhile1 {p : UInt8 → Bool} (hp : ∀ x, p x = true → lineChar x = true) (hA : 1 ≤ A) :
    Repaid Never A 2 i (Timed.takeWhile1 i p) := by
  refine rate (A := 1) ((takeWhile1_within hp i).mono ?_ fun _ _ => trivial) hA
  rintro ⟨r, v⟩ k ⟨ha, _, _, _, _, h1, h2⟩
  dsimp only at *
  exact ⟨ha, .inl (by omega)⟩

end Repaid

/-- A text that does not start as required. -/
theorem tag_leaves {Q : Bytes → Prop} {b : UInt8} {t : Bytes} {m : String}
    (h : Stops (· == b) i) : Leaves Q (tag i (b :: t) m) := by
  refine leaves_of_fails fun a ha => ?_
  rw [tag_out] at ha
  rcases tag_cases i (b :: t) m with ⟨r, e, ht⟩ | ⟨hn, ht⟩
  · subst e
    have := stops_cons.mp h
    simp at this
  · rw [ht] at ha
    cases ha

/-- White space and opening parentheses. -/
def isGap (b : UInt8) : Bool := isWsp b || isOpen b

theorem Blocked.starts {r : Bytes} (h : Blocked c r) : Starts isGap r := by
  rcases h.2 with ⟨b, t, e, hb⟩ | ⟨b, t, e, hb⟩
  · exact ⟨b, t, e, by simp [isGap, hb]⟩
  · exact ⟨b, t, e, by simp [isGap, hb]⟩

/-- A required text after a part. -/
theorem Repaid.bindTag {Q' : Bytes → Prop} {A D : Nat} {b : UInt8} {t : Bytes} {m : String}
    {f : Bytes × Unit → TRes β} (hb : ∀ y ∈ b :: t, lineChar y = true)
    (hf : ∀ r, (Timed.tag i (b :: t) m).out = .ok (r, ()) → Adv i r → Repaid Q' A D r (f (r, ()))) :
    Repaid Q' A ((b :: t).length + 1 + D) i (Timed.tag i (b :: t) m >>= f) :=
  Repaid.bind (Repaid.tag hb) (fun r () hu ha => hf r hu ha) (fun _ _ _ h => h.elim)

theorem bindTag_leaves {Q' : Bytes → Prop} {b : UInt8} {t : Bytes} {m : String}
    {f : Bytes × Unit → TRes β} (h : Stops (· == b) i) :
    Leaves Q' (Timed.tag i (b :: t) m >>= f) :=
  (tag_leaves (Q := Never) h).bind fun _ _ _ h => h.elim

/-! ### Lexical tokens -/

theorem dotAtomTextLoop_repaid : ∀ n i, Repaid Never 6 6 i (dotAtomTextLoop c n i)
  | 0, i => within_abort.mpr trivial
  | n + 1, i => by
    unfold dotAtomTextLoop
    refine within_tick.mpr ?_
    split
    · rename_i hs
      obtain ⟨t, rfl⟩ := startsWith_single hs
      refine within_bind.mpr (within_lift ?_ trivial)
      intro t' ht
      obtain ⟨_, ha, hr⟩ := Adv.of_drop (by decide) ht
      refine Within.on (S := fun a k => Adv t' a.1 ∧ reach a.1 + k ≤ reach t' + 2) (F := fun k => k ≤ 2) ?_ ?_ ?_ ?_
      · split
        · exact (takeWhile_within atext_line t').mono (fun _ _ h => ⟨h.1, by omega⟩) fun _ h => h
        · exact (takeWhile1_within atext_line t').mono (fun _ _ h => ⟨h.1, by omega⟩) fun _ h => h.2
      · rintro ⟨r, v⟩ k _ ⟨h1, h2⟩
        dsimp only at *
        have := h1.le
        refine within_bind.mpr (within_lift ?_ trivial)
        intro d _
        refine Within.bind (dotAtomTextLoop_repaid n r) ?_ (fun m _ h => trivial)
        rintro ⟨s, w⟩ m _ ⟨h3, h4⟩
        refine within_ok.mpr ⟨(ha.trans h1).trans h3, ?_⟩
        dsimp only at *
        exact h4.imp (fun _ => by omega) id
      · rintro e k _ h
        exact within_ok.mpr ⟨.refl _, .inl (by count)⟩
      · rintro e k _ h
        exact within_abort.mpr trivial
    · exact within_ok.mpr ⟨.refl _, .inl (by count)⟩

theorem dotAtomText_repaid : Repaid Never 6 8 i (dotAtomText c i) := by
  unfold dotAtomText
  exact Repaid.bind (Repaid.takeWhile1 atext_line (by decide)) (D := 6) (fun r _ _ _ =>
    Repaid.bind (D := 0) (dotAtomTextLoop_repaid _ r) (fun _ _ _ _ => Repaid.ok) (fun _ _ _ h => h.elim))
    (fun _ _ _ h => h.elim)

/-- A parser that starts with `[CFWS]` fails on what comes after. -/
theorem lead_err {j : Bytes} {f : Bytes → TRes α} {D : Nat} (hj : EmailParser.skipCfws c i = .ok j)
    (hf : ∃ e, (f j).out = .err e) (hD : (f j).cost ≤ D) :
    (∃ e, (skipCfws c i >>= f).out = .err e) ∧
      ((skipCfws c i >>= f).cost + 60 * reach j ≤ 60 * reach i + 30 + D ∨ Blocked c j) := by
  have h := skipCfws_within (c := c) i
  have ho := skipCfws_out (c := c) i
  rw [hj] at ho
  obtain ⟨e, he⟩ := hf
  unfold Within at h
  rw [ho, Nat.zero_add] at h
  generalize skipCfws c i = x at *
  obtain ⟨o, k⟩ := x
  dsimp only at ho
  subst ho
  refine ⟨⟨e, he⟩, ?_⟩
  show k + (f j).cost + _ ≤ _ ∨ _
  rcases h.2 with h | ⟨h, _⟩
  · exact .inl (by count)
  · exact .inr h

/-- A tag that is not there. -/
theorem tag_err {b : UInt8} {t : Bytes} {m : String} {f : Bytes × Unit → TRes β}
    (h : Stops (· == b) i) : (∃ e, (tag i (b :: t) m >>= f).out = .err e) ∧
      (tag i (b :: t) m >>= f).cost ≤ t.length + 2 := by
  have hc := tag_cost i (b :: t) m
  have ho := tag_out i (b :: t) m
  rcases tag_cases i (b :: t) m with ⟨r, e, ht⟩ | ⟨hn, ht⟩
  · subst e
    have := stops_cons.mp h
    simp at this
  · rw [ht] at ho
    generalize tag i (b :: t) m = x at *
    obtain ⟨o, k⟩ := x
    dsimp only at ho hc
    subst ho hc
    exact ⟨⟨_, rfl⟩, Nat.le_refl _⟩

theorem takeWhile1_mapErr_err {p : UInt8 → Bool} {e₀ : Error} {f : Bytes × Bytes → TRes β} (h : Stops p i) :
    (∃ e, ((takeWhile1 i p).mapErr e₀ >>= f).out = .err e) ∧ ((takeWhile1 i p).mapErr e₀ >>= f).cost ≤ 2 := by
  have hc := takeWhile1_cost i p
  have ho := takeWhile1_out i p
  have := examined_stops h
  obtain ⟨e, he⟩ := takeWhile1_err h
  rw [he] at ho
  generalize takeWhile1 i p = x at *
  obtain ⟨o, k⟩ := x
  dsimp only at ho hc
  subst ho hc
  refine ⟨⟨_, rfl⟩, ?_⟩
  show examined p i + 1 ≤ 2
  omega

theorem dotAtomText_err {f : Bytes × Bytes → TRes β} (h : Stops isAtext i) :
    (∃ e, (dotAtomText c i >>= f).out = .err e) ∧ (dotAtomText c i >>= f).cost ≤ 2 := by
  unfold dotAtomText
  have hc := takeWhile1_cost i isAtext
  have ho := takeWhile1_out i isAtext
  have := examined_stops h
  obtain ⟨e, he⟩ := takeWhile1_err h
  rw [he] at ho
  generalize takeWhile1 i isAtext = x at *
  obtain ⟨o, k⟩ := x
  dsimp only at ho hc
  subst ho hc
  refine ⟨⟨_, rfl⟩, ?_⟩
  show examined isAtext i + 1 ≤ 2
  omega

theorem atom_err {j : Bytes} (hj : EmailParser.skipCfws c i = .ok j) (h : Stops isAtext j) :
    (∃ e, (atom c i).out = .err e) ∧ ((atom c i).cost + 60 * reach j ≤ 60 * reach i + 32 ∨ Blocked c j) :=
  lead_err (D := 2) hj (takeWhile1_mapErr_err h).1 (takeWhile1_mapErr_err h).2

theorem dotAtom_err {j : Bytes} (hj : EmailParser.skipCfws c i = .ok j) (h : Stops isAtext j) :
    (∃ e, (dotAtom c i).out = .err e) ∧ ((dotAtom c i).cost + 60 * reach j ≤ 60 * reach i + 32 ∨ Blocked c j) :=
  lead_err (D := 2) hj (dotAtomText_err h).1 (dotAtomText_err h).2

theorem angleAddr_err {j : Bytes} (hj : EmailParser.skipCfws c i = .ok j) (h : Stops (· == 60) j) :
    (∃ e, (angleAddr c i).out = .err e) ∧
      ((angleAddr c i).cost + 60 * reach j ≤ 60 * reach i + 32 ∨ Blocked c j) :=
  lead_err (D := 2) hj (tag_err h).1 (tag_err h).2

theorem messageId_err {j : Bytes} (hj : EmailParser.skipCfws c i = .ok j) (h : Stops (· == 60) j) :
    (∃ e, (messageId c i).out = .err e) ∧
      ((messageId c i).cost + 60 * reach j ≤ 60 * reach i + 32 ∨ Blocked c j) :=
  lead_err (D := 2) hj (tag_err h).1 (tag_err h).2

theorem domainLiteral_err {j : Bytes} (hj : EmailParser.skipCfws c i = .ok j) (h : Stops (· == 91) j) :
    (∃ e, (domainLiteral c i).out = .err e) ∧
      ((domainLiteral c i).cost + 60 * reach j ≤ 60 * reach i + 32 ∨ Blocked c j) :=
  lead_err (D := 2) hj (tag_err h).1 (tag_err h).2

theorem quotedString_err {j : Bytes} (hj : EmailParser.skipCfws c i = .ok j) (h : Stops isDquote j) :
    (∃ e, (quotedString c i).out = .err e) ∧
      ((quotedString c i).cost + 60 * reach j ≤ 60 * reach i + 32 ∨ Blocked c j) := by
  have hs : startsWith j (b! "\"") = false := by
    cases hs : startsWith j (b! "\"") with
    | false => rfl
    | true =>
      obtain ⟨t, rfl⟩ := startsWith_single hs
      have := stops_cons.mp h
      simp [isDquote] at this
  refine lead_err (D := 2) hj ?_ ?_
  · rw [bind_out]
    simp [hs]
  · rw [tick_cost]
    simp [hs, err]

/-- Where nothing can be skipped, nothing that starts with `[CFWS]` can be read. -/
theorem Blocked.stops {p : UInt8 → Bool} {r : Bytes} (h : Blocked c r) (hp : ∀ x, isGap x = true → p x = false) :
    Stops p r := by
  obtain ⟨b, t, rfl, hb⟩ := h.starts
  exact stops_cons.mpr (hp b hb)

theorem Blocked.skip {r : Bytes} (h : Blocked c r) : EmailParser.skipCfws c r = .ok r := skipCfws_blocked h

theorem fails_of_err {x : TRes α} (h : ∃ e, x.out = .err e) (a : Bytes × α) : x.out ≠ .ok a := by
  obtain ⟨e, h⟩ := h
  rw [h]
  intro h
  cases h

theorem dotAtom_repaid : Repaid (Blocked c) 60 68 i (dotAtom c i) := by
  unfold dotAtom
  refine Repaid.skip (A := 60) (D := 38) (by decide) (fun r _ _ => Repaid.bind (A := 60) (C := 8) (D := 30)
    (dotAtomText_repaid.rate (by decide))
    (fun s _ _ _ => Repaid.skipEnd (by decide)) (fun _ _ _ h => h.elim)) ?_
  intro r hr
  exact leaves_of_fails (fails_of_err (dotAtomText_err (hr.stops (by decide +kernel))).1)

theorem quotedString_repaid : Repaid (Blocked c) 60 60 i (quotedString c i) :=
  (quotedString_within i).mono (fun _ _ h => ⟨h.1, h.2.2.2.imp id fun h => h.1⟩) fun _ _ => trivial

theorem word_repaid : Repaid (Blocked c) 120 100 i (word c i) :=
  (word_within i).mono (fun _ _ h => ⟨h.1, h.2.2.2.imp id fun h => h.1⟩) fun _ _ => trivial

/-- Where the loop of a domain literal ends. -/
theorem domainLiteralLoop_paid : ∀ n i,
    Within (domainLiteralLoop n i) 0 (fun a k => Adv i a.1 ∧
        (k + 60 * reach a.1 + 2 * reach (afterFws a.1) ≤ 60 * reach i + 2 * reach a.1 + 13 ∨
         (Starts isWsp a.1 ∧ afterFws a.1 = a.1)))
      fun _ => True
  | 0, i => within_abort.mpr trivial
  | n + 1, i => by
    unfold domainLiteralLoop
    refine within_tick.mpr ?_
    refine Within.bind (optFws_within i) ?_ (fun _ _ h => h.elim)
    rintro ⟨j, v⟩ k _ ⟨e, ha, hk⟩
    dsimp only at *
    have hle := ha.le
    refine Within.on (takeWhile1_within dtext_line j) ?_ ?_ ?_
    · rintro ⟨r, v⟩ k' _ ⟨h1, hs, e', hv, h2, h3, h4⟩
      dsimp only at *
      have hst := starts_run (r := r) h2 hv
      rw [← e'] at hst
      have hk' : k + 2 * reach j ≤ 2 * reach i + 7 := by
        rcases hk with hk | ⟨rfl, h, _⟩
        · exact hk
        · exact absurd h (hst.not (by decide +kernel))
      refine Within.bind (domainLiteralLoop_paid n r) ?_ (fun _ _ _ => trivial)
      rintro ⟨s, w⟩ m _ ⟨h5, h6⟩
      refine within_ok.mpr ⟨(ha.trans h1).trans h5, ?_⟩
      dsimp only at *
      exact h6.imp (fun h => by omega) id
    · rintro e' k' _ ⟨_, h⟩
      subst e
      refine within_ok.mpr ⟨.refl _, ?_⟩
      dsimp only at *
      rcases hk with hk | ⟨he, hw, _, hk⟩
      · exact .inl (by omega)
      · exact .inr ⟨hw, he⟩
    · rintro e k' _ ⟨_, h⟩
      exact within_abort.mpr trivial

theorem domainLiteral_repaid : Repaid (Blocked c) 60 94 i (domainLiteral c i) := by
  unfold domainLiteral
  refine Repaid.skip (A := 60) (D := 64) (by decide) (fun j _ _ => Repaid.bindTag (D := 62) (by decide +kernel) fun r _ _ => ?_) ?_
  · refine Within.bind (domainLiteralLoop_paid _ r) ?_ (fun _ _ _ => trivial)
    rintro ⟨s, w⟩ m _ ⟨h5, h6⟩
    dsimp only at *
    refine Within.bind (optFws_within s) ?_ (fun _ _ h => h.elim)
    rintro ⟨t, v⟩ k _ ⟨e, ha, hk⟩
    dsimp only at *
    subst e
    refine Within.bind (tag_within (by decide +kernel) _ _) ?_ (fun _ _ _ => trivial)
    rintro ⟨u, v⟩ k' _ ⟨h1, h2, h3, h4⟩
    have hst : Starts (· == 93) (afterFws s) := ⟨93, u, h2, rfl⟩
    have hk : k + 2 * reach (afterFws s) ≤ 2 * reach s + 7 := by
      rcases hk with hk | ⟨h, hw, _⟩
      · exact hk
      · rw [← h] at hw
        exact absurd hw (hst.not (by decide +kernel))
    have h6 : m + 60 * reach s + 2 * reach (afterFws s) ≤ 60 * reach r + 2 * reach s + 13 := by
      rcases h6 with h6 | ⟨hw, h⟩
      · exact h6
      · rw [← h] at hw
        exact absurd hw (hst.not (by decide +kernel))
    have h4 : k' = 2 := h4
    have := ha.le
    have := h1.le
    refine (Repaid.skipEnd (A := 60) (by decide)).use ?_ (fun _ _ _ => trivial)
    rintro ⟨x, v⟩ l _ ⟨h7, h8⟩
    refine ⟨((h5.trans ha).trans h1).trans h7, h8.imp (fun h => ?_) id⟩
    dsimp only at *
    omega
  · intro r hr
    exact bindTag_leaves (hr.stops (by decide +kernel))

/-! ### Dotted atoms -/

theorem dotAtomTextLoop_ne_err (n : Nat) : ∀ i e, EmailParser.dotAtomTextLoop c n i ≠ .err e := by
  induction n with
  | zero => intro i e h; simp [EmailParser.dotAtomTextLoop] at h
  | succ n ih =>
    intro i e h
    unfold EmailParser.dotAtomTextLoop at h
    split at h
    · rename_i hs
      obtain ⟨t, rfl⟩ := startsWith_single hs
      have e1 : sliceFrom (46 :: t) 1 = .ok t := by simp [sliceFrom]
      have e2 : sliceTo (46 :: t) 1 = .ok [46] := by simp [sliceTo]
      simp only [e1, ok_bind, e2] at h
      split at h
      · rename_i r v _
        cases h6 : EmailParser.dotAtomTextLoop c n r with
        | ok a => rw [h6] at h; cases h
        | err a => exact ih r a h6
        | abort a => rw [h6] at h; cases h
      · cases h
      · cases h
    · cases h

/-- What `dot_atom` and `atom` read. -/
theorem dotAtom_cases (c : Cfg) (i : Bytes) :
    (∃ a, EmailParser.skipCfws c i = .abort a) ∨
    (∃ j, EmailParser.skipCfws c i = .ok j ∧ Stops isAtext j) ∨
    ∃ v s, EmailParser.skipCfws c i = .ok (v ++ s) ∧ v ≠ [] ∧ (∀ x ∈ v, isAtext x = true) ∧ Stops isAtext s ∧
      EmailParser.atom c i = (EmailParser.skipCfws c s >>= fun r => .ok (r, v)) ∧
      EmailParser.dotAtom c i = (EmailParser.dotAtomTextLoop c (s.length + 1) s >>= fun a =>
        EmailParser.skipCfws c a.1 >>= fun r => .ok (r, v ++ a.2)) := by
  cases h : EmailParser.skipCfws c i with
  | abort a => exact .inl ⟨a, rfl⟩
  | err e => exact absurd h (skipCfws_ne_err _ _)
  | ok j =>
    rcases takeWhile1_cases isAtext j with ⟨hs, _⟩ | ⟨v, s, rfl, hne, hv, hs, ht⟩
    · exact .inr (.inl ⟨j, rfl, hs⟩)
    · refine .inr (.inr ⟨v, s, rfl, hne, hv, hs, ?_, ?_⟩)
      · unfold EmailParser.atom
        rw [h, ok_bind, ht]
        rfl
      · unfold EmailParser.dotAtom EmailParser.dotAtomText
        rw [h, ok_bind, ht, ok_bind]
        dsimp only
        cases EmailParser.dotAtomTextLoop c (s.length + 1) s <;> rfl

/-- The only way for `dot_atom` to fail. -/
theorem dotAtom_err_inv {e : Error} (h : (dotAtom c i).out = .err e) :
    ∃ j, EmailParser.skipCfws c i = .ok j ∧ Stops isAtext j := by
  rw [dotAtom_out] at h
  rcases dotAtom_cases c i with ⟨a, ha⟩ | hj | ⟨v, s, h1, h2, h3, h4, h5, h6⟩
  · unfold EmailParser.dotAtom at h
    rw [ha] at h
    cases h
  · exact hj
  · rw [h6] at h
    cases h7 : EmailParser.dotAtomTextLoop c (s.length + 1) s with
    | ok a =>
      rw [h7, ok_bind] at h
      cases h8 : EmailParser.skipCfws c a.1 with
      | ok b => rw [h8] at h; cases h
      | err e => exact absurd h8 (skipCfws_ne_err _ _)
      | abort b => rw [h8] at h; cases h
    | err e => exact absurd h7 (dotAtomTextLoop_ne_err _ _ _)
    | abort a => rw [h7] at h; cases h

theorem atom_err_inv {e : Error} (h : (atom c i).out = .err e) :
    ∃ j, EmailParser.skipCfws c i = .ok j ∧ Stops isAtext j := by
  rw [atom_out] at h
  rcases dotAtom_cases c i with ⟨a, ha⟩ | hj | ⟨v, s, h1, h2, h3, h4, h5, h6⟩
  · unfold EmailParser.atom at h
    rw [ha] at h
    cases h
  · exact hj
  · rw [h5] at h
    cases h8 : EmailParser.skipCfws c s with
    | ok b => rw [h8] at h; cases h
    | err e => exact absurd h8 (skipCfws_ne_err _ _)
    | abort b => rw [h8] at h; cases h

/-! ### Alternatives -/

/-- The second of two parsers must also pay for the failure of the first. -/
theorem Repaid.orElse {Q : Bytes → Prop} {A C : Nat} {p q : Bytes → TRes α} (h : Repaid Q A C i (p i))
    (h' : ∀ e r v, (p i).out = .err e → (q i).out = .ok (r, v) →
      Adv i r ∧ ((p i).cost + (q i).cost + A * reach r ≤ A * reach i + C ∨ Q r)) :
    Repaid Q A C i (Timed.matchParsers i [p, q]) := by
  unfold Timed.matchParsers
  refine Within.on (S := fun a k => (p i).out = .ok a ∧ k = (p i).cost) (F := fun k => k = (p i).cost) ?_ ?_ ?_ ?_
  · unfold Within
    split
    · rename_i a e; exact ⟨e, by omega⟩
    · omega
    · omega
  · rintro ⟨r, v⟩ k _ ⟨ho, rfl⟩
    exact within_ok.mpr ⟨h.adv ho, by rw [Nat.zero_add]; exact h.paid ho⟩
  · rintro e k ho rfl
    dsimp only
    unfold Timed.matchParsers
    refine Within.on (S := fun a k => (q i).out = .ok a ∧ k = (q i).cost) (F := fun _ => True) ?_ ?_ ?_ ?_
    · unfold Within
      split
      · rename_i a e; exact ⟨e, by omega⟩
      · trivial
      · trivial
    · rintro ⟨r, v⟩ k _ ⟨ho', rfl⟩
      refine within_ok.mpr ?_
      rw [Nat.zero_add]
      exact h' e r v ho ho'
    · exact fun _ _ _ _ => within_err.mpr trivial
    · exact fun _ _ _ _ => within_abort.mpr trivial
  · exact fun _ _ _ _ => within_abort.mpr trivial

theorem localPart_repaid : Repaid (Blocked c) 120 100 i (localPart c i) := by
  unfold localPart
  refine Repaid.orElse ((dotAtom_repaid.rate (by decide)).base (by decide)) ?_
  intro e r v he ho
  have h := quotedString_repaid (c := c) (i := i)
  refine ⟨h.adv ho, (h.paid ho).imp (fun hk => ?_) id⟩
  have hl := quotedString_within (c := c) i
  unfold Within at hl
  rw [ho] at hl
  obtain ⟨_, _, ⟨j, hj, hst, hr⟩, _⟩ := hl
  obtain ⟨j', hj', hs⟩ := dotAtom_err_inv he
  rw [hj] at hj'
  cases hj'
  rcases (dotAtom_err hj hs).2 with h1 | h1
  · dsimp only at *
    omega
  · exact absurd h1 (not_blocked_of (by decide +kernel) hst)

/-- A domain literal starts with a bracket. -/
theorem domainLiteral_lead {r v : Bytes} (h : (domainLiteral c i).out = .ok (r, v)) :
    ∃ j, EmailParser.skipCfws c i = .ok j ∧ Starts (· == 91) j ∧ Adv j r := by
  cases hj : EmailParser.skipCfws c i with
  | ok j =>
    have hx := domainLiteral_repaid (c := c) (i := j)
    rcases starts_or_stops (· == 91) j with hs | hs
    · refine ⟨j, rfl, hs, ?_⟩
      have : (domainLiteral c j).out = .ok (r, v) := by
        rw [domainLiteral_out] at h ⊢
        unfold EmailParser.domainLiteral at h ⊢
        have hjj : EmailParser.skipCfws c j = .ok j := by
          obtain ⟨b, t, rfl, hb⟩ := hs
          have : b = 91 := by simpa using hb
          subst this
          exact skipCfws_none (noFws_cons (by decide) (by decide)) (stops_cons.mpr rfl)
        rw [hj] at h
        rw [hjj]
        exact h
      exact hx.adv this
    · obtain ⟨e, he⟩ := (domainLiteral_err hj hs).1
      rw [he] at h
      cases h
  | err e => exact absurd hj (skipCfws_ne_err _ _)
  | abort a =>
    rw [domainLiteral_out] at h
    unfold EmailParser.domainLiteral at h
    rw [hj] at h
    cases h

theorem domain_repaid : Repaid (Blocked c) 120 130 i (domain c i) := by
  unfold domain
  refine Repaid.orElse ((dotAtom_repaid.rate (by decide)).base (by decide)) ?_
  intro e r v he ho
  have h := domainLiteral_repaid (c := c) (i := i)
  refine ⟨h.adv ho, (h.paid ho).imp (fun hk => ?_) id⟩
  obtain ⟨j, hj, hst, ha⟩ := domainLiteral_lead ho
  obtain ⟨j', hj', hs⟩ := dotAtom_err_inv he
  rw [hj] at hj'
  cases hj'
  have := ha.le
  rcases (dotAtom_err hj hs).2 with h1 | h1
  · omega
  · exact absurd h1 (not_blocked_of (by decide +kernel) hst)

/-! ### Addresses and identifiers -/

theorem addrSpec_repaid : Repaid (Blocked c) 120 232 i (addrSpec c i) := by
  unfold addrSpec
  exact Repaid.bind (D := 132) localPart_repaid
    (fun r v _ _ => Repaid.bindTag (D := 130) (by decide +kernel) fun s _ _ =>
      Repaid.bind (D := 0) domain_repaid (fun _ _ _ _ => Repaid.ok.weaken fun _ h => h.elim)
        fun _ _ _ h => within_ok.mpr h)
    fun r v _ h => bindTag_leaves (h.stops (by decide +kernel))

theorem angleAddr_repaid : Repaid (Blocked c) 120 296 i (angleAddr c i) := by
  unfold angleAddr
  refine Repaid.skip (D := 266) (by decide) (fun j _ _ => Repaid.bindTag (D := 264) (by decide +kernel) fun r _ _ =>
    Repaid.bind (D := 32) addrSpec_repaid
      (fun s v _ _ => Repaid.bindTag (D := 30) (by decide +kernel) fun u _ _ => Repaid.skipEnd (by decide))
      fun s v _ h => bindTag_leaves (h.stops (by decide +kernel)))
    fun r h => bindTag_leaves (h.stops (by decide +kernel))

theorem noFoldLitteral_repaid : Repaid Never 1 6 i (noFoldLitteral i) := by
  unfold noFoldLitteral
  exact Repaid.bindTag (D := 4) (by decide +kernel) fun r _ _ =>
    Repaid.bind (D := 2) (Repaid.takeWhile dtext_line (by decide)) (fun s v _ _ =>
      Repaid.bindTag (D := 0) (by decide +kernel) fun u _ _ => Repaid.ok) fun _ _ _ h => h.elim

theorem dotAtomText_err_cost {e : Error} (h : (dotAtomText c i).out = .err e) : (dotAtomText c i).cost ≤ 2 := by
  rcases starts_or_stops isAtext i with hs | hs
  · exfalso
    rw [dotAtomText_out] at h
    unfold EmailParser.dotAtomText at h
    rcases takeWhile1_cases isAtext i with ⟨hs', _⟩ | ⟨v, s, rfl, hne, hv, hs, ht⟩
    · obtain ⟨b, t, rfl, hb⟩ := hs
      rw [stops_cons.mp hs'] at hb
      cases hb
    · rw [ht, ok_bind] at h
      dsimp only at h
      cases h7 : EmailParser.dotAtomTextLoop c (s.length + 1) s with
      | ok a => rw [h7] at h; cases h
      | err e => exact absurd h7 (dotAtomTextLoop_ne_err _ _ _)
      | abort a => rw [h7] at h; cases h
  · have := (dotAtomText_err (c := c) (f := fun a => .ok a) hs).2
    rwa [bind_cost_zero fun _ => rfl] at this

theorem idRight_repaid : Repaid Never 6 9 i (matchParsers i [dotAtomText c, noFoldLitteral]) := by
  refine Repaid.orElse (dotAtomText_repaid.base (by decide)) ?_
  intro e r v he ho
  have h := (noFoldLitteral_repaid (i := i)).rate (B := 6) (by decide)
  have := dotAtomText_err_cost he
  exact ⟨h.adv ho, (h.paid ho).imp (fun hk => by omega) id⟩

theorem messageId_repaid : Repaid (Blocked c) 60 83 i (messageId c i) := by
  unfold messageId
  refine Repaid.skip (A := 60) (D := 53) (by decide) (fun j _ _ => Repaid.bindTag (D := 51) (by decide +kernel) fun r _ _ =>
    Repaid.bind (C := 8) (D := 43) (dotAtomText_repaid.rate (by decide)) (fun s v _ _ =>
      Repaid.bindTag (D := 41) (by decide +kernel) fun u _ _ =>
        Repaid.bind (C := 9) (D := 32) (idRight_repaid.rate (by decide)) (fun s v _ _ =>
          Repaid.bindTag (D := 30) (by decide +kernel) fun u _ _ => Repaid.skipEnd (by decide))
          fun _ _ _ h => h.elim) fun _ _ _ h => h.elim)
    fun r h => bindTag_leaves (h.stops (by decide +kernel))

end EmailParser.Timed
