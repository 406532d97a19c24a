import Verif.Proofs.Timed.Reach
/-
The cost of white space and comments: proportional to what is read, unless the text read is not a
comment (or not folding white space), in which case it may have been read up to the end of the line.
-/
namespace EmailParser.Timed
open Spec (Folded)

variable {α β γ : Type} {c : Cfg}

/-! ### Optional folding white space -/

/-- The input after the folding white space at its head, if there is any. -/
def afterFws (i : Bytes) : Bytes :=
  match EmailParser.fws i with
  | .ok a => a.1
  | _ => i

theorem fws_no_abort (i : Bytes) (k : Abort) : EmailParser.fws i ≠ .abort k := by
  intro h
  have := fws_parses (A := .none) i
  rw [h] at this
  exact this

theorem afterFws_ok {i r v : Bytes} (h : EmailParser.fws i = .ok (r, v)) : afterFws i = r := by
  rw [afterFws, h]

theorem afterFws_err {i : Bytes} {e : Error} (h : EmailParser.fws i = .err e) : afterFws i = i := by
  rw [afterFws, h]

/-- The condition on the cost of `[FWS]`. -/
def OptFwsCost (i r : Bytes) (k : Nat) : Prop :=
  r = afterFws i ∧ Adv i r ∧ (k + 2 * reach r ≤ 2 * reach i + 7 ∨
    (r = i ∧ Starts isWsp i ∧ (∃ e, EmailParser.fws i = .err e) ∧ k ≤ reach i + 7))

theorem optFws_within (i : Bytes) :
    Within (optional i fws) 0 (fun a k => OptFwsCost i a.1 k) fun _ => False := by
  unfold optional
  refine Within.on (fws_within i) ?_ ?_ ?_
  · rintro ⟨r, v⟩ k he ⟨h1, h2, h3⟩
    rw [fws_out] at he
    exact within_ok.mpr ⟨(afterFws_ok he).symm, h1, .inl (by count)⟩
  · rintro e k he h
    rw [fws_out] at he
    refine within_ok.mpr ⟨(afterFws_err he).symm, .refl _, ?_⟩
    rcases h with h | ⟨h, h'⟩
    · exact .inl (by count)
    · exact .inr ⟨rfl, h, ⟨_, he⟩, by count⟩
  · rintro e k he _
    rw [fws_out] at he
    exact absurd he (fws_no_abort _ _)

theorem fwsOrEmpty_within (i : Bytes) :
    Within (fwsOrEmpty i) 0 (fun a k => OptFwsCost i a.1 k) fun _ => False := by
  unfold fwsOrEmpty
  refine Within.on (fws_within i) ?_ ?_ ?_
  · rintro ⟨r, v⟩ k he ⟨h1, h2, h3⟩
    rw [fws_out] at he
    exact within_ok.mpr ⟨(afterFws_ok he).symm, h1, .inl (by count)⟩
  · rintro e k he h
    rw [fws_out] at he
    refine within_ok.mpr ⟨(afterFws_err he).symm, .refl _, ?_⟩
    rcases h with h | ⟨h, h'⟩
    · exact .inl (by count)
    · exact .inr ⟨rfl, h, ⟨_, he⟩, by count⟩
  · rintro e k he _
    rw [fws_out] at he
    exact absurd he (fws_no_abort _ _)

/-! ### Heads of the input -/

def isOpen (b : UInt8) : Bool := b == 40
def isBackslash (b : UInt8) : Bool := b == 92
def isClose (b : UInt8) : Bool := b == 41

theorem Starts.not {p q : UInt8 → Bool} (hpq : ∀ x, p x = true → q x = false) {i : Bytes}
    (h : Starts p i) : ¬ Starts q i := by
  obtain ⟨b, t, rfl, hb⟩ := h
  rintro ⟨b', t', e, hb'⟩
  cases e
  rw [hpq b hb] at hb'
  cases hb'

theorem Starts.stops {p q : UInt8 → Bool} (hpq : ∀ x, p x = true → q x = false) {i : Bytes}
    (h : Starts p i) : Stops q i := by
  obtain ⟨b, t, rfl, hb⟩ := h
  exact stops_cons.mpr (hpq b hb)

theorem starts_single {b : UInt8} {r : Bytes} : Starts (· == b) ([b] ++ r) := ⟨b, r, rfl, by simp⟩

theorem starts_run {p : UInt8 → Bool} {w r : Bytes} (h : 1 ≤ w.length) (hw : ∀ x ∈ w, p x = true) :
    Starts p (w ++ r) := by
  cases w with
  | nil => simp at h
  | cons b t => exact ⟨b, _, rfl, hw b (by simp)⟩

theorem not_starts_of_prefix {b : UInt8} {i : Bytes} (h : ¬ [b] <+: i) : ¬ Starts (· == b) i := by
  rintro ⟨b', t, rfl, hb⟩
  exact h ⟨t, by simp at hb; simp [hb]⟩

/-! ### Loops -/

/-- A loop has stopped at `r`, where its body does not succeed. -/
def Ended (p : Bytes → TRes α) (A : Nat) (i r : Bytes) (k : Nat) : Prop :=
  Adv i r ∧ (∀ a, (p r).out ≠ .ok a) ∧ k + A * reach r ≤ A * reach i + (p r).cost + 1

/-- Every success of the body is paid for by what it reads. -/
def Paid (p : Bytes → TRes α) (A : Nat) : Prop :=
  ∀ i, Within (p i) 0 (fun a k => Adv i a.1 ∧ k + A * reach a.1 + 1 ≤ A * reach i) fun _ => True

theorem Ended.step {p : Bytes → TRes α} {A : Nat} {i j r : Bytes} {k m : Nat} (hij : Adv i j)
    (hk : k + A * reach j ≤ A * reach i) (h : Ended p A j r m) : Ended p A i r (k + m) := by
  obtain ⟨h1, h2, h3⟩ := h
  exact ⟨hij.trans h1, h2, by omega⟩

theorem out_not_ok {p : Bytes → TRes α} {i : Bytes} {e : Error} (h : (p i).out = .err e) :
    ∀ a, (p i).out ≠ .ok a := by
  intro a h'; rw [h] at h'; cases h'

theorem out_not_ok' {p : Bytes → TRes α} {i : Bytes} {e : Abort} (h : (p i).out = .abort e) :
    ∀ a, (p i).out ≠ .ok a := by
  intro a h'; rw [h] at h'; cases h'

theorem on_err {x : Timed α} {f : Outcome α → Timed β} {e : Error} (h : x.out = .err e) :
    x.on f = ⟨(f (.err e)).out, x.cost + (f (.err e)).cost⟩ := by
  unfold Timed.on; rw [h]

theorem Within.self {x : Timed α} : Within x 0 (fun _ k => k = x.cost) fun k => k = x.cost := by
  unfold Within
  rw [Nat.zero_add]
  split <;> rfl

theorem Within.and {x : Timed α} {n : Nat} {S S' : α → Nat → Prop} {F F' : Nat → Prop}
    (h : Within x n S F) (h' : Within x n S' F') :
    Within x n (fun a k => S a k ∧ S' a k) fun k => F k ∧ F' k := by
  unfold Within at *
  split <;> rename_i e <;> rw [e] at h h' <;> exact ⟨h, h'⟩

theorem ignoreManyLoop_within {p : Bytes → TRes α} {A : Nat} (hp : Paid p A) : ∀ n i,
    Within (ignoreManyLoop p n i) 0 (fun a k => Ended p A i a.1 k)
      fun k => ∃ r, Ended p A i r k ∨ (Adv i r ∧ k + A * reach r ≤ A * reach i)
  | 0, i => within_abort.mpr ⟨i, .inr ⟨.refl _, by omega⟩⟩
  | n + 1, i => by
    unfold ignoreManyLoop
    refine within_tick.mpr ?_
    refine Within.on ((hp i).and .self) ?_ ?_ ?_
    · rintro ⟨j, v⟩ k he ⟨⟨ha, hk⟩, _⟩
      dsimp only at *
      refine (ignoreManyLoop_within hp n j).use ?_ ?_
      · intro a m _ h
        exact h.step ha (by omega)
      · rintro m _ ⟨r, h | ⟨h1, h2⟩⟩
        · exact ⟨r, .inl (h.step ha (by omega))⟩
        · exact ⟨r, .inr ⟨ha.trans h1, by omega⟩⟩
    · rintro e k he ⟨_, rfl⟩
      exact within_ok.mpr ⟨.refl _, out_not_ok he, by count⟩
    · rintro e k he ⟨_, rfl⟩
      exact within_abort.mpr ⟨i, .inl ⟨.refl _, out_not_ok' he, by count⟩⟩

theorem manyLoop_within {p : Bytes → TRes α} {A : Nat} (hp : Paid p A) : ∀ n i,
    Within (manyLoop p n i) 0 (fun a k => Ended p A i a.1 k)
      fun k => ∃ r, Ended p A i r k ∨ (Adv i r ∧ k + A * reach r ≤ A * reach i)
  | 0, i => within_abort.mpr ⟨i, .inr ⟨.refl _, by omega⟩⟩
  | n + 1, i => by
    unfold manyLoop
    refine within_tick.mpr ?_
    refine Within.on ((hp i).and .self) ?_ ?_ ?_
    · rintro ⟨j, v⟩ k he ⟨⟨ha, hk⟩, _⟩
      dsimp only at *
      refine Within.bind (manyLoop_within hp n j) ?_ ?_
      · intro a m _ h
        exact within_ok.mpr (h.step ha (by omega))
      · rintro m _ ⟨r, h | ⟨h1, h2⟩⟩
        · exact ⟨r, .inl (h.step ha (by omega))⟩
        · exact ⟨r, .inr ⟨ha.trans h1, by omega⟩⟩
    · rintro e k he ⟨_, rfl⟩
      exact within_ok.mpr ⟨.refl _, out_not_ok he, by count⟩
    · rintro e k he ⟨_, rfl⟩
      exact within_abort.mpr ⟨i, .inl ⟨.refl _, out_not_ok' he, by count⟩⟩

theorem collectManyLoop_within {p : Bytes → TRes Bytes} {A : Nat} (hp : Paid p A) : ∀ n i,
    Within (collectManyLoop p n i) 0 (fun a k => Ended p A i a.1 k)
      fun k => ∃ r, Ended p A i r k ∨ (Adv i r ∧ k + A * reach r ≤ A * reach i)
  | 0, i => within_abort.mpr ⟨i, .inr ⟨.refl _, by omega⟩⟩
  | n + 1, i => by
    unfold collectManyLoop
    refine within_tick.mpr ?_
    refine Within.on ((hp i).and .self) ?_ ?_ ?_
    · rintro ⟨j, v⟩ k he ⟨⟨ha, hk⟩, _⟩
      dsimp only at *
      refine Within.bind (collectManyLoop_within hp n j) ?_ ?_
      · intro a m _ h
        exact within_ok.mpr (h.step ha (by omega))
      · rintro m _ ⟨r, h | ⟨h1, h2⟩⟩
        · exact ⟨r, .inl (h.step ha (by omega))⟩
        · exact ⟨r, .inr ⟨ha.trans h1, by omega⟩⟩
    · rintro e k he ⟨_, rfl⟩
      exact within_ok.mpr ⟨.refl _, out_not_ok he, by count⟩
    · rintro e k he ⟨_, rfl⟩
      exact within_abort.mpr ⟨i, .inl ⟨.refl _, out_not_ok' he, by count⟩⟩

/-! ### Comments -/

theorem quotedPair_within (i : Bytes) :
    Within (quotedPair i) 0 (fun a k => Adv i a.1 ∧ Starts isBackslash i ∧ reach i = reach a.1 + 2 ∧
      k ≤ 3) fun k => k ≤ 3 := by
  unfold quotedPair
  refine Within.bind (tag_within (by decide +kernel) _ _) ?_ ?_
  · rintro ⟨r, u⟩ k _ ⟨ha, e, hr, hk⟩
    dsimp only at *
    refine within_tick.mpr ?_
    simp only [List.length_cons, List.length_nil] at hr hk
    cases r with
    | cons ch t =>
      dsimp only
      split
      · rename_i hch
        have hl : lineChar ch = true := by
          rcases (Bool.or_eq_true _ _).mp hch with h | h
          · exact vchar_line _ h
          · exact wsp_line _ h
        have ht : Adv (ch :: t) t := ⟨[ch], rfl, folded_of fun x hx => by
          simp at hx; subst hx; simpa [lineChar] using hl⟩
        have hrt := reach_char (t := t) hl
        refine within_bind.mpr (within_lift ?_ (by omega))
        intro b hb
        have : b = t := by simpa [getUncheckedFrom] using hb.symm
        subst this
        refine within_bind.mpr (within_lift ?_ (by omega))
        intro v hv
        exact within_ok.mpr ⟨ha.trans ht, ⟨92, _, e, rfl⟩, by count, by count⟩
      · exact within_err.mpr (by omega)
    | nil => exact within_err.mpr (by omega)
  · rintro k _ ⟨_, hk⟩
    simp only [List.length_cons, List.length_nil] at hk
    omega

/-- The cost of a comment, or of an attempt to read one. -/
def CommentCost (p : Bytes → TRes Bytes) : Prop := ∀ i,
  Within (p i) 0 (fun a k => Adv i a.1 ∧ Starts isOpen i ∧ reach a.1 + 2 ≤ reach i ∧
    k + 60 * reach a.1 + 20 ≤ 60 * reach i)
    fun k => (k ≤ 2 ∧ ¬ Starts isOpen i) ∨ (Starts isOpen i ∧ k ≤ 60 * reach i)

theorem ccontent_within {p : Bytes → TRes Bytes} (hp : CommentCost p) (i : Bytes) :
    Within (ccontent p i) 0 (fun a k => Adv i a.1 ∧ ¬ Starts isWsp i ∧ reach a.1 + 1 ≤ reach i ∧
      k + 60 * reach a.1 + 13 ≤ 60 * reach i)
      fun k => k ≤ 9 ∨ (Starts isOpen i ∧ k ≤ 60 * reach i + 7) := by
  unfold ccontent matchParsers
  refine Within.on (S := fun a k => Adv i a.1 ∧ ¬ Starts isWsp i ∧ reach a.1 + 1 ≤ reach i ∧
      k + 60 * reach a.1 + 13 ≤ 60 * reach i) (F := fun k => k ≤ 2) ?_ ?_ ?_ ?_
  · refine Within.bind (takeWhile1_within ctext_line i) ?_ ?_
    · rintro ⟨r, v⟩ k _ ⟨ha, hs, e, hv, h1, h2, h3⟩
      dsimp only at *
      refine within_ok.mpr ⟨ha, ?_, by count, by count⟩
      have := starts_run (r := r) h1 hv
      rw [← e] at this
      exact this.not (by decide +kernel)
    · rintro k _ ⟨_, h⟩
      omega
  · rintro ⟨r, v⟩ k _ ⟨h1, h2, h3, h4⟩
    exact within_ok.mpr ⟨h1, h2, h3, by count⟩
  · rintro e k _ hk
    dsimp only
    unfold matchParsers
    refine Within.on (quotedPair_within i) ?_ ?_ ?_
    · rintro ⟨r, v⟩ k' _ ⟨h1, h2, h3, h4⟩
      exact within_ok.mpr ⟨h1, h2.not (by decide +kernel), by count, by count⟩
    · rintro e k' _ hk'
      dsimp only
      unfold matchParsers
      refine Within.on (hp i) ?_ ?_ ?_
      · rintro ⟨r, v⟩ k'' _ ⟨h1, h2, h3, h4⟩
        exact within_ok.mpr ⟨h1, h2.not (by decide +kernel), by count, by count⟩
      · rintro e k'' _ (⟨h, _⟩ | ⟨h, h'⟩)
        · exact within_err.mpr (.inl (by omega))
        · exact within_err.mpr (.inr ⟨h, by omega⟩)
      · rintro e k'' _ (⟨h, _⟩ | ⟨h, h'⟩)
        · exact within_abort.mpr (.inl (by omega))
        · exact within_abort.mpr (.inr ⟨h, by omega⟩)
    · rintro e k' _ hk'
      exact within_abort.mpr (.inl (by omega))
  · rintro e k _ hk
    exact within_abort.mpr (.inl (by omega))

/-- The cost of an iteration of the loop in a comment that does not succeed. -/
def CommentEnd (i : Bytes) (k : Nat) : Prop :=
  k + 2 * reach (afterFws i) ≤ 2 * reach i + 16 ∨
  (Starts isWsp (afterFws i) ∧ k ≤ 2 * reach i + 16) ∨
  (Starts isOpen (afterFws i) ∧ reach (afterFws i) ≤ reach i ∧
    k ≤ 2 * reach i + 58 * reach (afterFws i) + 14)

theorem commentItem_within {p : Bytes → TRes Bytes} (hp : CommentCost p) (i : Bytes) :
    Within (pair i (fun i => optional i fws) (ccontent p)) 0
      (fun a k => Adv i a.1 ∧ k + 60 * reach a.1 + 1 ≤ 60 * reach i) (CommentEnd i) := by
  unfold pair
  refine Within.bind (optFws_within i) ?_ (fun _ _ h => h.elim)
  rintro ⟨j, v⟩ k _ ⟨e, ha, hk⟩
  dsimp only at *
  have hle := ha.le
  refine Within.bind (ccontent_within hp j) ?_ ?_
  · rintro ⟨r, v⟩ k' _ ⟨h1, h2, h3, h4⟩
    rcases hk with hk | ⟨rfl, h, _⟩
    · exact within_ok.mpr ⟨ha.trans h1, by count⟩
    · exact absurd h h2
  · rintro k' _ h
    rw [e] at *
    rcases hk with hk | ⟨he, hw, _, hk⟩
    · rcases h with h | ⟨h, h'⟩
      · exact .inl (by count)
      · exact .inr (.inr ⟨h, hle, by count⟩)
    · rw [← he] at hw
      rcases h with h | ⟨h, h'⟩
      · exact .inr (.inl ⟨hw, by rw [he] at *; count⟩)
      · exact absurd h (hw.not (by decide +kernel))

theorem comment_within : ∀ n, CommentCost (comment n)
  | 0, i => by
    unfold comment
    refine Within.bind (tag_within (by decide +kernel) _ _) ?_ ?_
    · rintro ⟨r, u⟩ k _ ⟨ha, e, hr, hk⟩
      simp only [List.length_cons, List.length_nil] at hr hk
      exact within_abort.mpr (.inr ⟨⟨40, _, e, rfl⟩, by omega⟩)
    · rintro k _ ⟨hn, hk⟩
      simp only [List.length_cons, List.length_nil] at hk
      exact .inl ⟨by omega, not_starts_of_prefix hn⟩
  | n + 1, i => by
    have hp := commentItem_within (comment_within n)
    unfold comment
    refine Within.bind (tag_within (by decide +kernel) _ _) ?_ ?_
    · rintro ⟨i₁, u⟩ k _ ⟨ha, e, hr, hk⟩
      simp only [List.length_cons, List.length_nil] at hr hk
      have hst : Starts isOpen i := ⟨40, _, e, rfl⟩
      dsimp only at *
      unfold ignoreMany
      refine Within.bind (ignoreManyLoop_within (A := 60)
        (fun i => (hp i).mono (fun _ _ h => h) fun _ _ => trivial) _ i₁) ?_ ?_
      · rintro ⟨r, v⟩ m _ ⟨h1, h2, h3⟩
        dsimp only at *
        have hend : CommentEnd r (pair r (fun i => optional i fws) (ccontent (comment n))).cost := by
          have := hp r
          unfold Within at this
          split at this
          · rename_i a h; exact absurd h (h2 a)
          · simpa using this
          · simpa using this
        have hle := h1.le
        refine Within.bind (optFws_within r) ?_ (fun _ _ h => h.elim)
        rintro ⟨j, v'⟩ k₂ _ ⟨e₂, ha₂, hk₂⟩
        dsimp only at *
        subst e₂
        have hle₂ := ha₂.le
        refine Within.bind (tag_within (by decide +kernel) _ _) ?_ ?_
        · rintro ⟨s, u⟩ k₃ _ ⟨ha₃, e₃, hr₃, hk₃⟩
          dsimp only at *
          simp only [List.length_cons, List.length_nil] at hr₃ hk₃
          have hst' : Starts isClose (afterFws r) := ⟨41, _, e₃, rfl⟩
          have hk₂' : k₂ + 2 * reach (afterFws r) ≤ 2 * reach r + 7 := by
            rcases hk₂ with hk₂ | ⟨h, hw, _⟩
            · exact hk₂
            · rw [← h] at hw
              exact absurd hw (hst'.not (by decide +kernel))
          have hend' : (pair r (fun i => optional i fws) (ccontent (comment n))).cost +
              2 * reach (afterFws r) ≤ 2 * reach r + 16 := by
            rcases hend with h | ⟨h, _⟩ | ⟨h, _⟩
            · exact h
            · exact absurd h (hst'.not (by decide +kernel))
            · exact absurd h (hst'.not (by decide +kernel))
          exact within_ok.mpr ⟨((ha.trans h1).trans ha₂).trans ha₃, hst, by count, by count⟩
        · rintro k₃ _ ⟨_, hk₃⟩
          simp only [List.length_cons, List.length_nil] at hk₃
          refine .inr ⟨hst, ?_⟩
          rcases hend with h | ⟨h, h'⟩ | ⟨h, h', h''⟩
          · rcases hk₂ with hk₂ | ⟨h, hw, _, hk₂⟩ <;> omega
          · rcases hk₂ with hk₂ | ⟨h, hw, _, hk₂⟩ <;> omega
          · rcases hk₂ with hk₂ | ⟨h4, hw, _, hk₂⟩
            · omega
            · rw [← h4] at hw
              exact absurd h (hw.not (by decide +kernel))
      · rintro m _ ⟨r, ⟨h1, h2, h3⟩ | ⟨h1, h2⟩⟩
        · have hend : CommentEnd r (pair r (fun i => optional i fws) (ccontent (comment n))).cost := by
            have := hp r
            unfold Within at this
            split at this
            · rename_i a h; exact absurd h (h2 a)
            · simpa using this
            · simpa using this
          have hle := h1.le
          refine .inr ⟨hst, ?_⟩
          dsimp only at h3
          rcases hend with h | ⟨h, h'⟩ | ⟨h, h', h''⟩ <;> omega
        · exact .inr ⟨hst, by omega⟩
    · rintro k _ ⟨hn, hk⟩
      simp only [List.length_cons, List.length_nil] at hk
      exact .inl ⟨by omega, not_starts_of_prefix hn⟩

/-! ### Comments and white space -/

/-- The input starts with a parenthesis or with white space, but not with a comment or folding white
space. -/
def Blocked (c : Cfg) (r : Bytes) : Prop :=
  (∃ e, EmailParser.cfws c r = .err e) ∧ (Starts isWsp r ∨ Starts isOpen r)

theorem realCfws_err_of {j i : Bytes} (hf : afterFws i = j)
    (hc : ∃ e, EmailParser.comment c.stack j = .err e) :
    ∃ e, EmailParser.realCfws c i = .err e := by
  obtain ⟨e, hc⟩ := hc
  have : ∃ v, EmailParser.optional i EmailParser.fws = .ok (j, v) := by
    unfold EmailParser.optional
    unfold afterFws at hf
    cases h : EmailParser.fws i with
    | ok a => rw [h] at hf; subst hf; exact ⟨_, rfl⟩
    | err a => rw [h] at hf; subst hf; exact ⟨_, rfl⟩
    | abort a => exact absurd h (fws_no_abort _ _)
  obtain ⟨v, hv⟩ := this
  refine ⟨.unknown "Expected at least one comment", ?_⟩
  unfold EmailParser.realCfws
  simp only [hv, ok_bind, hc]

theorem cfws_err_of {i : Bytes} (hf : ∃ e, EmailParser.fws i = .err e)
    (hc : ∃ e, EmailParser.comment c.stack i = .err e) : ∃ e, EmailParser.cfws c i = .err e := by
  obtain ⟨e, hf⟩ := hf
  obtain ⟨e', hr⟩ := realCfws_err_of (afterFws_err hf) hc
  simp [EmailParser.cfws, EmailParser.matchParsers, hr, hf]

theorem comment_err_of {n : Nat} {i : Bytes} (h : ¬ Starts isOpen i) :
    ∃ e, EmailParser.comment n i = .err e := by
  rcases tag_cases i (b! "(") "TAG ERROR: A comment must start with a `(`." with ⟨r, rfl, _⟩ | ⟨_, ht⟩
  · exact absurd ⟨40, r, rfl, rfl⟩ h
  · cases n <;> (unfold EmailParser.comment; rw [ht]; exact ⟨_, rfl⟩)

theorem blocked_wsp {i : Bytes} (h : Starts isWsp i) (hf : ∃ e, EmailParser.fws i = .err e) :
    Blocked c i :=
  ⟨cfws_err_of hf (comment_err_of (h.not (by decide +kernel))), .inl h⟩

theorem blocked_open {i : Bytes} (h : Starts isOpen i)
    (hc : ∃ e, EmailParser.comment c.stack i = .err e) : Blocked c i := by
  refine ⟨cfws_err_of ?_ hc, .inr h⟩
  obtain ⟨b, t, rfl, hb⟩ := h
  have : b = 40 := by simpa [isOpen] using hb
  subst this
  exact NoFws.err (noFws_cons (by decide) (by decide))

/-- White space and comments have been read up to `r`. -/
def CfwsCost (c : Cfg) (B : Nat) (i r : Bytes) (k : Nat) : Prop :=
  k + 60 * reach r ≤ 60 * reach i + B ∨ (Blocked c r ∧ k ≤ 60 * reach i + B)

/-- The state at the end of the loop in `real_cfws`. -/
def CfwsLoopEnd (c : Cfg) (i r : Bytes) (k : Nat) : Prop :=
  Adv i r ∧ Adv r (afterFws r) ∧ (∃ e, EmailParser.comment c.stack (afterFws r) = .err e) ∧
  (k + 2 * reach (afterFws r) + 60 * reach r ≤ 60 * reach i + 2 * reach r + 10 ∨
   (Starts isWsp r ∧ (∃ e, EmailParser.fws r = .err e) ∧ k + 60 * reach r ≤ 60 * reach i + reach r + 10) ∨
   (Starts isOpen (afterFws r) ∧
    k + 2 * reach (afterFws r) + 60 * reach r ≤ 60 * reach i + 2 * reach r + 60 * reach (afterFws r) + 8))

theorem realCfwsLoop_within : ∀ n i,
    Within (realCfwsLoop c n i) 0 (fun a k => CfwsLoopEnd c i a.1 k) fun k => k ≤ 60 * reach i + 10
  | 0, i => within_abort.mpr (by omega)
  | n + 1, i => by
    unfold realCfwsLoop
    refine within_tick.mpr ?_
    refine Within.bind (optFws_within i) ?_ (fun _ _ h => h.elim)
    rintro ⟨j, v⟩ k _ ⟨e, ha, hk⟩
    dsimp only at *
    have hle := ha.le
    refine Within.on (comment_within c.stack j) ?_ ?_ ?_
    · rintro ⟨r, v⟩ k' _ ⟨h1, h2, h3, h4⟩
      dsimp only at *
      have hk' : k + 2 * reach j ≤ 2 * reach i + 7 := by
        rcases hk with hk | ⟨rfl, h, _⟩
        · exact hk
        · exact absurd h (h2.not (by decide +kernel))
      refine Within.bind (realCfwsLoop_within n r) ?_ ?_
      · rintro ⟨s, v⟩ m _ ⟨h5, h6, h7, h8⟩
        refine within_ok.mpr ⟨(ha.trans h1).trans h5, h6, h7, ?_⟩
        dsimp only at *
        rcases h8 with h8 | ⟨h8, h9, h10⟩ | ⟨h8, h9⟩
        · exact .inl (by omega)
        · exact .inr (.inl ⟨h8, h9, by omega⟩)
        · exact .inr (.inr ⟨h8, by omega⟩)
      · intro m _ hm
        omega
    · rintro er k' he h
      rw [comment_out] at he
      refine within_ok.mpr ?_
      subst e
      refine ⟨.refl _, ha, ⟨_, he⟩, ?_⟩
      dsimp only at *
      rcases hk with hk | ⟨he', hw, hf, hk⟩
      · rcases h with ⟨h, _⟩ | ⟨h, h'⟩
        · exact .inl (by omega)
        · exact .inr (.inr ⟨h, by omega⟩)
      · rcases h with ⟨h, _⟩ | ⟨h, h'⟩
        · exact .inr (.inl ⟨hw, hf, by omega⟩)
        · rw [he'] at h
          exact absurd h (hw.not (by decide +kernel))
    · rintro er k' he h
      refine within_abort.mpr ?_
      rcases hk with hk | ⟨he', hw, _, hk⟩
      · rcases h with ⟨h, _⟩ | ⟨h, h'⟩ <;> omega
      · rcases h with ⟨h, _⟩ | ⟨h, h'⟩
        · omega
        · rw [he'] at h
          exact absurd h (hw.not (by decide +kernel))

/-- The computation has been aborted. -/
def Aborted (x : Timed α) : Prop := ∃ a, x.out = .abort a

theorem realCfwsLoop_ne_err : ∀ n i e, EmailParser.realCfwsLoop c n i ≠ .err e
  | 0, i, e => by simp [EmailParser.realCfwsLoop]
  | n + 1, i, e => by
    intro h
    unfold EmailParser.realCfwsLoop at h
    have : ∃ a, EmailParser.optional i EmailParser.fws = .ok a := by
      unfold EmailParser.optional
      cases h : EmailParser.fws i with
      | ok a => exact ⟨_, rfl⟩
      | err a => exact ⟨_, rfl⟩
      | abort a => exact absurd h (fws_no_abort _ _)
    obtain ⟨⟨j, v⟩, hj⟩ := this
    rw [hj] at h
    simp only [ok_bind] at h
    split at h
    · rename_i r _ _
      cases h2 : EmailParser.realCfwsLoop c n r with
      | ok a => rw [h2] at h; cases h
      | err a => exact realCfwsLoop_ne_err n r a h2
      | abort a => rw [h2] at h; cases h
    · cases h
    · cases h

/-- The cost of `real_cfws` when there is no comment. -/
def NoCommentCost (c : Cfg) (i : Bytes) (k : Nat) : Prop :=
  Adv i (afterFws i) ∧ (∃ e, EmailParser.comment c.stack (afterFws i) = .err e) ∧
  (k + 2 * reach (afterFws i) ≤ 2 * reach i + 9 ∨
   (Starts isWsp i ∧ (∃ e, EmailParser.fws i = .err e) ∧ k ≤ reach i + 9) ∨
   (Starts isOpen (afterFws i) ∧ k + 2 * reach (afterFws i) ≤ 2 * reach i + 60 * reach (afterFws i) + 7))

theorem realCfws_within (i : Bytes) :
    Within (realCfws c i) 0 (fun a k => Adv i a.1 ∧ Adv (afterFws i) a.1 ∧ reach a.1 + 1 ≤ reach i ∧ CfwsCost c 17 i a.1 k)
      fun k => NoCommentCost c i k ∨ (Aborted (realCfws c i) ∧ k ≤ 60 * reach i + 17) := by
  have hab : ∀ k, k ≤ 60 * reach i + 17 → (∀ e, EmailParser.realCfws c i ≠ .err e) →
      (∀ a, EmailParser.realCfws c i ≠ .ok a) →
      NoCommentCost c i k ∨ (Aborted (realCfws c i) ∧ k ≤ 60 * reach i + 17) := by
    intro k hk h1 h2
    refine .inr ⟨?_, hk⟩
    unfold Aborted
    rw [realCfws_out]
    cases h : EmailParser.realCfws c i with
    | ok a => exact absurd h (h2 a)
    | err a => exact absurd h (h1 a)
    | abort a => exact ⟨a, rfl⟩
  have hout : ∀ j v, (optional i fws).out = .ok (j, v) → EmailParser.realCfws c i =
      match EmailParser.comment c.stack j with
      | .ok (input, _comment) => do
        let (input, output) ← EmailParser.realCfwsLoop c (input.length + 1) input
        let (input, last) ← EmailParser.optional input EmailParser.fws
        .ok (input, v.getD [] ++ output ++ last.getD [])
      | .err _ => .err (.unknown "Expected at least one comment")
      | .abort k => .abort k := by
    intro j v h
    rw [optional_of fws_out] at h
    unfold EmailParser.realCfws
    rw [h]
    rfl
  unfold realCfws
  refine Within.bind (optFws_within i) ?_ (fun _ _ h => h.elim)
  rintro ⟨j, v⟩ k ho ⟨e, ha, hk⟩
  have hout := hout j v ho
  dsimp only at *
  have hle := ha.le
  refine Within.on (comment_within c.stack j) ?_ ?_ ?_
  · rintro ⟨r, v'⟩ k' hco ⟨h1, h2, h3, h4⟩
    rw [comment_out] at hco
    rw [hco] at hout
    dsimp only at *
    have hk' : k + 2 * reach j ≤ 2 * reach i + 7 := by
      rcases hk with hk | ⟨rfl, h, _⟩
      · exact hk
      · exact absurd h (h2.not (by decide +kernel))
    refine Within.bind (realCfwsLoop_within _ r) ?_ ?_
    · rintro ⟨s, v⟩ m _ ⟨h5, h6, h7, h8⟩
      dsimp only at *
      have hle5 := h5.le
      have hle6 := h6.le
      refine Within.bind (optFws_within s) ?_ (fun _ _ h => h.elim)
      rintro ⟨t, v⟩ k₂ _ ⟨e₂, ha₂, hk₂⟩
      refine within_ok.mpr ?_
      dsimp only at *
      subst e₂
      refine ⟨((ha.trans h1).trans h5).trans ha₂, e ▸ ((h1.trans h5).trans ha₂), by omega, ?_⟩
      rcases hk₂ with hk₂ | ⟨he₂, hw₂, hf₂, hk₂⟩
      · rcases h8 with h8 | ⟨h8, h9, h10⟩ | ⟨h8, h9⟩
        · exact .inl (by omega)
        · obtain ⟨e, h9'⟩ := h9
          refine .inr ⟨?_, by omega⟩
          rw [afterFws_err h9']
          exact blocked_wsp h8 ⟨e, h9'⟩
        · exact .inr ⟨blocked_open h8 h7, by omega⟩
      · refine .inr ⟨by rw [he₂]; exact blocked_wsp hw₂ hf₂, ?_⟩
        rcases h8 with h8 | ⟨h8, h9, h10⟩ | ⟨h8, h9⟩
        · omega
        · omega
        · rw [he₂] at h8
          exact absurd h8 (hw₂.not (by decide +kernel))
    · intro m hn hm
      refine hab _ (by omega) ?_ ?_
      · intro e' h
        rw [hout] at h
        cases h6 : EmailParser.realCfwsLoop c (r.length + 1) r with
        | ok a => exact hn a (by rw [realCfwsLoop_out, h6])
        | err a => exact realCfwsLoop_ne_err _ _ _ h6
        | abort a => rw [h6] at h; cases h
      · intro a h
        rw [hout] at h
        cases h6 : EmailParser.realCfwsLoop c (r.length + 1) r with
        | ok a => exact hn a (by rw [realCfwsLoop_out, h6])
        | err a => exact realCfwsLoop_ne_err _ _ _ h6
        | abort a => rw [h6] at h; cases h
  · rintro er k' he h
    rw [comment_out] at he
    refine within_err.mpr (.inl ?_)
    subst e
    refine ⟨ha, ⟨_, he⟩, ?_⟩
    rcases hk with hk | ⟨he', hw, hf, hk⟩
    · rcases h with ⟨h, _⟩ | ⟨h, h'⟩
      · exact .inl (by omega)
      · exact .inr (.inr ⟨h, by omega⟩)
    · rcases h with ⟨h, _⟩ | ⟨h, h'⟩
      · exact .inr (.inl ⟨hw, hf, by omega⟩)
      · rw [he'] at h
        exact absurd h (hw.not (by decide +kernel))
  · rintro er k' he h
    rw [comment_out] at he
    rw [he] at hout
    refine within_abort.mpr (hab _ ?_ ?_ ?_)
    · rcases hk with hk | ⟨he', hw, _, hk⟩
      · rcases h with ⟨h, _⟩ | ⟨h, h'⟩ <;> omega
      · rcases h with ⟨h, _⟩ | ⟨h, h'⟩
        · omega
        · rw [he'] at h
          exact absurd h (hw.not (by decide +kernel))
    · intro e h; rw [hout] at h; cases h
    · intro e h; rw [hout] at h; cases h

theorem cfws_within (i : Bytes) :
    Within (cfws c i) 0 (fun a k => Adv i a.1 ∧ Adv (afterFws i) a.1 ∧ reach a.1 + 1 ≤ reach i ∧ CfwsCost c 30 i a.1 k)
      fun k => (k ≤ 30 ∨ (Blocked c i ∧ k ≤ 60 * reach i + 30)) ∨
        (Aborted (cfws c i) ∧ k ≤ 60 * reach i + 30) := by
  have hab : ∀ k, k ≤ 60 * reach i + 30 → Aborted (realCfws c i) →
      (Aborted (cfws c i) ∧ k ≤ 60 * reach i + 30) := by
    intro k hk h
    refine ⟨?_, hk⟩
    unfold Aborted at h ⊢
    obtain ⟨a, h⟩ := h
    refine ⟨a, ?_⟩
    unfold cfws matchParsers
    rw [on_out, h]
    rfl
  unfold cfws matchParsers
  refine Within.on (realCfws_within i) ?_ ?_ ?_
  · rintro ⟨r, v⟩ k _ ⟨h1, h1', h2, h3⟩
    refine within_ok.mpr ⟨h1, h1', h2, ?_⟩
    dsimp only at *
    rcases h3 with h3 | ⟨h3, h4⟩
    · exact .inl (by omega)
    · exact .inr ⟨h3, by omega⟩
  · rintro e k ho h
    rcases h with ⟨h1, h2, h3⟩ | ⟨⟨a, h⟩, _⟩
    · dsimp only
      unfold matchParsers
      have hle := h1.le
      refine Within.on (fws_within i) ?_ ?_ ?_
      · rintro ⟨r, v⟩ k' hf ⟨h4, h5, h6⟩
        refine within_ok.mpr ?_
        rw [fws_out] at hf
        have := afterFws_ok hf
        subst this
        dsimp only at *
        refine ⟨h4, .refl _, h5, ?_⟩
        rcases h3 with h3 | ⟨_, ⟨e, h3⟩, _⟩ | ⟨h3, h7⟩
        · exact .inl (by omega)
        · rw [h3] at hf; cases hf
        · exact .inr ⟨blocked_open h3 h2, by omega⟩
      · rintro e k' hf h
        rw [fws_out] at hf
        have hj := afterFws_err hf
        refine within_err.mpr (.inl ?_)
        rw [hj] at h1 h2 h3
        rcases h with h | ⟨h, h'⟩
        · rcases h3 with h3 | ⟨h3, h7, h8⟩ | ⟨h3, h7⟩
          · exact .inl (by omega)
          · exact .inr ⟨blocked_wsp h3 h7, by omega⟩
          · exact .inr ⟨blocked_open h3 h2, by omega⟩
        · refine .inr ⟨blocked_wsp h ⟨_, hf⟩, ?_⟩
          rcases h3 with h3 | ⟨h3, h7, h8⟩ | ⟨h3, h7⟩
          · omega
          · omega
          · exact absurd h3 (h.not (by decide +kernel))
      · rintro e k' hf _
        rw [fws_out] at hf
        exact absurd hf (fws_no_abort _ _)
    · rw [ho] at h; cases h
  · rintro e k ho h
    rcases h with ⟨h1, h2, _⟩ | ⟨h, h'⟩
    · obtain ⟨e', he'⟩ := realCfws_err_of rfl h2
      rw [realCfws_out, he'] at ho
      cases ho
    · exact within_abort.mpr (.inr (hab _ (by omega) h))

theorem skipCfws_within (i : Bytes) :
    Within (skipCfws c i) 0 (fun a k => Adv i a ∧ CfwsCost c 30 i a k) fun k => k ≤ 60 * reach i + 30 := by
  unfold skipCfws
  refine Within.on (cfws_within i) ?_ ?_ ?_
  · rintro ⟨r, v⟩ k _ ⟨h1, _, h2, h3⟩
    refine within_ok.mpr ⟨h1, ?_⟩
    rcases h3 with h3 | ⟨h3, h4⟩
    · exact .inl (by count)
    · exact .inr ⟨h3, by omega⟩
  · rintro e k ho h
    refine within_ok.mpr ⟨.refl _, ?_⟩
    rcases h with (h | ⟨h, h'⟩) | ⟨⟨a, h⟩, _⟩
    · exact .inl (by omega)
    · exact .inr ⟨h, by omega⟩
    · rw [ho] at h; cases h
  · rintro e k ho h
    refine within_abort.mpr ?_
    rcases h with (h | ⟨h, h'⟩) | ⟨⟨a, h⟩, _⟩ <;> omega

theorem skipCfws_blocked {i : Bytes} (h : Blocked c i) : EmailParser.skipCfws c i = .ok i := by
  obtain ⟨⟨e, h⟩, _⟩ := h
  unfold EmailParser.skipCfws
  rw [h]

theorem cfws_err_fws {i : Bytes} (h : ∃ e, EmailParser.cfws c i = .err e) :
    ∃ e, EmailParser.fws i = .err e := by
  obtain ⟨e, h⟩ := h
  unfold EmailParser.cfws EmailParser.matchParsers EmailParser.matchParsers at h
  cases hf : EmailParser.fws i with
  | ok a =>
    rw [hf] at h
    dsimp only at h
    split at h <;> cases h
  | err a => exact ⟨_, rfl⟩
  | abort a => exact absurd hf (fws_no_abort _ _)

/-- `[CFWS]` reads at least the white space at its head. -/
theorem skipCfws_after {i j : Bytes} (h : EmailParser.skipCfws c i = .ok j) : Adv (afterFws i) j := by
  unfold EmailParser.skipCfws at h
  cases hc : EmailParser.cfws c i with
  | ok a =>
    rw [hc] at h
    cases h
    have := cfws_within (c := c) i
    unfold Within at this
    rw [cfws_out, hc] at this
    exact this.2.1
  | err e =>
    rw [hc] at h
    cases h
    obtain ⟨e, he⟩ := cfws_err_fws ⟨e, hc⟩
    rw [afterFws_err he]
    exact .refl _
  | abort a => rw [hc] at h; cases h

end EmailParser.Timed
