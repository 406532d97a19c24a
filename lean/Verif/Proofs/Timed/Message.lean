import Verif.Proofs.Timed.Lines
/-
The cost of a whole e-mail.
-/
namespace EmailParser.Timed
open Spec (Folded)

variable {α β γ : Type} {c : Cfg} {i : Bytes} {g : Nat → Nat} [Growth g]

/-! ### Trace blocks -/

/-- The bind rule with the constants compared at once. -/
theorem Lines.bind' {A B C S T : Nat} {x : TRes α} {f : Bytes × α → TRes β} (h : Lines g A S i x)
    (hf : ∀ r v, x.out = .ok (r, v) → Lines g B S r (f (r, v))) (hA : A ≤ S) (hC : A + B ≤ C) (hT : T + A ≤ S) :
    Lines g C T i (x >>= f) :=
  (h.bind hf hA).mono hC (by omega)

theorem trace_lines (V : Values g c) : Lines g 11000 1700000 i (trace c i) := by
  unfold trace
  refine Lines.bind' (Line.returnPath.optional (S := 1750000) (by decide)) (B := 10000)
    (fun r v _ => ?_) (by decide) (by decide) (by decide)
  refine Lines.bind' (A := 10000) (B := 0) (S := 1760000) ?_ (fun _ _ _ => .okay) (by decide) (by decide) (by decide)
  unfold many1
  refine Lines.bind' ((Line.received V (i := r)).lines (S := 1770000) (by decide)) (B := 4928)
    (fun r v _ => ?_) (by decide) (by decide) (by decide)
  exact Lines.bind' (Line.many (S := 1780000) (fun _ => Line.received V) (by decide) _ _) (B := 0)
    (fun r v _ => .okay) (by decide) (by decide) (by decide)

theorem traceBlock_lines' (V : Values g c) : Lines g 200000 1500000 i (traceBlock c i) := by
  unfold traceBlock
  refine Lines.bind' ((trace_lines V).mono (T := 1650000) (Nat.le_refl _) (by decide)) (B := 160001)
    (fun r v _ => ?_) (by decide) (by decide) (by decide)
  exact Lines.bind' (Line.many (S := 1839999) (fun _ => Line.traceField V) (by decide) _ _) (B := 0)
    (fun r v _ => .okay) (by decide) (by decide) (by decide)

theorem traceBlock_shrinks : Shrinks (EmailParser.traceBlock c) := shrinks_of traceBlock_progress traceBlock_parses

/-- Several trace blocks; a block that fails has cost what it has read. -/
theorem tracesLoop_within (V : Values g c) : ∀ n i, Within (manyLoop (traceBlock c) n i) 0
    (fun a k => a.1.length ≤ i.length ∧
      ((Starts isWsp a.1 ∧ k + 200000 * g (reach i) ≤ 5000000 * g i.length) ∨
        k + 200000 * g (reach i) + 2000000 * g a.1.length ≤ 2000000 * g i.length + 3000000 * g a.1.length))
    fun k => k + 200000 * g (reach i) ≤ 5000000 * g i.length
  | 0, i => within_abort.mpr (by
    have := Growth.mono (g := g) (reach_le i)
    omega)
  | n + 1, i => by
    have hi : g (reach i) ≤ g i.length := Growth.mono (g := g) (reach_le i)
    have hp := Growth.pos (g := g) (reach i)
    have hb := traceBlock_lines' V (i := i)
    unfold manyLoop
    refine within_tick.mpr (Within.on (hb.1.and .self) ?_ ?_ ?_)
    · rintro ⟨r, v⟩ k ho ⟨hk, _⟩
      have hs : r.length < i.length := traceBlock_shrinks i r v (by rw [← traceBlock_of, ho])
      have hr := Growth.mono (g := g) (Nat.le_of_lt hs)
      have hr' := Growth.mono (g := g) (reach_le r)
      simp only [budget] at hk
      rcases hk with ⟨rfl, hk⟩ | ⟨hl, hw, hk⟩ | ⟨hl, hk⟩
      · exact absurd hs (Nat.lt_irrefl _)
      · -- the next block starts with white space
        dsimp only at *
        refine Within.bind (S := fun a k => a.1 = r ∧ k ≤ 200001) (F := fun k => k ≤ 200001) ?_ ?_ ?_
        · cases n with
          | zero => exact within_abort.mpr (Nat.zero_le _)
          | succ n =>
            unfold manyLoop
            refine within_tick.mpr (Within.on ((traceBlock_lines' V).2 hw) ?_ ?_ ?_)
            · rintro ⟨s, w⟩ m hm ⟨h1, _⟩
              have : s.length < r.length := traceBlock_shrinks r s w (by rw [← traceBlock_of, hm])
              dsimp only at h1
              subst h1
              exact absurd this (Nat.lt_irrefl _)
            · rintro e m _ hm
              exact within_ok.mpr ⟨rfl, by omega⟩
            · rintro e m _ hm
              exact within_abort.mpr (by omega)
        · rintro ⟨s, w⟩ m _ ⟨h1, hm⟩
          dsimp only at *
          subst h1
          exact within_ok.mpr ⟨by dsimp only; omega, .inl ⟨hw, by omega⟩⟩
        · rintro m _ hm
          omega
      · dsimp only at *
        refine Within.bind (tracesLoop_within V n r) ?_ ?_
        · rintro ⟨s, w⟩ m _ ⟨h1, hm⟩
          dsimp only at *
          refine within_ok.mpr ⟨by dsimp only; omega, ?_⟩
          rcases hm with ⟨hw, hm⟩ | hm
          · exact .inl ⟨hw, by omega⟩
          · exact .inr (by dsimp only; omega)
        · rintro m _ hm
          omega
    · rintro e k _ ⟨hk, _⟩
      simp only [budget] at hk
      exact within_ok.mpr ⟨Nat.le_refl _, .inr (by dsimp only; omega)⟩
    · rintro e k _ ⟨hk, _⟩
      simp only [budget] at hk
      exact within_abort.mpr (by omega)

theorem traces_within (V : Values g c) (i : Bytes) : Within (traces c i) 0
    (fun a k => a.1.length ≤ i.length ∧ ((Starts isWsp a.1 ∧ k ≤ 5000000 * g i.length) ∨
        k + 2000000 * g a.1.length ≤ 2000000 * g i.length + 3000000 * g a.1.length))
    fun k => k ≤ 5000000 * g i.length := by
  unfold traces
  split
  · refine (tracesLoop_within V _ i).mono ?_ ?_
    · rintro ⟨r, v⟩ k ⟨h, hk⟩
      refine ⟨h, ?_⟩
      dsimp only at *
      rcases hk with ⟨hw, hk⟩ | hk
      · exact .inl ⟨hw, by omega⟩
      · exact .inr (by omega)
    · intro k hk
      omega
  · exact within_ok.mpr ⟨Nat.le_refl _, .inr (by dsimp only; omega)⟩

/-! ### Fields -/

theorem fieldLoop_within (V : Values g c) (n : Nat) (i : Bytes) : Within (manyLoop (field c) n i) 0
    (fun a k => a.1.length ≤ i.length ∧ k ≤ 2200000 * g i.length ∧ (Starts isWsp i → k ≤ 170001))
    fun k => k ≤ 2200000 * g i.length ∧ (Starts isWsp i → k ≤ 170001) := by
  have hi : g (reach i) ≤ g i.length := Growth.mono (g := g) (reach_le i)
  have h := Line.many (S := 0) (fun j => Line.field V (i := j)) (by decide) n i
  have hw : Starts isWsp i → (manyLoop (field c) n i).cost ≤ 170001 := fun hw => by
    have := (h.2 hw).cost (fun _ _ h => h.2)
    exact this
  refine (h.1.and .self).mono ?_ ?_
  · rintro ⟨r, v⟩ k ⟨hk, rfl⟩
    simp only [budget] at hk
    dsimp only
    rcases hk with ⟨rfl, hk⟩ | ⟨hl, _, hk⟩ | ⟨hl, hk⟩
    · exact ⟨Nat.le_refl _, by omega, hw⟩
    · exact ⟨hl, by omega, hw⟩
    · have : g (reach r) ≤ g i.length := Growth.mono (g := g) (Nat.le_trans (reach_le r) hl)
      exact ⟨hl, by omega, hw⟩
  · rintro k ⟨hk, rfl⟩
    simp only [budget] at hk
    exact ⟨by omega, hw⟩

theorem manyLoop_length {p : Bytes → TRes α} : ∀ n i,
    Within (manyLoop p n i) 0 (fun a k => a.2.length ≤ k) fun _ => True
  | 0, i => within_abort.mpr trivial
  | n + 1, i => by
    unfold manyLoop
    refine within_tick.mpr (Within.on .self ?_ ?_ ?_)
    · rintro ⟨r, v⟩ k _ _
      refine Within.bind (manyLoop_length n r) ?_ (fun _ _ _ => trivial)
      rintro ⟨s, w⟩ m _ hm
      refine within_ok.mpr ?_
      simp only [List.length_cons] at *
      omega
    · rintro e k _ _
      exact within_ok.mpr (Nat.zero_le _)
    · rintro e k _ _
      exact within_abort.mpr trivial

theorem fields_within (V : Values g c) (i : Bytes) : Within (fields c i) 0
    (fun a k => a.1.length ≤ i.length ∧ a.2.length ≤ k ∧ k ≤ 5200000 * g i.length)
    fun k => k ≤ 5200000 * g i.length := by
  have hp := Growth.pos (g := g) i.length
  have ht : Within (traces c i) 0 (fun a k => a.2.length ≤ k) fun _ => True := by
    unfold traces
    split
    · exact manyLoop_length _ i
    · exact within_ok.mpr (Nat.le_refl _)
  unfold fields
  refine Within.bind ((traces_within V i).and ht) ?_ ?_
  · rintro ⟨r, v⟩ k _ ⟨⟨hl, hk⟩, hv⟩
    dsimp only at *
    have hr := Growth.mono (g := g) hl
    refine Within.bind ((fieldLoop_within V _ r).and (manyLoop_length _ r)) ?_ ?_
    · rintro ⟨s, w⟩ m _ ⟨⟨hl', hm, hw⟩, hvw⟩
      dsimp only at *
      refine within_ok.mpr ⟨by dsimp only; omega, by simp only [List.length_append]; omega, ?_⟩
      rcases hk with ⟨hs, hk⟩ | hk
      · have := hw hs
        omega
      · omega
    · rintro m _ ⟨⟨hm, hw⟩, _⟩
      rcases hk with ⟨hs, hk⟩ | hk
      · have := hw hs
        omega
      · omega
  · rintro k _ ⟨hk, _⟩
    omega

/-! ### The body -/

theorem examined_le (p : UInt8 → Bool) : ∀ i : Bytes, examined p i ≤ i.length
  | [] => Nat.le_refl _
  | b :: t => by
    have := examined_le p t
    unfold examined
    split
    · simp only [List.length_cons]; omega
    · simp

theorem examined_le_takeWhile (p : UInt8 → Bool) (i : Bytes) : examined p i ≤ (i.takeWhile p).length + 1 := by
  induction i with
  | nil => exact Nat.zero_le _
  | cons b t ih =>
    unfold examined
    rw [List.takeWhile_cons]
    split
    · simp only [List.length_cons]; omega
    · simp

theorem checkLine_within (i : Bytes) : Within (checkLine i) 0
    (fun a k => a.1.length + k ≤ i.length + 2 ∧ a.1.length ≤ i.length) fun _ => False := by
  have hc : (checkLine i).cost = examined isText (i.take (min i.length 998)) + 1 := by
    unfold checkLine
    rw [tick_cost]
    split
    · rw [bind_cost_zero, lift_cost]; intro a; rfl
    · rw [bind_cost_zero, lift_cost]; intro a; rfl
  refine within_of_out (by rw [checkLine_out, checkLine_eq]) ?_
  have h1 := examined_le_takeWhile isText (i.take (min i.length 998))
  rw [take_min] at h1 hc
  have h2 : (lineOf i).length = ((i.take 998).takeWhile isText).length := by rw [isText_eq]; rfl
  have h3 : (lineOf i).length ≤ i.length := by
    have := congrArg List.length (lineOf_append i)
    rw [List.length_append] at this
    omega
  rw [hc]
  simp only [List.length_drop]
  omega

theorem bodyLoop_within : ∀ n i, Within (bodyLoop n i) 0 (fun _ k => k ≤ 4 * (i.length + 2))
    fun k => k ≤ 4 * (i.length + 2)
  | 0, i => within_abort.mpr (Nat.zero_le _)
  | n + 1, i => by
    unfold bodyLoop
    refine within_tick.mpr (Within.bind (checkLine_within i) ?_ (fun _ _ h => h.elim))
    rintro ⟨r, u⟩ k _ ⟨hk, hl⟩
    dsimp only at *
    have hc := tag_cost r (b! "\r\n") "TAG ERROR: In a body, a line must end with a CRLF sequence."
    have hc : (tag r (b! "\r\n") "TAG ERROR: In a body, a line must end with a CRLF sequence.").cost = 3 := hc
    refine Within.on .self ?_ ?_ ?_
    · rintro ⟨s, u⟩ m ho rfl
      rw [tag_out] at ho
      rcases tag_cases r (b! "\r\n") "TAG ERROR: In a body, a line must end with a CRLF sequence." with
        ⟨s', rfl, ht⟩ | ⟨hn, ht⟩
      · rw [ht] at ho
        cases ho
        simp at hl hk
        refine (bodyLoop_within n s).use ?_ ?_
        · rintro _ m _ hm
          omega
        · rintro m _ hm
          omega
      · rw [ht] at ho
        cases ho
    · rintro e m _ rfl
      dsimp only
      split
      · exact within_ok.mpr (by omega)
      · exact within_err.mpr (by omega)
    · rintro e m _ rfl
      exact within_abort.mpr (by omega)

theorem body_within (i : Bytes) : Within (body i) 0 (fun _ k => k ≤ 4 * (i.length + 3)) fun k => k ≤ 4 * (i.length + 3) := by
  unfold body
  split
  · exact within_ok.mpr (Nat.zero_le _)
  · have hc : (tag i (b! "\r\n") "TAG ERROR: Headers must be followed by a CRLF sequence.").cost = 3 := tag_cost ..
    refine Within.bind .self ?_ ?_
    · rintro ⟨r, u⟩ k ho rfl
      have hl : r.length ≤ i.length := by
        rw [tag_out] at ho
        rcases tag_cases i (b! "\r\n") "TAG ERROR: Headers must be followed by a CRLF sequence." with
          ⟨s', rfl, ht⟩ | ⟨hn, ht⟩
        · rw [ht] at ho
          cases ho
          simp
          omega
        · rw [ht] at ho
          cases ho
      refine Within.bind (bodyLoop_within _ r) ?_ ?_
      · rintro _ m _ hm
        refine within_bind.mpr (within_lift ?_ (by omega))
        rintro a _
        exact within_ok.mpr (by omega)
      · rintro m _ hm
        omega
    · rintro k _ rfl
      omega

/-- Parsing a whole e-mail. -/
theorem parse_within (V : Values g c) (i : Bytes) :
    (parse c i).cost ≤ 11000000 * g i.length := by
  have hp : i.length + 1 ≤ g i.length := Growth.lin _
  have hm : Within (parseMessage c i) 0 (fun a k => a.1.length ≤ 5200000 * g i.length ∧ k ≤ 5300000 * g i.length)
      fun k => k ≤ 5300000 * g i.length := by
    unfold parseMessage
    refine Within.bind (fields_within V i) ?_ ?_
    · rintro ⟨r, fs⟩ k _ ⟨hl, hf, hk⟩
      dsimp only at *
      split
      · split
        · exact within_ok.mpr ⟨by dsimp only; omega, by omega⟩
        · have hc : (tag r (b! "\r\n") "TAG ERROR: Headers must be followed by a CRLF sequence.").cost = 3 :=
            tag_cost ..
          refine Within.bind .self ?_ ?_
          · rintro _ _ _ rfl
            exact within_ok.mpr ⟨by dsimp only; omega, by omega⟩
          · rintro _ _ rfl
            omega
      · refine Within.bind (body_within r) ?_ ?_
        · rintro _ m _ hm
          exact within_ok.mpr ⟨by dsimp only; omega, by omega⟩
        · rintro m _ hm
          omega
    · rintro k _ hk
      omega
  have : Within (parse c i) 0 (fun _ k => k ≤ 11000000 * g i.length) fun k => k ≤ 11000000 * g i.length := by
    unfold parse
    refine Within.bind hm ?_ ?_
    · rintro ⟨fs, b⟩ k _ ⟨h1, h2⟩
      dsimp only at *
      refine within_tick.mpr (within_bind.mpr (within_lift ?_ (by omega)))
      rintro a _
      exact within_lift (fun _ _ => by omega) (by omega)
    · rintro k _ hk
      omega
  exact this.cost fun _ _ h => h

end EmailParser.Timed
