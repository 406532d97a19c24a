import Verif.Proofs.Timed.Repaid
/-
Parsers tried one after the other at the same place: words, local parts of addresses and domains.
What a failed attempt has read is then read again, so that its cost is repaid as well.
-/
namespace EmailParser.Timed
open Spec (Folded)

variable {α β γ : Type} {c : Cfg} {i : Bytes}

/-! ### Words -/

theorem skip_stays {p : UInt8 → Bool} (hp : ∀ x, p x = true → isGap x = false ∧ x ≠ 13) {r : Bytes} (h : Starts p r) :
    EmailParser.skipCfws c r = .ok r := by
  obtain ⟨b, t, rfl, hb⟩ := h
  have h1 := hp b hb
  have h2 := (by decide +kernel : ∀ x, isGap x = false → Spec.wsp x = false ∧ (x == 40) = false) b h1.1
  exact skipCfws_none (noFws_cons h2.1 h1.2) (stops_cons.mpr h2.2)

/-- The output of the loop shows whether something has been read. -/
theorem dotAtomTextLoop_nil {n : Nat} {s t : Bytes} (h : EmailParser.dotAtomTextLoop c n s = .ok (t, [])) : t = s := by
  cases n with
  | zero => simp [EmailParser.dotAtomTextLoop] at h
  | succ n =>
    unfold EmailParser.dotAtomTextLoop at h
    split at h
    · rename_i hs
      obtain ⟨u, rfl⟩ := startsWith_single hs
      have e1 : sliceFrom (46 :: u) 1 = .ok u := by simp [sliceFrom]
      have e2 : sliceTo (46 :: u) 1 = .ok [46] := by simp [sliceTo]
      simp only [e1, ok_bind, e2] at h
      split at h
      · rename_i r v _
        cases h6 : EmailParser.dotAtomTextLoop c n r with
        | ok a => rw [h6] at h; simp at h
        | err a => rw [h6] at h; cases h
        | abort a => rw [h6] at h; cases h
      · cases h; rfl
      · cases h
    · cases h; rfl

/-- How an atom and a dotted atom at the same place are related. -/
inductive AtomDot (c : Cfg) (i : Bytes) : Prop
  | fail (j : Bytes) (hj : EmailParser.skipCfws c i = .ok j) (hs : Stops isAtext j)
      (h : ∃ e, EmailParser.atom c i = .err e) (h' : ∃ e, EmailParser.dotAtom c i = .err e)
  | same (h : EmailParser.atom c i = EmailParser.dotAtom c i) (h' : ∀ e, EmailParser.atom c i ≠ .err e)
  | dot (v s : Bytes) (hs : Starts (· == 46) s) (h : EmailParser.atom c i = .ok (s, v))
      (h' : ∀ e, EmailParser.dotAtom c i ≠ .err e)
      (hd : ∀ r w, EmailParser.dotAtom c i = .ok (r, w) → Adv s r ∧ (w.length ≤ v.length → r = s))

theorem atomDot (c : Cfg) (i : Bytes) : AtomDot c i := by
  rcases dotAtom_cases c i with ⟨a, ha⟩ | ⟨j, hj, hs⟩ | ⟨v, s, h1, h2, h3, h4, h5, h6⟩
  · have e1 : EmailParser.atom c i = .abort a := by unfold EmailParser.atom; rw [ha]; rfl
    have e2 : EmailParser.dotAtom c i = .abort a := by unfold EmailParser.dotAtom; rw [ha]; rfl
    exact .same (by rw [e1, e2]) (by rw [e1]; intro e h; cases h)
  · refine .fail j hj hs ?_ ?_
    · rw [← atom_out]; exact (atom_err hj hs).1
    · rw [← dotAtom_out]; exact (dotAtom_err hj hs).1
  · have hne : ∀ e, EmailParser.dotAtom c i ≠ .err e := by
      intro e he
      rw [← dotAtom_out] at he
      obtain ⟨j, hj, hs⟩ := dotAtom_err_inv he
      rw [h1] at hj
      cases hj
      cases v with
      | nil => exact h2 rfl
      | cons b v =>
        have := stops_cons.mp hs
        rw [h3 b (by simp)] at this
        cases this
    rcases starts_or_stops (· == 46) s with hd | hd
    · have hss : EmailParser.skipCfws c s = .ok s := skip_stays (by decide +kernel) hd
      refine .dot v s hd (by rw [h5, hss]; rfl) hne ?_
      intro r w hr
      rw [h6] at hr
      cases h7 : EmailParser.dotAtomTextLoop c (s.length + 1) s with
      | ok a =>
        obtain ⟨t, o⟩ := a
        rw [h7, ok_bind] at hr
        dsimp only at hr
        have ha : Adv s t := (dotAtomTextLoop_repaid (c := c) (s.length + 1) s).adv (v := o) (by rw [dotAtomTextLoop_out, h7])
        cases h8 : EmailParser.skipCfws c t with
        | ok b =>
          rw [h8] at hr
          cases hr
          have hb := skipCfws_within (c := c) t
          unfold Within at hb
          rw [skipCfws_out, h8] at hb
          refine ⟨ha.trans hb.1, ?_⟩
          intro hl
          have : o = [] := by
            rw [List.length_append] at hl
            exact List.eq_nil_of_length_eq_zero (by omega)
          subst this
          have := dotAtomTextLoop_nil h7
          subst this
          rw [hss] at h8
          cases h8
          rfl
        | err e => exact absurd h8 (skipCfws_ne_err _ _)
        | abort b => rw [h8] at hr; cases hr
      | err e => rw [h7] at hr; cases hr
      | abort a => rw [h7] at hr; cases hr
    · have h7 : EmailParser.dotAtomTextLoop c (s.length + 1) s = .ok (s, []) := by
        unfold EmailParser.dotAtomTextLoop
        rw [if_neg]
        intro hs
        obtain ⟨u, rfl⟩ := startsWith_single hs
        have := stops_cons.mp hd
        simp at this
      have e : EmailParser.atom c i = EmailParser.dotAtom c i := by
        rw [h5, h6, h7, ok_bind, List.append_nil]
      exact .same e (by rw [e]; exact hne)

/-- How a word and the local part of an address at the same place are related. -/
theorem word_local (c : Cfg) (i : Bytes) : EmailParser.word c i = EmailParser.localPart c i ∨
    ∃ v s, Starts (· == 46) s ∧ EmailParser.word c i = .ok (s, v) ∧
      ∀ r w, EmailParser.localPart c i = .ok (r, w) → Adv s r := by
  unfold EmailParser.word EmailParser.localPart
  cases atomDot c i with
  | fail j hj hs h h' =>
    obtain ⟨e, h⟩ := h
    obtain ⟨e', h'⟩ := h'
    left
    simp only [EmailParser.matchParsers, h, h']
  | same h h' =>
    left
    simp only [EmailParser.matchParsers, ← h]
  | dot v s hs h h' hd =>
    right
    refine ⟨v, s, hs, by simp only [EmailParser.matchParsers, h], ?_⟩
    intro r w hw
    cases h1 : EmailParser.dotAtom c i with
    | ok a =>
      simp only [EmailParser.matchParsers, h1] at hw
      cases hw
      exact (hd _ _ h1).1
    | err e => exact absurd h1 (h' e)
    | abort e => simp only [EmailParser.matchParsers, h1] at hw; cases hw

/-- Characters with which neither a word nor a gap starts. -/
def isOther (b : UInt8) : Bool := !isAtext b && !isDquote b && !isGap b && b != 13

theorem word_err {j : Bytes} (hj : EmailParser.skipCfws c i = .ok j) (h1 : Stops isAtext j) (h2 : Stops isDquote j) :
    (∃ e, (word c i).out = .err e) ∧ ((word c i).cost + 120 * reach j ≤ 120 * reach i + 64 ∨ Blocked c j) := by
  obtain ⟨⟨e, he⟩, hk⟩ := atom_err hj h1
  obtain ⟨⟨e', he'⟩, hk'⟩ := quotedString_err hj h2
  have ho : (∃ e, (word c i).out = .err e) ∧ (word c i).cost = (atom c i).cost + ((quotedString c i).cost + 0) := by
    unfold word matchParsers matchParsers
    generalize atom c i = x at *
    generalize quotedString c i = y at *
    obtain ⟨o, k⟩ := x
    obtain ⟨o', k'⟩ := y
    dsimp only at he he'
    subst he he'
    exact ⟨⟨_, rfl⟩, rfl⟩
  refine ⟨ho.1, ?_⟩
  rw [ho.2]
  rcases hk with hk | hk
  · rcases hk' with hk' | hk'
    · exact .inl (by omega)
    · exact .inr hk'
  · exact .inr hk

theorem word_cheap (h : Starts isOther i) : (∃ e, (word c i).out = .err e) ∧ (word c i).cost ≤ 64 := by
  have hj : EmailParser.skipCfws c i = .ok i := skip_stays (by decide +kernel) h
  have hst : ∀ p : UInt8 → Bool, (∀ x, isOther x = true → p x = false) → Stops p i := by
    obtain ⟨b, t, rfl, hb⟩ := h
    exact fun p hp => stops_cons.mpr (hp b hb)
  obtain ⟨h1, h2⟩ := word_err hj (hst _ (by decide +kernel)) (hst _ (by decide +kernel))
  refine ⟨h1, ?_⟩
  rcases h2 with h2 | h2
  · omega
  · exact absurd h2 (not_blocked_of (by decide +kernel) h)

/-! ### Loops -/

/-- What is known about a computation. -/
theorem within_self {x : Timed α} : Within x 0 (fun a k => x.out = .ok a ∧ k = x.cost) fun k => k = x.cost := by
  unfold Within
  split
  · rename_i a e; exact ⟨e, by omega⟩
  · omega
  · omega

theorem manyLoop_stuck {p : Bytes → TRes α} (h : ∀ a, (p i).out ≠ .ok a) :
    ∀ n, Leaves (fun r => r = i) (manyLoop p n i)
  | 0 => within_abort.mpr trivial
  | n + 1 => by
    unfold manyLoop
    refine within_tick.mpr (Within.on within_self ?_ ?_ ?_)
    · rintro a k ho _
      exact absurd ho (h a)
    · rintro _ _ _ _
      exact within_ok.mpr rfl
    · rintro _ _ _ _
      exact within_abort.mpr trivial

/-- A loop of parsers whose cost is repaid: the last attempt is what remains to be paid. -/
theorem manyLoop_repaid {Q : Bytes → Prop} {A C : Nat} {p : Bytes → TRes α} (hp : ∀ j, Repaid Q A C j (p j))
    (hs : ∀ j r v, (p j).out = .ok (r, v) → reach r + 1 ≤ reach j)
    (hQ : ∀ j, Q j → ∀ a, (p j).out ≠ .ok a) : ∀ n i,
    Within (manyLoop p n i) 0 (fun a k => Adv i a.1 ∧ (∃ e, (p a.1).out = .err e) ∧
      (k + (A + C + 1) * reach a.1 ≤ (A + C + 1) * reach i + (p a.1).cost + 1 ∨ Q a.1)) fun _ => True
  | 0, i => within_abort.mpr trivial
  | n + 1, i => by
    unfold manyLoop
    refine within_tick.mpr (Within.on within_self ?_ ?_ ?_)
    · rintro ⟨r, v⟩ k ho ⟨_, rfl⟩
      have ha := (hp i).adv ho
      have hr := hs _ _ _ ho
      have h1 : (C + 1) * (reach r + 1) ≤ (C + 1) * reach i := Nat.mul_le_mul_left _ hr
      dsimp only
      rcases (hp i).paid ho with hk | hk
      · refine Within.bind (manyLoop_repaid hp hs hQ n r) ?_ (fun _ _ _ => trivial)
        rintro ⟨s, w⟩ m _ ⟨h2, h3, h4⟩
        refine within_ok.mpr ⟨ha.trans h2, h3, h4.imp (fun h4 => ?_) id⟩
        dsimp only at *
        rw [Nat.add_assoc A C 1] at *
        simp only [Nat.add_mul A, Nat.mul_add, Nat.mul_one] at *
        omega
      · refine Within.bind ((manyLoop_repaid hp hs hQ n r).and (manyLoop_stuck (hQ r hk) n)) ?_ (fun _ _ _ => trivial)
        rintro ⟨s, w⟩ m _ ⟨⟨h2, h3, h4⟩, h5⟩
        dsimp only at h5
        subst h5
        exact within_ok.mpr ⟨ha.trans h2, h3, .inr hk⟩
    · rintro e k ho rfl
      refine within_ok.mpr ⟨.refl _, ⟨e, ho⟩, .inl ?_⟩
      dsimp only
      omega
    · rintro _ _ _ _
      exact within_abort.mpr trivial

/-- A loop of parsers whose cost is repaid looks at most a few times at the line. -/
theorem Flat.manyRepaid {Q : Bytes → Prop} {A C F : Nat} {p : Bytes → TRes α} (hF : ∀ j, Flat F j (p j))
    (hp : ∀ j, Repaid Q A C j (p j)) (hs : ∀ j r v, (p j).out = .ok (r, v) → reach r + 1 ≤ reach j)
    (hQ : ∀ j, Q j → ∀ a, (p j).out ≠ .ok a) {n : Nat} : Flat (2 * F + A + C + 3) i (manyLoop p n i) := by
  have stuck : ∀ n i, (∀ a, (p i).out ≠ .ok a) → (manyLoop p n i).cost ≤ F * (reach i + 1) + 1 := by
    intro n i h
    cases n with
    | zero => exact Nat.zero_le _
    | succ n =>
      refine Within.cost (S := fun _ k => k ≤ F * (reach i + 1) + 1) (F := fun k => k ≤ F * (reach i + 1) + 1) ?_ fun _ _ h => h
      unfold manyLoop
      refine within_tick.mpr (Within.on (hF i) ?_ ?_ ?_)
      · rintro a k ho _
        exact absurd ho (h a)
      · rintro _ _ _ hk
        exact within_ok.mpr (by omega)
      · rintro _ _ _ hk
        exact within_abort.mpr (by omega)
  have main : ∀ n i, Within (manyLoop p n i) 0
      (fun a k => Adv i a.1 ∧ k ≤ (A + C + 1) * reach i + 2 * (F * (reach i + 1)) + 2)
      fun k => k ≤ (A + C + 1) * reach i + 2 * (F * (reach i + 1)) + 2 := by
    intro n
    induction n with
    | zero => exact fun i => within_abort.mpr (Nat.zero_le _)
    | succ n ih =>
      intro i
      unfold manyLoop
      refine within_tick.mpr (Within.on ((hF i).and within_self) ?_ ?_ ?_)
      · rintro ⟨r, v⟩ k ho ⟨⟨ha, hk⟩, _, rfl⟩
        have hr := hs _ _ _ ho
        have h1 : (C + 1) * (reach r + 1) ≤ (C + 1) * reach i := Nat.mul_le_mul_left _ hr
        have h2 : F * (reach r + 1) ≤ F * (reach i + 1) := Nat.mul_le_mul_left _ (by omega)
        dsimp only at *
        rcases (hp i).paid ho with hk' | hk'
        · have key : 0 + 1 + (p i).cost + ((A + C + 1) * reach r + 2 * (F * (reach r + 1)) + 2) ≤
              (A + C + 1) * reach i + 2 * (F * (reach i + 1)) + 2 := by
            rw [Nat.add_assoc A C 1]
            simp only [Nat.add_mul A, Nat.mul_add (C + 1), Nat.mul_one] at *
            omega
          refine Within.bind (ih r) ?_ ?_
          · rintro ⟨s, w⟩ m _ ⟨h3, h4⟩
            exact within_ok.mpr ⟨ha.trans h3, by omega⟩
          · rintro m _ hm
            omega
        · have h5 := stuck n r (hQ r hk')
          refine Within.bind ((ih r).and within_self) ?_ ?_
          · rintro ⟨s, w⟩ m _ ⟨⟨h3, _⟩, _, rfl⟩
            exact within_ok.mpr ⟨ha.trans h3, by omega⟩
          · rintro m _ ⟨_, rfl⟩
            omega
      · rintro _ _ _ ⟨hk, _⟩
        exact within_ok.mpr ⟨.refl _, by omega⟩
      · rintro _ _ _ ⟨hk, _⟩
        exact within_abort.mpr (by omega)
  have e : (A + C + 1) * reach i + 2 * (F * (reach i + 1)) + 2 ≤ (2 * F + A + C + 3) * (reach i + 1) := by
    rw [show 2 * F + A + C + 3 = 2 * F + ((A + C + 1) + 2) by omega, Nat.add_mul (2 * F), Nat.add_mul (A + C + 1),
      Nat.mul_add (A + C + 1), Nat.mul_assoc 2 F]
    omega
  exact (main n i).mono (fun _ _ h => ⟨h.1, by omega⟩) fun _ h => by omega

end EmailParser.Timed
