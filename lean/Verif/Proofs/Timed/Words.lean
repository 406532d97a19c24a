import Verif.Proofs.Timed.Cfws
/-
The cost of words: quoted strings, atoms, encoded words, phrases.
-/
namespace EmailParser.Timed
open Spec (Folded)

variable {α β γ : Type} {c : Cfg}

/-! ### Quoted strings -/

theorem quotedStringLoop_within : ∀ n i,
    Within (quotedStringLoop n i) 0 (fun a k => Adv i a.1 ∧ Adv a.1 (afterFws a.1) ∧
        (k + 60 * reach a.1 + 2 * reach (afterFws a.1) ≤ 60 * reach i + 2 * reach a.1 + 13 ∨
         (Starts isWsp a.1 ∧ afterFws a.1 = a.1 ∧ k + 60 * reach a.1 ≤ 60 * reach i + reach a.1 + 13)))
      fun k => k ≤ 60 * reach i + 20
  | 0, i => within_abort.mpr (by omega)
  | n + 1, i => by
    unfold quotedStringLoop
    refine within_tick.mpr ?_
    refine Within.bind (fwsOrEmpty_within i) ?_ (fun _ _ h => h.elim)
    rintro ⟨j, v⟩ k _ ⟨e, ha, hk⟩
    dsimp only at *
    have hle := ha.le
    refine Within.on (takeWhile1_within qtext_line j) ?_ ?_ ?_
    · rintro ⟨r, v⟩ k' _ ⟨h1, hs, e', hv, h2, h3, h4⟩
      dsimp only at *
      have hst := starts_run (r := r) h2 hv
      rw [← e'] at hst
      have hk' : k + 2 * reach j ≤ 2 * reach i + 7 := by
        rcases hk with hk | ⟨rfl, h, _⟩
        · exact hk
        · exact absurd h (hst.not (by decide +kernel))
      refine Within.bind (quotedStringLoop_within n r) ?_ ?_
      · rintro ⟨s, v⟩ m _ ⟨h5, h6, h7⟩
        dsimp only at *
        refine within_ok.mpr ⟨(ha.trans h1).trans h5, h6, ?_⟩
        dsimp only
        rcases h7 with h7 | ⟨h7, h7', h8⟩
        · exact .inl (by omega)
        · exact .inr ⟨h7, h7', by omega⟩
      · intro m _ h
        omega
    · rintro er k' _ ⟨hs, hk'⟩
      dsimp only
      refine Within.on (quotedPair_within j) ?_ ?_ ?_
      · rintro ⟨r, v⟩ k₂ _ ⟨h1, hst, h2, h3⟩
        dsimp only at *
        have hk' : k + 2 * reach j ≤ 2 * reach i + 7 := by
          rcases hk with hk | ⟨rfl, h, _⟩
          · exact hk
          · exact absurd h (hst.not (by decide +kernel))
        refine Within.bind (quotedStringLoop_within n r) ?_ ?_
        · rintro ⟨s, v⟩ m _ ⟨h5, h6, h7⟩
          dsimp only at *
          refine within_ok.mpr ⟨(ha.trans h1).trans h5, h6, ?_⟩
          dsimp only
          rcases h7 with h7 | ⟨h7, h7', h8⟩
          · exact .inl (by omega)
          · exact .inr ⟨h7, h7', by omega⟩
        · intro m _ h
          omega
      · rintro er k₂ _ h
        subst e
        refine within_ok.mpr ⟨.refl _, ha, ?_⟩
        dsimp only
        rcases hk with hk | ⟨he, hw, _, hk⟩
        · exact .inl (by omega)
        · exact .inr ⟨hw, he, by omega⟩
      · rintro er k₂ _ h
        refine within_abort.mpr ?_
        rcases hk with hk | ⟨_, hw, _, hk⟩ <;> omega
    · rintro er k' _ ⟨hs, hk'⟩
      refine within_abort.mpr ?_
      rcases hk with hk | ⟨_, hw, _, hk⟩ <;> omega

def isDquote (b : UInt8) : Bool := b == 34

theorem startsWith_single {b : UInt8} {i : Bytes} : startsWith i [b] = true → ∃ t, i = b :: t := by
  intro h
  rw [startsWith_iff] at h
  obtain ⟨t, rfl⟩ := h
  exact ⟨t, rfl⟩

theorem adv_cons {b : UInt8} {t : Bytes} (h : lineChar b = true) : Adv (b :: t) t :=
  ⟨[b], rfl, folded_of fun x hx => by simp at hx; subst hx; simpa [lineChar] using h⟩

/-- What a parser beginning with `[CFWS]` costs when it fails. -/
def LeadFail (c : Cfg) (B : Nat) (i : Bytes) (k : Nat) : Prop :=
  ∀ j, EmailParser.skipCfws c i = .ok j → k + 60 * reach j ≤ 60 * reach i + B ∨ Blocked c j

/-- A parser beginning with `[CFWS]` has succeeded. -/
def Lead (p : UInt8 → Bool) (c : Cfg) (i r : Bytes) : Prop :=
  ∃ j, EmailParser.skipCfws c i = .ok j ∧ Starts p j ∧ reach r + 1 ≤ reach j

theorem skipCfws_ne_err (i : Bytes) (e : Error) : EmailParser.skipCfws c i ≠ .err e := by
  unfold EmailParser.skipCfws
  split <;> simp

theorem Lead.not_blocked {p : UInt8 → Bool} (hp : ∀ x, p x = true → isWsp x = false ∧ isOpen x = false)
    {i r : Bytes} (h : Lead p c i r) : ¬ Blocked c i := by
  intro hb
  obtain ⟨j, h1, h2, _⟩ := h
  rw [skipCfws_blocked hb] at h1
  cases h1
  rcases hb.2 with h | h
  · exact h2.not (fun x hx => (hp x hx).1) h
  · exact h2.not (fun x hx => (hp x hx).2) h

theorem not_blocked_of {p : UInt8 → Bool} (hp : ∀ x, p x = true → isWsp x = false ∧ isOpen x = false)
    {i : Bytes} (h : Starts p i) : ¬ Blocked c i := by
  intro hb
  rcases hb.2 with h' | h'
  · exact h.not (fun x hx => (hp x hx).1) h'
  · exact h.not (fun x hx => (hp x hx).2) h'

theorem quotedString_within (i : Bytes) :
    Within (quotedString c i) 0 (fun a k => Adv i a.1 ∧ reach a.1 + 1 ≤ reach i ∧
        Lead isDquote c i a.1 ∧ CfwsCost c 60 i a.1 k)
      fun k => k ≤ 120 * reach i + 100 := by
  unfold quotedString
  refine Within.bind (skipCfws_within i) ?_ (fun k _ h => by omega)
  intro j k hj ⟨ha, hk⟩
  rw [skipCfws_out] at hj
  have hle := ha.le
  refine within_tick.mpr ?_
  split
  · rename_i hs
    obtain ⟨t, rfl⟩ := startsWith_single hs
    have hst : Starts isDquote (34 :: t) := ⟨34, t, rfl, rfl⟩
    have hk : k + 60 * reach (34 :: t) ≤ 60 * reach i + 30 := by
      rcases hk with hk | ⟨hk, _⟩
      · exact hk
      · exact absurd hk (not_blocked_of (by decide +kernel) hst)
    have hrt := reach_char (b := 34) (t := t) (by decide)
    have hat := adv_cons (b := 34) (t := t) (by decide)
    refine within_bind.mpr (within_lift ?_ (by omega))
    intro t' ht'
    have : t' = t := by simpa [sliceFrom] using ht'.symm
    subst this
    refine Within.bind (quotedStringLoop_within _ t') ?_ (fun k _ h => by omega)
    rintro ⟨r, v⟩ m _ ⟨h1, h2, h3⟩
    dsimp only at *
    have hle1 := h1.le
    have hle2 := h2.le
    refine Within.bind (fwsOrEmpty_within r) ?_ (fun _ _ h => h.elim)
    rintro ⟨s, v⟩ m' _ ⟨e, h4, h5⟩
    dsimp only at *
    subst e
    refine within_tick.mpr ?_
    split
    · rename_i hs'
      obtain ⟨u, hu⟩ := startsWith_single hs'
      have hst' : Starts isDquote (afterFws r) := ⟨34, u, hu, rfl⟩
      have hru := reach_char (b := 34) (t := u) (by decide)
      have hau := adv_cons (b := 34) (t := u) (by decide)
      rw [← hu] at hru hau
      refine within_bind.mpr (within_lift ?_ ?_)
      · intro u' hu'
        have : u' = u := by rw [hu] at hu'; simpa [sliceFrom] using hu'.symm
        subst this
        have h5' : m' + 2 * reach (afterFws r) ≤ 2 * reach r + 7 := by
          rcases h5 with h5 | ⟨h, hw, _⟩
          · exact h5
          · rw [← h] at hw
            exact absurd hw (hst'.not (by decide +kernel))
        have h3 : m + 60 * reach r + 2 * reach (afterFws r) ≤ 60 * reach t' + 2 * reach r + 13 := by
          rcases h3 with h3 | ⟨hw, h, _⟩
          · exact h3
          · rw [← h] at hw
            exact absurd hw (hst'.not (by decide +kernel))
        refine Within.bind (skipCfws_within u') ?_ ?_
        · intro x k₂ _ ⟨h6, h7⟩
          refine within_ok.mpr ⟨(((ha.trans hat).trans h1).trans h4).trans (hau.trans h6), ?_, ⟨_, hj, hst, ?_⟩, ?_⟩
          · have := h6.le
            count
          · have := h6.le
            count
          · dsimp only
            rcases h7 with h7 | ⟨h7, h8⟩
            · exact .inl (by omega)
            · exact .inr ⟨h7, by omega⟩
        · intro k₂ _ h
          omega
      · rcases h3 with h3 | ⟨h3, _, h3'⟩ <;> rcases h5 with h5 | ⟨h, hw, _, h5⟩ <;> omega
    · refine within_err.mpr ?_
      rcases h3 with h3 | ⟨h3, _, h3'⟩ <;> rcases h5 with h5 | ⟨h, hw, _, h5⟩ <;> omega
  · refine within_err.mpr ?_
    rcases hk with hk | ⟨_, hk⟩ <;> omega

/-! ### Atoms -/

theorem mapErr_within {x : Timed α} {e : Error} {n : Nat} {S : α → Nat → Prop} {F : Nat → Prop}
    (h : Within x n S F) : Within (x.mapErr e) n S F := by
  obtain ⟨o, k⟩ := x
  unfold Within mapErr at *
  cases o <;> exact h

/-- An atom has been read: the whole run of characters after `[CFWS]`. -/
def LeadAtom (c : Cfg) (i r : Bytes) : Prop :=
  ∃ j v s, EmailParser.skipCfws c i = .ok j ∧ j = v ++ s ∧ (∀ x ∈ v, isAtext x = true) ∧
    1 ≤ v.length ∧ Stops isAtext s ∧ Adv s r

theorem LeadAtom.not_blocked {i r : Bytes} (h : LeadAtom c i r) : ¬ Blocked c i := by
  obtain ⟨j, v, s, h1, h2, h3, h4, h5, h6⟩ := h
  intro hb
  rw [skipCfws_blocked hb] at h1
  cases h1
  have hst := starts_run (r := s) h4 h3
  rw [← h2] at hst
  exact not_blocked_of (by decide +kernel) hst hb

theorem atom_within (i : Bytes) :
    Within (atom c i) 0 (fun a k => Adv i a.1 ∧ reach a.1 + 1 ≤ reach i ∧
        LeadAtom c i a.1 ∧ CfwsCost c 62 i a.1 k)
      fun k => k ≤ 120 * reach i + 100 ∧ (Aborted (atom c i) ∨ LeadFail c 32 i k) := by
  have hab : ∀ k, (∀ e, (atom c i).out ≠ .err e) → (∀ a, (atom c i).out ≠ .ok a) →
      (Aborted (atom c i) ∨ LeadFail c 32 i k) := by
    intro k h1 h2
    cases h : (atom c i).out with
    | ok a => exact absurd h (h2 a)
    | err a => exact absurd h (h1 a)
    | abort a => exact .inl ⟨a, h⟩
  have hout : (atom c i).out = EmailParser.atom c i := atom_out i
  unfold EmailParser.atom at hout
  rw [hout] at hab
  unfold atom
  refine Within.bind (skipCfws_within i) ?_ ?_
  · intro j k hj ⟨ha, hk⟩
    rw [skipCfws_out] at hj
    have hle := ha.le
    refine Within.bind (mapErr_within (takeWhile1_within atext_line j)) ?_ ?_
    · rintro ⟨r, v⟩ k' ho ⟨h1, hs, e', hv, h2, h3, h4⟩
      rw [mapErr_out, takeWhile1_out] at ho
      dsimp only at *
      have hst := starts_run (r := r) h2 hv
      rw [← e'] at hst
      have hk : k + 60 * reach j ≤ 60 * reach i + 30 := by
        rcases hk with hk | ⟨hk, _⟩
        · exact hk
        · exact absurd hk (not_blocked_of (by decide +kernel) hst)
      refine Within.bind (skipCfws_within r) ?_ ?_
      · intro x k₂ _ ⟨h6, h7⟩
        refine within_ok.mpr ⟨(ha.trans h1).trans h6, ?_, ⟨_, _, _, hj, e', hv, h2, hs, h6⟩, ?_⟩
        · have := h6.le
          count
        · dsimp only
          rcases h7 with h7 | ⟨h7, h8⟩
          · exact .inl (by omega)
          · exact .inr ⟨h7, by omega⟩
      · intro k₂ hn h
        rw [skipCfws_out] at hn
        refine ⟨by omega, hab _ ?_ ?_⟩
        · intro e he
          rw [hj, ok_bind, ho, ok_bind] at he
          cases h6 : EmailParser.skipCfws c r with
          | ok a => exact hn a h6
          | err a => exact absurd h6 (skipCfws_ne_err _ _)
          | abort a => dsimp only at he; rw [h6] at he; cases he
        · intro e he
          rw [hj, ok_bind, ho, ok_bind] at he
          cases h6 : EmailParser.skipCfws c r with
          | ok a => exact hn a h6
          | err a => exact absurd h6 (skipCfws_ne_err _ _)
          | abort a => dsimp only at he; rw [h6] at he; cases he
    · rintro k' _ ⟨hs, hk'⟩
      refine ⟨by rcases hk with hk | ⟨_, hk⟩ <;> omega, .inr ?_⟩
      intro j' hj'
      rw [hj] at hj'
      cases hj'
      rcases hk with hk | ⟨hk, _⟩
      · exact .inl (by omega)
      · exact .inr hk
  · intro k hn h
    refine ⟨by omega, .inr ?_⟩
    intro j hj
    rw [skipCfws_out] at hn
    exact absurd hj (hn j)

theorem word_within (i : Bytes) :
    Within (word c i) 0 (fun a k => Adv i a.1 ∧ reach a.1 + 1 ≤ reach i ∧
        (LeadAtom c i a.1 ∨ Lead isDquote c i a.1) ∧
        (k + 120 * reach a.1 ≤ 120 * reach i + 100 ∨ (Blocked c a.1 ∧ k ≤ 120 * reach i + 100)))
      fun k => k ≤ 240 * reach i + 200 := by
  unfold word matchParsers
  refine Within.on (atom_within i) ?_ ?_ ?_
  · rintro ⟨r, v⟩ k _ ⟨h1, h2, h3, h4⟩
    refine within_ok.mpr ⟨h1, h2, .inl h3, ?_⟩
    dsimp only at *
    rcases h4 with h4 | ⟨h4, h5⟩
    · exact .inl (by omega)
    · exact .inr ⟨h4, by omega⟩
  · rintro e k ho ⟨h1, h2⟩
    dsimp only
    unfold matchParsers
    refine Within.on (quotedString_within i) ?_ ?_ ?_
    · rintro ⟨r, v⟩ k' _ ⟨h3, h4, h5, h6⟩
      refine within_ok.mpr ⟨h3, h4, .inr h5, ?_⟩
      dsimp only at *
      obtain ⟨j, hj, hst, h8⟩ := h5
      rcases h2 with ⟨a, h2⟩ | h2
      · rw [ho] at h2; cases h2
      · rcases h2 j hj with h2 | h2
        · rcases h6 with h6 | ⟨h6, h7⟩
          · exact .inl (by omega)
          · exact .inr ⟨h6, by omega⟩
        · exact absurd h2 (not_blocked_of (by decide +kernel) hst)
    · rintro e k' _ h
      exact within_err.mpr (by omega)
    · rintro e k' _ h
      exact within_abort.mpr (by omega)
  · rintro e k ho ⟨h1, h2⟩
    exact within_abort.mpr (by omega)

end EmailParser.Timed
