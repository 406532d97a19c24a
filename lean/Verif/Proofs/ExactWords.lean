import Verif.Proofs.ExactPart
import Verif.Spec.ExactWords
/-
Phrases, mailboxes and groups with encoded words are read in the preferred way.
-/
namespace EmailParser
open Spec

variable {α : Type} {c : Cfg}

/-! ### Text within the limits of the program -/

/-- No line consists of white space only, and nothing goes wrong. -/
structure Calm (c : Cfg) (i : Bytes) : Prop where
  fits : Fits c i
  lines : NoWhiteLine i

theorem Calm.infix {u w : Bytes} (h : Calm c w) (hi : u <:+: w) : Calm c u :=
  ⟨⟨Nat.le_trans (hi.sublist.count_le _) h.fits.depth,
    fun ho => Nat.lt_of_le_of_lt (hi.sublist.count_le _) (h.fits.stars ho)⟩, h.lines.infix hi⟩

theorem Calm.left {u w : Bytes} (h : Calm c (u ++ w)) : Calm c u := h.infix ⟨[], w, by simp⟩
theorem Calm.right {u w : Bytes} (h : Calm c (u ++ w)) : Calm c w := h.infix ⟨u, [], by simp⟩

theorem Calm.no_abort {i : Bytes} (h : Calm c i) {k : Abort} : ¬ (aborts c).P i k := by
  rintro (⟨-, h'⟩ | ⟨-, ho, -, h'⟩)
  · have := h.fits.depth
    omega
  · have := h.fits.stars ho
    omega

theorem Calm.parse {i : Bytes} (h : Calm c i) {G : Gram α} {p : Bytes → Res α} (hp : Parses (aborts c) G p) :
    (∃ w r v, i = w ++ r ∧ G w v ∧ p i = .ok (r, v)) ∨ ∃ e, p i = .err e := by
  have hs := hp i
  cases hx : p i with
  | abort k => rw [hx] at hs; exact absurd hs h.no_abort
  | err e => exact .inr ⟨e, rfl⟩
  | ok a =>
    obtain ⟨r, v⟩ := a
    rw [hx] at hs
    obtain ⟨w, hw, hg⟩ := hs
    exact .inl ⟨w, r, v, hw, hg, rfl⟩

theorem Calm.skip {i : Bytes} (h : Calm c i) : ∃ g r, i = g ++ r ∧ Gap c g () ∧ skipCfws c i = .ok r := by
  have hs := skipCfws_sat (c := c) i
  cases hx : skipCfws c i with
  | abort k => rw [hx] at hs; exact absurd hs h.no_abort
  | err e =>
    unfold skipCfws at hx
    split at hx <;> cases hx
  | ok r =>
    rw [hx] at hs
    obtain ⟨g, rfl, hg⟩ := hs
    exact ⟨g, r, rfl, gap_of_count hg h.left.fits.depth, rfl⟩

/-! ### Where nothing is left to skip -/

/-- No comments and white space can be skipped. -/
def Settled (c : Cfg) (i : Bytes) : Prop := skipCfws c i = .ok i

theorem takeWhile1_stops {p : UInt8 → Bool} {i r v : Bytes} (h : takeWhile1 i p = .ok (r, v)) :
    i = v ++ r ∧ v ≠ [] ∧ (∀ b ∈ v, p b = true) ∧ Stops p r := by
  rcases takeWhile1_cases p i with ⟨-, e, h'⟩ | ⟨w, r', e, hne, hw, hr, h'⟩
  · rw [h] at h'; cases h'
  · rw [h] at h'
    cases h'
    exact ⟨e, hne, hw, hr⟩

theorem fws_stops {i r v : Bytes} (h : fws i = .ok (r, v)) : Stops Spec.wsp r := by
  unfold fws at h
  obtain ⟨⟨i', b⟩, h1, h⟩ := bind_eq_ok.1 h
  obtain ⟨⟨r', a⟩, h2, h⟩ := bind_eq_ok.1 h
  have := (takeWhile1_stops h2).2.2.2
  rw [isWsp_eq] at this
  cases b with
  | none => cases h; exact this
  | some b => cases h; exact this

theorem fws_twice {i r v : Bytes} (h : fws i = .ok (r, v)) (hl : NoWhiteLine i) : ∃ e, fws r = .err e := by
  have hs := fws_parses (A := Aborts.none) i
  rw [h] at hs
  obtain ⟨f, hf, hfg⟩ := hs
  dsimp only at hf hfg
  subst hf
  have hs := fws_parses (A := Aborts.none) r
  cases hx : fws r with
  | abort k => rw [hx] at hs; exact hs.elim
  | err e => exact ⟨e, rfl⟩
  | ok a =>
    exfalso
    obtain ⟨r', v'⟩ := a
    rw [hx] at hs
    obtain ⟨f', hf', hfg'⟩ := hs
    dsimp only at hf' hfg'
    subst hf'
    have hst := fws_stops h
    have hj := fws_join hfg hfg' (by rw [← List.append_assoc] at hl; exact hl.left)
    have hcr : ∃ b, f' = 13 :: 10 :: b ∧ ∀ x ∈ b, Spec.wsp x = true := by
      rcases hfg' with ⟨_, _, a, rfl, ⟨rfl, ha⟩, _, _, ⟨⟩, rfl, rfl, _, _, b, rfl, ⟨rfl, hne, hb⟩, rfl, rfl⟩ | ⟨rfl, hne, hf⟩
      · cases a with
        | nil => exact ⟨b, by simp [CRLF], hb⟩
        | cons x a =>
          have := hst x _ rfl
          rw [ha x (by simp)] at this
          cases this
      · obtain ⟨x, s, rfl⟩ := List.exists_cons_of_ne_nil hne
        have := hst x _ rfl
        rw [hf x (by simp)] at this
        cases this
    obtain ⟨b, rfl, hb⟩ := hcr
    have hno : ¬ CRLF <+: r' := by
      rintro ⟨z, rfl⟩
      exact hl f b z (by simp [CRLF]) hb
    have := fws_append hj (fws_stops hx) hno
    rw [List.append_assoc, h] at this
    simp only [Outcome.ok.injEq, Prod.mk.injEq] at this
    have := congrArg List.length this.1
    simp at this
    omega

theorem optFws_twice {i r : Bytes} {o : Option Bytes} (h : optional i fws = .ok (r, o)) (hl : NoWhiteLine i) :
    ∃ e, fws r = .err e := by
  unfold optional at h
  cases hx : fws i with
  | abort k => rw [hx] at h; cases h
  | err e => rw [hx] at h; cases h; exact ⟨e, hx⟩
  | ok a =>
    rw [hx] at h
    cases h
    exact fws_twice hx hl

theorem cfws_err_of {r : Bytes} (h : ∃ e, fws r = .err e) (h' : ∃ e, comment c.stack r = .err e) :
    ∃ e, cfws c r = .err e := by
  obtain ⟨e, he⟩ := h
  obtain ⟨e', he'⟩ := h'
  unfold cfws realCfws
  simp only [matchParsers, optional_err ⟨e, he⟩, ok_bind, he', he]
  exact ⟨_, rfl⟩

theorem realCfwsLoop_end : ∀ {fuel : Nat} {i r v : Bytes}, realCfwsLoop c fuel i = .ok (r, v) →
    ∃ u j o, i = u ++ r ∧ optional r fws = .ok (j, o) ∧ ∃ e, comment c.stack j = .err e
  | 0, _, _, _, h => by cases h
  | fuel + 1, i, r, v, h => by
    unfold realCfwsLoop at h
    obtain ⟨⟨j, o⟩, h1, h⟩ := bind_eq_ok.1 h
    dsimp only at h
    cases hx : comment c.stack j with
    | abort k => rw [hx] at h; cases h
    | err e =>
      rw [hx] at h
      cases h
      exact ⟨[], j, o, rfl, h1, e, hx⟩
    | ok a =>
      obtain ⟨s, y⟩ := a
      rw [hx] at h
      obtain ⟨⟨r', y'⟩, h2, h⟩ := bind_eq_ok.1 h
      cases h
      obtain ⟨u, j', o', e3, h3, h4⟩ := realCfwsLoop_end h2
      have e1 := optFws_psat (A := Aborts.none) i
      rw [h1] at e1
      obtain ⟨u1, hu1, -⟩ := e1
      have e2 := comment_parses' (c := c) j
      rw [hx] at e2
      obtain ⟨u2, hu2, -⟩ := e2
      dsimp only at hu1 hu2
      exact ⟨u1 ++ (u2 ++ u), j', o', by rw [hu1, hu2, e3]; simp, h3, h4⟩

theorem optFws_noErr {i : Bytes} {e : Error} : optional i fws ≠ .err e := by
  unfold optional
  split <;> exact nofun

theorem realCfwsLoop_noErr : ∀ {fuel : Nat} {i : Bytes} {e : Error}, realCfwsLoop c fuel i ≠ .err e
  | 0, _, _ => nofun
  | fuel + 1, i, e => by
    intro h
    unfold realCfwsLoop at h
    rcases bind_eq_err.1 h with h | ⟨⟨j, o⟩, h1, h⟩
    · exact optFws_noErr h
    · dsimp only at h
      split at h
      · rcases bind_eq_err.1 h with h | ⟨⟨_, _⟩, -, h⟩
        · exact realCfwsLoop_noErr h
        · cases h
      · cases h
      · cases h

theorem realCfws_end {i r v : Bytes} (h : realCfws c i = .ok (r, v)) (hl : NoWhiteLine i) :
    (∃ e, fws r = .err e) ∧ ∃ e, comment c.stack r = .err e := by
  unfold realCfws at h
  obtain ⟨⟨j, o⟩, h1, h⟩ := bind_eq_ok.1 h
  dsimp only at h
  cases hx : comment c.stack j with
  | abort k => rw [hx] at h; cases h
  | err e => rw [hx] at h; cases h
  | ok a =>
    obtain ⟨s, y⟩ := a
    rw [hx] at h
    obtain ⟨⟨s', y'⟩, h2, h⟩ := bind_eq_ok.1 h
    obtain ⟨⟨s'', y''⟩, h3, h⟩ := bind_eq_ok.1 h
    cases h
    obtain ⟨u, j', o', e3, h4, h5⟩ := realCfwsLoop_end h2
    dsimp only at h3
    rw [h3] at h4
    cases h4
    have e1 := optFws_psat (A := Aborts.none) i
    rw [h1] at e1
    obtain ⟨u1, hu1, -⟩ := e1
    have e2 := comment_parses' (c := c) j
    rw [hx] at e2
    obtain ⟨u2, hu2, -⟩ := e2
    dsimp only at hu1 hu2
    refine ⟨optFws_twice h3 (hl.infix ⟨u1 ++ (u2 ++ u), [], ?_⟩), h5⟩
    rw [hu1, hu2, e3]
    simp

/-- After comments and white space have been skipped there are no more of them. -/
theorem skip_settled {i r : Bytes} (h : skipCfws c i = .ok r) (hl : NoWhiteLine i) : Settled c r := by
  have key : (∃ e, cfws c r = .err e) → Settled c r := by
    rintro ⟨e, he⟩
    simp only [Settled, skipCfws, he]
  unfold skipCfws at h
  cases hx : cfws c i with
  | abort k => rw [hx] at h; cases h
  | err e =>
    rw [hx] at h
    cases h
    exact key ⟨e, hx⟩
  | ok a =>
    obtain ⟨r', v⟩ := a
    rw [hx] at h
    cases h
    unfold cfws matchParsers at hx
    cases hy : realCfws c i with
    | abort k => rw [hy] at hx; cases hx
    | ok a =>
      rw [hy] at hx
      cases hx
      obtain ⟨h1, h2⟩ := realCfws_end hy hl
      exact key (cfws_err_of h1 h2)
    | err e =>
      rw [hy] at hx
      simp only [matchParsers] at hx
      cases hz : fws i with
      | abort k => rw [hz] at hx; cases hx
      | err e => rw [hz] at hx; cases hx
      | ok a =>
        rw [hz] at hx
        cases hx
        refine key (cfws_err_of (fws_twice hz hl) ?_)
        unfold realCfws at hy
        rw [optional_ok hz] at hy
        simp only [ok_bind] at hy
        cases hw : comment c.stack r with
        | abort k => rw [hw] at hy; cases hy
        | err e => exact ⟨e, rfl⟩
        | ok a =>
          exfalso
          obtain ⟨s, y⟩ := a
          rw [hw] at hy
          rcases bind_eq_err.1 hy with hy | ⟨⟨_, _⟩, -, hy⟩
          · exact realCfwsLoop_noErr hy
          · rcases bind_eq_err.1 hy with hy | ⟨⟨_, _⟩, -, hy⟩
            · exact optFws_noErr hy
            · cases hy

theorem Settled.cfws_err {i : Bytes} (h : Settled c i) : ∃ e, cfws c i = .err e := by
  unfold Settled skipCfws at h
  have hs := cfws_parses (c := c) i
  cases hx : cfws c i with
  | abort k => rw [hx] at h; cases h
  | err e => exact ⟨e, rfl⟩
  | ok a =>
    exfalso
    obtain ⟨r, v⟩ := a
    rw [hx] at h hs
    obtain ⟨w, hw, u, hg⟩ := hs
    cases h
    dsimp only at hw hg
    have : w = [] := by
      have := congrArg List.length hw
      simp at this
      exact this
    subst this
    exact cfws_ne_nil (K := Comment) (fun v hv => comment_progress _ _ hv |> fun h => by simp at h) hg

theorem Settled.fws_err {i : Bytes} (h : Settled c i) : ∃ e, fws i = .err e := by
  obtain ⟨e, he⟩ := h.cfws_err
  unfold cfws matchParsers at he
  cases hy : realCfws c i with
  | abort k => rw [hy] at he; cases he
  | ok a => rw [hy] at he; cases he
  | err e =>
    rw [hy] at he
    simp only [matchParsers] at he
    cases hz : fws i with
    | abort k => rw [hz] at he; cases he
    | err e => exact ⟨e, rfl⟩
    | ok a => rw [hz] at he; cases he

/-! ### Encoded words -/

/-- An encoded word and the white space before it. -/
def spacedWord (c : Cfg) (i : Bytes) : Res Bytes := do
  let (i, _) ← optional i fws
  encodedWord c i

theorem phraseWord_eq (i : Bytes) :
    phraseWord c i = if c.feat.mime then matchParsers i [spacedWord c, word c] else word c i := rfl

theorem spacedWord_append {f white x v r : Bytes} (hf : OptFws f white) (hx : EncodedWord c x v) :
    spacedWord c (f ++ (x ++ r)) = .ok (r, v) := by
  obtain ⟨o, -, hf⟩ := hf
  have hns : NoSpace (x ++ r) := by
    obtain ⟨t, rfl⟩ := encodedWord_head hx
    exact noSpace_cons (by decide) (by decide)
  unfold spacedWord
  simp only [optFws_append hf hns, ok_bind, encodedWord_append hx]

theorem spacedWord_cases (i : Bytes) :
    (∃ f white x r v, i = f ++ (x ++ r) ∧ OptFws f white ∧ EncodedWord c x v ∧ spacedWord c i = .ok (r, v) ∧
      (Settled c i → f = [])) ∨
    ((∃ e, spacedWord c i = .err e) ∧ ¬ StartsIn (SpacedWord c) i) := by
  have key : (∃ e, spacedWord c i = .err e) → ¬ StartsIn (SpacedWord c) i := by
    rintro ⟨e, he⟩ ⟨w, r, v, rfl, f, white, x, rfl, hf, hx⟩
    rw [List.append_assoc, spacedWord_append hf hx] at he
    cases he
  have h1 := optFws_psat (A := Aborts.none) i
  cases hy : optional i fws with
  | abort k => rw [hy] at h1; exact h1.elim
  | err e => exact absurd hy optFws_noErr
  | ok a =>
    obtain ⟨j, o⟩ := a
    rw [hy] at h1
    obtain ⟨f, hf, hg⟩ := h1
    dsimp only at hf hg
    subst hf
    have h2 := encodedWord_parses (c := c) (A := Aborts.none) j
    have e : spacedWord c (f ++ j) = encodedWord c j := by
      unfold spacedWord
      rw [hy]
      rfl
    rw [e] at key ⊢
    cases hz : encodedWord c j with
    | abort k => rw [hz] at h2; exact h2.elim
    | err e => exact .inr ⟨⟨e, rfl⟩, key ⟨e, hz⟩⟩
    | ok a =>
      obtain ⟨r, v⟩ := a
      rw [hz] at h2
      obtain ⟨x, hx, hw⟩ := h2
      dsimp only at hx hw
      subst hx
      refine .inl ⟨f, o.getD [], x, r, v, rfl, ⟨o, rfl, hg⟩, hw, rfl, fun hs => ?_⟩
      rw [optional_err hs.fws_err] at hy
      have := congrArg (fun x : Res (Option Bytes) => match x with | .ok (i, _) => i.length | _ => 0) hy
      simp at this
      exact this

/-! ### What is read is preferred -/

theorem gap_start {g s : Bytes} {b : UInt8} {t : Bytes} (hg : Gap c g ()) (e : g ++ s = b :: t) (h : Spec.wsp b = false)
    (h1 : b ≠ 13) (h2 : b ≠ 40) : g = [] := by
  obtain ⟨o, ⟨rfl, -⟩ | ⟨⟨⟩, -, hg⟩⟩ := hg
  · rfl
  · obtain ⟨b', t', rfl, hb⟩ := cfws_head hg
    simp only [List.cons_append, List.cons.injEq] at e
    obtain ⟨rfl, -⟩ := e
    rw [h] at hb
    simp [h1, h2] at hb

theorem Settled.start {i r : Bytes} (h : Settled c i) (hs : skipCfws c i = .ok r) : r = i := by
  unfold Settled at h
  rw [h] at hs
  cases hs
  rfl

theorem atom_sound {i r v : Bytes} (h : atom c i = .ok (r, v)) (hi : Calm c i) :
    ∃ g t, i = g ++ (v ++ (t ++ r)) ∧ Gap c g () ∧ v ≠ [] ∧ (∀ b ∈ v, Spec.atext b = true) ∧ Gap c t () ∧
      (t = [] → Stops Spec.atext r) ∧ Settled c r ∧ (Settled c i → g = []) := by
  unfold atom at h
  obtain ⟨j, h1, h⟩ := bind_eq_ok.1 h
  obtain ⟨⟨s, x⟩, h2, h⟩ := bind_eq_ok.1 h
  obtain ⟨r', h3, h⟩ := bind_eq_ok.1 h
  cases h
  obtain ⟨g, j', rfl, hg, h1'⟩ := hi.skip
  rw [h1] at h1'
  cases h1'
  have h2 : takeWhile1 j isAtext = .ok (s, v) := by
    revert h2
    cases takeWhile1 j isAtext <;> simp [Outcome.mapErr]
  obtain ⟨rfl, hne, hx, hst⟩ := takeWhile1_stops h2
  rw [isAtext_eq] at hx hst
  have hi2 := hi.right.right
  obtain ⟨t, r', rfl, ht, h3'⟩ := hi2.skip
  rw [h3] at h3'
  cases h3'
  refine ⟨g, t, rfl, hg, hne, hx, ht, ?_, skip_settled h3 hi2.lines, fun hs => ?_⟩
  · rintro rfl
    exact hst
  · have := congrArg List.length (hs.start h1)
    simp at this
    exact this

theorem quotedString_sound {i r v : Bytes} (h : quotedString c i = .ok (r, v)) (hi : Calm c i) :
    ∃ g x t, i = g ++ (x ++ (t ++ r)) ∧ Gap c g () ∧ Quoted x v ∧ Gap c t () ∧ Settled c r ∧ (Settled c i → g = []) := by
  have hp := quotedString_parses (c := c) i
  rw [h] at hp
  obtain ⟨w, hw, hq⟩ := hp
  dsimp only at hw hq
  subst hw
  obtain ⟨g, _, _, rfl, hg, _, _, _, rfl, rfl, s, _, vs, rfl, hs, f, _, fv, rfl, hf, _, _, _, rfl, rfl, t, _, _, rfl, ht,
    rfl, rfl⟩ := quotedString_depth hq hi.left.fits.depth
  refine ⟨g, _, t, ?_, hg, ⟨_, _, (), rfl, rfl, s, _, vs, rfl, hs, f, _, fv, rfl, hf, _, _, (), rfl, rfl, rfl, rfl⟩, ht,
    ?_, fun hst => ?_⟩
  · simp
  · unfold quotedString at h
    obtain ⟨j, h1, h⟩ := bind_eq_ok.1 h
    obtain ⟨u₁, e1⟩ := skipCfws_suffix h1
    split at h
    · obtain ⟨r₂, h2, h⟩ := bind_eq_ok.1 h
      obtain ⟨u₂, e2⟩ := sliceFrom_suffix h2
      obtain ⟨⟨r₃, v₃⟩, h3, h⟩ := bind_eq_ok.1 h
      obtain ⟨u₃, e3, -⟩ := On.of_psat (A := .none) (quotedStringLoop_psat _ _ (Nat.lt_succ_self _)) r₃ v₃ h3
      obtain ⟨⟨r₄, v₄⟩, h4, h⟩ := bind_eq_ok.1 h
      obtain ⟨u₄, e4, -⟩ := On.of_psat (A := .none) (fwsOrEmpty_parses _) r₄ v₄ h4
      dsimp only at h e4
      split at h
      · obtain ⟨r₅, h5, h⟩ := bind_eq_ok.1 h
        obtain ⟨u₅, e5⟩ := sliceFrom_suffix h5
        obtain ⟨r₆, h6, h⟩ := bind_eq_ok.1 h
        obtain rfl : r₆ = r := by injection h with h; injection h
        refine skip_settled h6 (hi.lines.infix ⟨u₁ ++ (u₂ ++ (u₃ ++ (u₄ ++ u₅))), [], ?_⟩)
        rw [e1, e2, e3, e4, e5]
        simp
      · cases h
    · cases h
  · unfold quotedString at h
    obtain ⟨j, h1, h⟩ := bind_eq_ok.1 h
    have hj := hst.start h1
    split at h
    · rename_i hq
      obtain ⟨t', e⟩ := startsWith_iff.mp hq
      rw [hj, List.append_assoc] at e
      exact gap_start hg e.symm (by decide) (by decide) (by decide)
    · cases h

/-- One word of a phrase. -/
theorem phraseWord_sound {i r v : Bytes} {p : Bool} (h : phraseWord c i = .ok (r, v)) (hi : Calm c i)
    (hp : p = true → Settled c i) :
    ∃ w q, i = w ++ r ∧ (q = true → Settled c r) ∧
      ∀ s vs q' e, r = s ++ e → Phrases c e q s vs q' → Phrases c e p (w ++ s) (v :: vs) q' := by
  have key : word c i = .ok (r, v) → (c.feat.mime = true → ¬ StartsIn (SpacedWord c) i) →
    ∃ w q, i = w ++ r ∧ (q = true → Settled c r) ∧
      ∀ s vs q' e, r = s ++ e → Phrases c e q s vs q' → Phrases c e p (w ++ s) (v :: vs) q' := by
    intro h hm
    unfold word at h
    rw [matchParsers] at h
    cases ha : atom c i with
    | abort k => rw [ha] at h; cases h
    | ok a =>
      rw [ha] at h
      cases h
      obtain ⟨g, t, e, hg, hne, hx, ht, hst, hr, hgs⟩ := atom_sound ha hi
      refine ⟨g ++ (v ++ t), true, by rw [e]; simp, fun _ => hr, fun s vs q' e' hs hph => ?_⟩
      subst hs
      have := Phrases.atom (p := p) hg (fun h => hgs (hp h)) hne hx ht (fun h => hst h) (fun h => e ▸ hm h) hph
      simpa using this
    | err er =>
      rw [ha] at h
      simp only [matchParsers] at h
      cases hq : quotedString c i with
      | abort k => rw [hq] at h; cases h
      | err er => rw [hq] at h; cases h
      | ok a =>
        rw [hq] at h
        cases h
        obtain ⟨g, x, t, e, hg, hx, ht, hr, hgs⟩ := quotedString_sound hq hi
        refine ⟨g ++ (x ++ t), true, by rw [e]; simp, fun _ => hr, fun s vs q' e' hs hph => ?_⟩
        have := Phrases.quoted (p := p) hg (fun h => hgs (hp h)) hx ht hph
        simpa using this
  rw [phraseWord_eq] at h
  split at h
  · rename_i hm
    rw [matchParsers] at h
    rcases spacedWord_cases (c := c) i with ⟨f, white, x, r', v', e, hf, hx, h1, h2⟩ | ⟨⟨er, h1⟩, h2⟩
    · rw [h1] at h
      cases h
      refine ⟨f ++ x, false, by rw [e]; simp, by simp, fun s vs q' e' hs hph => ?_⟩
      have := Phrases.encoded (p := p) hm hf (fun h => h2 (hp h)) hx hph
      simpa using this
    · rw [h1] at h
      refine key ?_ fun _ => h2
      simp only [matchParsers] at h
      cases hw : word c i with
      | abort k => rw [hw] at h; cases h
      | err er => rw [hw] at h; cases h
      | ok a => rw [hw] at h; exact h
  · rename_i hm
    exact key h fun h' => absurd h' hm

theorem phraseLoop_sound : ∀ {fuel : Nat} {i r : Bytes} {vs : List Bytes} {p : Bool},
    manyLoop (phraseWord c) fuel i = .ok (r, vs) → Calm c i → (p = true → Settled c i) →
    ∃ w q, i = w ++ r ∧ (q = true → Settled c r) ∧ Phrases c r p w vs q
  | 0, _, _, _, _, h, _, _ => by cases h
  | fuel + 1, i, r, vs, p, h, hi, hp => by
    unfold manyLoop at h
    cases hx : phraseWord c i with
    | abort k => rw [hx] at h; cases h
    | err e =>
      rw [hx] at h
      cases h
      exact ⟨[], p, rfl, hp, .nil⟩
    | ok a =>
      obtain ⟨j, v⟩ := a
      rw [hx] at h
      obtain ⟨⟨r', vs'⟩, h1, h⟩ := bind_eq_ok.1 h
      cases h
      obtain ⟨w, q, rfl, hq, hc⟩ := phraseWord_sound hx hi hp
      obtain ⟨w', q', rfl, hq', hc'⟩ := phraseLoop_sound h1 hi.right hq
      exact ⟨w ++ w', q', by simp, hq', hc _ _ _ _ rfl hc'⟩

theorem phrase_sound {i r : Bytes} {vs : List Bytes} (h : phrase c i = .ok (r, vs)) (hi : Calm c i) :
    ∃ w q, i = w ++ r ∧ (q = true → Settled c r) ∧ Phrases c r false w vs q ∧ vs ≠ [] := by
  unfold phrase many1 at h
  obtain ⟨⟨j, v⟩, h1, h⟩ := bind_eq_ok.1 h
  obtain ⟨⟨r', vs'⟩, h2, h⟩ := bind_eq_ok.1 h
  cases h
  obtain ⟨w, q, rfl, hq, hc⟩ := phraseWord_sound (p := false) h1 hi (by simp)
  obtain ⟨w', q', e, hq', hc'⟩ := phraseLoop_sound h2 hi.right hq
  subst e
  exact ⟨w ++ w', q', by simp, hq', hc _ _ _ _ rfl hc', by simp⟩

end EmailParser
