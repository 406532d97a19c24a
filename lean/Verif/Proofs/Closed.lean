import Verif.Proofs.Local.Block
import Verif.Proofs.Complete.Words
/-
Where the parsers of structured headers can stop: never after white space at the end of a line, and never
before the line end of a fold, unless there are two folds in one run of white space.
-/
namespace EmailParser
open Spec (Gram)

variable {α β : Type} {c : Cfg} {A : Aborts}

/-- The text does not end with white space. -/
def SolidEnd (u : Bytes) : Prop := ∀ y b, u = y ++ [b] → Spec.wsp b = false

/-- The text ends with a line break followed by white space. -/
def FoldEnd (u : Bytes) : Prop := ∃ y ws, u = y ++ 13 :: 10 :: ws ∧ ws ≠ [] ∧ ∀ b ∈ ws, Spec.wsp b = true

/-- After reading `u`, a line end that follows is a real one and has no white space before it, or there was
already a fold. -/
def End (u r : Bytes) : Prop := ∀ s, r = 13 :: 10 :: s → (Stops Spec.wsp s ∧ SolidEnd u) ∨ FoldEnd u

/-- What is known of the text `u` read and of the rest `r`. -/
def On (Q : Bytes → Bytes → Prop) (i : Bytes) (x : Res α) : Prop :=
  ∀ r v, x = .ok (r, v) → ∃ u, i = u ++ r ∧ Q u r

def Anything (_ _ : Bytes) : Prop := True
def Tok (u _r : Bytes) : Prop := u ≠ [] ∧ SolidEnd u
def Cls (u r : Bytes) : Prop := u ≠ [] ∧ End u r
def Maybe (Q : Bytes → Bytes → Prop) (u r : Bytes) : Prop := u = [] ∨ Q u r

class Suffix (Q : Bytes → Bytes → Prop) : Prop where
  ext : ∀ u u' r, Q u' r → Q (u ++ u') r

theorem SolidEnd.ext {u u' : Bytes} (hne : u' ≠ []) (h : SolidEnd u') : SolidEnd (u ++ u') := by
  intro y b e
  rcases List.eq_nil_or_concat u' with h' | ⟨l, a, h'⟩
  · exact absurd h' hne
  · rw [List.concat_eq_append] at h'
    subst h'
    rw [← List.append_assoc] at e
    have := List.append_inj_right' e rfl
    simp only [List.cons.injEq, and_true] at this
    exact h l b (by rw [this])

theorem FoldEnd.ext {u u' : Bytes} (h : FoldEnd u') : FoldEnd (u ++ u') := by
  obtain ⟨y, ws, rfl, h1, h2⟩ := h
  exact ⟨u ++ y, ws, by simp, h1, h2⟩

instance : Suffix Anything := ⟨fun _ _ _ _ => trivial⟩
instance : Suffix Tok := ⟨fun _ _ _ h => ⟨by simp [h.1], h.2.ext h.1⟩⟩
instance : Suffix Cls := ⟨fun _ _ _ h => ⟨by simp [h.1], fun s e =>
  (h.2 s e).imp (fun h' => ⟨h'.1, h'.2.ext h.1⟩) FoldEnd.ext⟩⟩

variable {Q : Bytes → Bytes → Prop} {i : Bytes}

theorem On.any {x : Res α} (h : On Q i x) : On Anything i x := fun r v e =>
  let ⟨u, hu, _⟩ := h r v e
  ⟨u, hu, trivial⟩

theorem On.of_psat {G : Gram α} {x : Res α} (h : PSat A G i x) : On Anything i x := by
  rintro r v rfl
  obtain ⟨w, hi, -⟩ := h
  exact ⟨w, hi, trivial⟩

theorem On.err {e : Error} : On Q i (.err e : Res α) := fun _ _ h => by cases h
theorem On.abort {k : Abort} : On Q i (.abort k : Res α) := fun _ _ h => by cases h

theorem On.skip {x : Outcome Bytes} {f : Bytes → Res β} [hQ : Suffix Q]
    (hx : ∀ r, x = .ok r → ∃ u, i = u ++ r) (hf : ∀ r, On Q r (f r)) : On Q i (x >>= f) := by
  intro r v h
  obtain ⟨a, h1, h2⟩ := bind_eq_ok.1 h
  obtain ⟨u, rfl⟩ := hx a h1
  obtain ⟨u', rfl, hq⟩ := hf a r v h2
  exact ⟨u ++ u', by simp, hQ.ext _ _ _ hq⟩

theorem On.bind {x : Res α} {f : Bytes × α → Res β} [hQ : Suffix Q] (hx : On Anything i x)
    (hf : ∀ r v, On Q r (f (r, v))) : On Q i (x >>= f) := by
  intro r v h
  obtain ⟨⟨r', v'⟩, h1, h2⟩ := bind_eq_ok.1 h
  obtain ⟨u, rfl, -⟩ := hx r' v' h1
  obtain ⟨u', rfl, hq⟩ := hf r' v' r v h2
  exact ⟨u ++ u', by simp, hQ.ext _ _ _ hq⟩

theorem On.map {x : Res α} {f : Bytes × α → Res β} (hx : On Q i x)
    (hf : ∀ r v r' v', f (r, v) = .ok (r', v') → r' = r) : On Q i (x >>= f) := by
  intro r v h
  obtain ⟨⟨r', v'⟩, h1, h2⟩ := bind_eq_ok.1 h
  obtain rfl := hf _ _ _ _ h2
  exact hx r v' h1

theorem On.matchErr {x : Res α} {f : Bytes × α → Res β} {g : Error → Res β}
    (hf : ∀ r v, x = .ok (r, v) → On Q i (f (r, v))) (hg : ∀ e, x = .err e → On Q i (g e)) :
    On Q i (match x with | .ok r => f r | .err e => g e | .abort k => .abort k) := by
  cases x with
  | ok r => exact hf r.1 r.2 rfl
  | err e => exact hg e rfl
  | abort k => exact .abort

theorem On.mapErr {x : Res α} {e : Error} (h : On Q i x) : On Q i (x.mapErr e) := by
  cases x with
  | ok r => exact h
  | err e => exact .err
  | abort k => exact .abort

theorem matchParsers_on : ∀ {ps : List (Bytes → Res α)}, (∀ p ∈ ps, On Q i (p i)) → On Q i (matchParsers i ps)
  | [], _ => .err
  | p :: ps, h => by
    unfold matchParsers
    have hp := h p (by simp)
    cases hx : p i with
    | ok r => rw [hx] at hp; exact hp
    | err e => exact matchParsers_on fun q hq => h q (by simp [hq])
    | abort k => exact .abort

theorem tag_on {e : Bytes} {m : String} (h : Tok e []) : On Tok i (tag i e m) := by
  intro r v h'
  exact ⟨e, tag_ok_iff.mp h', h⟩

theorem tok_single {b : UInt8} (h : Spec.wsp b = false) : Tok [b] [] := by
  refine ⟨by simp, fun y x e => ?_⟩
  cases y with
  | nil => simp only [List.nil_append, List.cons.injEq, and_true] at e; rwa [← e]
  | cons a y => simp at e

theorem tok_chars {u r : Bytes} {p : UInt8 → Bool} (hp : ∀ b, p b = true → Spec.wsp b = false) (hne : u ≠ [])
    (h : ∀ b ∈ u, p b = true) : Tok u r := by
  refine ⟨hne, fun y b e => hp b (h b ?_)⟩
  rw [e]
  simp

theorem takeWhile1_on {p : UInt8 → Bool} (hp : ∀ b, p b = true → Spec.wsp b = false) :
    On Tok i (takeWhile1 i p) := by
  rcases takeWhile1_cases p i with ⟨-, e, h⟩ | ⟨w, r, rfl, hne, hw, -, h⟩ <;> rw [h]
  · exact .err
  · intro r' v e
    cases e
    exact ⟨w, rfl, tok_chars hp hne hw⟩

/-! ### White space and comments -/

theorem fws_on : On Cls i (fws i) := by
  intro r v h
  rw [fws_eq] at h
  split at h
  · rename_i hp
    obtain ⟨t, ht⟩ := hp
    rw [← ht] at h
    change (takeWhile1 t Spec.wsp).bind _ = _ at h
    rcases takeWhile1_cases Spec.wsp t with ⟨-, e, h'⟩ | ⟨w, r', rfl, hne, hw, hs, h'⟩ <;> rw [h'] at h
    · cases h
    · cases h
      have e := List.takeWhile_append_dropWhile (p := Spec.wsp) (l := i)
      rw [← ht] at e
      refine ⟨i.takeWhile Spec.wsp ++ 13 :: 10 :: w, ?_, by simp, fun s _ => .inr ⟨_, w, rfl, hne, hw⟩⟩
      conv => lhs; rw [← e]
      simp [Spec.CRLF]
  · rename_i hp
    rcases takeWhile1_cases Spec.wsp i with ⟨-, e, h'⟩ | ⟨w, r', rfl, hne, hw, hs, h'⟩ <;> rw [h'] at h
    · cases h
    · cases h
      refine ⟨v, rfl, hne, fun s e => absurd ?_ hp⟩
      rw [(takeWhile_run hw hs).2, e]
      exact ⟨s, rfl⟩

theorem fws_err_stops {e : Error} {s : Bytes} (h : fws (13 :: 10 :: s) = .err e) : Stops Spec.wsp s := by
  rw [fws_eq] at h
  have h1 : (13 :: 10 :: s).dropWhile Spec.wsp = 13 :: 10 :: s := rfl
  rw [h1, if_pos ⟨s, rfl⟩] at h
  change (takeWhile1 s Spec.wsp).bind _ = _ at h
  rcases takeWhile1_cases Spec.wsp s with ⟨hs, -⟩ | ⟨w, r', rfl, hne, hw, hs, h'⟩
  · exact hs
  · rw [h'] at h
    cases h

/-- A token, then optional white space. -/
theorem On.optFws {x : Res α} {f : Bytes × α → Res β} (hx : On Tok i x)
    (hf : ∀ r v, ∃ g : Option Bytes → β, f (r, v) = (optional r fws >>= fun a => .ok (a.1, g a.2))) :
    On Cls i (x >>= f) := by
  intro r v h
  obtain ⟨⟨r', v'⟩, h1, h2⟩ := bind_eq_ok.1 h
  obtain ⟨u, rfl, hu⟩ := hx r' v' h1
  obtain ⟨g, hg⟩ := hf r' v'
  rw [hg] at h2
  cases hw : fws r' with
  | ok a =>
    obtain ⟨s, o⟩ := a
    rw [optional_ok hw] at h2
    cases h2
    obtain ⟨u', rfl, hu'⟩ := fws_on s o hw
    exact ⟨u ++ u', by simp, Suffix.ext _ _ _ hu'⟩
  | err e =>
    rw [optional_err ⟨e, hw⟩] at h2
    cases h2
    refine ⟨u, rfl, hu.1, fun s es => .inl ⟨?_, hu.2⟩⟩
    subst es
    exact fws_err_stops hw
  | abort k =>
    simp only [optional, hw, abort_bind] at h2
    cases h2

theorem comment_on (n : Nat) : On Tok i (comment n i) := by
  intro r v h
  have hp := comment_parses n i
  rw [h] at hp
  obtain ⟨w, rfl, hw⟩ := hp
  refine ⟨w, rfl, ?_⟩
  cases n with
  | zero => obtain ⟨_, h⟩ := hw; exact h.elim
  | succ n =>
    obtain ⟨_, w₁, _, _, rfl, h₁, w₂, _, _, rfl, h₂, w₃, _, _, rfl, h₃, h₄⟩ := hw
    obtain rfl : _ = b! ")" := h₄
    exact Suffix.ext _ _ _ (Suffix.ext _ _ _ (Suffix.ext _ _ r (tok_single (by decide))))

theorem realCfwsLoop_on : ∀ n (i : Bytes), On (Maybe Tok) i (realCfwsLoop c n i)
  | 0, _ => .abort
  | n + 1, i => by
    intro r v h
    unfold realCfwsLoop at h
    obtain ⟨⟨r₁, o⟩, h1, h⟩ := bind_eq_ok.1 h
    obtain ⟨u₁, e₁, -⟩ := (On.of_psat (A := .none) (optional_parses fws_parses i)) _ _ h1
    cases hc : comment c.stack r₁ with
    | ok a =>
      obtain ⟨r₂, v₂⟩ := a
      simp only [hc] at h
      obtain ⟨⟨r₃, v₃⟩, h3, h⟩ := bind_eq_ok.1 h
      cases h
      obtain ⟨u₂, e₂, hu₂⟩ := comment_on c.stack r₂ v₂ hc
      obtain ⟨u₃, e₃, hu₃⟩ := realCfwsLoop_on n r₂ r₃ v₃ h3
      subst e₁ e₂ e₃
      refine ⟨u₁ ++ (u₂ ++ u₃), by simp, .inr (Suffix.ext _ _ _ ?_)⟩
      rcases hu₃ with rfl | h
      · rw [List.append_nil]
        exact ⟨hu₂.1, hu₂.2⟩
      · exact Suffix.ext _ _ _ h
    | err e =>
      simp only [hc] at h
      cases h
      exact ⟨[], rfl, .inl rfl⟩
    | abort k =>
      simp only [hc] at h
      cases h

theorem On.maybe {x : Res α} {f : Bytes × α → Res β} [hQ : Suffix Q] (hx : On Q i x)
    (hf : ∀ r v, On (Maybe Q) r (f (r, v))) (hi : ∀ u r r', Q u r → Q u r') : On Q i (x >>= f) := by
  intro r v h
  obtain ⟨⟨r', v'⟩, h1, h2⟩ := bind_eq_ok.1 h
  obtain ⟨u, rfl, hu⟩ := hx r' v' h1
  obtain ⟨u', rfl, hq⟩ := hf r' v' r v h2
  refine ⟨u ++ u', by simp, ?_⟩
  rcases hq with rfl | hq
  · rw [List.append_nil]; exact hi _ _ _ hu
  · exact hQ.ext _ _ _ hq

theorem realCfws_on : On Cls i (realCfws c i) := by
  unfold realCfws
  refine .bind (.of_psat (A := .none) (optional_parses fws_parses i)) fun r o => ?_
  dsimp only
  cases h : comment c.stack r with
  | err e => exact .err
  | abort k => exact .abort
  | ok a =>
    have h1 : On Tok r (comment c.stack r >>= fun a => realCfwsLoop c (a.1.length + 1) a.1) :=
      .maybe (comment_on c.stack) (fun r _ => realCfwsLoop_on _ r) fun _ _ _ h => h
    rw [h, ok_bind] at h1
    exact .optFws h1 fun _ v => ⟨fun l => o.getD [] ++ v ++ l.getD [], rfl⟩

theorem cfws_on : On Cls i (cfws c i) := by
  refine matchParsers_on fun p hp => ?_
  simp only [List.mem_cons, List.not_mem_nil, or_false] at hp
  rcases hp with rfl | rfl
  · exact realCfws_on
  · exact fws_on

theorem cfws_err_stops {e : Error} {s : Bytes} (h : cfws c (13 :: 10 :: s) = .err e) : Stops Spec.wsp s := by
  unfold cfws at h
  simp only [matchParsers] at h
  cases h1 : realCfws c (13 :: 10 :: s) with
  | ok a => rw [h1] at h; cases h
  | abort k => rw [h1] at h; cases h
  | err e =>
    simp only [h1] at h
    cases h2 : fws (13 :: 10 :: s) with
    | ok a => rw [h2] at h; cases h
    | abort k => rw [h2] at h; cases h
    | err e => exact fws_err_stops h2

theorem skipCfws_suffix {i r : Bytes} (h : skipCfws c i = .ok r) : ∃ u, i = u ++ r := by
  have hp := skipCfws_sat (c := c) i
  rw [h] at hp
  obtain ⟨w, hi, -⟩ := hp
  exact ⟨w, hi⟩

/-- A token, then `[CFWS]`. -/
theorem On.close {x : Res α} {f : Bytes × α → Res β} (hx : On Tok i x)
    (hf : ∀ r v, ∃ w : β, f (r, v) = (skipCfws c r >>= fun r => .ok (r, w))) : On Cls i (x >>= f) := by
  intro r v h
  obtain ⟨⟨r', v'⟩, h1, h2⟩ := bind_eq_ok.1 h
  obtain ⟨u, rfl, hu⟩ := hx r' v' h1
  obtain ⟨g, hg⟩ := hf r' v'
  rw [hg] at h2
  unfold skipCfws at h2
  cases hw : cfws c r' with
  | ok a =>
    obtain ⟨s, o⟩ := a
    simp only [hw, ok_bind] at h2
    cases h2
    obtain ⟨u', rfl, hu'⟩ := cfws_on r o hw
    exact ⟨u ++ u', by simp, Suffix.ext _ _ _ hu'⟩
  | err e =>
    simp only [hw, ok_bind] at h2
    cases h2
    refine ⟨u, rfl, hu.1, fun s es => .inl ⟨?_, hu.2⟩⟩
    subst es
    exact cfws_err_stops hw
  | abort k =>
    simp only [hw, abort_bind] at h2
    cases h2

theorem manyLoop_on [Suffix Q] {p : Bytes → Res α} (hp : ∀ i, On Q i (p i)) :
    ∀ n (i : Bytes), On (Maybe Q) i (manyLoop p n i)
  | 0, _ => .abort
  | n + 1, i => by
    intro r v h
    unfold manyLoop at h
    cases hx : p i with
    | ok a =>
      obtain ⟨r₁, v₁⟩ := a
      simp only [hx] at h
      obtain ⟨⟨r₂, v₂⟩, h2, h⟩ := bind_eq_ok.1 h
      cases h
      obtain ⟨u₁, e₁, hu₁⟩ := hp i r₁ v₁ hx
      obtain ⟨u₂, e₂, hu₂⟩ := manyLoop_on hp n r₁ r₂ v₂ h2
      subst e₁ e₂
      refine ⟨u₁ ++ u₂, by simp, .inr ?_⟩
      rcases hu₂ with rfl | h
      · simpa using hu₁
      · exact Suffix.ext _ _ _ h
    | err e =>
      simp only [hx] at h
      cases h
      exact ⟨[], rfl, .inl rfl⟩
    | abort k =>
      simp only [hx] at h
      cases h

/-- Something closed, then a list of closed things. -/
theorem On.thenMany [Suffix Q] {x : Res α} {f : Bytes × α → Res β} {γ : Type} {p : Bytes → Res γ} (hx : On Q i x)
    (hp : ∀ i, On Q i (p i))
    (hf : ∀ r v, ∃ n, ∃ g : List γ → β, f (r, v) = (manyLoop p n r >>= fun a => .ok (a.1, g a.2))) :
    On Q i (x >>= f) := by
  intro r v h
  obtain ⟨⟨r', v'⟩, h1, h2⟩ := bind_eq_ok.1 h
  obtain ⟨u, rfl, hu⟩ := hx r' v' h1
  obtain ⟨n, g, hg⟩ := hf r' v'
  rw [hg] at h2
  obtain ⟨⟨r₂, v₂⟩, h4, h3⟩ := bind_eq_ok.1 h2
  cases h3
  obtain ⟨u₂, rfl, hu₂⟩ := manyLoop_on hp n r' r₂ v₂ h4
  refine ⟨u ++ u₂, by simp, ?_⟩
  rcases hu₂ with rfl | h
  · simpa using hu
  · exact Suffix.ext _ _ _ h

theorem many1_on [Suffix Q] {p : Bytes → Res α} (hp : ∀ i, On Q i (p i)) : On Q i (many1 i p) :=
  .thenMany (hp i) hp fun _ _ => ⟨_, _, rfl⟩

theorem prefixed_on [Suffix Q] {p : Bytes → Res α} {e : Bytes} (hp : ∀ i, On Q i (p i)) :
    On Q i (prefixed i p e) := by
  unfold prefixed
  split
  · refine .skip (fun r h => ?_) hp
    unfold getUncheckedFrom at h
    split at h
    · cases h
      exact ⟨i.take e.length, by simp⟩
    · cases h
  · exact .err

/-! ### Words and addresses -/

theorem atext_noWsp : ∀ b, isAtext b = true → Spec.wsp b = false := by decide +kernel
theorem digit_noWsp : ∀ b, Spec.digit b = true → Spec.wsp b = false := by decide +kernel

theorem atom_on : On Cls i (atom c i) := by
  unfold atom
  refine .skip (fun r => skipCfws_suffix) fun r => ?_
  exact .close (.mapErr (takeWhile1_on atext_noWsp)) fun _ _ => ⟨_, rfl⟩


theorem takeWhile_on {p : UInt8 → Bool} (hp : ∀ b, p b = true → Spec.wsp b = false) :
    On (Maybe Tok) i (takeWhile i p) := by
  rw [takeWhile_eq]
  intro r v h
  cases h
  refine ⟨i.takeWhile p, List.takeWhile_append_dropWhile.symm, ?_⟩
  by_cases he : i.takeWhile p = []
  · exact .inl he
  · exact .inr (tok_chars hp he fun b => mem_takeWhile)

theorem dotAtomTextLoop_on : ∀ n (i : Bytes), On (Maybe Tok) i (dotAtomTextLoop c n i)
  | 0, _ => .abort
  | n + 1, i => by
    intro r v h
    rw [dotAtomTextLoop] at h
    split at h
    · rename_i hs
      obtain ⟨t, rfl⟩ := startsWith_iff.mp hs
      rw [show sliceFrom (b! "." ++ t) 1 = .ok t from sliceFrom_cons] at h
      simp only [ok_bind] at h
      have hon : On (Maybe Tok) t (if c.feat.compatibilityFixes then takeWhile t isAtext
          else takeWhile1 t isAtext) := by
        split
        · exact takeWhile_on atext_noWsp
        · intro r v h
          obtain ⟨u, e, hu⟩ := takeWhile1_on atext_noWsp r v h
          exact ⟨u, e, .inr hu⟩
      generalize (if c.feat.compatibilityFixes then takeWhile t isAtext else takeWhile1 t isAtext) = x at h hon
      cases x with
      | ok a =>
        obtain ⟨r₁, v₁⟩ := a
        dsimp only at h
        obtain ⟨d, -, h⟩ := bind_eq_ok.1 h
        obtain ⟨⟨r₂, v₂⟩, h2, h⟩ := bind_eq_ok.1 h
        cases h
        obtain ⟨u₁, e₁, hu₁⟩ := hon r₁ v₁ rfl
        obtain ⟨u₂, e₂, hu₂⟩ := dotAtomTextLoop_on n r₁ r₂ v₂ h2
        subst e₁ e₂
        have hd : Tok (b! ".") r₂ := tok_single (by decide)
        refine ⟨b! "." ++ (u₁ ++ u₂), by simp, .inr ?_⟩
        rcases hu₂ with rfl | h₂
        · rcases hu₁ with rfl | h₁
          · exact hd
          · rw [List.append_nil]
            exact Suffix.ext (Q := Tok) _ _ _ h₁
        · exact Suffix.ext _ _ _ (Suffix.ext _ _ _ h₂)
      | err e => cases h; exact ⟨[], rfl, .inl rfl⟩
      | abort k => cases h
    · cases h
      exact ⟨[], rfl, .inl rfl⟩

theorem dotAtomText_on : On Tok i (dotAtomText c i) := by
  unfold dotAtomText
  refine .maybe (takeWhile1_on atext_noWsp) (fun r v => ?_) fun _ _ _ h => h
  exact .map (dotAtomTextLoop_on _ r) fun _ _ _ _ h => by cases h; rfl

theorem dotAtom_on : On Cls i (dotAtom c i) := by
  unfold dotAtom
  refine .skip (fun r => skipCfws_suffix) fun r => ?_
  exact .close dotAtomText_on fun _ _ => ⟨_, rfl⟩

theorem sliceFrom_suffix {i r : Bytes} {n : Nat} (h : sliceFrom i n = .ok r) : ∃ u, i = u ++ r := by
  unfold sliceFrom at h
  split at h
  · cases h
    exact ⟨i.take n, by simp⟩
  · cases h

theorem quotedString_on : On Cls i (quotedString c i) := by
  intro r v h
  rw [quotedString] at h
  replace h := bind_eq_ok.1 h
  obtain ⟨r₁, h1, h⟩ := h
  obtain ⟨u₁, rfl⟩ := skipCfws_suffix h1
  split at h
  · replace h := bind_eq_ok.1 h
    obtain ⟨r₂, h2, h⟩ := h
    obtain ⟨u₂, rfl⟩ := sliceFrom_suffix h2
    replace h := bind_eq_ok.1 h
    obtain ⟨⟨r₃, v₃⟩, h3, h⟩ := h
    obtain ⟨u₃, rfl, -⟩ := On.of_psat (A := .none) (quotedStringLoop_psat _ _ (Nat.lt_succ_self _)) r₃ v₃ h3
    replace h := bind_eq_ok.1 h
    obtain ⟨⟨r₄, v₄⟩, h4, h⟩ := h
    obtain ⟨u₄, rfl, -⟩ := On.of_psat (A := .none) (fwsOrEmpty_parses _) r₄ v₄ h4
    dsimp only at h
    split at h
    · rename_i hs
      obtain ⟨t, rfl⟩ := startsWith_iff.mp hs
      rw [show sliceFrom (b! "\"" ++ t) 1 = .ok t from sliceFrom_cons, ok_bind] at h
      have key : On Cls (b! "\"" ++ t) ((.ok (t, ()) : Res Unit) >>= fun a => skipCfws c a.1 >>= fun r =>
          .ok (r, v₃ ++ v₄)) := by
        refine .close ?_ fun _ _ => ⟨_, rfl⟩
        intro r v e
        cases e
        exact ⟨b! "\"", rfl, tok_single (by decide)⟩
      obtain ⟨u, e, hu⟩ := key r v h
      rw [e]
      exact ⟨u₁ ++ (u₂ ++ (u₃ ++ (u₄ ++ u))), by simp, Suffix.ext _ _ _ (Suffix.ext _ _ _ (Suffix.ext _ _ _
        (Suffix.ext _ _ _ hu)))⟩
    · cases h
  · cases h

theorem word_on : On Cls i (word c i) := by
  refine matchParsers_on fun p hp => ?_
  simp only [List.mem_cons, List.not_mem_nil, or_false] at hp
  rcases hp with rfl | rfl
  · exact atom_on
  · exact quotedString_on

/-- Without encoded words. -/
theorem phrase_on (hm : c.feat.mime = false) : On Cls i (phrase c i) := by
  refine many1_on fun i => ?_
  simp only [phraseWord, hm]
  exact word_on

theorem messageId_on : On Cls i (messageId c i) := by
  unfold messageId
  refine .skip (fun r => skipCfws_suffix) fun r => ?_
  refine .bind (.any (tag_on (tok_single (by decide)))) fun r v => ?_
  refine .bind (.any dotAtomText_on) fun r v => ?_
  refine .bind (.any (tag_on (tok_single (by decide)))) fun r v => ?_
  refine .bind (.of_psat (A := .none) (matchParsers_two dotAtomText_parses noFoldLitteral_parses r)) fun r v => ?_
  exact .close (tag_on (tok_single (by decide))) fun _ _ => ⟨_, rfl⟩

theorem domainLiteral_on : On Cls i (domainLiteral c i) := by
  unfold domainLiteral
  refine .skip (fun r => skipCfws_suffix) fun r => ?_
  refine .bind (.any (tag_on (tok_single (by decide)))) fun r v => ?_
  refine .bind (.of_psat (A := .none) (domainLiteralLoop_psat _ _ (Nat.lt_succ_self _))) fun r v => ?_
  refine .bind (.of_psat (A := .none) (optional_parses fws_parses r)) fun r o => ?_
  exact .close (tag_on (tok_single (by decide))) fun _ _ => ⟨_, rfl⟩

theorem domain_on : On Cls i (domain c i) := by
  refine matchParsers_on fun p hp => ?_
  simp only [List.mem_cons, List.not_mem_nil, or_false] at hp
  rcases hp with rfl | rfl
  · exact dotAtom_on
  · exact domainLiteral_on

theorem localPart_on : On Cls i (localPart c i) := by
  refine matchParsers_on fun p hp => ?_
  simp only [List.mem_cons, List.not_mem_nil, or_false] at hp
  rcases hp with rfl | rfl
  · exact dotAtom_on
  · exact quotedString_on

theorem addrSpec_on : On Cls i (addrSpec c i) := by
  unfold addrSpec
  refine .bind (.any localPart_on) fun r v => ?_
  refine .bind (.any (tag_on (tok_single (by decide)))) fun r v => ?_
  exact .map domain_on fun _ _ _ _ h => by cases h; rfl

theorem angleAddr_on : On Cls i (angleAddr c i) := by
  unfold angleAddr
  refine .skip (fun r => skipCfws_suffix) fun r => ?_
  refine .bind (.any (tag_on (tok_single (by decide)))) fun r v => ?_
  refine .bind (.any addrSpec_on) fun r v => ?_
  exact .close (tag_on (tok_single (by decide))) fun _ _ => ⟨_, rfl⟩

theorem mailbox_on : On Cls i (mailbox c i) := by
  refine matchParsers_on fun p hp => ?_
  simp only [List.mem_cons, List.not_mem_nil, or_false] at hp
  rcases hp with rfl | rfl
  · unfold nameAddr
    refine .bind (.of_psat (optional_parses phrase_parses i)) fun r o => ?_
    exact .map angleAddr_on fun _ _ _ _ h => by cases h; rfl
  · exact .map addrSpec_on fun _ _ _ _ h => by cases h; rfl

theorem mailboxList_on : On Cls i (mailboxList c i) :=
  .thenMany mailbox_on (fun _ => prefixed_on fun _ => mailbox_on) fun _ _ => ⟨_, _, rfl⟩

theorem group_on : On Cls i (group c i) := by
  unfold group
  refine .bind (.of_psat (phrase_parses i)) fun r v => ?_
  refine .bind (.any (tag_on (tok_single (by decide)))) fun r v => ?_
  refine .bind (.of_psat (groupList_parses r)) fun r v => ?_
  exact .close (tag_on (tok_single (by decide))) fun _ _ => ⟨_, rfl⟩

theorem address_on : On Cls i (address c i) := by
  unfold address
  cases h : mailbox c i with
  | ok a =>
    intro r v e
    cases e
    exact mailbox_on a.1 a.2 h
  | abort k => exact .abort
  | err e =>
    cases h : group c i with
    | ok a =>
      intro r v e
      cases e
      exact group_on a.1 a.2 h
    | abort k => exact .abort
    | err e => exact .err

theorem addressList_on : On Cls i (addressList c i) :=
  .thenMany address_on (fun _ => prefixed_on fun _ => address_on) fun _ _ => ⟨_, _, rfl⟩

theorem bccValue_on : On Cls i (bccValue c i) := by
  unfold bccValue
  cases h : addressList c i with
  | ok a =>
    intro r v e
    cases e
    exact addressList_on r v h
  | abort k => exact .abort
  | err e =>
    dsimp only
    cases h : cfws c i with
    | ok a =>
      intro r v e
      cases e
      exact cfws_on a.1 a.2 h
    | abort k => exact .abort
    | err e => exact .err

theorem messageIds_on : On Cls i (messageIds c i) := many1_on fun _ => messageId_on

theorem keywordList_on (hm : c.feat.mime = false) : On Cls i (keywordList c i) :=
  .thenMany (phrase_on hm) (fun _ => prefixed_on fun _ => phrase_on hm) fun _ _ => ⟨_, _, rfl⟩

theorem digit_on : On Tok i (digit i) := by
  intro r v h
  have hp := digit_parses (A := .none) i
  rw [h] at hp
  obtain ⟨w, rfl, hw⟩ := hp
  refine ⟨w, rfl, ?_⟩
  obtain ⟨b, rfl, hb, -⟩ := hw
  exact tok_single (digit_noWsp b hb)

theorem twoDigits_on : On Tok i (twoDigits i) := by
  unfold twoDigits
  refine .bind (.any digit_on) fun r v => ?_
  refine .map digit_on fun r v r' v' h => ?_
  obtain ⟨_, -, h⟩ := bind_eq_ok.1 h
  obtain ⟨_, -, h⟩ := bind_eq_ok.1 h
  cases h
  rfl

theorem zone_on : On Tok i (zone i) := by
  unfold zone
  refine .bind (.any fws_on) fun r v => ?_
  refine .bind (.of_psat (A := .none) (zoneSign_parses r)) fun r v => ?_
  refine .bind (.any twoDigits_on) fun r v => ?_
  refine .map twoDigits_on fun r v r' v' h => ?_
  dsimp only at h
  split at h
  · cases h
  · cases h; rfl

theorem dateTime_on : On Cls i (dateTime c i) := by
  unfold dateTime
  refine .bind (.of_psat (A := .none) (optional_parses dayOfWeek_parses i)) fun r v => ?_
  refine .bind (x := date r) ?_ fun r v => ?_
  · unfold date
    refine .bind (.of_psat (A := .none) (day_parses r)) fun r v => ?_
    refine .bind (.of_psat (A := .none) (month_parses r)) fun r v => ?_
    exact .map (.of_psat (A := .none) (year_parses r)) fun _ _ _ _ h => by cases h; rfl
  refine .close ?_ fun _ _ => ⟨_, rfl⟩
  unfold time
  refine .bind (.of_psat (A := .none) (timeOfDay_parses r)) fun r v => ?_
  exact .map zone_on fun _ _ _ _ h => by cases h; rfl

theorem emptyPath_on : On Cls i (emptyPath c i) := by
  unfold emptyPath
  refine .skip (fun r => skipCfws_suffix) fun r => ?_
  refine .bind (.any (tag_on (tok_single (by decide)))) fun r v => ?_
  refine .skip (fun r => skipCfws_suffix) fun r => ?_
  exact .close (tag_on (tok_single (by decide))) fun _ _ => ⟨_, rfl⟩

theorem returnPathValue_on : On Cls i (returnPathValue c i) := by
  refine matchParsers_on fun p hp => ?_
  simp only [List.mem_cons, List.not_mem_nil, or_false] at hp
  rcases hp with rfl | rfl
  · exact .map angleAddr_on fun _ _ _ _ h => by cases h; rfl
  · exact .map emptyPath_on fun _ _ _ _ h => by cases h; rfl

theorem receivedValue_on : On Cls i (receivedValue c i) := by
  unfold receivedValue
  refine .bind (.of_psat (many_parses receivedToken_progress receivedToken_parses i)) fun r v => ?_
  refine .bind (.any (tag_on (tok_single (by decide)))) fun r v => ?_
  exact .map dateTime_on fun _ _ _ _ h => by cases h; rfl

end EmailParser
