import Verif.Spec.Gram
import Verif.Proofs.Basic
/-
Soundness of parsers with respect to grammars: `Parses A G p` says that whatever `p` consumes is a
text of `G` with the value reported, and that `p` aborts only on inputs allowed by `A`.
-/
namespace EmailParser
open Spec (Gram)

/-- Which aborts are allowed on which inputs; what is allowed on a suffix of an input is allowed on
the input. -/
structure Aborts where
  P : Bytes → Abort → Prop
  mono : ∀ u v k, P v k → P (u ++ v) k

/-- No abort at all. -/
def Aborts.none : Aborts := ⟨fun _ _ => False, fun _ _ _ h => h⟩

/-- The outcome `x` of a parser on the input `i` agrees with the grammar `G`. -/
def PSat (A : Aborts) {α : Type} (G : Gram α) (i : Bytes) (x : Res α) : Prop :=
  x.Sat (fun r => ∃ w, i = w ++ r.1 ∧ G w r.2) (A.P i)

/-- The parser `p` agrees with the grammar `G` on every input. -/
def Parses (A : Aborts) {α : Type} (G : Gram α) (p : Bytes → Res α) : Prop :=
  ∀ i, PSat A G i (p i)

variable {A : Aborts} {α β γ : Type}

theorem PSat.ok {G : Gram α} {i r : Bytes} {v : α} (w : Bytes) (hi : i = w ++ r) (h : G w v) :
    PSat A G i (.ok (r, v)) := ⟨w, hi, h⟩

/-- `.ok (i, v)` consumes nothing. -/
theorem PSat.pure {i : Bytes} {v : α} : PSat A (pure v) i (.ok (i, v)) :=
  ⟨[], rfl, rfl, rfl⟩

theorem PSat.err {G : Gram α} {i : Bytes} {e : Error} : PSat A G i (.err e) := trivial

theorem PSat.abort {G : Gram α} {i : Bytes} {k : Abort} (h : A.P i k) :
    PSat A G i (.abort k) := h

theorem PSat.bind {G : Gram α} {F : α → Gram β} {i : Bytes} {x : Res α} {f : Bytes × α → Res β}
    (hx : PSat A G i x)
    (hf : ∀ r v w, i = w ++ r → G w v → PSat A (F v) r (f (r, v))) :
    PSat A (G >>= F) i (x >>= f) := by
  cases x with
  | ok a =>
    obtain ⟨r, v⟩ := a
    obtain ⟨w, hi, hG⟩ := hx
    have := hf r v w hi hG
    subst hi
    show (f (r, v)).Sat _ _
    refine Outcome.Sat.mono this ?_ (fun k => A.mono w r k)
    rintro ⟨r', v'⟩ ⟨w', hr, hF⟩
    exact ⟨w ++ w', by simp_all, w, w', v, rfl, hG, hF⟩
  | err e => trivial
  | abort k => exact hx

theorem PSat.imp {G H : Gram α} {i : Bytes} {x : Res α} (hx : PSat A G i x)
    (h : ∀ w v, G w v → H w v) : PSat A H i x :=
  Outcome.Sat.mono hx (fun _ ⟨w, hi, hG⟩ => ⟨w, hi, h _ _ hG⟩) (fun _ h => h)

theorem PSat.mapAborts {B : Aborts} {G : Gram α} {i : Bytes} {x : Res α} (hx : PSat A G i x)
    (h : ∀ k, A.P i k → B.P i k) : PSat B G i x :=
  Outcome.Sat.mono hx (fun _ h => h) h

theorem Parses.imp {G H : Gram α} {p : Bytes → Res α} (hp : Parses A G p)
    (h : ∀ w v, G w v → H w v) : Parses A H p := fun i => (hp i).imp h

/-- A parser whose rest only is used (`skipCfws`). -/
theorem PSat.bindRest {G : Gram Unit} {F : Gram β} {i : Bytes} {x : Outcome Bytes}
    {f : Bytes → Res β}
    (hx : x.Sat (fun r => ∃ w, i = w ++ r ∧ G w ()) (A.P i))
    (hf : ∀ r w, i = w ++ r → G w () → PSat A F r (f r)) :
    PSat A (G >>= fun _ => F) i (x >>= f) := by
  cases x with
  | ok r =>
    obtain ⟨w, hi, hG⟩ := hx
    have := hf r w hi hG
    subst hi
    show (f r).Sat _ _
    refine Outcome.Sat.mono this ?_ (fun k => A.mono w r k)
    rintro ⟨r', v'⟩ ⟨w', hr, hF⟩
    exact ⟨w ++ w', by simp_all, w, w', (), rfl, hG, hF⟩
  | err e => trivial
  | abort k => exact hx

/-- A computation that does not consume input. -/
theorem PSat.bindPure {G : Gram β} {i : Bytes} {x : Outcome α} {f : α → Res β}
    {Q : α → Prop} (hx : x.Sat Q (A.P i)) (hf : ∀ v, Q v → PSat A G i (f v)) :
    PSat A G i (x >>= f) := by
  cases x with
  | ok v => exact hf v hx
  | err e => trivial
  | abort k => exact hx

/-- `match x with | .ok r => f r | .err _ => g | .abort k => .abort k` -/
theorem PSat.matchErr {G : Gram α} {H : Gram β} {i : Bytes} {x : Res α}
    {f : Bytes × α → Res β} {g : Error → Res β}
    (hx : PSat A G i x)
    (hf : ∀ r v, x = .ok (r, v) → PSat A H i (f (r, v)))
    (hg : ∀ e, x = .err e → PSat A H i (g e)) :
    PSat A H i (match x with | .ok r => f r | .err e => g e | .abort k => .abort k) := by
  cases x with
  | ok r => exact hf r.1 r.2 rfl
  | err e => exact hg e rfl
  | abort k => exact hx

/-! ### Grammar laws -/

theorem gram_bind {G : Gram α} {F : α → Gram β} {w : Bytes} {v : β} :
    (G >>= F) w v ↔ ∃ w₁ w₂ a, w = w₁ ++ w₂ ∧ G w₁ a ∧ F a w₂ v := Iff.rfl

theorem gram_pure {a v : α} {w : Bytes} : (pure a : Gram α) w v ↔ w = [] ∧ v = a := Iff.rfl

theorem gram_bind_pure {G : Gram α} {f : α → β} {w : Bytes} {v : β} :
    (G >>= fun a => pure (f a)) w v ↔ ∃ a, G w a ∧ v = f a := by
  constructor
  · rintro ⟨w₁, _, a, rfl, h, rfl, rfl⟩
    exact ⟨a, by simpa using h, rfl⟩
  · rintro ⟨a, h, rfl⟩
    exact ⟨w, [], a, by simp, h, rfl, rfl⟩

theorem gram_bind_intro {G : Gram α} {F : α → Gram β} {w₁ w₂ : Bytes} {a : α} {v : β}
    (h₁ : G w₁ a) (h₂ : F a w₂ v) : (G >>= F) (w₁ ++ w₂) v := ⟨w₁, w₂, a, rfl, h₁, h₂⟩

/-! ### Combinators -/

theorem tag_append (s r : Bytes) (m : String) : tag (s ++ r) s m = .ok (r, ()) := by
  simp [tag, startsWith_append, getUncheckedFrom_append]

theorem tag_ok_iff {i s r : Bytes} {m : String} {u : Unit} :
    tag i s m = .ok (r, u) ↔ i = s ++ r := by
  constructor
  · intro h
    by_cases hs : startsWith i s = true
    · obtain ⟨t, rfl⟩ := startsWith_iff.mp hs
      rw [tag_append] at h
      simp_all
    · simp [tag, hs] at h
  · rintro rfl; exact tag_append s r m

theorem tag_err {i s : Bytes} {m : String} (h : ¬ s <+: i) : tag i s m = .err (.explicit m) := by
  have : startsWith i s = false := by
    rw [Bool.eq_false_iff]
    exact fun h' => h (startsWith_iff.mp h')
  simp [tag, this]

theorem tag_cases (i s : Bytes) (m : String) :
    (∃ r, i = s ++ r ∧ tag i s m = .ok (r, ())) ∨ (¬ s <+: i ∧ tag i s m = .err (.explicit m)) := by
  by_cases h : s <+: i
  · obtain ⟨r, rfl⟩ := h
    exact .inl ⟨r, rfl, tag_append s r m⟩
  · exact .inr ⟨h, tag_err h⟩

theorem tag_parses (s : Bytes) (m : String) : Parses A (Gram.lit s) fun i => tag i s m := by
  intro i
  rcases tag_cases i s m with ⟨r, rfl, h⟩ | ⟨_, h⟩ <;> dsimp only <;> rw [h]
  · exact .ok s rfl rfl
  · exact .err

theorem firstFailing_some {p : UInt8 → Bool} : ∀ {l : Bytes} {k j : Nat},
    firstFailing p k l = some j → j = k + (l.takeWhile p).length ∧ l.dropWhile p ≠ []
  | b :: l, k, j, h => by
    unfold firstFailing at h
    split at h
    · rename_i hb
      obtain ⟨h1, h2⟩ := firstFailing_some h
      simp [hb]
      exact ⟨by omega, by simpa using h2⟩
    · rename_i hb
      simp at h
      simp [hb, h]

theorem firstFailing_none {p : UInt8 → Bool} : ∀ {l : Bytes} {k : Nat},
    firstFailing p k l = none → l.takeWhile p = l ∧ l.dropWhile p = []
  | [], k, _ => by simp
  | b :: l, k, h => by
    unfold firstFailing at h
    split at h
    · rename_i hb
      obtain ⟨h1, h2⟩ := firstFailing_none h
      simp [hb, h1, h2]
    · simp at h

/-- `take_while` splits the input at the first byte not in the class. -/
theorem takeWhile_eq (i : Bytes) (p : UInt8 → Bool) :
    takeWhile i p = .ok (i.dropWhile p, i.takeWhile p) := by
  have e := (List.takeWhile_append_dropWhile (p := p) (l := i)).symm
  unfold takeWhile
  cases h : firstFailing p 0 i with
  | none =>
    obtain ⟨h1, h2⟩ := firstFailing_none h
    simp [h1, h2]
  | some j =>
    obtain ⟨h1, -⟩ := firstFailing_some h
    have a := getUncheckedFrom_append (i.takeWhile p) (i.dropWhile p)
    have b := getUncheckedTo_append (i.takeWhile p) (i.dropWhile p)
    rw [← e] at a b
    simp only [Nat.zero_add] at h1
    subst h1
    simp [a, b]

theorem takeWhile1_eq (i : Bytes) (p : UInt8 → Bool) :
    takeWhile1 i p = if i.takeWhile p = [] then
      .err (.unknown (if i = [] then "Expected at least one character matching, but there is no character"
        else "Expected at least one character matching"))
    else .ok (i.dropWhile p, i.takeWhile p) := by
  have e := (List.takeWhile_append_dropWhile (p := p) (l := i)).symm
  cases i with
  | nil => simp [takeWhile1]
  | cons b l =>
    unfold takeWhile1
    by_cases hb : p b = true
    · simp only [hb, Bool.not_true, Bool.false_eq_true, if_false]
      rw [if_neg (by simp [hb])]
      cases h : firstFailing p 1 l with
      | none =>
        obtain ⟨h1, h2⟩ := firstFailing_none h
        simp [hb, h1, h2]
      | some j =>
        obtain ⟨h1, -⟩ := firstFailing_some h
        have a := getUncheckedFrom_append ((b :: l).takeWhile p) ((b :: l).dropWhile p)
        have b' := getUncheckedTo_append ((b :: l).takeWhile p) ((b :: l).dropWhile p)
        rw [← e] at a b'
        have hj : ((b :: l).takeWhile p).length = j := by
          simp [hb]; omega
        rw [hj] at a b'
        simp [a, b']
    · simp [hb]

theorem mem_takeWhile {p : UInt8 → Bool} : ∀ {l : Bytes} {c}, c ∈ l.takeWhile p → p c = true
  | b :: l, c, h => by
    rw [List.takeWhile_cons] at h
    split at h
    · rename_i hb
      rcases List.mem_cons.mp h with rfl | h
      · exact hb
      · exact mem_takeWhile h
    · simp at h

theorem takeWhile_parses (p : UInt8 → Bool) : Parses A (Gram.chars p) fun i => takeWhile i p := by
  intro i
  dsimp only
  rw [takeWhile_eq]
  exact .ok _ (List.takeWhile_append_dropWhile).symm ⟨rfl, fun c => mem_takeWhile⟩

theorem takeWhile1_parses (p : UInt8 → Bool) : Parses A (Gram.chars1 p) fun i => takeWhile1 i p := by
  intro i
  dsimp only
  rw [takeWhile1_eq]
  split
  · exact .err
  · rename_i h
    exact .ok _ (List.takeWhile_append_dropWhile).symm ⟨rfl, h, fun c => mem_takeWhile⟩

theorem optional_psat {G : Gram α} {p : Bytes → Res α} {i : Bytes} (h : PSat A G i (p i)) :
    PSat A (Gram.opt G) i (optional i p) := by
  unfold optional
  cases hx : p i with
  | ok r =>
    rw [hx] at h
    obtain ⟨w, hi, hG⟩ := h
    exact .ok w hi (.inr ⟨_, rfl, hG⟩)
  | err e => exact .ok [] rfl (.inl ⟨rfl, rfl⟩)
  | abort k => rw [hx] at h; exact h

theorem optional_parses {G : Gram α} {p : Bytes → Res α} (h : Parses A G p) :
    Parses A (Gram.opt G) fun i => optional i p := fun i => optional_psat (h i)

/-- Alternatives. -/
theorem matchParsers_psat {G : Gram α} {i : Bytes} : ∀ {ps : List (Bytes → Res α)},
    (∀ p ∈ ps, PSat A G i (p i)) → PSat A G i (matchParsers i ps)
  | [], _ => .err
  | p :: ps, h => by
    unfold matchParsers
    have hp := h p (by simp)
    cases hx : p i with
    | ok r => rw [hx] at hp; exact hp
    | err e => exact matchParsers_psat fun q hq => h q (by simp [hq])
    | abort k => rw [hx] at hp; exact hp

theorem PSat.orLeft {G H : Gram α} {i : Bytes} {x : Res α} (h : PSat A G i x) :
    PSat A (G.or H) i x := h.imp fun _ _ => .inl

theorem PSat.orRight {G H : Gram α} {i : Bytes} {x : Res α} (h : PSat A H i x) :
    PSat A (G.or H) i x := h.imp fun _ _ => .inr

theorem matchParsers_two {G H : Gram α} {p q : Bytes → Res α} (hp : Parses A G p)
    (hq : Parses A H q) : Parses A (G.or H) fun i => matchParsers i [p, q] := by
  intro i
  refine matchParsers_psat ?_
  intro x hx
  simp only [List.mem_cons, List.not_mem_nil, or_false] at hx
  rcases hx with rfl | rfl
  · exact (hp i).orLeft
  · exact (hq i).orRight

/-- A grammar without the empty text. -/
def Progress (G : Gram α) : Prop := ∀ w v, G w v → w ≠ []

theorem manyLoop_psat {G : Gram α} {p : Bytes → Res α} (hG : Progress G) (hp : Parses A G p) :
    ∀ fuel i, i.length < fuel → PSat A (Gram.star G) i (manyLoop p fuel i)
  | 0, _, h => by omega
  | fuel + 1, i, h => by
    unfold manyLoop
    have hx := hp i
    cases hx' : p i with
    | err e => exact .ok [] rfl .nil
    | abort k => rw [hx'] at hx; exact hx
    | ok r =>
      rw [hx'] at hx
      obtain ⟨r, v⟩ := r
      obtain ⟨w, hi, hw⟩ := hx
      have hlen : r.length < fuel := by
        have := List.length_pos_iff.mpr (hG _ _ hw)
        rw [hi] at h; simp at h; omega
      have hloop := manyLoop_psat hG hp fuel r hlen
      dsimp only at hi ⊢
      subst hi
      cases hy : manyLoop p fuel r with
      | err e => exact .err
      | abort k => rw [hy] at hloop; exact A.mono w r k hloop
      | ok s =>
        rw [hy] at hloop
        obtain ⟨w', hr, hw'⟩ := hloop
        exact .ok (w ++ w') (by simp_all) (.cons hw hw')

theorem many_parses {G : Gram α} {p : Bytes → Res α} (hG : Progress G) (hp : Parses A G p) :
    Parses A (Gram.star G) fun i => many i p :=
  fun i => manyLoop_psat hG hp _ i (by omega)

theorem many1_parses {G : Gram α} {p : Bytes → Res α} (hG : Progress G) (hp : Parses A G p) :
    Parses A (Gram.plus G) fun i => many1 i p := by
  intro i
  unfold many1
  refine .bind (hp i) fun r v w _ _ => ?_
  refine .bind (manyLoop_psat hG hp _ r (by omega)) fun r v w _ _ => ?_
  exact .pure

theorem ignoreManyLoop_psat {G : Gram α} {p : Bytes → Res α} (hG : Progress G)
    (hp : Parses A G p) :
    ∀ fuel i, i.length < fuel → PSat A (Gram.skip (Gram.star G)) i (ignoreManyLoop p fuel i)
  | 0, _, h => by omega
  | fuel + 1, i, h => by
    unfold ignoreManyLoop
    have hx := hp i
    cases hx' : p i with
    | err e => exact .ok [] rfl ⟨_, .nil⟩
    | abort k => rw [hx'] at hx; exact hx
    | ok r =>
      rw [hx'] at hx
      obtain ⟨r, v⟩ := r
      obtain ⟨w, hi, hw⟩ := hx
      have hlen : r.length < fuel := by
        have := List.length_pos_iff.mpr (hG _ _ hw)
        rw [hi] at h; simp at h; omega
      have hloop := ignoreManyLoop_psat hG hp fuel r hlen
      dsimp only at hi ⊢
      subst hi
      cases hy : ignoreManyLoop p fuel r with
      | err e => exact .err
      | abort k => rw [hy] at hloop; exact A.mono w r k hloop
      | ok s =>
        rw [hy] at hloop
        obtain ⟨w', hr, vs, hw'⟩ := hloop
        exact .ok (w ++ w') (by simp_all) ⟨_, .cons hw hw'⟩

theorem ignoreMany_parses {G : Gram α} {p : Bytes → Res α} (hG : Progress G) (hp : Parses A G p) :
    Parses A (Gram.skip (Gram.star G)) fun i => ignoreMany i p :=
  fun i => ignoreManyLoop_psat hG hp _ i (by omega)

theorem collectManyLoop_psat {G : Gram Bytes} {p : Bytes → Res Bytes} (hG : Progress G)
    (hp : Parses A G p) :
    ∀ fuel i, i.length < fuel →
      PSat A (Gram.map List.flatten (Gram.star G)) i (collectManyLoop p fuel i)
  | 0, _, h => by omega
  | fuel + 1, i, h => by
    unfold collectManyLoop
    have hx := hp i
    cases hx' : p i with
    | err e => exact .ok [] rfl ⟨_, rfl, .nil⟩
    | abort k => rw [hx'] at hx; exact hx
    | ok r =>
      rw [hx'] at hx
      obtain ⟨r, v⟩ := r
      obtain ⟨w, hi, hw⟩ := hx
      have hlen : r.length < fuel := by
        have := List.length_pos_iff.mpr (hG _ _ hw)
        rw [hi] at h; simp at h; omega
      have hloop := collectManyLoop_psat hG hp fuel r hlen
      dsimp only at hi ⊢
      subst hi
      cases hy : collectManyLoop p fuel r with
      | err e => exact .err
      | abort k => rw [hy] at hloop; exact A.mono w r k hloop
      | ok s =>
        rw [hy] at hloop
        obtain ⟨s, vs⟩ := s
        obtain ⟨w', hr, vs', hvs, hw'⟩ := hloop
        refine .ok (w ++ w') (by simp_all) ⟨v :: vs', ?_, .cons hw hw'⟩
        simp_all

theorem collectMany_parses {G : Gram Bytes} {p : Bytes → Res Bytes} (hG : Progress G)
    (hp : Parses A G p) : Parses A (Gram.map List.flatten (Gram.star G)) fun i => collectMany i p :=
  fun i => collectManyLoop_psat hG hp _ i (by omega)

theorem pair_parses {G : Gram α} {H : Gram β} {p : Bytes → Res α} {q : Bytes → Res β}
    (hp : Parses A G p) (hq : Parses A H q) :
    Parses A (do let a ← G; let b ← H; pure (a, b)) fun i => pair i p q := by
  intro i
  unfold pair
  refine .bind (hp i) fun r v w _ _ => ?_
  refine .bind (hq r) fun r v w _ _ => ?_
  exact .pure

theorem triplet_parses {G : Gram α} {H : Gram β} {K : Gram γ} {p : Bytes → Res α}
    {q : Bytes → Res β} {s : Bytes → Res γ}
    (hp : Parses A G p) (hq : Parses A H q) (hs : Parses A K s) :
    Parses A (do let a ← G; let b ← H; let c ← K; pure (a, b, c)) fun i => triplet i p q s := by
  intro i
  unfold triplet
  refine .bind (hp i) fun r v w _ _ => ?_
  refine .bind (hq r) fun r v w _ _ => ?_
  refine .bind (hs r) fun r v w _ _ => ?_
  exact .pure

theorem collectPair_parses {G H : Gram Bytes} {p q : Bytes → Res Bytes}
    (hp : Parses A G p) (hq : Parses A H q) :
    Parses A (do let a ← G; let b ← H; pure (a ++ b)) fun i => collectPair i p q := by
  intro i
  unfold collectPair
  refine .bind (hp i) fun r v w _ _ => ?_
  refine .bind (hq r) fun r v w _ _ => ?_
  exact .pure

theorem prefixed_parses {G : Gram α} {p : Bytes → Res α} (s : Bytes) (hp : Parses A G p) :
    Parses A (do Gram.lit s; G) fun i => prefixed i p s := by
  intro i
  by_cases h : startsWith i s = true
  · obtain ⟨r, rfl⟩ := startsWith_iff.mp h
    simp only [prefixed, h, if_true, getUncheckedFrom_append, ok_bind]
    refine Outcome.Sat.mono (hp r) ?_ (fun k => A.mono s r k)
    rintro ⟨r', v⟩ ⟨w, rfl, hw⟩
    exact ⟨s ++ w, by simp, s, w, (), rfl, rfl, hw⟩
  · simp only [prefixed, h]
    exact .err

end EmailParser
