import Verif.Proofs.Timed.Parts
import Verif.Proofs.Local.Values
/-
The cost of lists: of addresses, groups, keywords, identifiers and parameters.  A list of items,
each of which may look at what remains of the line, costs at most the square of the line; a list of
groups is not worse, as a group pays for its members with what it consumes.
-/
namespace EmailParser.Timed
open Spec (Folded)

variable {α β γ : Type} {c : Cfg} {i : Bytes}

/-! ### Cost paid with consumed bytes -/

/-- Each consumed byte may be paid with the length of the line, and so may the end. -/
def Semi (F : Nat) (i : Bytes) (x : TRes α) : Prop :=
  ∀ N, reach i ≤ N → Within x 0
    (fun a k => Adv i a.1 ∧ k + F * (reach a.1 * (N + 1)) ≤ F * (reach i * (N + 1)) + F * (N + 1))
    fun k => k ≤ F * ((N + 1) * (N + 1))

/-- The computation costs at most the square of what remains of the line. -/
def Quad (F : Nat) (i : Bytes) (x : TRes α) : Prop :=
  Within x 0 (fun a k => Adv i a.1 ∧ k ≤ F * ((reach i + 1) * (reach i + 1)))
    fun k => k ≤ F * ((reach i + 1) * (reach i + 1))

theorem Flat.semi {F : Nat} {x : TRes α} (h : Flat F i x) : Semi F i x := by
  intro N hN
  have h1 : F * (reach i + 1) ≤ F * (N + 1) := Nat.mul_le_mul_left _ (by omega)
  refine Within.mono h ?_ ?_
  · rintro ⟨r, v⟩ k ⟨ha, hk⟩
    refine ⟨ha, ?_⟩
    have h2 : F * (reach r * (N + 1)) ≤ F * (reach i * (N + 1)) :=
      Nat.mul_le_mul_left _ (Nat.mul_le_mul_right _ ha.le)
    dsimp only at *
    omega
  · intro k hk
    have h2 : F * (N + 1) ≤ F * ((N + 1) * (N + 1)) :=
      Nat.mul_le_mul_left _ (Nat.le_mul_of_pos_left _ (by omega))
    omega

theorem Semi.quad {F : Nat} {x : TRes α} (h : Semi F i x) : Quad F i x := by
  refine Within.mono (h _ (Nat.le_refl _)) ?_ fun _ h => h
  rintro ⟨r, v⟩ k ⟨ha, hk⟩
  refine ⟨ha, ?_⟩
  rw [Nat.add_mul (reach i) 1 (reach i + 1), Nat.mul_add, Nat.one_mul]
  omega

theorem Flat.quad {F : Nat} {x : TRes α} (h : Flat F i x) : Quad F i x := h.semi.quad

namespace Semi

variable {F G : Nat}

theorem mono {x : TRes α} (h : Semi F i x) (hFG : F ≤ G) : Semi G i x := by
  intro N hN
  obtain ⟨d, rfl⟩ := Nat.exists_eq_add_of_le hFG
  refine Within.mono (h N hN) ?_ ?_
  · rintro ⟨r, v⟩ k ⟨ha, hk⟩
    refine ⟨ha, ?_⟩
    have h2 : d * (reach r * (N + 1)) ≤ d * (reach i * (N + 1)) :=
      Nat.mul_le_mul_left _ (Nat.mul_le_mul_right _ ha.le)
    dsimp only at *
    simp only [Nat.add_mul F d]
    omega
  · intro k hk
    rw [Nat.add_mul]
    omega

theorem bind {x : TRes α} {f : Bytes × α → TRes β} (h : Semi F i x)
    (hf : ∀ r v, x.out = .ok (r, v) → Adv i r → Semi G r (f (r, v))) : Semi (F + G) i (x >>= f) := by
  intro N hN
  refine Within.bind (h N hN) ?_ ?_
  · rintro ⟨r, v⟩ k ho ⟨ha, hk⟩
    have hr := ha.le
    have h1 : G * (reach r * (N + 1)) ≤ G * (reach i * (N + 1)) :=
      Nat.mul_le_mul_left _ (Nat.mul_le_mul_right _ hr)
    have h2 : F * (reach i * (N + 1)) + F * (N + 1) ≤ F * ((N + 1) * (N + 1)) := by
      rw [← Nat.mul_add, ← Nat.add_one_mul]
      exact Nat.mul_le_mul_left _ (Nat.mul_le_mul_right _ (by omega))
    dsimp only at *
    refine (hf r v ho ha N (by omega)).use ?_ ?_
    · rintro ⟨s, w⟩ m _ ⟨hb, hm⟩
      refine ⟨ha.trans hb, ?_⟩
      have h3 : F * (reach s * (N + 1)) ≤ F * (reach r * (N + 1)) :=
        Nat.mul_le_mul_left _ (Nat.mul_le_mul_right _ hb.le)
      dsimp only at *
      simp only [Nat.add_mul F G]
      omega
    · rintro m _ hm
      rw [Nat.add_mul]
      omega
  · intro k _ hk
    rw [Nat.add_mul]
    omega

theorem skip {f : Bytes → TRes β} (hf : ∀ r, Adv i r → Semi G r (f r)) :
    Semi (60 + G) i (skipCfws c i >>= f) := by
  have h : Semi 60 i (skipCfws c i >>= fun r => .ok (r, ())) := (Flat.skip (G := 0) fun _ _ => Flat.ok).semi
  have := h.bind (G := G) (f := fun a => f a.1) fun r v _ ha => hf r ha
  have e : ((skipCfws c i >>= fun r => (.ok (r, ()) : TRes Unit)) >>= fun a => f a.1) = skipCfws c i >>= f := by
    generalize skipCfws c i = x
    obtain ⟨o, k⟩ := x
    show Timed.bind (Timed.bind ⟨o, k⟩ _) _ = Timed.bind ⟨o, k⟩ f
    unfold Timed.bind Timed.on
    cases o <;> rfl
  rwa [e] at this

theorem lift {x : Outcome α} {f : α → TRes β} (hf : ∀ a, x = .ok a → Semi G i (f a)) :
    Semi G i (Timed.lift x >>= f) := by
  intro N hN
  refine within_bind.mpr (within_lift ?_ (Nat.zero_le _))
  intro a ha
  exact hf a ha N hN

/-- A computation that goes on after another one has failed with a cost proportional to the rest of
the line. -/
theorem after {x : TRes α} {f : Outcome (Bytes × α) → TRes β} (h : Flat F i x)
    (hs : ∀ r v, x.out = .ok (r, v) → Adv i r → Semi G i (f (.ok (r, v))))
    (he : ∀ e, x.out = .err e → Semi G i (f (.err e)))
    (ha : ∀ e, x.out = .abort e → Semi G i (f (.abort e))) : Semi (F + G) i (x.on f) := by
  intro N hN
  have h1 : F * (reach i + 1) ≤ F * (N + 1) := Nat.mul_le_mul_left _ (by omega)
  have h2 : F * (N + 1) ≤ F * ((N + 1) * (N + 1)) :=
    Nat.mul_le_mul_left _ (Nat.le_mul_of_pos_left _ (by omega))
  have key : ∀ {k : Nat} {y : TRes β}, k ≤ F * (reach i + 1) → Semi G i y →
      Within y (0 + k)
        (fun a k => Adv i a.1 ∧
          k + (F + G) * (reach a.1 * (N + 1)) ≤ (F + G) * (reach i * (N + 1)) + (F + G) * (N + 1))
        fun k => k ≤ (F + G) * ((N + 1) * (N + 1)) := by
    intro k y hk hy
    refine (hy N hN).use ?_ ?_
    · rintro ⟨s, w⟩ m _ ⟨hb, hm⟩
      refine ⟨hb, ?_⟩
      have h3 : F * (reach s * (N + 1)) ≤ F * (reach i * (N + 1)) :=
        Nat.mul_le_mul_left _ (Nat.mul_le_mul_right _ hb.le)
      dsimp only at *
      simp only [Nat.add_mul F G]
      omega
    · rintro m _ hm
      rw [Nat.add_mul]
      omega
  refine Within.on h ?_ ?_ ?_
  · rintro ⟨r, v⟩ k ho ⟨h1, h2⟩
    exact key h2 (hs r v ho h1)
  · exact fun e k ho hk => key hk (he e ho)
  · exact fun e k ho hk => key hk (ha e ho)

end Semi

/-! ### Loops -/

/-- A loop where each success pays `M` for each consumed byte. -/
theorem manyLoop_bound {p : Bytes → TRes α} {N M M' : Nat} (hp : ∀ j, reach j ≤ N → Within (p j) 0
    (fun a k => Adv j a.1 ∧ k + 1 + reach a.1 * M ≤ reach j * M) fun k => k + 1 ≤ M') : ∀ n i, reach i ≤ N →
    Within (manyLoop p n i) 0 (fun a k => Adv i a.1 ∧ k + reach a.1 * M ≤ reach i * M + M')
      fun k => k ≤ reach i * M + M'
  | 0, i, _ => within_abort.mpr (Nat.zero_le _)
  | n + 1, i, hN => by
    unfold manyLoop
    refine within_tick.mpr ?_
    refine Within.on (hp i hN) ?_ ?_ ?_
    · rintro ⟨j, v⟩ k _ ⟨ha, hk⟩
      have := ha.le
      dsimp only at *
      refine Within.bind (manyLoop_bound hp n j (by omega)) ?_ ?_
      · rintro ⟨r, w⟩ m _ ⟨hb, hm⟩
        refine within_ok.mpr ⟨ha.trans hb, ?_⟩
        dsimp only at *
        omega
      · rintro m _ hm
        omega
    · rintro e k _ hk
      exact within_ok.mpr ⟨.refl _, by dsimp only; omega⟩
    · rintro e k _ hk
      exact within_abort.mpr (by omega)

theorem shrinks_reach {p : Bytes → TRes α} {q : Bytes → Res α} (hq : ∀ i, (p i).out = q i) (hs : Shrinks q)
    {j r : Bytes} {v : α} (h : (p j).out = .ok (r, v)) (ha : Adv j r) : reach r + 1 ≤ reach j := by
  rw [hq] at h
  have h1 := hs _ _ _ h
  have h2 := ha.length
  omega

theorem Flat.many {F n : Nat} {p : Bytes → TRes α} {q : Bytes → Res α} (hq : ∀ i, (p i).out = q i)
    (hs : Shrinks q) (hp : ∀ j, Flat F j (p j)) : Semi (F + 1) i (manyLoop p n i) := by
  intro N hN
  have := manyLoop_bound (p := p) (N := N) (M := (F + 1) * (N + 1)) (M' := (F + 1) * (N + 1)) ?_ n i hN
  · have e : ∀ m, (F + 1) * (m * (N + 1)) = m * ((F + 1) * (N + 1)) := fun m => Nat.mul_left_comm ..
    refine this.mono ?_ ?_
    · rintro a k ⟨h1, h2⟩
      exact ⟨h1, by rw [e, e]; exact h2⟩
    · intro k hk
      rw [e, Nat.add_mul N 1, Nat.one_mul]
      have := Nat.mul_le_mul_right ((F + 1) * (N + 1)) hN
      omega
  · intro j hj
    have h1 : F * (reach j + 1) + 1 ≤ (F + 1) * (N + 1) := by
      have := Nat.mul_le_mul_left F (show reach j + 1 ≤ N + 1 by omega)
      rw [Nat.add_mul F 1]
      omega
    refine ((hp j).and .self).use ?_ ?_
    · rintro ⟨r, v⟩ k ho ⟨⟨ha, hk⟩, _⟩
      have h2 := shrinks_reach hq hs ho ha
      have h3 := Nat.mul_le_mul_right ((F + 1) * (N + 1)) h2
      rw [Nat.add_mul (reach r) 1, Nat.one_mul] at h3
      dsimp only at *
      exact ⟨ha, by omega⟩
    · rintro k _ ⟨hk, _⟩
      omega

theorem Semi.many {F n : Nat} {p : Bytes → TRes α} {q : Bytes → Res α} (hq : ∀ i, (p i).out = q i)
    (hs : Shrinks q) (hp : ∀ j, Semi F j (p j)) : Quad (3 * F + 1) i (manyLoop p n i) := by
  have e : ∀ m P, m * ((2 * F + 1) * P) = 2 * (F * (m * P)) + m * P := by
    intro m P
    rw [Nat.add_mul, Nat.mul_add, Nat.mul_assoc 2, Nat.mul_left_comm m 2, Nat.mul_left_comm m F, Nat.one_mul]
  have key := manyLoop_bound (p := p) (N := reach i) (M := (2 * F + 1) * (reach i + 1))
    (M' := F * ((reach i + 1) * (reach i + 1)) + 1) ?_ n i (Nat.le_refl _)
  · have h : reach i * ((2 * F + 1) * (reach i + 1)) + (F * ((reach i + 1) * (reach i + 1)) + 1) ≤
        (3 * F + 1) * ((reach i + 1) * (reach i + 1)) := by
      rw [e, Nat.add_mul (3 * F), Nat.mul_assoc 3, Nat.one_mul]
      have h1 : F * (reach i * (reach i + 1)) ≤ F * ((reach i + 1) * (reach i + 1)) :=
        Nat.mul_le_mul_left _ (Nat.mul_le_mul_right _ (by omega))
      have h2 : (reach i + 1) * (reach i + 1) = reach i * (reach i + 1) + (reach i + 1) := by
        rw [Nat.add_mul, Nat.one_mul]
      omega
    refine key.mono ?_ ?_
    · rintro ⟨r, v⟩ k ⟨ha, hk⟩
      dsimp only at *
      exact ⟨ha, by omega⟩
    · intro k hk
      omega
  · intro j hj
    refine ((hp j _ hj).and .self).use ?_ ?_
    · rintro ⟨r, v⟩ k ho ⟨⟨ha, hk⟩, _⟩
      have h2 := shrinks_reach hq hs ho ha
      obtain ⟨d, hd⟩ := Nat.exists_eq_add_of_le h2
      dsimp only at *
      refine ⟨ha, ?_⟩
      have hP : 1 ≤ reach i + 1 := by omega
      rw [e, e]
      rw [hd] at hk ⊢
      generalize reach i + 1 = P at *
      simp only [Nat.add_mul, Nat.mul_add, Nat.one_mul] at hk ⊢
      omega
    · rintro k _ ⟨hk, _⟩
      omega

namespace Quad

variable {F G : Nat}

theorem mono {x : TRes α} (h : Quad F i x) (hFG : F ≤ G) : Quad G i x :=
  Within.mono h (fun _ _ h => ⟨h.1, Nat.le_trans h.2 (Nat.mul_le_mul_right _ hFG)⟩)
    fun _ h => Nat.le_trans h (Nat.mul_le_mul_right _ hFG)

theorem rebase {r : Bytes} {x : TRes α} (ha : Adv i r) (h : Quad F r x) : Quad F i x := by
  have hr : F * ((reach r + 1) * (reach r + 1)) ≤ F * ((reach i + 1) * (reach i + 1)) :=
    Nat.mul_le_mul_left _ (Nat.mul_le_mul (by have := ha.le; omega) (by have := ha.le; omega))
  exact Within.mono h (fun _ _ h => ⟨ha.trans h.1, Nat.le_trans h.2 hr⟩) fun _ h => Nat.le_trans h hr

theorem bind {x : TRes α} {f : Bytes × α → TRes β} (h : Quad F i x)
    (hf : ∀ r v, x.out = .ok (r, v) → Adv i r → Quad G r (f (r, v))) : Quad (F + G) i (x >>= f) := by
  refine Within.bind h ?_ ?_
  · rintro ⟨r, v⟩ k ho ⟨h1, h2⟩
    refine ((hf r v ho h1).rebase h1).use ?_ ?_
    · rintro ⟨s, w⟩ m _ ⟨h3, h4⟩
      exact ⟨h3, by rw [Nat.add_mul]; omega⟩
    · rintro m _ h3
      rw [Nat.add_mul]; omega
  · intro k _ hk
    rw [Nat.add_mul]; omega

theorem on {x : TRes α} {f : Outcome (Bytes × α) → TRes β} (h : Quad F i x)
    (hs : ∀ r v, x.out = .ok (r, v) → Adv i r → Quad G i (f (.ok (r, v))))
    (he : ∀ e, x.out = .err e → Quad G i (f (.err e)))
    (ha : ∀ e, x.out = .abort e → Quad G i (f (.abort e))) : Quad (F + G) i (x.on f) := by
  have key : ∀ {k : Nat} {y : TRes β}, k ≤ F * ((reach i + 1) * (reach i + 1)) → Quad G i y →
      Within y (0 + k) (fun a k => Adv i a.1 ∧ k ≤ (F + G) * ((reach i + 1) * (reach i + 1)))
        fun k => k ≤ (F + G) * ((reach i + 1) * (reach i + 1)) := by
    intro k y hk hy
    refine hy.use ?_ ?_
    · rintro ⟨s, w⟩ m _ ⟨h3, h4⟩
      exact ⟨h3, by rw [Nat.add_mul F]; omega⟩
    · rintro m _ h3
      rw [Nat.add_mul F]; omega
  refine Within.on h ?_ ?_ ?_
  · rintro ⟨r, v⟩ k ho ⟨h1, h2⟩
    exact key h2 (hs r v ho h1)
  · exact fun e k ho hk => key hk (he e ho)
  · exact fun e k ho hk => key hk (ha e ho)

end Quad

/-! ### The lists -/

theorem Flat.comma {F : Nat} {p : Bytes → TRes α} (hp : ∀ j, Flat F j (p j)) (j : Bytes) :
    Flat (2 + F) j (prefixed j p (b! ",")) := by
  unfold prefixed
  refine Flat.tick (n := 2) (F := F) ?_
  split
  · rename_i hs
    obtain ⟨t, rfl⟩ := startsWith_single hs
    refine Flat.lift fun t' ht => ?_
    have : t' = t := by simpa [getUncheckedFrom] using ht.symm
    subst this
    exact (hp t').rebase (adv_cons (by decide))
  · exact Flat.err.mono (Nat.zero_le _)

theorem bind_assoc' (x : Timed α) (f : α → Timed β) (g : β → Timed γ) :
    (x >>= f) >>= g = x >>= fun a => f a >>= g := by
  obtain ⟨o, k⟩ := x
  show Timed.bind (Timed.bind ⟨o, k⟩ f) g = Timed.bind ⟨o, k⟩ fun a => Timed.bind (f a) g
  unfold Timed.bind Timed.on
  cases o with
  | ok a =>
    dsimp only
    generalize f a = y
    obtain ⟨o', k'⟩ := y
    cases o' <;> simp [Nat.add_assoc]
  | err a => rfl
  | abort a => rfl

theorem Semi.comma {F : Nat} {p : Bytes → TRes α} (hp : ∀ j, Semi F j (p j)) (j : Bytes) :
    Semi (2 + F) j (prefixed j p (b! ",")) := by
  have e : prefixed j p (b! ",") = prefixed j (fun i => .ok (i, ())) (b! ",") >>= fun a => p a.1 := by
    unfold prefixed
    rw [bind_assoc']
    congr 1
    funext u
    split
    · rename_i hs
      obtain ⟨t, rfl⟩ := startsWith_single hs
      have : getUncheckedFrom (44 :: t) (b! ",").length = .ok t := by simp [getUncheckedFrom]
      rw [this]
      rfl
    · rfl
  rw [e]
  refine ((Flat.comma (F := 0) (fun _ => Flat.ok) j).semi).bind fun r v _ _ => hp r

theorem mailboxList_semi : Semi 3967 i (mailboxList c i) :=
  Flat.mailbox.semi.bind (G := 1985) fun _ _ _ _ =>
    (Flat.many (fun i => prefixed_of mailbox_out i _) (comma_shrinks mailbox_parses)
      (Flat.comma fun _ => Flat.mailbox)).bind (G := 0) fun _ _ _ _ => Flat.ok.semi

theorem manyLoop_err {p : Bytes → TRes α} {e : Error} : ∀ n i, (manyLoop p n i).out ≠ .err e
  | 0, i => by simp [manyLoop, abort]
  | n + 1, i => by
    intro h
    unfold manyLoop at h
    have key : ∀ (x : TRes α), (∀ a, (manyLoop p n a).out ≠ .err e) → (Timed.on x fun
      | .ok (newInput, newResult) => do
        let (input, results) ← manyLoop p n newInput
        .ok (input, newResult :: results)
      | .err _ => .ok (i, [])
      | .abort k => .abort k : TRes (List α)).out ≠ .err e := by
      rintro ⟨o, k⟩ hx
      cases o with
      | ok a =>
        obtain ⟨j, v⟩ := a
        have := hx j
        show (Timed.bind (manyLoop p n j) _).out ≠ _
        generalize manyLoop p n j = y at this
        obtain ⟨o, k⟩ := y
        cases o with
        | ok a => simp [Timed.bind, Timed.on, ok]
        | err a => simpa [Timed.bind, Timed.on, err] using this
        | abort a => simp [Timed.bind, Timed.on, abort]
      | err a => simp [Timed.on, ok]
      | abort a => simp [Timed.on, abort]
    exact key (p i) (manyLoop_err n) h

/-- If a list of mailboxes cannot be read, it is because of the first one. -/
theorem mailboxList_err {e : Error} (h : (mailboxList c i).out = .err e) :
    (mailboxList c i).cost ≤ 1982 * (reach i + 1) := by
  have hm := Flat.mailbox (c := c) (i := i)
  unfold mailboxList at h ⊢
  unfold Flat Within at hm
  rw [Nat.zero_add] at hm
  generalize mailbox c i = x at *
  obtain ⟨o, k⟩ := x
  cases o with
  | ok a =>
    obtain ⟨j, v⟩ := a
    refine absurd h ?_
    show (Timed.bind (many j _) _).out ≠ _
    have := manyLoop_err (p := fun input => prefixed input (mailbox c) (b! ",")) (e := e) (j.length + 1) j
    unfold many
    generalize manyLoop (fun input => prefixed input (mailbox c) (b! ",")) (j.length + 1) j = y at this
    obtain ⟨o, k⟩ := y
    cases o with
    | ok a => simp [Timed.bind, Timed.on, ok]
    | err a => simpa [Timed.bind, Timed.on, err] using this
    | abort a => simp [Timed.bind, Timed.on, abort]
  | err a => exact hm
  | abort a => exact hm

theorem groupList_semi : Semi 6009 i (groupList c i) := by
  intro N hN
  unfold groupList
  refine Within.on (((mailboxList_semi (c := c) (i := i)).mono (G := 6009) (by decide) N hN).and .self) ?_ ?_ ?_
  · rintro ⟨r, v⟩ k ho ⟨⟨h1, h2⟩, _⟩
    exact within_ok.mpr ⟨h1, by omega⟩
  · rintro e k ho ⟨_, hk⟩
    have h1 := mailboxList_err ho
    have h2 : 1982 * (reach i + 1) ≤ 1982 * (N + 1) := Nat.mul_le_mul_left _ (by omega)
    have h3 : N + 1 ≤ (N + 1) * (N + 1) := Nat.le_mul_of_pos_left _ (by omega)
    refine Within.on (Flat.cfws (c := c) (i := i)) ?_ ?_ ?_
    · rintro ⟨r, v⟩ m _ ⟨ha, hm⟩
      refine within_ok.mpr ⟨ha, ?_⟩
      have : reach r * (N + 1) ≤ reach i * (N + 1) := Nat.mul_le_mul_right _ ha.le
      dsimp only at *
      omega
    · rintro e' m ho' hm
      refine within_ok.mpr ⟨.refl _, ?_⟩
      dsimp only at *
      omega
    · rintro e' m _ hm
      refine within_abort.mpr ?_
      omega
  · rintro e k ho ⟨hk, _⟩
    exact within_abort.mpr (by omega)

theorem group_semi : Semi 6873 i (group c i) :=
  Flat.phrase.semi.bind (G := 6073) fun _ _ _ _ =>
    (Flat.tag (e := b! ":") (by decide +kernel)).semi.bind (G := 6071) fun _ _ _ _ =>
      groupList_semi.bind (G := 62) fun _ _ _ _ =>
        (Flat.tag (e := b! ";") (by decide +kernel)).semi.bind (G := 60) fun _ _ _ _ =>
          Semi.skip (G := 0) fun _ _ => Flat.ok.semi

theorem Semi.okay {r : Bytes} {v : α} (ha : Adv i r) : Semi 0 i (.ok (r, v) : TRes α) := (Flat.ok' ha).semi
theorem Semi.error {e : Error} : Semi 0 i (.err e : TRes α) := Flat.err.semi
theorem Semi.aborted {e : Abort} : Semi 0 i (.abort e : TRes α) := Flat.abort.semi

theorem address_semi : Semi 8855 i (address c i) := by
  unfold address
  refine Semi.after (F := 1982) (G := 6873) Flat.mailbox (fun _ _ _ ha => (Semi.okay ha).mono (by decide)) ?_
    (fun _ _ => Semi.aborted.mono (by decide))
  intro e _
  dsimp only
  intro N hN
  refine Within.on (group_semi (c := c) (i := i) N hN) ?_ ?_ ?_
  · rintro ⟨r, v⟩ k _ ⟨h1, h2⟩
    exact within_ok.mpr ⟨h1, by rw [Nat.zero_add]; exact h2⟩
  · rintro e k _ hk
    exact within_err.mpr (by rw [Nat.zero_add]; exact hk)
  · rintro e k _ hk
    exact within_abort.mpr (by rw [Nat.zero_add]; exact hk)

theorem addressList_quad : Quad 36000 i (addressList c i) := by
  refine Quad.mono (F := 35427) ?_ (by decide)
  exact address_semi.quad.bind (G := 26572) fun _ _ _ _ =>
    (Semi.many (fun i => prefixed_of address_out i _) (comma_shrinks address_parses)
      (Semi.comma fun _ => address_semi)).bind (G := 0) fun _ _ _ _ => Flat.ok.quad

theorem bccValue_quad : Quad 36060 i (bccValue c i) := by
  unfold bccValue
  refine Quad.on (F := 36000) (G := 60) addressList_quad (fun _ _ _ ha => (Flat.ok' ha).quad.mono (by decide)) ?_
    (fun _ _ => Flat.abort.quad.mono (by decide))
  intro e _
  exact Quad.on (F := 60) (G := 0) Flat.cfws.quad (fun _ _ _ ha => (Flat.ok' ha).quad) (fun _ _ => Flat.err.quad)
    (fun _ _ => Flat.abort.quad)

theorem messageIds_quad : Quad 297 i (messageIds c i) :=
  Flat.messageId.quad.bind (G := 149) fun _ _ _ _ =>
    (Flat.many messageId_out (shrinks_of messageId_progress messageId_parses)
      fun _ => Flat.messageId).quad.bind (G := 0) fun _ _ _ _ => Flat.ok.quad

theorem keywordList_quad : Quad 1603 i (keywordList c i) :=
  Flat.phrase.quad.bind (G := 803) fun _ _ _ _ =>
    (Flat.many (fun i => prefixed_of phrase_out i _) (comma_shrinks phrase_parses)
      (Flat.comma fun _ => Flat.phrase)).quad.bind (G := 0) fun _ _ _ _ => Flat.ok.quad

theorem receivedValue_quad : Quad 2111 i (receivedValue c i) :=
  (Flat.many receivedToken_out (shrinks_of receivedToken_progress receivedToken_parses)
    fun _ => Flat.receivedToken).quad.bind (G := 130) fun _ _ _ _ =>
      (Flat.tag (e := b! ";") (by decide +kernel)).quad.bind (G := 128) fun _ _ _ _ =>
        Flat.dateTime.quad.bind (G := 0) fun _ _ _ _ => Flat.ok.quad

theorem contentTypeValue_quad : Quad 484 i (contentTypeValue c i) := by
  unfold contentTypeValue
  refine Semi.quad (Semi.skip (G := 424) fun _ _ => Flat.mimeType.semi.bind (G := 324) fun _ _ _ _ =>
    (Flat.tag (e := b! "/") (by decide +kernel)).semi.bind (G := 322) fun _ _ _ _ =>
      Flat.token.semi.bind (G := 320) fun _ _ _ _ =>
        (Flat.many parameter_out (shrinks_of parameter_progress parameter_parses)
          fun _ => Flat.parameter).bind (G := 64) fun _ _ _ _ => Semi.lift fun _ _ =>
            Flat.ignoreInlineCfws.semi.bind (G := 0) fun _ _ _ _ => Flat.ok.semi)

theorem contentDispositionValue_quad : Quad 1625 i (contentDispositionValue c i) := by
  unfold contentDispositionValue
  refine Semi.quad (Semi.skip (G := 1565) fun _ _ => Flat.dispositionType.semi.bind (G := 1465) fun _ _ _ _ =>
    (Flat.many dispositionItem_out (shrinks_of dispositionItem_progress dispositionItem_parses)
      fun _ => Flat.dispositionItem).bind (G := 64) fun _ _ _ _ => Semi.lift fun _ _ =>
        Flat.ignoreInlineCfws.semi.bind (G := 0) fun _ _ _ _ => Flat.ok.semi)

end EmailParser.Timed
