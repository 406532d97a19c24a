import Verif.Proofs.Timed.Phrase
import Verif.Proofs.Sound.Fields
/-
Parsers whose cost is at most proportional to what remains of the line.
-/
namespace EmailParser.Timed
open Spec (Folded)

variable {α β γ : Type} {c : Cfg}

/-- The computation, started at `i`, stays in the line and costs at most `F` for each byte that
remains of it. -/
def Flat (F : Nat) (i : Bytes) (x : TRes α) : Prop :=
  Within x 0 (fun a k => Adv i a.1 ∧ k ≤ F * (reach i + 1)) fun k => k ≤ F * (reach i + 1)

namespace Flat

variable {F G H : Nat} {i : Bytes}

theorem mono {x : TRes α} (h : Flat F i x) (hFG : F ≤ G) : Flat G i x :=
  Within.mono h (fun _ _ h => ⟨h.1, Nat.le_trans h.2 (Nat.mul_le_mul_right _ hFG)⟩)
    fun _ h => Nat.le_trans h (Nat.mul_le_mul_right _ hFG)

theorem ok {v : α} : Flat 0 i (.ok (i, v)) := within_ok.mpr ⟨.refl _, by omega⟩
theorem err {e : Error} : Flat 0 i (.err e : TRes α) := within_err.mpr (by omega)
theorem abort {e : Abort} : Flat 0 i (.abort e : TRes α) := within_abort.mpr (by omega)

theorem rebase {r : Bytes} {x : TRes α} (ha : Adv i r) (h : Flat F r x) : Flat F i x := by
  have hr : F * (reach r + 1) ≤ F * (reach i + 1) := Nat.mul_le_mul_left _ (by have := ha.le; omega)
  exact Within.mono h (fun _ _ h => ⟨ha.trans h.1, Nat.le_trans h.2 hr⟩) fun _ h => Nat.le_trans h hr

theorem bind {x : TRes α} {f : Bytes × α → TRes β} (h : Flat F i x)
    (hf : ∀ r v, x.out = .ok (r, v) → Adv i r → Flat G r (f (r, v))) : Flat (F + G) i (x >>= f) := by
  refine Within.bind h ?_ ?_
  · rintro ⟨r, v⟩ k ho ⟨h1, h2⟩
    refine ((hf r v ho h1).rebase h1).use ?_ ?_
    · rintro ⟨s, w⟩ m _ ⟨h3, h4⟩
      exact ⟨h3, by rw [Nat.add_mul]; omega⟩
    · rintro m _ h3
      rw [Nat.add_mul]; omega
  · intro k _ hk
    rw [Nat.add_mul]; omega

theorem skip {f : Bytes → TRes β} (hf : ∀ r, Adv i r → Flat G r (f r)) :
    Flat (60 + G) i (skipCfws c i >>= f) := by
  refine Within.bind (skipCfws_within i) ?_ ?_
  · rintro r k ho ⟨h1, h2⟩
    have h2 : k ≤ 60 * (reach i + 1) := by
      rcases h2 with h2 | ⟨_, h2⟩ <;> omega
    refine ((hf r h1).rebase h1).use ?_ ?_
    · rintro ⟨s, w⟩ m _ ⟨h3, h4⟩
      exact ⟨h3, by rw [Nat.add_mul]; omega⟩
    · rintro m _ h3
      rw [Nat.add_mul]; omega
  · intro k _ hk
    rw [Nat.add_mul]; omega

theorem lift {x : Outcome α} {f : α → TRes β} (hf : ∀ a, x = .ok a → Flat G i (f a)) :
    Flat G i (Timed.lift x >>= f) := by
  refine within_bind.mpr (within_lift ?_ (by omega))
  intro a ha
  exact hf a ha

theorem tick {n : Nat} {f : Unit → TRes β} (h : Flat F i (f ())) : Flat (n + F) i (Timed.tick n >>= f) := by
  refine within_tick.mpr (h.use ?_ ?_)
  · rintro ⟨s, w⟩ m _ ⟨h3, h4⟩
    exact ⟨h3, by rw [Nat.add_mul, Nat.mul_add]; omega⟩
  · rintro m _ h3
    rw [Nat.add_mul, Nat.mul_add]; omega

theorem ite {p : Prop} [Decidable p] {x y : TRes α} (hx : p → Flat F i x) (hy : ¬ p → Flat G i y) :
    Flat (F + G) i (if p then x else y) := by
  split
  · exact (hx ‹_›).mono (by omega)
  · exact (hy ‹_›).mono (by omega)

theorem on {x : TRes α} {f : Outcome (Bytes × α) → TRes β} (h : Flat F i x)
    (hs : ∀ r v, x.out = .ok (r, v) → Adv i r → Flat G i (f (.ok (r, v))))
    (he : ∀ e, x.out = .err e → Flat H i (f (.err e)))
    (ha : ∀ e, x.out = .abort e → Flat 0 i (f (.abort e))) : Flat (F + (G + H)) i (x.on f) := by
  have key : ∀ {k : Nat} {y : TRes β}, k ≤ F * (reach i + 1) → Flat (G + H) i y →
      Within y (0 + k) (fun a k => Adv i a.1 ∧ k ≤ (F + (G + H)) * (reach i + 1))
        fun k => k ≤ (F + (G + H)) * (reach i + 1) := by
    intro k y hk hy
    refine hy.use ?_ ?_
    · rintro ⟨s, w⟩ m _ ⟨h3, h4⟩
      exact ⟨h3, by rw [Nat.add_mul F]; omega⟩
    · rintro m _ h3
      rw [Nat.add_mul F]; omega
  refine Within.on h ?_ ?_ ?_
  · rintro ⟨r, v⟩ k ho ⟨h1, h2⟩
    exact key h2 ((hs r v ho h1).mono (by omega))
  · rintro e k ho hk
    exact key hk ((he e ho).mono (by omega))
  · rintro e k ho hk
    exact key hk ((ha e ho).mono (by omega))

theorem ok' {r : Bytes} {v : α} (h : Adv i r) : Flat 0 i (.ok (r, v)) := rebase h ok

theorem optional {p : Bytes → TRes α} (h : Flat F i (p i)) : Flat F i (Timed.optional i p) :=
  on (G := 0) (H := 0) h (fun _ _ _ ha => ok' ha) (fun _ _ => ok) (fun _ _ => abort)

theorem matchNil : Flat 0 i (Timed.matchParsers i ([] : List (Bytes → TRes α))) := err

theorem matchCons {p : Bytes → TRes α} {ps : List (Bytes → TRes α)} (h : Flat F i (p i))
    (hs : Flat G i (Timed.matchParsers i ps)) : Flat (F + G) i (Timed.matchParsers i (p :: ps)) :=
  (on (G := 0) h (fun _ _ _ ha => ok' ha) (fun _ _ => hs) (fun _ _ => abort)).mono (by omega)

theorem tag {e : Bytes} (he : ∀ x ∈ e, lineChar x = true) {m : String} :
    Flat (e.length + 1) i (Timed.tag i e m) :=
  (tag_within he i m).mono
    (fun _ _ h => ⟨h.1, by rw [h.2.2.2]; exact Nat.le_mul_of_pos_right _ (by omega)⟩)
    fun _ h => by rw [h.2]; exact Nat.le_mul_of_pos_right _ (by omega)

theorem takeWhile {p : UInt8 → Bool} (hp : ∀ x, p x = true → lineChar x = true) :
    Flat 2 i (Timed.takeWhile i p) :=
  (takeWhile_within hp i).mono (fun _ _ h => ⟨h.1, by omega⟩) fun _ h => by omega

theorem takeWhile1 {p : UInt8 → Bool} (hp : ∀ x, p x = true → lineChar x = true) :
    Flat 2 i (Timed.takeWhile1 i p) :=
  (takeWhile1_within hp i).mono (fun _ _ h => ⟨h.1, by omega⟩) fun _ h => by omega

theorem mapErr {x : TRes α} {e : Error} (h : Flat F i x) : Flat F i (x.mapErr e) := mapErr_within h

theorem fws : Flat 7 i (Timed.fws i) :=
  (fws_within i).mono (fun _ _ h => ⟨h.1, by omega⟩) fun _ h => by rcases h with h | ⟨_, h⟩ <;> omega

theorem optFws : Flat 7 i (Timed.optional i Timed.fws) := optional fws

theorem fwsOrEmpty : Flat 7 i (Timed.fwsOrEmpty i) :=
  (fwsOrEmpty_within i).mono (fun _ _ h => ⟨h.2.1, by
    have := h.2.1.le
    rcases h.2.2 with h | ⟨_, _, _, h⟩ <;> omega⟩) fun _ h => h.elim

theorem comment {n : Nat} : Flat 60 i (Timed.comment n i) :=
  (comment_within n i).mono (fun _ _ h => ⟨h.1, by omega⟩) fun _ h => by
    rcases h with ⟨h, _⟩ | ⟨_, h⟩ <;> omega

theorem cfws : Flat 60 i (Timed.cfws c i) :=
  (cfws_within i).mono (fun _ _ h => ⟨h.1, by
    rcases h.2.2.2 with h | ⟨_, h⟩ <;> omega⟩) fun _ h => by
    rcases h with (h | ⟨_, h⟩) | ⟨_, h⟩ <;> omega

theorem quotedString : Flat 120 i (Timed.quotedString c i) :=
  (quotedString_within i).mono (fun _ _ h => ⟨h.1, by
    rcases h.2.2.2 with h | ⟨_, h⟩ <;> omega⟩) fun _ h => by omega

theorem word : Flat 240 i (Timed.word c i) :=
  (word_within i).mono (fun _ _ h => ⟨h.1, by
    rcases h.2.2.2 with h | ⟨_, h⟩ <;> omega⟩) fun _ h => by omega

theorem phrase : Flat 800 i (Timed.phrase c i) :=
  (phrase_within i).mono (fun _ _ h => ⟨h.1, h.2.2⟩) fun _ h => h

theorem unstructured : Flat 200 i (Timed.unstructured i) := unstructured_within i

theorem mimeUnstructured : Flat 200 i (Timed.mimeUnstructured c i) := mimeUnstructured_within i

/-- A parser that makes one step and reads a text of a line. -/
theorem one {x : TRes α} {P : α → Prop} {A : Aborts} {Gr : Spec.Gram α} {p : Bytes → Res α} (hx : x.out = p i)
    (hp : Parses A Gr p) (he : Ens P Gr) (hc : x.cost ≤ F) : Flat F i x := by
  have hF : F ≤ F * (reach i + 1) := Nat.le_mul_of_pos_right _ (by omega)
  unfold Flat Within
  rw [hx]
  split
  · rename_i a h
    exact ⟨adv_parses hp he (v := a.2) h, by omega⟩
  · omega
  · omega

end Flat

/-! ### Loops over characters -/

theorem Adv.of_drop {b : UInt8} {t t' : Bytes} (h : lineChar b = true)
    (ht : sliceFrom (b :: t) 1 = .ok t') : t' = t ∧ Adv (b :: t) t' ∧ reach (b :: t) = reach t' + 1 := by
  have : t' = t := by simpa [sliceFrom] using ht.symm
  subst this
  exact ⟨rfl, adv_cons h, reach_char h⟩

theorem dotAtomTextLoop_within : ∀ n i,
    Within (dotAtomTextLoop c n i) 0 (fun a k => Adv i a.1 ∧ k ≤ 6 * (reach i + 1))
      fun k => k ≤ 6 * (reach i + 1)
  | 0, i => within_abort.mpr (by omega)
  | n + 1, i => by
    unfold dotAtomTextLoop
    refine within_tick.mpr ?_
    split
    · rename_i hs
      obtain ⟨t, rfl⟩ := startsWith_single hs
      refine within_bind.mpr (within_lift ?_ (by omega))
      intro t' ht
      obtain ⟨_, ha, hr⟩ := Adv.of_drop (by decide) ht
      refine Within.on (S := fun a k => Adv t' a.1 ∧ reach a.1 + k ≤ reach t' + 2) (F := fun k => k ≤ 2) ?_ ?_ ?_ ?_
      · split
        · exact (takeWhile_within atext_line t').mono (fun _ _ h => ⟨h.1, by omega⟩) fun _ h => h
        · exact (takeWhile1_within atext_line t').mono (fun _ _ h => ⟨h.1, by omega⟩) fun _ h => h.2
      · rintro ⟨r, v⟩ k _ ⟨h1, h2⟩
        dsimp only at *
        have := h1.le
        refine within_bind.mpr (within_lift ?_ (by omega))
        intro d _
        refine Within.bind (dotAtomTextLoop_within n r) ?_ (fun m _ h => by omega)
        rintro ⟨s, w⟩ m _ ⟨h3, h4⟩
        exact within_ok.mpr ⟨(ha.trans h1).trans h3, by omega⟩
      · rintro e k _ h
        exact within_ok.mpr ⟨.refl _, by omega⟩
      · rintro e k _ h
        exact within_abort.mpr (by omega)
    · exact within_ok.mpr ⟨.refl _, by omega⟩

theorem domainLiteralLoop_within : ∀ n i,
    Within (domainLiteralLoop n i) 0 (fun a k => Adv i a.1 ∧ k ≤ 20 * (reach i + 1))
      fun k => k ≤ 20 * (reach i + 1)
  | 0, i => within_abort.mpr (by omega)
  | n + 1, i => by
    unfold domainLiteralLoop
    refine within_tick.mpr ?_
    refine Within.bind (optFws_within i) ?_ (fun _ _ h => h.elim)
    rintro ⟨j, v⟩ k _ ⟨e, ha, hk⟩
    dsimp only at *
    have hle := ha.le
    refine Within.on (takeWhile1_within dtext_line j) ?_ ?_ ?_
    · rintro ⟨r, v⟩ k' _ ⟨h1, hs, e', hv, h2, h3, h4⟩
      dsimp only at *
      have hst := starts_run (r := r) h2 hv
      rw [← e'] at hst
      have hk' : k + 2 * reach j ≤ 2 * reach i + 7 := by
        rcases hk with hk | ⟨rfl, h, _⟩
        · exact hk
        · exact absurd h (hst.not (by decide +kernel))
      refine Within.bind (domainLiteralLoop_within n r) ?_ (fun m _ h => by omega)
      rintro ⟨s, w⟩ m _ ⟨h5, h6⟩
      exact within_ok.mpr ⟨(ha.trans h1).trans h5, by omega⟩
    · rintro e k' _ ⟨_, h⟩
      refine within_ok.mpr ⟨.refl _, ?_⟩
      rcases hk with hk | ⟨_, _, _, hk⟩ <;> omega
    · rintro e k' _ ⟨_, h⟩
      refine within_abort.mpr ?_
      rcases hk with hk | ⟨_, _, _, hk⟩ <;> omega

theorem digit_flat (i : Bytes) : Flat 1 i (digit i) := by
  refine Flat.one (P := fun _ => True) (digit_out i) (digit_parses (A := .none)) ?_ ?_
  · rintro w v ⟨d, rfl, hd, _⟩
    refine ⟨folded_of fun x hx => ?_, trivial⟩
    simp at hx
    subst hx
    exact .inl ((by decide +kernel : ∀ d, Spec.digit d = true → Spec.vchar d = true) x hd)
  · unfold digit
    rw [tick_cost]
    split
    · split <;> exact Nat.le_refl _
    · exact Nat.le_refl _

theorem u8NumberLoop_within : ∀ n i m,
    Within (u8NumberLoop n i m) 0 (fun a k => Adv i a.1 ∧ k ≤ 2 * (reach i + 1))
      fun k => k ≤ 2 * (reach i + 1)
  | 0, i, m => within_abort.mpr (by omega)
  | n + 1, i, m => by
    unfold u8NumberLoop
    refine within_tick.mpr ?_
    have hc : (digit i).cost = 1 := by
      unfold digit
      rw [tick_cost]
      split
      · split <;> rfl
      · rfl
    refine Within.on ((digit_flat i).and .self) ?_ ?_ ?_
    · rintro ⟨r, v⟩ k ho ⟨⟨h1, h2⟩, h3⟩
      have hs : reach r + 1 ≤ reach i := by
        rw [digit_out] at ho
        have := digit_parses (A := .none) i
        rw [ho] at this
        obtain ⟨w, hw, d, rfl, _⟩ := this
        have hl := h1.length
        simp only [List.cons_append, List.nil_append] at hw
        rw [hw] at hl ⊢
        simp only [List.length_cons] at hl
        dsimp only at *
        omega
      dsimp only at *
      split
      · split
        · refine (u8NumberLoop_within n r _).use ?_ (fun k _ h => by omega)
          rintro ⟨s, w⟩ m _ ⟨h5, h6⟩
          exact ⟨h1.trans h5, by omega⟩
        · exact within_err.mpr (by omega)
      · exact within_err.mpr (by omega)
    · rintro e k _ ⟨_, h⟩
      exact within_ok.mpr ⟨.refl _, by omega⟩
    · rintro e k _ ⟨_, h⟩
      exact within_abort.mpr (by omega)

theorem tagNoCaseLoop_cost (i e e2 : Bytes) (m : String) : ∀ n k,
    (tagNoCaseLoop i e e2 m k n).cost ≤ n
  | 0, k => Nat.le_refl _
  | n + 1, k => by
    unfold tagNoCaseLoop
    rw [tick_cost]
    have hb : ∀ {γ δ : Type} (x : Outcome γ) (f : γ → Timed δ) N, (∀ a, (f a).cost ≤ N) → (lift x >>= f).cost ≤ N := by
      intro γ δ x f N h
      cases x with
      | ok a => show 0 + (f a).cost ≤ N; have := h a; omega
      | err a => exact Nat.zero_le _
      | abort a => exact Nat.zero_le _
    rw [Nat.add_comm n 1]
    refine Nat.add_le_add_left ?_ 1
    refine hb _ _ n fun a => hb _ _ n fun b => hb _ _ n fun d => ?_
    split
    · exact Nat.zero_le _
    · exact tagNoCaseLoop_cost ..

theorem tagNoCase_cost (i e e2 : Bytes) (m : String) : (tagNoCase i e e2 m).cost ≤ e.length + 1 := by
  unfold tagNoCase
  rw [tick_cost]
  split
  · split
    · show 1 + 0 ≤ _; omega
    · rw [bind_cost_zero]
      · have := tagNoCaseLoop_cost i e e2 m e.length 0
        omega
      · intro u
        rw [bind_cost_zero, lift_cost]
        intro a; rfl
  · show 1 + 0 ≤ _; omega

theorem tagNoCase_flat {e e2 : Bytes} (h : e2 = e.map swapCase) (he : ∀ x ∈ e, Spec.vchar x = true)
    (m : String) (i : Bytes) : Flat (e.length + 1) i (tagNoCase i e e2 m) := by
  refine Flat.one (P := fun _ => True) (p := fun i => EmailParser.tagNoCase i e e2 m) (tagNoCase_out ..)
    (tagNoCase_parses (A := .none) m h) ?_ (tagNoCase_cost ..)
  exact ens_litNoCase he trivial

end EmailParser.Timed
