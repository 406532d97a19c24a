import Verif.Proofs.Timed.Erase
import Verif.Proofs.Complete.Cfws
import Verif.Proofs.Strings
/-
How far a parser of a field can look: the folded line it is in.  Rules to follow the count of steps
through a function, and the cost of the primitives.
-/
namespace EmailParser.Timed
open Spec (Folded)

variable {α β γ : Type} {c : Cfg}

/-! ### Following the count -/

/-- Started after `n` steps, the computation ends well with a value and a count satisfying `S`, or
ends badly with a count satisfying `F`. -/
def Within (x : Timed α) (n : Nat) (S : α → Nat → Prop) (F : Nat → Prop) : Prop :=
  match x.out with
  | .ok a => S a (n + x.cost)
  | .err _ => F (n + x.cost)
  | .abort _ => F (n + x.cost)

theorem within_ok {a : α} {n : Nat} {S : α → Nat → Prop} {F : Nat → Prop} :
    Within (ok a) n S F ↔ S a n := Iff.rfl
theorem within_err {e : Error} {n : Nat} {S : α → Nat → Prop} {F : Nat → Prop} :
    Within (err e : Timed α) n S F ↔ F n := Iff.rfl
theorem within_abort {e : Abort} {n : Nat} {S : α → Nat → Prop} {F : Nat → Prop} :
    Within (abort e : Timed α) n S F ↔ F n := Iff.rfl
theorem within_pure {a : α} {n : Nat} {S : α → Nat → Prop} {F : Nat → Prop} :
    Within (pure a) n S F ↔ S a n := Iff.rfl

theorem within_bind {x : Timed α} {f : α → Timed β} {n : Nat} {S : β → Nat → Prop}
    {F : Nat → Prop} :
    Within (x >>= f) n S F ↔ Within x n (fun a m => Within (f a) m S F) F := by
  obtain ⟨o, k⟩ := x
  show Within (bind ⟨o, k⟩ f) n S F ↔ _
  unfold bind on Within
  cases o <;> simp [Nat.add_assoc, err, abort]

theorem within_tick {m : Nat} {f : Unit → Timed β} {n : Nat} {S : β → Nat → Prop} {F : Nat → Prop} :
    Within (tick m >>= f) n S F ↔ Within (f ()) (n + m) S F := within_bind

/-- Use what is known about a computation. -/
theorem Within.use {x : Timed α} {n : Nat} {S S' : α → Nat → Prop} {F F' : Nat → Prop}
    (h : Within x 0 S F) (hs : ∀ a k, x.out = .ok a → S a k → S' a (n + k))
    (hf : ∀ k, (∀ a, x.out ≠ .ok a) → F k → F' (n + k)) : Within x n S' F' := by
  obtain ⟨o, k⟩ := x
  unfold Within at h ⊢
  cases o with
  | ok a => simpa using hs a k rfl (by simpa using h)
  | err a => simpa using hf k (by simp) (by simpa using h)
  | abort a => simpa using hf k (by simp) (by simpa using h)

theorem Within.bind {x : Timed α} {f : α → Timed β} {n : Nat} {S : α → Nat → Prop} {F : Nat → Prop}
    {S' : β → Nat → Prop} {F' : Nat → Prop} (h : Within x 0 S F)
    (hs : ∀ a k, x.out = .ok a → S a k → Within (f a) (n + k) S' F')
    (hf : ∀ k, (∀ a, x.out ≠ .ok a) → F k → F' (n + k)) : Within (x >>= f) n S' F' :=
  within_bind.mpr (h.use hs hf)

theorem Within.on {x : Timed α} {f : Outcome α → Timed β} {n : Nat} {S : α → Nat → Prop}
    {F : Nat → Prop} {S' : β → Nat → Prop} {F' : Nat → Prop} (h : Within x 0 S F)
    (hs : ∀ a k, x.out = .ok a → S a k → Within (f (.ok a)) (n + k) S' F')
    (he : ∀ e k, x.out = .err e → F k → Within (f (.err e)) (n + k) S' F')
    (ha : ∀ e k, x.out = .abort e → F k → Within (f (.abort e)) (n + k) S' F') :
    Within (x.on f) n S' F' := by
  obtain ⟨o, k⟩ := x
  have : ∀ o', Within (f o') (n + k) S' F' → Within (Timed.on ⟨o', k⟩ f) n S' F' := by
    intro o' h
    unfold Within Timed.on at *
    simpa [Nat.add_assoc] using h
  refine this o ?_
  unfold Within at h
  cases o with
  | ok a => exact hs a k rfl (by simpa using h)
  | err a => exact he a k rfl (by simpa using h)
  | abort a => exact ha a k rfl (by simpa using h)

theorem Within.mono {x : Timed α} {n : Nat} {S S' : α → Nat → Prop} {F F' : Nat → Prop}
    (h : Within x n S F) (hs : ∀ a k, S a k → S' a k) (hf : ∀ k, F k → F' k) :
    Within x n S' F' := by
  unfold Within at h ⊢
  split <;> rename_i e <;> rw [e] at h
  · exact hs _ _ h
  · exact hf _ h
  · exact hf _ h

theorem Within.cost {x : Timed α} {S : α → Nat → Prop} {F : Nat → Prop} (h : Within x 0 S F)
    (hs : ∀ a k, S a k → F k) : F x.cost := by
  unfold Within at h
  rw [Nat.zero_add] at h
  split at h
  · exact hs _ _ h
  · exact h
  · exact h

theorem within_lift {x : Outcome α} {n : Nat} {S : α → Nat → Prop} {F : Nat → Prop}
    (hs : ∀ a, x = .ok a → S a n) (hf : F n) : Within (lift x) n S F := by
  unfold Within lift
  cases x with
  | ok a => exact hs a rfl
  | err a => exact hf
  | abort a => exact hf

theorem within_of_out {x : Timed α} {a : α} {n : Nat} {S : α → Nat → Prop} {F : Nat → Prop}
    (h : x.out = .ok a) (hs : S a (n + x.cost)) : Within x n S F := by
  unfold Within; rw [h]; exact hs

theorem within_of_err {x : Timed α} {e : Error} {n : Nat} {S : α → Nat → Prop} {F : Nat → Prop}
    (h : x.out = .err e) (hs : F (n + x.cost)) : Within x n S F := by
  unfold Within; rw [h]; exact hs

/-! ### The rest of the folded line -/

/-- The character may occur in a line. -/
def lineChar (b : UInt8) : Bool := Spec.vchar b || Spec.wsp b

/-- How many bytes remain of the folded line at the head of the input. -/
def reach : Bytes → Nat
  | [] => 0
  | [b] => if lineChar b then 1 else 0
  | [b, b'] => if lineChar b then reach [b'] + 1 else 0
  | b :: b' :: x :: t =>
    if lineChar b then reach (b' :: x :: t) + 1
    else if b = 13 && b' = 10 && Spec.wsp x then reach t + 3
    else 0

theorem reach_char {b : UInt8} {t : Bytes} (h : lineChar b = true) : reach (b :: t) = reach t + 1 := by
  cases t with
  | nil => simp [reach, h]
  | cons b' t =>
    cases t with
    | nil => simp [reach, h]
    | cons x t => rw [reach, if_pos h]

theorem reach_fold {x : UInt8} {t : Bytes} (h : Spec.wsp x = true) :
    reach (13 :: 10 :: x :: t) = reach t + 3 := by
  rw [reach]
  simp [h, show lineChar 13 = false from by decide]

theorem reach_append {w : Bytes} (h : Folded w) (r : Bytes) : reach (w ++ r) = w.length + reach r := by
  induction h with
  | nil => simp
  | char hx _ ih =>
    rw [List.cons_append, reach_char (by simpa [lineChar] using hx), ih]; simp; omega
  | fold hx _ ih =>
    rw [List.cons_append, List.cons_append, List.cons_append, reach_fold hx, ih]; simp; omega

theorem reach_le (i : Bytes) : reach i ≤ i.length := by
  induction i using reach.induct with
  | case1 => simp [reach]
  | case2 b h => simp [reach, h]
  | case3 b h => simp [reach, h]
  | case4 b b' h ih => simp only [reach, h, if_true]; simp only [List.length_cons, reach] at *; omega
  | case5 b b' h => simp [reach, h]
  | case6 b b' x t h ih => rw [reach, if_pos h]; simp only [List.length_cons] at *; omega
  | case7 b b' x t h h' ih =>
    rw [reach, if_neg h, if_pos h']; simp only [List.length_cons] at *; omega
  | case8 b b' x t h h' => rw [reach, if_neg h, if_neg h']; simp

/-- The input has been read up to `r`, within the folded line. -/
def Adv (i r : Bytes) : Prop := ∃ w, i = w ++ r ∧ Folded w

theorem Adv.refl (i : Bytes) : Adv i i := ⟨[], rfl, .nil⟩

theorem Adv.trans {i j r : Bytes} (h : Adv i j) (h' : Adv j r) : Adv i r := by
  obtain ⟨w, rfl, hw⟩ := h
  obtain ⟨v, rfl, hv⟩ := h'
  exact ⟨w ++ v, by simp, hw.append hv⟩

theorem Adv.le {i r : Bytes} (h : Adv i r) : reach r ≤ reach i := by
  obtain ⟨w, rfl, hw⟩ := h
  rw [reach_append hw]; omega

theorem Adv.length {i r : Bytes} (h : Adv i r) : i.length + reach r = r.length + reach i := by
  obtain ⟨w, rfl, hw⟩ := h
  rw [reach_append hw]; simp; omega

theorem adv_run {p : UInt8 → Bool} (hp : ∀ x, p x = true → lineChar x = true) {w r : Bytes}
    (h : ∀ x ∈ w, p x = true) : Adv (w ++ r) r :=
  ⟨w, rfl, folded_of fun x hx => by simpa [lineChar] using hp x (h x hx)⟩

theorem adv_parses {A : Aborts} {G : Spec.Gram α} {P : α → Prop} {p : Bytes → Res α}
    (hp : Parses A G p) (he : Ens P G) {i r : Bytes} {v : α} (h : p i = .ok (r, v)) : Adv i r := by
  have := hp i
  rw [h] at this
  obtain ⟨w, e, hw⟩ := this
  exact ⟨w, e, (he _ _ hw).1⟩

/-! ### Primitives -/

theorem examined_run {p : UInt8 → Bool} {w r : Bytes} (h : ∀ x ∈ w, p x = true) :
    examined p (w ++ r) = w.length + examined p r := by
  induction w with
  | nil => simp
  | cons a w ih =>
    rw [List.cons_append, examined, if_pos (h a (by simp)), ih fun x hx => h x (by simp [hx])]
    simp; omega

theorem examined_stops {p : UInt8 → Bool} {r : Bytes} (h : Stops p r) : examined p r ≤ 1 := by
  cases r with
  | nil => simp [examined]
  | cons b t => rw [examined, stops_cons.mp h]; simp

theorem lift_cost (x : Outcome α) : (lift x).cost = 0 := rfl

theorem bind_cost_zero {x : Timed α} {f : α → Timed β} (h : ∀ a, (f a).cost = 0) :
    (x >>= f).cost = x.cost := by
  obtain ⟨o, k⟩ := x
  show (Timed.bind ⟨o, k⟩ f).cost = k
  unfold Timed.bind Timed.on
  cases o <;> simp [h, err, abort]

theorem tick_cost {n : Nat} {f : Unit → Timed β} : (tick n >>= f).cost = n + (f ()).cost := rfl

theorem takeWhile_cost (i : Bytes) (p : UInt8 → Bool) : (takeWhile i p).cost = examined p i + 1 := by
  unfold takeWhile
  rw [tick_cost]
  split
  · rw [bind_cost_zero, lift_cost]; intro a; rw [bind_cost_zero, lift_cost]; intro a; rfl
  · rfl

theorem takeWhile1_cost (i : Bytes) (p : UInt8 → Bool) : (takeWhile1 i p).cost = examined p i + 1 := by
  unfold takeWhile1
  rw [tick_cost]
  split
  · rfl
  · split
    · rfl
    · split
      · rw [bind_cost_zero, lift_cost]; intro a; rw [bind_cost_zero, lift_cost]; intro a; rfl
      · rfl

theorem tag_cost (i e : Bytes) (m : String) : (tag i e m).cost = e.length + 1 := by
  unfold tag
  rw [tick_cost]
  split
  · rw [bind_cost_zero, lift_cost]; intro a; rfl
  · rfl

/-- Arithmetic on the counts. -/
macro "count" : tactic => `(tactic| (try dsimp only at *) <;> omega)

/-- `take_while` over characters of lines. -/
theorem takeWhile_within {p : UInt8 → Bool} (hp : ∀ x, p x = true → lineChar x = true) (i : Bytes) :
    Within (takeWhile i p) 0 (fun a k => Adv i a.1 ∧ Stops p a.1 ∧ i = a.2 ++ a.1 ∧
      (∀ x ∈ a.2, p x = true) ∧ reach i = a.2.length + reach a.1 ∧ k ≤ a.2.length + 2)
      fun k => k ≤ 2 := by
  have hm : ∀ x ∈ i.takeWhile p, p x = true := fun x hx => mem_takeWhile hx
  have hs : Stops p (i.dropWhile p) := by
    intro b t h
    have := List.head?_dropWhile_not p i
    rw [h] at this
    simpa using this
  have e : i = i.takeWhile p ++ i.dropWhile p := List.takeWhile_append_dropWhile.symm
  have ha : Adv i (i.dropWhile p) := by
    have := adv_run hp (r := i.dropWhile p) hm
    rwa [← e] at this
  refine within_of_out (by rw [takeWhile_out, takeWhile_eq]) ⟨ha, hs, e, hm, ?_, ?_⟩
  · have := ha.length
    have h2 := congrArg List.length e
    rw [List.length_append] at h2
    show reach i = (i.takeWhile p).length + reach (i.dropWhile p)
    omega
  · rw [takeWhile_cost]
    have h1 := examined_run (r := i.dropWhile p) hm
    rw [← e] at h1
    have := examined_stops hs
    show 0 + (examined p i + 1) ≤ (i.takeWhile p).length + 2
    omega

/-- `take_while1` over characters of lines. -/
theorem takeWhile1_within {p : UInt8 → Bool} (hp : ∀ x, p x = true → lineChar x = true) (i : Bytes) :
    Within (takeWhile1 i p) 0 (fun a k => Adv i a.1 ∧ Stops p a.1 ∧ i = a.2 ++ a.1 ∧
      (∀ x ∈ a.2, p x = true) ∧ 1 ≤ a.2.length ∧ reach i = a.2.length + reach a.1 ∧
      k ≤ a.2.length + 2) fun k => Stops p i ∧ k ≤ 2 := by
  rcases takeWhile1_cases p i with ⟨hs, e, he⟩ | ⟨w, r, rfl, hne, hw, hs, he⟩
  · refine within_of_err (by rw [takeWhile1_out, he]) ⟨hs, ?_⟩
    rw [takeWhile1_cost]
    have := examined_stops hs
    omega
  · have ha := adv_run hp (r := r) hw
    refine within_of_out (by rw [takeWhile1_out, he]) ⟨ha, hs, rfl, hw, ?_, ?_, ?_⟩
    · exact List.length_pos_iff.mpr hne
    · have := ha.length
      rw [List.length_append] at this
      show reach (w ++ r) = w.length + reach r
      omega
    · rw [takeWhile1_cost]
      have h1 := examined_run (r := r) hw
      have := examined_stops hs
      show 0 + (examined p (w ++ r) + 1) ≤ w.length + 2
      omega

/-- `tag` with a text of characters of lines. -/
theorem tag_within {e : Bytes} (he : ∀ x ∈ e, lineChar x = true) (i : Bytes) (m : String) :
    Within (tag i e m) 0 (fun a k => Adv i a.1 ∧ i = e ++ a.1 ∧ reach i = e.length + reach a.1 ∧
      k = e.length + 1) fun k => ¬ e <+: i ∧ k = e.length + 1 := by
  rcases tag_cases i e m with ⟨r, rfl, ht⟩ | ⟨hn, ht⟩
  · have ha : Adv (e ++ r) r := adv_run (p := lineChar) (fun _ h => h) he
    refine within_of_out (by rw [tag_out, ht]) ⟨ha, rfl, ?_, ?_⟩
    · have := ha.length
      rw [List.length_append] at this
      show reach (e ++ r) = e.length + reach r
      omega
    · rw [tag_cost]; omega
  · exact within_of_err (by rw [tag_out, ht]) ⟨hn, by rw [tag_cost]; omega⟩

theorem wsp_line : ∀ x, isWsp x = true → lineChar x = true := by decide +kernel
theorem ctext_line : ∀ x, isCtext x = true → lineChar x = true := by decide +kernel
theorem qtext_line : ∀ x, isQtext x = true → lineChar x = true := by decide +kernel
theorem atext_line : ∀ x, isAtext x = true → lineChar x = true := by decide +kernel
theorem dtext_line : ∀ x, isDtext x = true → lineChar x = true := by decide +kernel
theorem vchar_line : ∀ x, isVchar x = true → lineChar x = true := by decide +kernel
theorem ftext_line : ∀ x, isFtext x = true → lineChar x = true := by decide +kernel
theorem digit_line : ∀ x, isDigit x = true → lineChar x = true := by decide +kernel

/-- The input starts with a character of the class. -/
def Starts (p : UInt8 → Bool) (i : Bytes) : Prop := ∃ b t, i = b :: t ∧ p b = true

theorem starts_or_stops (p : UInt8 → Bool) (i : Bytes) : Starts p i ∨ Stops p i := by
  cases i with
  | nil => exact .inr stops_nil
  | cons b t =>
    cases h : p b with
    | true => exact .inl ⟨b, t, rfl, h⟩
    | false => exact .inr (stops_cons.mpr h)

/-- Folding white space. -/
theorem fws_within (i : Bytes) :
    Within (fws i) 0 (fun a k => Adv i a.1 ∧ reach a.1 + 1 ≤ reach i ∧
      k + 2 * reach a.1 ≤ 2 * reach i + 7)
      fun k => k ≤ 7 ∨ (Starts isWsp i ∧ k ≤ reach i + 7) := by
  unfold fws
  unfold optional
  refine within_bind.mpr ?_
  unfold pair
  refine Within.on (S := fun a k => ∃ v, i = v ++ (13 :: 10 :: a.1) ∧ (∀ x ∈ v, isWsp x = true) ∧
      v.length ≤ reach i ∧ k ≤ v.length + 5)
    (F := fun k => ∃ v, (∃ r, Stops isWsp r ∧ i = v ++ r) ∧ (∀ x ∈ v, isWsp x = true) ∧ v.length ≤ reach i ∧ k ≤ v.length + 5) ?_ ?_ ?_ ?_
  · refine Within.bind (takeWhile_within wsp_line i) ?_ ?_
    · rintro ⟨r, v⟩ k he ⟨ha, hs, e, hv, h1, h2⟩
      dsimp only at *
      refine within_bind.mpr ?_
      rcases tag_cases r (b! "\r\n") "TAG ERROR: A folding whitespace must end with a `\\r\\n` sequence." with
        ⟨t, rfl, ht⟩ | ⟨hn, ht⟩
      · refine within_of_out (by rw [tag_out, ht]) ?_
        rw [tag_cost]
        exact ⟨v, e, hv, by omega, by show 0 + k + 3 ≤ _; omega⟩
      · refine within_of_err (by rw [tag_out, ht]) ?_
        rw [tag_cost]
        exact ⟨v, ⟨_, hs, e⟩, hv, by omega, by show 0 + k + 3 ≤ _; omega⟩
    · intro k hn
      exact absurd (by rw [takeWhile_out, takeWhile_eq]) (hn _)
  · rintro ⟨r, u⟩ k _ ⟨v, e, hv, hl, hk⟩
    refine within_ok.mpr ?_
    dsimp only at *
    refine Within.bind (takeWhile1_within wsp_line r) ?_ ?_
    · rintro ⟨r', v'⟩ k' _ ⟨ha, hs, e', hv', hl', h1, h2⟩
      dsimp only at *
      cases hv'' : v' with
      | nil => simp [hv''] at hl'
      | cons x w =>
        subst hv''
        have hx : Spec.wsp x = true := by rw [← isWsp_eq]; exact hv' x (by simp)
        have hf : Folded (v ++ (13 :: 10 :: x :: w)) :=
          Folded.append (folded_of fun y hy => .inr (by rw [← isWsp_eq]; exact hv y hy))
            (.fold hx (folded_of fun y hy => .inr (by rw [← isWsp_eq]; exact hv' y (by simp [hy]))))
        have e2 : i = (v ++ (13 :: 10 :: x :: w)) ++ r' := by rw [e, e']; simp
        have hr := reach_append hf r'
        rw [← e2] at hr
        simp only [List.length_append, List.length_cons] at hr h2
        exact within_ok.mpr ⟨⟨_, e2, hf⟩, by count, by count⟩
    · rintro k' _ ⟨_, hk'⟩
      rcases v with _ | ⟨x, v⟩
      · exact .inl (by simp at hk; omega)
      · exact .inr ⟨⟨x, _, e, hv x (by simp)⟩, by omega⟩
  · rintro err k _ ⟨v, ⟨r, hs, e⟩, hv, hl, hk⟩
    refine within_ok.mpr ?_
    dsimp only at *
    refine Within.bind (takeWhile1_within wsp_line i) ?_ ?_
    · rintro ⟨r', v'⟩ k' _ ⟨ha, hs', e', hv', hl', h1, h2⟩
      dsimp only at *
      have : v'.length = v.length := by
        have h3 := (takeWhile_run hv hs).1
        have h4 := (takeWhile_run hv' hs').1
        rw [← e] at h3
        rw [← e'] at h4
        rw [← h3, ← h4]
      exact within_ok.mpr ⟨ha, by count, by count⟩
    · rintro k' _ ⟨hs', hk'⟩
      rcases v with _ | ⟨x, v⟩
      · exact .inl (by simp at hk; omega)
      · rw [e, List.cons_append, stops_cons, hv x (by simp)] at hs'
        cases hs'
  · rintro err k _ ⟨v, ⟨r, hs, e⟩, hv, hl, hk⟩
    show 0 + k ≤ 7 ∨ (_ ∧ 0 + k ≤ _)
    rcases v with _ | ⟨x, v⟩
    · exact .inl (by simp at hk; omega)
    · exact .inr ⟨⟨x, _, e, hv x (by simp)⟩, by omega⟩


end EmailParser.Timed
