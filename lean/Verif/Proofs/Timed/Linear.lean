import Verif.Proofs.Timed.Overlap
/-
Without MIME, the cost of each value of a header field is proportional to the length of its line.
-/
namespace EmailParser.Timed
open Spec (Folded)

variable {α β γ : Type} {c : Cfg} {i : Bytes}

theorem bind_of_ok {x : Timed α} {f : α → Timed β} {a : α} (h : x.out = .ok a) :
    (x >>= f).out = (f a).out ∧ (x >>= f).cost = x.cost + (f a).cost := by
  obtain ⟨o, k⟩ := x
  dsimp only at h
  subst h
  exact ⟨rfl, rfl⟩

theorem bind_of_err {x : Timed α} {f : α → Timed β} {e : Error} (h : x.out = .err e) :
    (x >>= f).out = .err e ∧ (x >>= f).cost = x.cost := by
  obtain ⟨o, k⟩ := x
  dsimp only at h
  subst h
  exact ⟨rfl, rfl⟩

/-! ### Phrases -/

theorem phraseWord_word (hm : c.feat.mime = false) : phraseWord c = word c := by
  funext i
  unfold phraseWord
  rw [hm]
  rfl

theorem word_reach {j r v : Bytes} (h : (word c j).out = .ok (r, v)) : reach r + 1 ≤ reach j := by
  have := word_within (c := c) j
  unfold Within at this
  rw [h] at this
  exact this.2.1

theorem word_blocked (h : Blocked c i) (a : Bytes × Bytes) : (word c i).out ≠ .ok a :=
  fails_of_err (word_err h.skip (h.stops (by decide +kernel)) (h.stops (by decide +kernel))).1 a

/-- White space, parentheses and quotes. -/
def isStuck (b : UInt8) : Bool := isGap b || isDquote b

/-- Why a word cannot be read. -/
theorem word_err_inv {e : Error} (h : (word c i).out = .err e) : ∃ j, EmailParser.skipCfws c i = .ok j ∧
    Stops isAtext j ∧ ((word c i).cost + 120 * reach j ≤ 120 * reach i + 64 ∨ Starts isStuck j) := by
  have ha : ∃ e, (atom c i).out = .err e := by
    unfold word matchParsers at h
    cases h1 : (atom c i).out with
    | ok a => simp only [on_out, h1] at h; cases h
    | err a => exact ⟨_, rfl⟩
    | abort a => simp only [on_out, h1] at h; cases h
  obtain ⟨e', ha⟩ := ha
  obtain ⟨j, hj, hs⟩ := atom_err_inv ha
  refine ⟨j, hj, hs, ?_⟩
  rcases starts_or_stops isDquote j with hd | hd
  · obtain ⟨b, t, rfl, hb⟩ := hd
    exact .inr ⟨b, t, rfl, by simp [isStuck, hb]⟩
  · refine (word_err hj hs hd).2.imp id fun h => ?_
    obtain ⟨b, t, rfl, hb⟩ := h.starts
    exact ⟨b, t, rfl, by simp [isStuck, hb]⟩

/-- Where a phrase ends: after the gap that follows, its cost has been repaid. -/
theorem phrase_paid (hm : c.feat.mime = false) : Within (phrase c i) 0 (fun a k => Adv i a.1 ∧
    ∃ j, EmailParser.skipCfws c a.1 = .ok j ∧ (k + 221 * reach j ≤ 221 * reach i + 165 ∨ Starts isStuck j)) fun _ => True := by
  unfold phrase many1
  rw [phraseWord_word hm]
  refine Within.bind (word_repaid.rate (B := 221) (by decide)) ?_ (fun _ _ _ => trivial)
  rintro ⟨r, v⟩ k ho ⟨ha, hk⟩
  dsimp only at *
  have hloop := manyLoop_repaid (p := word c) (fun j => word_repaid) (fun _ _ _ => word_reach)
    (fun _ h => word_blocked h) (r.length + 1) r
  have hend : ∀ s, (∃ e, (word c s).out = .err e) → Blocked c s →
      ∃ j, EmailParser.skipCfws c s = .ok j ∧ Starts isStuck j := by
    rintro s _ hb
    refine ⟨s, hb.skip, ?_⟩
    obtain ⟨b, t, rfl, hg⟩ := hb.starts
    exact ⟨b, t, rfl, by simp [isStuck, hg]⟩
  have hout : ∀ s, Adv r s → (∃ e, (word c s).out = .err e) → ∀ m : Nat, 
      (m + 221 * reach s ≤ 221 * reach i + 100 + (word c s).cost + 1 ∨ Blocked c s) →
      ∃ j, EmailParser.skipCfws c s = .ok j ∧ (m + 221 * reach j ≤ 221 * reach i + 165 ∨ Starts isStuck j) := by
    rintro s hs ⟨e, he⟩ m hk
    rcases hk with hk | hk
    · obtain ⟨j, hj, _, h⟩ := word_err_inv he
      refine ⟨j, hj, h.imp (fun h => ?_) id⟩
      have := skipCfws_within (c := c) s
      unfold Within at this
      rw [skipCfws_out, hj] at this
      have := this.1.le
      omega
    · obtain ⟨j, hj, h⟩ := hend s ⟨e, he⟩ hk
      exact ⟨j, hj, .inr h⟩
  rcases hk with hk | hk
  · refine Within.bind hloop ?_ (fun _ _ _ => trivial)
    rintro ⟨s, w⟩ m _ ⟨h1, h2, h3⟩
    refine within_ok.mpr ⟨ha.trans h1, hout s h1 h2 _ ?_⟩
    dsimp only at *
    exact h3.imp (fun h => by omega) id
  · refine Within.bind (hloop.and (manyLoop_stuck (word_blocked hk) _)) ?_ (fun _ _ _ => trivial)
    rintro ⟨s, w⟩ m _ ⟨⟨h1, h2, h3⟩, h4⟩
    dsimp only at h4
    subst h4
    exact within_ok.mpr ⟨ha.trans h1, hout s h1 h2 _ (.inr hk)⟩

/-- The characters that follow a phrase. -/
def isPunct (b : UInt8) : Bool := b == 58 || b == 44

theorem isPunct_colon : ∀ b, isPunct b = false → (b == 58) = false := by decide +kernel

theorem phrase_repaid (hm : c.feat.mime = false) : Repaid (Stops isPunct) 221 165 i (phrase c i) := by
  refine (phrase_paid hm).mono ?_ fun _ _ => trivial
  rintro ⟨r, v⟩ k ⟨ha, j, hj, h⟩
  refine ⟨ha, ?_⟩
  rcases starts_or_stops isPunct r with hp | hp
  · have : EmailParser.skipCfws c r = .ok r := skip_stays (by decide +kernel) hp
    rw [this] at hj
    cases hj
    refine .inl (h.resolve_right fun h => ?_)
    exact hp.not (by decide +kernel) h
  · exact .inr hp

theorem phrase_err (hm : c.feat.mime = false) {e : Error} (h : (phrase c i).out = .err e) :
    (∃ e, (word c i).out = .err e) ∧ (phrase c i).cost = (word c i).cost := by
  unfold phrase many1 at *
  rw [phraseWord_word hm] at *
  have hl := fun j => manyLoop_err (p := word c) (e := e) (j.length + 1) j
  generalize word c i = x at *
  obtain ⟨o, k⟩ := x
  cases o with
  | ok a =>
    obtain ⟨j, v⟩ := a
    have := hl j
    refine absurd h ?_
    show (Timed.bind (manyLoop (word c) (j.length + 1) j) _).out ≠ _
    generalize manyLoop (word c) (j.length + 1) j = y at *
    obtain ⟨o, k⟩ := y
    cases o with
    | ok a => simp [Timed.bind, Timed.on, ok]
    | err a => simpa [Timed.bind, Timed.on, err] using this
    | abort a => simp [Timed.bind, Timed.on, abort]
  | err a => exact ⟨⟨a, rfl⟩, rfl⟩
  | abort a => cases h

/-- A phrase of one word. -/
theorem phrase_one (hm : c.feat.mime = false) {r v : Bytes} (h : (word c i).out = .ok (r, v)) (hr : Starts isOther r) :
    (phrase c i).out = .ok (r, [v]) ∧ (phrase c i).cost ≤ (word c i).cost + 65 := by
  unfold phrase many1
  rw [phraseWord_word hm]
  obtain ⟨⟨e, he⟩, hk⟩ := word_cheap (c := c) hr
  have hl : (manyLoop (word c) (r.length + 1) r).out = .ok (r, []) ∧ (manyLoop (word c) (r.length + 1) r).cost ≤ 65 := by
    unfold manyLoop
    rw [tick_cost, bind_out]
    generalize word c r = y at *
    obtain ⟨o, k⟩ := y
    dsimp only at he hk
    subst he
    refine ⟨rfl, ?_⟩
    show 1 + (k + 0) ≤ 65
    omega
  have h1 := bind_of_ok (f := fun a => manyLoop (word c) (a.1.length + 1) a.1 >>= fun b =>
    (Timed.ok (b.1, a.2 :: b.2) : TRes (List Bytes))) h
  have h2 := bind_of_ok (f := fun b => (Timed.ok (b.1, v :: b.2) : TRes (List Bytes))) hl.1
  refine ⟨h1.1.trans h2.1, Nat.le_trans (Nat.le_of_eq (h1.2.trans (congrArg _ h2.2))) ?_⟩
  show (word c i).cost + ((manyLoop (word c) (r.length + 1) r).cost + 0) ≤ _
  omega

/-! ### Decomposition -/

theorem bind_inv {x : Timed α} {f : α → Timed β} {b : β} (h : (x >>= f).out = .ok b) :
    ∃ a, x.out = .ok a ∧ (f a).out = .ok b ∧ (x >>= f).cost = x.cost + (f a).cost := by
  obtain ⟨o, k⟩ := x
  cases o with
  | ok a => exact ⟨a, rfl, h, rfl⟩
  | err e => cases h
  | abort e => cases h

theorem bind_err_inv {x : Timed α} {f : α → Timed β} {e : Error} (h : (x >>= f).out = .err e) :
    (x.out = .err e ∧ (x >>= f).cost = x.cost) ∨
      ∃ a, x.out = .ok a ∧ (f a).out = .err e ∧ (x >>= f).cost = x.cost + (f a).cost := by
  obtain ⟨o, k⟩ := x
  cases o with
  | ok a => exact .inr ⟨a, rfl, h, rfl⟩
  | err e => cases h; exact .inl ⟨rfl, rfl⟩
  | abort e => cases h

theorem optional_inv {p : Bytes → TRes α} {r : Bytes} {v : Option α} (h : (optional i p).out = .ok (r, v)) :
    (∃ w, (p i).out = .ok (r, w)) ∨ ((∃ e, (p i).out = .err e) ∧ r = i) := by
  unfold optional at h
  rw [on_out] at h
  cases h1 : (p i).out with
  | ok a => rw [h1] at h; cases h; exact .inl ⟨_, rfl⟩
  | err e => rw [h1] at h; cases h; exact .inr ⟨⟨e, rfl⟩, rfl⟩
  | abort e => rw [h1] at h; cases h

theorem optional_cost {p : Bytes → TRes α} : (optional i p).cost = (p i).cost := by
  unfold optional
  generalize p i = x
  obtain ⟨o, k⟩ := x
  cases o <;> rfl

theorem match2_err {p q : Bytes → TRes α} {e : Error} (h : (p i).out = .err e) :
    (matchParsers i [p, q]).cost = (p i).cost + (q i).cost ∧
    (∀ e', (q i).out = .err e' → ∃ e, (matchParsers i [p, q]).out = .err e) := by
  unfold matchParsers matchParsers matchParsers
  generalize p i = x at *
  generalize q i = y at *
  obtain ⟨o, k⟩ := x
  obtain ⟨o', k'⟩ := y
  dsimp only at h
  subst h
  cases o' with
  | ok a => exact ⟨rfl, fun e' h => by cases h⟩
  | err a => exact ⟨rfl, fun e' h => ⟨_, rfl⟩⟩
  | abort a => exact ⟨rfl, fun e' h => by cases h⟩

/-- What a sequence of two alternatives that fails has tried. -/
theorem match2_err_inv {p q : Bytes → TRes α} {e : Error} (h : (matchParsers i [p, q]).out = .err e) :
    (∃ e, (p i).out = .err e) ∧ (∃ e, (q i).out = .err e) ∧ (matchParsers i [p, q]).cost = (p i).cost + (q i).cost := by
  unfold matchParsers matchParsers matchParsers at *
  generalize p i = x at *
  generalize q i = y at *
  obtain ⟨o, k⟩ := x
  obtain ⟨o', k'⟩ := y
  cases o with
  | ok a => cases h
  | abort a => cases h
  | err a =>
    cases o' with
    | ok a => cases h
    | abort a => cases h
    | err a' => exact ⟨⟨_, rfl⟩, ⟨_, rfl⟩, rfl⟩

theorem tag_starts {b : UInt8} {m : String} {r : Bytes} (h : (tag i [b] m).out = .ok (r, ())) : i = b :: r := by
  rw [tag_out] at h
  rcases tag_cases i [b] m with ⟨r', e, ht⟩ | ⟨hn, ht⟩
  · rw [ht] at h
    cases h
    exact e
  · rw [ht] at h
    cases h

theorem Starts.imp {p q : UInt8 → Bool} (h : Starts p i) (hpq : ∀ x, p x = true → q x = true) : Starts q i := by
  obtain ⟨b, t, rfl, hb⟩ := h
  exact ⟨b, t, rfl, hpq b hb⟩

theorem skip_adv {j : Bytes} (h : EmailParser.skipCfws c i = .ok j) : Adv i j := by
  have := skipCfws_within (c := c) i
  unfold Within at this
  rw [skipCfws_out, h] at this
  exact this.1

/-! ### Mailboxes -/

theorem angleAddr_lead {r : Bytes} {v : EmailAddress} (h : (angleAddr c i).out = .ok (r, v)) :
    ∃ j, EmailParser.skipCfws c i = .ok j ∧ Starts (· == 60) j ∧ Adv j r := by
  cases hj : EmailParser.skipCfws c i with
  | ok j =>
    rcases starts_or_stops (· == 60) j with hs | hs
    · refine ⟨j, rfl, hs, ?_⟩
      have : (angleAddr c j).out = .ok (r, v) := by
        rw [angleAddr_out] at h ⊢
        unfold EmailParser.angleAddr at h ⊢
        have hjj : EmailParser.skipCfws c j = .ok j := skip_stays (by decide +kernel) hs
        rw [hj] at h
        rw [hjj]
        exact h
      exact angleAddr_repaid.adv this
    · obtain ⟨e, he⟩ := (angleAddr_err hj hs).1
      rw [he] at h
      cases h
  | err e => exact absurd hj (skipCfws_ne_err _ _)
  | abort a =>
    rw [angleAddr_out] at h
    unfold EmailParser.angleAddr at h
    rw [hj] at h
    cases h

/-- An address in angle brackets cannot start here. -/
theorem angleAddr_cheap (h : Starts isOther i) (h' : Stops (· == 60) i) :
    (∃ e, (angleAddr c i).out = .err e) ∧ (angleAddr c i).cost ≤ 32 := by
  obtain ⟨h1, h2⟩ := angleAddr_err (c := c) (skip_stays (by decide +kernel) h) h'
  refine ⟨h1, ?_⟩
  rcases h2 with h2 | h2
  · omega
  · exact absurd h2 (not_blocked_of (by decide +kernel) h)

theorem nameAddr_repaid (hm : c.feat.mime = false) : Repaid (Blocked c) 341 461 i (nameAddr c i) := by
  refine Repaid.of_out ?_
  intro r v h
  unfold nameAddr at h ⊢
  obtain ⟨⟨r1, n⟩, h1, h2, e1⟩ := bind_inv h
  rw [e1]
  dsimp only at h2 ⊢
  obtain ⟨⟨r2, a⟩, h3, h4, e2⟩ := bind_inv h2
  have e3 : r2 = r := by cases h4; rfl
  subst e3
  rw [e2, optional_cost]
  show _ ∧ ((phrase c i).cost + ((angleAddr c r1).cost + 0) + _ ≤ _ ∨ _)
  obtain ⟨j, hj, hst, haj⟩ := angleAddr_lead h3
  have haj' := haj.le
  have hrj := skip_adv hj
  have hrj' := hrj.le
  have hpaid := angleAddr_repaid.paid h3
  have hp := phrase_paid (c := c) (i := i) hm
  rcases optional_inv h1 with ⟨w, hw⟩ | ⟨⟨e, he⟩, rfl⟩
  · unfold Within at hp
    rw [hw] at hp
    obtain ⟨h5, j', hj', h6⟩ := hp
    dsimp only at *
    rw [hj] at hj'
    cases hj'
    have h6 := h6.resolve_right (hst.not (by decide +kernel))
    have := h5.le
    refine ⟨(h5.trans hrj).trans haj, hpaid.imp (fun h => ?_) id⟩
    omega
  · obtain ⟨⟨e', hw⟩, hc⟩ := phrase_err hm he
    rw [hc]
    obtain ⟨_, hk⟩ := word_err hj (hst.stops (by decide +kernel)) (hst.stops (by decide +kernel))
    have hk := hk.resolve_right (not_blocked_of (by decide +kernel) hst)
    refine ⟨hrj.trans haj, hpaid.imp (fun h => ?_) id⟩
    omega

/-- The word at the start of an address that has been read. -/
theorem addrSpec_word {r : Bytes} {a : EmailAddress} (h : (addrSpec c i).out = .ok (r, a)) :
    ∃ r1 v, (word c i).out = .ok (r1, v) ∧ (Starts (· == 64) r1 ∨ Starts (· == 46) r1) ∧ Adv r1 r := by
  unfold addrSpec at h
  obtain ⟨⟨r0, l⟩, h1, h2, _⟩ := bind_inv h
  dsimp only at h2
  obtain ⟨⟨r2, u⟩, h3, h4, _⟩ := bind_inv h2
  have h5 : Adv r0 r := by
    have : Repaid (Blocked c) 120 132 r0 _ := Repaid.bindTag (A := 120) (D := 130) (b := 64) (t := [])
      (m := "TAG ERROR: An address local part must be followed by a `@`.")
      (f := fun a => domain c a.1 >>= fun b => (Timed.ok (b.1, { localPart := l, domain := b.2 }) : TRes EmailAddress))
      (by decide +kernel) fun s _ _ =>
      Repaid.bind (D := 0) domain_repaid (fun _ _ _ _ => Repaid.ok.weaken fun _ h => h.elim)
        fun _ _ _ h => within_ok.mpr h
    exact this.adv h2
  have h6 := tag_starts h3
  rw [localPart_out] at h1
  rw [word_out]
  rcases word_local c i with hw | ⟨v, s, hs, hw, ha⟩
  · exact ⟨r0, l, hw.trans h1, .inl ⟨64, r2, h6, rfl⟩, h5⟩
  · exact ⟨s, v, hw, .inr hs, (ha _ _ h1).trans h5⟩

theorem mailbox_repaid (hm : c.feat.mime = false) : Repaid (Blocked c) 341 461 i (mailbox c i) := by
  unfold mailbox
  refine Repaid.orElse (nameAddr_repaid hm) ?_
  intro e r v he ho
  dsimp only at ho ⊢
  obtain ⟨⟨r', a⟩, h1, h2, e1⟩ := bind_inv ho
  have e2 : r' = r := by cases h2; rfl
  subst e2
  rw [e1]
  show _ ∧ ((nameAddr c i).cost + ((addrSpec c i).cost + 0) + _ ≤ _ ∨ _)
  refine ⟨addrSpec_repaid.adv h1, (addrSpec_repaid.paid h1).imp (fun hk => ?_) id⟩
  obtain ⟨r1, w, hw, hst, ha⟩ := addrSpec_word h1
  have hoth : Starts isOther r1 := by
    rcases hst with h | h <;> exact h.imp (by decide +kernel)
  have hlt : Stops (· == 60) r1 := by
    rcases hst with h | h <;> exact h.stops (by decide +kernel)
  obtain ⟨hp, hpc⟩ := phrase_one hm hw hoth
  have hwp := (word_repaid.paid hw).resolve_right (not_blocked_of (by decide +kernel) hoth)
  have hac := angleAddr_cheap (c := c) hoth hlt
  have hn : (nameAddr c i).cost ≤ (phrase c i).cost + 32 := by
    unfold nameAddr
    have ho : (optional i (phrase c)).out = .ok (r1, some [w]) := by
      unfold optional
      rw [on_out, hp]
      rfl
    obtain ⟨e', he'⟩ := hac.1
    have h7 := bind_of_ok (f := fun a => angleAddr c a.1 >>= fun b =>
      (Timed.ok (b.1, { name := a.2, address := b.2 }) : TRes Mailbox)) ho
    have h8 := bind_of_err (f := fun b => (Timed.ok (b.1, { name := some [w], address := b.2 }) : TRes Mailbox)) he'
    refine Nat.le_trans (Nat.le_of_eq (h7.2.trans (congrArg _ h8.2))) ?_
    rw [optional_cost]
    have := hac.2
    omega
  have := ha.le
  omega

theorem localPart_err {j : Bytes} (hj : EmailParser.skipCfws c i = .ok j) (h1 : Stops isAtext j) (h2 : Stops isDquote j) :
    (∃ e, (localPart c i).out = .err e) ∧ ((localPart c i).cost + 120 * reach j ≤ 120 * reach i + 64 ∨ Blocked c j) := by
  obtain ⟨⟨e, he⟩, hk⟩ := dotAtom_err hj h1
  obtain ⟨⟨e', he'⟩, hk'⟩ := quotedString_err hj h2
  obtain ⟨h3, h4⟩ := match2_err (q := quotedString c) he
  refine ⟨h4 _ he', ?_⟩
  unfold localPart
  rw [h3]
  rcases hk with hk | hk
  · exact hk'.imp (fun hk' => by omega) id
  · exact .inr hk

theorem addrSpec_err {j : Bytes} (hj : EmailParser.skipCfws c i = .ok j) (h1 : Stops isAtext j) (h2 : Stops isDquote j) :
    (∃ e, (addrSpec c i).out = .err e) ∧ ((addrSpec c i).cost + 120 * reach j ≤ 120 * reach i + 64 ∨ Blocked c j) := by
  obtain ⟨⟨e, he⟩, hk⟩ := localPart_err hj h1 h2
  unfold addrSpec
  obtain ⟨h3, h4⟩ := bind_of_err he
  rw [h4]
  exact ⟨⟨e, h3⟩, hk⟩

/-- Something else than a mailbox. -/
theorem mailbox_other (hm : c.feat.mime = false) {j : Bytes} (hj : EmailParser.skipCfws c i = .ok j)
    (hst : Starts isOther j) (hlt : Stops (· == 60) j) :
    (∃ e, (mailbox c i).out = .err e) ∧ (mailbox c i).cost + 300 * reach j ≤ 300 * reach i + 160 := by
  have ha : Stops isAtext j := hst.stops (by decide +kernel)
  have hd : Stops isDquote j := hst.stops (by decide +kernel)
  have hnb := not_blocked_of (c := c) (by decide +kernel) hst
  obtain ⟨⟨e, he⟩, hk⟩ := word_err hj ha hd
  obtain ⟨⟨e2, he2⟩, hk2⟩ := angleAddr_err hj hlt
  obtain ⟨⟨e3, he3⟩, hk3⟩ := addrSpec_err hj ha hd
  have hk := hk.resolve_right hnb
  have hk2 := hk2.resolve_right hnb
  have hk3 := hk3.resolve_right hnb
  have hp : (phrase c i).out = .err e ∧ (phrase c i).cost = (word c i).cost := by
    unfold phrase many1
    rw [phraseWord_word hm]
    exact bind_of_err he
  have hn : (∃ e, (nameAddr c i).out = .err e) ∧ (nameAddr c i).cost = (word c i).cost + (angleAddr c i).cost := by
    unfold nameAddr
    have ho : (optional i (phrase c)).out = .ok (i, none) := by
      unfold optional
      rw [on_out, hp.1]
      rfl
    have h7 := bind_of_ok (f := fun a => angleAddr c a.1 >>= fun b =>
      (Timed.ok (b.1, { name := a.2, address := b.2 }) : TRes Mailbox)) ho
    have h8 := bind_of_err (f := fun b => (Timed.ok (b.1, { name := none, address := b.2 }) : TRes Mailbox)) he2
    refine ⟨⟨e2, h7.1.trans h8.1⟩, ?_⟩
    refine (h7.2.trans (congrArg _ h8.2)).trans ?_
    rw [optional_cost, hp.2]
  obtain ⟨⟨e4, he4⟩, hn⟩ := hn
  obtain ⟨h9, h10⟩ := match2_err (q := fun input => do
        let (i, m) ← addrSpec c input
        .ok (i, { name := none, address := m })) he4
  have h11 := bind_of_err (f := fun b => (Timed.ok (b.1, { name := none, address := b.2 }) : TRes Mailbox)) he3
  refine ⟨h10 _ h11.1, ?_⟩
  have h12 : (mailbox c i).cost = _ := h9
  have h13 : (mailbox c i).cost = (nameAddr c i).cost + (addrSpec c i).cost := h12.trans (congrArg _ h11.2)
  omega

/-! ### Lists and groups -/

/-- An item after a comma. -/
theorem comma_repaid {Q : Bytes → Prop} {A C : Nat} {p : Bytes → TRes α} (hp : ∀ j, Repaid Q A C j (p j)) (j : Bytes) :
    Repaid Q A (2 + C) j (prefixed j p (b! ",")) := by
  unfold prefixed
  refine within_tick.mpr ?_
  split
  · rename_i hs
    obtain ⟨t, rfl⟩ := startsWith_single hs
    refine within_bind.mpr (within_lift ?_ trivial)
    intro t' ht
    have ht : t' = t := by simpa [getUncheckedFrom] using ht.symm
    subst ht
    have ha : Adv (44 :: t') t' := (Adv.of_drop (b := 44) (t := t') (by decide) (by simp [sliceFrom])).2.1
    have h1 : A * reach t' ≤ A * reach (44 :: t') := Nat.mul_le_mul_left _ ha.le
    refine (hp t').use ?_ fun _ _ _ => trivial
    rintro ⟨r, v⟩ k _ ⟨h2, h3⟩
    refine ⟨ha.trans h2, h3.imp (fun h => ?_) id⟩
    dsimp only at *
    have : (b! ",").length = 1 := rfl
    omega
  · exact within_err.mpr trivial

theorem comma_err {p : Bytes → TRes α} (h : Stops (· == 44) i) :
    (∃ e, (prefixed i p (b! ",")).out = .err e) ∧ (prefixed i p (b! ",")).cost ≤ 2 := by
  have hs : startsWith i (b! ",") = false := by
    cases hs : startsWith i (b! ",") with
    | false => rfl
    | true =>
      obtain ⟨t, rfl⟩ := startsWith_single hs
      have := stops_cons.mp h
      simp at this
  unfold prefixed
  rw [tick_cost, hs]
  refine ⟨⟨_, rfl⟩, ?_⟩
  show 2 + 0 ≤ 2
  omega

/-- What remains when a list of items has been read. -/
def ListEnd (c : Cfg) (r : Bytes) : Prop := Blocked c r ∨ Starts (· == 44) r

theorem commaLoop_repaid {A C : Nat} {p : Bytes → TRes α} {q : Bytes → Res α} (hp : ∀ j, Repaid (Blocked c) A C j (p j))
    (hq : ∀ i, (p i).out = q i) (hs : Shrinks fun i => EmailParser.prefixed i q (b! ",")) (n : Nat) :
    Repaid (ListEnd c) (A + (2 + C) + 1) 3 i (manyLoop (fun i => prefixed i p (b! ",")) n i) := by
  have h := manyLoop_repaid (p := fun i => prefixed i p (b! ",")) (comma_repaid hp)
    (fun j r v h => shrinks_reach (fun i => prefixed_of hq i _) hs h ((comma_repaid hp j).adv h))
    (fun j hb => fails_of_err (comma_err (hb.stops (by decide +kernel))).1) n i
  refine h.mono ?_ fun _ _ => trivial
  rintro ⟨r, v⟩ k ⟨h1, h2, h3⟩
  refine ⟨h1, ?_⟩
  dsimp only at *
  rcases h3 with h3 | h3
  · rcases starts_or_stops (· == 44) r with h4 | h4
    · exact .inr (.inr h4)
    · have := (comma_err (p := p) h4).2
      exact .inl (by omega)
  · exact .inr (.inl h3)

theorem mailboxList_repaid (hm : c.feat.mime = false) : Repaid (ListEnd c) 805 464 i (mailboxList c i) := by
  unfold mailboxList
  have hl : ∀ r : Bytes, Repaid (ListEnd c) 805 3 r (many r fun input => prefixed input (mailbox c) (b! ",")) := fun r =>
    commaLoop_repaid (A := 341) (C := 461) (fun j => mailbox_repaid hm) mailbox_out (comma_shrinks mailbox_parses) _
  refine Repaid.bind (A := 805) (C := 461) (D := 3) ((mailbox_repaid hm).rate (by decide)) (fun r v _ _ =>
    Repaid.bind (D := 0) (hl r) (fun _ _ _ _ => Repaid.ok.weaken fun _ h => h.elim) fun _ _ _ h => within_ok.mpr h) ?_
  intro r v _ hb
  refine Leaves.bind (Q := fun s => s = r) ?_ ?_
  · exact manyLoop_stuck (p := fun input => prefixed input (mailbox c) (b! ","))
      (fails_of_err (comma_err (hb.stops (by decide +kernel))).1) _
  · rintro _ w _ rfl
    exact within_ok.mpr (.inl hb)

theorem mailboxList_err_cost {e : Error} (h : (mailboxList c i).out = .err e) :
    (mailbox c i).out = .err e ∧ (mailboxList c i).cost = (mailbox c i).cost := by
  unfold mailboxList at *
  rcases bind_err_inv h with h | ⟨⟨r, v⟩, _, h, _⟩
  · exact h
  · rcases bind_err_inv h with ⟨h, _⟩ | ⟨a, _, h, _⟩
    · exact absurd h (manyLoop_err _ _)
    · cases h

theorem groupList_repaid (hm : c.feat.mime = false) : Repaid (Stops (· == 59)) 805 464 i (groupList c i) := by
  refine Repaid.of_out ?_
  intro r v h
  have hcost : ∀ e, (mailboxList c i).out = .err e →
      EmailParser.skipCfws c i = .ok r ∧ (groupList c i).cost = (mailboxList c i).cost + (skipCfws c i).cost := by
    intro e he
    rw [← skipCfws_out]
    unfold groupList skipCfws at *
    generalize mailboxList c i = x at *
    generalize cfws c i = y at *
    obtain ⟨o, k⟩ := x
    obtain ⟨o', k'⟩ := y
    dsimp only at he
    subst he
    cases o' with
    | ok a => cases h; exact ⟨rfl, rfl⟩
    | err a => cases h; exact ⟨rfl, rfl⟩
    | abort a => cases h
  cases h1 : (mailboxList c i).out with
  | ok a =>
    obtain ⟨s, w⟩ := a
    have h2 : s = r ∧ (groupList c i).cost = (mailboxList c i).cost := by
      unfold groupList at *
      generalize mailboxList c i = x at *
      obtain ⟨o, k⟩ := x
      dsimp only at h1
      subst h1
      cases h
      exact ⟨rfl, rfl⟩
    obtain ⟨rfl, h2⟩ := h2
    rw [h2]
    refine ⟨(mailboxList_repaid hm).adv h1, ((mailboxList_repaid hm).paid h1).imp id fun h => ?_⟩
    rcases h with h | h
    · exact h.stops (by decide +kernel)
    · exact h.stops (by decide +kernel)
  | err e =>
    obtain ⟨h2, h3⟩ := hcost e h1
    have ha := skip_adv h2
    refine ⟨ha, ?_⟩
    rcases starts_or_stops (· == 59) r with hs | hs
    · left
      have h4 := (mailbox_other hm h2 (hs.imp (by decide +kernel)) (hs.stops (by decide +kernel))).2
      have h5 := (mailboxList_err_cost h1).2
      have h6 := skipCfws_within (c := c) i
      unfold Within at h6
      rw [skipCfws_out, h2, Nat.zero_add] at h6
      have := ha.le
      rcases h6.2 with h7 | ⟨h7, _⟩
      · omega
      · exact absurd h7 (not_blocked_of (by decide +kernel) hs)
    · exact .inr hs
  | abort a =>
    unfold groupList at h
    rw [on_out, h1] at h
    cases h

theorem group_repaid (hm : c.feat.mime = false) : Repaid (Blocked c) 805 663 i (group c i) := by
  unfold group
  exact Repaid.bind (D := 498) ((phrase_repaid hm).rate (by decide))
    (fun r v _ _ => Repaid.bindTag (D := 496) (by decide +kernel) fun s _ _ =>
      Repaid.bind (D := 32) (groupList_repaid hm)
        (fun t w _ _ => Repaid.bindTag (D := 30) (by decide +kernel) fun u _ _ => Repaid.skipEnd (by decide))
        fun _ _ _ h => bindTag_leaves h)
    fun r v _ h => bindTag_leaves fun b t e => isPunct_colon b (h b t e)

/-! ### Addresses -/

/-- The first word of a phrase, and what comes after. -/
theorem phrase_word (hm : c.feat.mime = false) {r : Bytes} {v : List Bytes} (h : (phrase c i).out = .ok (r, v)) :
    ∃ r1 w, (word c i).out = .ok (r1, w) ∧ Adv r1 r ∧ (r1 = r ∨ ∃ a, (word c r1).out = .ok a) := by
  unfold phrase many1 at h
  rw [phraseWord_word hm] at h
  obtain ⟨⟨r1, w⟩, h1, h2, _⟩ := bind_inv h
  dsimp only at h2
  obtain ⟨⟨r2, ws⟩, h3, h4, _⟩ := bind_inv h2
  have e : r2 = r := by cases h4; rfl
  subst e
  refine ⟨r1, w, h1, ?_, ?_⟩
  · have hloop := manyLoop_repaid (p := word c) (fun j => word_repaid) (fun _ _ _ => word_reach)
      (fun _ h => word_blocked h) (r1.length + 1) r1
    unfold Within at hloop
    rw [h3] at hloop
    exact hloop.1
  · cases h5 : (word c r1).out with
    | ok a => exact .inr ⟨a, rfl⟩
    | err e =>
      left
      have := leaves_iff.mp (manyLoop_stuck (p := word c) (i := r1) (fails_of_err ⟨e, h5⟩) (r1.length + 1)) _ _ h3
      exact this.symm
    | abort e =>
      left
      have := leaves_iff.mp (manyLoop_stuck (p := word c) (i := r1) (by rw [h5]; intro a h; cases h) (r1.length + 1)) _ _ h3
      exact this.symm

/-- A phrase before a colon is not a mailbox, and reading it as one costs what it contains. -/
theorem mailbox_phrase (hm : c.feat.mime = false) {r : Bytes} {v : List Bytes} (h : (phrase c i).out = .ok (r, v))
    (hr : Starts (· == 58) r) : (mailbox c i).cost + 341 * reach r ≤ 341 * reach i + 299 := by
  have hpaid := ((phrase_repaid hm).paid h).resolve_right fun hs => by
    obtain ⟨b, t, e, hb⟩ := hr
    have : b = 58 := by simpa using hb
    subst this
    cases hs 58 t e
  have hnb := not_blocked_of (c := c) (by decide +kernel) hr
  have hac := angleAddr_cheap (c := c) (hr.imp (by decide +kernel)) (hr.stops (by decide +kernel))
  obtain ⟨e', he'⟩ := hac.1
  have hn : (∃ e, (nameAddr c i).out = .err e) ∧ (nameAddr c i).cost ≤ (phrase c i).cost + 32 := by
    unfold nameAddr
    have ho : (optional i (phrase c)).out = .ok (r, some v) := by
      unfold optional
      rw [on_out, h]
      rfl
    have h7 := bind_of_ok (f := fun a => angleAddr c a.1 >>= fun b =>
      (Timed.ok (b.1, { name := a.2, address := b.2 }) : TRes Mailbox)) ho
    have h8 := bind_of_err (f := fun b => (Timed.ok (b.1, { name := some v, address := b.2 }) : TRes Mailbox)) he'
    refine ⟨⟨e', h7.1.trans h8.1⟩, Nat.le_trans (Nat.le_of_eq (h7.2.trans (congrArg _ h8.2))) ?_⟩
    rw [optional_cost]
    have := hac.2
    omega
  obtain ⟨⟨e, he⟩, hn⟩ := hn
  obtain ⟨r1, w, hw, ha, hr1⟩ := phrase_word hm h
  have hno : ¬ Blocked c r1 ∧ ¬ Starts (· == 64) r1 ∧ ¬ Starts (· == 46) r1 := by
    rcases hr1 with rfl | ⟨a, hw1⟩
    · exact ⟨hnb, hr.not (by decide +kernel), hr.not (by decide +kernel)⟩
    · refine ⟨fun h => word_blocked h _ hw1, fun h => ?_, fun h => ?_⟩
      · exact fails_of_err (word_cheap (c := c) (h.imp (by decide +kernel))).1 _ hw1
      · exact fails_of_err (word_cheap (c := c) (h.imp (by decide +kernel))).1 _ hw1
  have hl : (localPart c i).out = .ok (r1, w) := by
    rw [localPart_out]
    rw [word_out] at hw
    rcases word_local c i with h | ⟨v', s, hs, h, _⟩
    · rw [← h, hw]
    · rw [hw] at h
      cases h
      exact absurd hs hno.2.2
  have hlp := (localPart_repaid.paid hl).resolve_right hno.1
  have has : (addrSpec c i).cost ≤ (localPart c i).cost + 2 ∧ ∃ e, (addrSpec c i).out = .err e := by
    unfold addrSpec
    have h9 := bind_of_ok (f := fun a => tag a.1 (b! "@") "TAG ERROR: An address local part must be followed by a `@`." >>=
      fun b => domain c b.1 >>= fun d => (Timed.ok (d.1, { localPart := a.2, domain := d.2 }) : TRes EmailAddress)) hl
    have h10 := tag_err (i := r1) (b := 64) (t := []) (m := "TAG ERROR: An address local part must be followed by a `@`.")
      (f := fun b => domain c b.1 >>= fun d => (Timed.ok (d.1, { localPart := w, domain := d.2 }) : TRes EmailAddress))
      ((starts_or_stops _ _).resolve_left hno.2.1)
    refine ⟨Nat.le_trans (Nat.le_of_eq h9.2) (Nat.add_le_add_left h10.2 _), ?_⟩
    obtain ⟨e, h⟩ := h10.1
    exact ⟨e, h9.1.trans h⟩
  obtain ⟨has, e3, he3⟩ := has
  obtain ⟨h9, h10⟩ := match2_err (q := fun input => do
        let (i, m) ← addrSpec c input
        .ok (i, { name := none, address := m })) he
  have h11 := bind_of_err (f := fun b => (Timed.ok (b.1, { name := none, address := b.2 }) : TRes Mailbox)) he3
  have h12 : (mailbox c i).cost = _ := h9
  have h13 : (mailbox c i).cost = (nameAddr c i).cost + (addrSpec c i).cost := h12.trans (congrArg _ h11.2)
  have := ha.le
  omega

theorem address_repaid (hm : c.feat.mime = false) : Repaid (Blocked c) 1146 962 i (address c i) := by
  refine Repaid.of_out ?_
  intro r v h
  cases h1 : (mailbox c i).out with
  | ok a =>
    have h3 : a.1 = r ∧ (address c i).cost = (mailbox c i).cost := by
      unfold address at *
      generalize mailbox c i = x at *
      obtain ⟨o, k⟩ := x
      dsimp only at h1
      subst h1
      cases h
      exact ⟨rfl, rfl⟩
    obtain ⟨rfl, h3⟩ := h3
    have ha := (mailbox_repaid hm).adv (r := a.1) (v := a.2) h1
    refine ⟨ha, ((mailbox_repaid hm).paid (r := a.1) (v := a.2) h1).imp (fun hk => ?_) id⟩
    rw [h3]
    have := ha.le
    omega
  | err e =>
    have h4 : ∃ w, (group c i).out = .ok (r, w) ∧ (address c i).cost = (mailbox c i).cost + (group c i).cost := by
      unfold address at *
      generalize mailbox c i = x at *
      generalize group c i = y at *
      obtain ⟨o, k⟩ := x
      obtain ⟨o', k'⟩ := y
      dsimp only at h1
      subst h1
      cases o' with
      | ok a => cases h; exact ⟨_, rfl, rfl⟩
      | err a => cases h
      | abort a => cases h
    obtain ⟨w, h4, h5⟩ := h4
    have hg := group_repaid (c := c) (i := i) hm
    refine ⟨hg.adv h4, (hg.paid h4).imp (fun hk => ?_) id⟩
    unfold group at h4
    obtain ⟨⟨r1, p⟩, h6, h7, _⟩ := bind_inv h4
    dsimp only at h7
    obtain ⟨⟨r2, u⟩, h8, h9, _⟩ := bind_inv h7
    have e := tag_starts h8
    have h10 := mailbox_phrase hm h6 ⟨58, r2, e, rfl⟩
    have h11 : Adv r1 r := by
      have : Repaid (Blocked c) 805 498 r1 _ := Repaid.bindTag (A := 805) (D := 496) (b := 58) (t := [])
        (m := "TAG ERROR: A group display name must be followed by a `:`.")
        (f := fun a => groupList c a.1 >>= fun b => tag b.1 (b! ";") "TAG ERROR: A group mailbox list must be closed by a `;`." >>=
          fun d => skipCfws c d.1 >>= fun s => (Timed.ok (s, (p, b.2)) : TRes (List Bytes × List Mailbox)))
        (by decide +kernel) fun s _ _ =>
          Repaid.bind (D := 32) (groupList_repaid hm)
            (fun t w _ _ => Repaid.bindTag (D := 30) (by decide +kernel) fun u _ _ => Repaid.skipEnd (by decide))
            fun _ _ _ h => bindTag_leaves h
      exact this.adv h7
    have := h11.le
    omega
  | abort a =>
    unfold address at h
    rw [on_out, h1] at h
    cases h

/-! ### Received tokens -/

theorem quotedString_lead {r v : Bytes} (h : (quotedString c i).out = .ok (r, v)) :
    ∃ j, EmailParser.skipCfws c i = .ok j ∧ Starts isDquote j ∧ reach r ≤ reach j := by
  have hl := quotedString_within (c := c) i
  unfold Within at hl
  rw [h] at hl
  obtain ⟨_, _, ⟨j, hj, hst, hr⟩, _⟩ := hl
  exact ⟨j, hj, hst, by dsimp only at hr; omega⟩

theorem domain_err {j : Bytes} (hj : EmailParser.skipCfws c i = .ok j) (h1 : Stops isAtext j) (h2 : Stops (· == 91) j) :
    (∃ e, (domain c i).out = .err e) ∧ ((domain c i).cost + 120 * reach j ≤ 120 * reach i + 64 ∨ Blocked c j) := by
  obtain ⟨⟨e, he⟩, hk⟩ := dotAtom_err hj h1
  obtain ⟨⟨e', he'⟩, hk'⟩ := domainLiteral_err hj h2
  obtain ⟨h3, h4⟩ := match2_err (q := domainLiteral c) he
  refine ⟨h4 _ he', ?_⟩
  unfold domain
  rw [h3]
  rcases hk with hk | hk
  · exact hk'.imp (fun hk' => by omega) id
  · exact .inr hk

/-- What a word and a domain at the same place consume. -/
theorem word_domain {r v : Bytes} (h : (word c i).out = .ok (r, v)) :
    (∃ e, (domain c i).out = .err e) ∧ ((domain c i).cost + 120 * reach r ≤ 120 * reach i + 64) ∨
    (∃ a, (domain c i).out = .abort a) ∨
    ∃ s w, (domain c i).out = .ok (s, w) ∧ (s = r ∨ (Starts (· == 46) r ∧ Adv r s ∧ v.length < w.length)) := by
  rw [word_out] at h
  unfold EmailParser.word at h
  cases atomDot c i with
  | fail j hj hs ha hd =>
    obtain ⟨e, ha⟩ := ha
    simp only [EmailParser.matchParsers, ha] at h
    have hq : (quotedString c i).out = .ok (r, v) := by
      rw [quotedString_out]
      cases hq : EmailParser.quotedString c i with
      | ok a => rw [hq] at h; cases h; rfl
      | err a => rw [hq] at h; cases h
      | abort a => rw [hq] at h; cases h
    obtain ⟨j', hj', hst, hr⟩ := quotedString_lead hq
    rw [hj] at hj'
    cases hj'
    obtain ⟨h1, h2⟩ := domain_err hj hs (hst.stops (by decide +kernel))
    have h2 := h2.resolve_right (not_blocked_of (by decide +kernel) hst)
    exact .inl ⟨h1, by omega⟩
  | same ha hne =>
    right
    rw [domain_out]
    unfold EmailParser.domain
    cases hd : EmailParser.dotAtom c i with
    | ok a =>
      obtain ⟨s, w⟩ := a
      rw [hd] at ha
      simp only [EmailParser.matchParsers, ha] at h
      cases h
      exact .inr ⟨r, v, by simp only [EmailParser.matchParsers, hd], .inl rfl⟩
    | err e => rw [hd] at ha; exact absurd ha (hne e)
    | abort e => exact .inl ⟨e, by simp only [EmailParser.matchParsers, hd]⟩
  | dot v' s hs ha hne hd' =>
    right
    simp only [EmailParser.matchParsers, ha] at h
    cases h
    rw [domain_out]
    unfold EmailParser.domain
    cases hd : EmailParser.dotAtom c i with
    | ok a =>
      obtain ⟨s, w⟩ := a
      refine .inr ⟨s, w, by simp only [EmailParser.matchParsers, hd], ?_⟩
      obtain ⟨h1, h2⟩ := hd' _ _ hd
      rcases Nat.lt_or_ge v.length w.length with h3 | h3
      · exact .inr ⟨hs, h1, h3⟩
      · exact .inl (h2 h3)
    | err e => exact absurd hd (hne e)
    | abort e => exact .inl ⟨e, by simp only [EmailParser.matchParsers, hd]⟩

/-- Without a word, a domain can only be a literal. -/
theorem domain_of_word_err {e : Error} {r v : Bytes} (h : (word c i).out = .err e) (hd : (domain c i).out = .ok (r, v)) :
    ∃ j, EmailParser.skipCfws c i = .ok j ∧ Starts (· == 91) j ∧ Adv j r := by
  rw [word_out] at h
  unfold EmailParser.word at h
  cases atomDot c i with
  | fail j hj hs ha hx =>
    obtain ⟨e', hx⟩ := hx
    refine domainLiteral_lead (v := v) ?_
    rw [domain_out] at hd
    unfold EmailParser.domain at hd
    simp only [EmailParser.matchParsers, hx] at hd
    rw [domainLiteral_out]
    cases hq : EmailParser.domainLiteral c i with
    | ok a => rw [hq] at hd; cases hd; rfl
    | err a => rw [hq] at hd; cases hd
    | abort a => rw [hq] at hd; cases hd
  | same ha hne =>
    cases hx : EmailParser.atom c i with
    | ok a => simp only [EmailParser.matchParsers, hx] at h; cases h
    | err e => exact absurd hx (hne e)
    | abort a => simp only [EmailParser.matchParsers, hx] at h; cases h
  | dot v' s hs ha hne hd' =>
    simp only [EmailParser.matchParsers, ha] at h
    cases h

theorem receivedToken_repaid : Repaid (Blocked c) 420 360 i (receivedToken c i) := by
  refine Repaid.of_out ?_
  intro r v h
  cases h1 : (word c i).out with
  | ok a =>
    obtain ⟨r1, w⟩ := a
    have ha := word_repaid.adv h1
    have hk := word_repaid.paid h1
    rcases word_domain h1 with ⟨⟨e, h2⟩, h3⟩ | ⟨a, h2⟩ | ⟨s, d, h2, h3⟩
    · have h4 : r1 = r ∧ (receivedToken c i).cost = (word c i).cost + (domain c i).cost := by
        unfold receivedToken at *
        generalize word c i = x at *
        generalize domain c i = y at *
        obtain ⟨o, k⟩ := x
        obtain ⟨o', k'⟩ := y
        dsimp only at h1 h2
        subst h1 h2
        cases h
        exact ⟨rfl, rfl⟩
      obtain ⟨rfl, h4⟩ := h4
      have := ha.le
      exact ⟨ha, hk.imp (fun hk => by omega) id⟩
    · unfold receivedToken at h
      rw [on_out, h1] at h
      dsimp only at h
      rw [on_out, h2] at h
      cases h
    · have hda := domain_repaid.adv h2
      have hdk := domain_repaid.paid h2
      have h4 : r = (if d.length > w.length then s else r1) ∧
          (receivedToken c i).cost = (word c i).cost + (domain c i).cost := by
        unfold receivedToken at *
        generalize word c i = x at *
        generalize domain c i = y at *
        obtain ⟨o, k⟩ := x
        obtain ⟨o', k'⟩ := y
        dsimp only at h1 h2
        subst h1 h2
        by_cases hl : d.length > w.length
        · have h5 : (Timed.on (⟨.ok (r1, w), k⟩ : TRes Bytes) fun _ => Timed.on (⟨.ok (s, d), k'⟩ : TRes Bytes) fun _ =>
            if d.length > w.length then (.ok (s, .domain d) : TRes ReceivedToken) else .ok (r1, .word w)).out = .ok (r, v) := h
          refine ⟨?_, ?_⟩
          · rw [on_out, on_out, if_pos hl] at h5
            cases h5
            rw [if_pos hl]
          · show k + (k' + (if d.length > w.length then (.ok (s, .domain d) : TRes ReceivedToken) else .ok (r1, .word w)).cost) = _
            rw [if_pos hl]
            rfl
        · have h5 : (Timed.on (⟨.ok (r1, w), k⟩ : TRes Bytes) fun _ => Timed.on (⟨.ok (s, d), k'⟩ : TRes Bytes) fun _ =>
            if d.length > w.length then (.ok (s, .domain d) : TRes ReceivedToken) else .ok (r1, .word w)).out = .ok (r, v) := h
          refine ⟨?_, ?_⟩
          · rw [on_out, on_out, if_neg hl] at h5
            cases h5
            rw [if_neg hl]
          · show k + (k' + (if d.length > w.length then (.ok (s, .domain d) : TRes ReceivedToken) else .ok (r1, .word w)).cost) = _
            rw [if_neg hl]
            rfl
      obtain ⟨h4, h5⟩ := h4
      have := ha.le
      rcases h3 with rfl | ⟨h6, h7, h8⟩
      · rw [ite_self] at h4
        subst h4
        refine ⟨ha, ?_⟩
        rcases hk with hk | hk
        · exact hdk.imp (fun hdk => by omega) id
        · exact .inr hk
      · rw [if_pos h8] at h4
        subst h4
        have hk := hk.resolve_right (not_blocked_of (by decide +kernel) h6)
        have := h7.le
        exact ⟨hda, hdk.imp (fun hdk => by omega) id⟩
  | err e =>
    have hno : ∀ a, (addrSpec c i).out ≠ .ok a := by
      rintro ⟨s, a⟩ h2
      obtain ⟨r1, w, hw, _⟩ := addrSpec_word h2
      rw [h1] at hw
      cases hw
    obtain ⟨j, hj, hs, _⟩ := word_err_inv h1
    cases h2 : (angleAddr c i).out with
    | ok a =>
      obtain ⟨s, a⟩ := a
      have h4 : s = r ∧ (receivedToken c i).cost = (word c i).cost + (angleAddr c i).cost := by
        unfold receivedToken at *
        generalize word c i = x at *
        generalize angleAddr c i = y at *
        obtain ⟨o, k⟩ := x
        obtain ⟨o', k'⟩ := y
        dsimp only at h1 h2
        subst h1 h2
        cases h
        exact ⟨rfl, rfl⟩
      obtain ⟨rfl, h4⟩ := h4
      obtain ⟨j', hj', hst, haj⟩ := angleAddr_lead h2
      rw [hj] at hj'
      cases hj'
      have hk := (word_err hj hs (hst.stops (by decide +kernel))).2.resolve_right (not_blocked_of (by decide +kernel) hst)
      have := haj.le
      have := (skip_adv hj).le
      exact ⟨angleAddr_repaid.adv h2, (angleAddr_repaid.paid h2).imp (fun hk' => by omega) id⟩
    | err e2 =>
      cases h3 : (addrSpec c i).out with
      | ok a => exact absurd h3 (hno a)
      | err e3 =>
        cases h4 : (domain c i).out with
        | ok a =>
          obtain ⟨s, d⟩ := a
          have h5 : s = r ∧ (receivedToken c i).cost =
              (word c i).cost + ((angleAddr c i).cost + ((addrSpec c i).cost + (domain c i).cost)) := by
            unfold receivedToken at *
            generalize word c i = x at *
            generalize angleAddr c i = y at *
            generalize addrSpec c i = z at *
            generalize domain c i = u at *
            obtain ⟨o1, k1⟩ := x
            obtain ⟨o2, k2⟩ := y
            obtain ⟨o3, k3⟩ := z
            obtain ⟨o4, k4⟩ := u
            dsimp only at h1 h2 h3 h4
            subst h1 h2 h3 h4
            cases h
            exact ⟨rfl, rfl⟩
          obtain ⟨rfl, h5⟩ := h5
          obtain ⟨j', hj', hst, haj⟩ := domain_of_word_err h1 h4
          rw [hj] at hj'
          cases hj'
          have hnb := not_blocked_of (c := c) (by decide +kernel) hst
          have hk1 := (word_err hj hs (hst.stops (by decide +kernel))).2.resolve_right hnb
          have hk2 := (angleAddr_err hj (hst.stops (by decide +kernel))).2.resolve_right hnb
          have hk3 := (addrSpec_err hj hs (hst.stops (by decide +kernel))).2.resolve_right hnb
          have := haj.le
          have := (skip_adv hj).le
          exact ⟨domain_repaid.adv h4, (domain_repaid.paid h4).imp (fun hk' => by omega) id⟩
        | err e4 =>
          unfold receivedToken at h
          simp only [on_out, h1, h2, h3, h4] at h
          cases h
        | abort e4 =>
          unfold receivedToken at h
          simp only [on_out, h1, h2, h3, h4] at h
          cases h
      | abort e3 =>
        unfold receivedToken at h
        simp only [on_out, h1, h2, h3] at h
        cases h
    | abort e2 =>
      unfold receivedToken at h
      simp only [on_out, h1, h2] at h
      cases h
  | abort e =>
    unfold receivedToken at h
    simp only [on_out, h1] at h
    cases h

/-! ### Whole values -/

theorem Flat.commaLoop {A C F : Nat} {p : Bytes → TRes α} {q : Bytes → Res α} {Q : Bytes → Prop} (hF : ∀ j, Flat F j (p j))
    (hp : ∀ j, Repaid Q A C j (p j)) (hq : ∀ i, (p i).out = q i)
    (hs : Shrinks fun i => EmailParser.prefixed i q (b! ",")) (hQ : ∀ j, Q j → Stops (· == 44) j) {n : Nat} :
    Flat (2 * (2 + F) + A + (2 + C) + 3) i (manyLoop (fun i => prefixed i p (b! ",")) n i) :=
  Flat.manyRepaid (p := fun i => prefixed i p (b! ",")) (Flat.comma hF) (comma_repaid hp)
    (fun j _ _ h => shrinks_reach (fun i => prefixed_of hq i _) hs h ((comma_repaid hp j).adv h))
    (fun j hb => fails_of_err (comma_err (hQ j hb)).1)

theorem mailboxList_flat (hm : c.feat.mime = false) : Flat 6757 i (mailboxList c i) :=
  Flat.mailbox.bind (G := 4775) fun _ _ _ _ =>
    Flat.bind (F := 4775) (G := 0) (Flat.commaLoop (F := 1982) (A := 341) (C := 461) (fun _ => Flat.mailbox)
      (fun _ => mailbox_repaid hm) mailbox_out (comma_shrinks mailbox_parses)
      fun _ h => h.stops (by decide +kernel)) fun _ _ _ _ => Flat.ok

theorem groupList_flat (hm : c.feat.mime = false) : Flat 6817 i (groupList c i) :=
  Flat.on (F := 6757) (G := 0) (H := 60) (mailboxList_flat hm) (fun _ _ _ ha => Flat.ok' ha)
    (fun _ _ => Flat.on (F := 60) (G := 0) (H := 0) Flat.cfws (fun _ _ _ ha => Flat.ok' ha) (fun _ _ => Flat.ok)
      fun _ _ => Flat.abort) fun _ _ => Flat.abort

theorem group_flat (hm : c.feat.mime = false) : Flat 7681 i (group c i) :=
  Flat.phrase.bind (G := 6881) fun _ _ _ _ =>
    (Flat.tag (e := b! ":") (by decide +kernel)).bind (G := 6879) fun _ _ _ _ =>
      (groupList_flat hm).bind (G := 62) fun _ _ _ _ =>
        (Flat.tag (e := b! ";") (by decide +kernel)).bind (G := 60) fun _ _ _ _ =>
          Flat.skip (G := 0) fun _ _ => Flat.ok

theorem address_flat (hm : c.feat.mime = false) : Flat 9663 i (address c i) :=
  Flat.on (F := 1982) (G := 0) (H := 7681) Flat.mailbox (fun _ _ _ ha => Flat.ok' ha)
    (fun _ _ => Flat.on (F := 7681) (G := 0) (H := 0) (group_flat hm) (fun _ _ _ ha => Flat.ok' ha) (fun _ _ => Flat.err)
      fun _ _ => Flat.abort) fun _ _ => Flat.abort

theorem addressList_flat (hm : c.feat.mime = false) : Flat 31106 i (addressList c i) :=
  (address_flat hm).bind (G := 21443) fun _ _ _ _ =>
    Flat.bind (F := 21443) (G := 0) (Flat.commaLoop (F := 9663) (A := 1146) (C := 962) (fun _ => address_flat hm)
      (fun _ => address_repaid hm) address_out (comma_shrinks address_parses)
      fun _ h => h.stops (by decide +kernel)) fun _ _ _ _ => Flat.ok

theorem bccValue_flat (hm : c.feat.mime = false) : Flat 31166 i (bccValue c i) :=
  Flat.on (F := 31106) (G := 0) (H := 60) (addressList_flat hm) (fun _ _ _ ha => Flat.ok' ha)
    (fun _ _ => Flat.on (F := 60) (G := 0) (H := 0) Flat.cfws (fun _ _ _ ha => Flat.ok' ha) (fun _ _ => Flat.err)
      fun _ _ => Flat.abort) fun _ _ => Flat.abort

theorem messageIds_flat : Flat 590 i (messageIds c i) :=
  Flat.messageId.bind (G := 442) fun _ _ _ _ =>
    Flat.bind (F := 442) (G := 0) (Flat.manyRepaid (F := 148) (A := 60) (C := 83) (p := messageId c) (fun _ => Flat.messageId)
      (fun _ => messageId_repaid)
      (fun _ _ _ h => shrinks_reach messageId_out (shrinks_of messageId_progress messageId_parses) h (messageId_repaid.adv h))
      fun _ h => fails_of_err (messageId_err h.skip (h.stops (by decide +kernel))).1) fun _ _ _ _ => Flat.ok

theorem isPunct_comma : ∀ b, isPunct b = false → (b == 44) = false := by decide +kernel

theorem keywordList_flat (hm : c.feat.mime = false) : Flat 2795 i (keywordList c i) :=
  Flat.phrase.bind (G := 1995) fun _ _ _ _ =>
    Flat.bind (F := 1995) (G := 0) (Flat.commaLoop (F := 800) (A := 221) (C := 165) (fun _ => Flat.phrase)
      (fun _ => phrase_repaid hm) phrase_out (comma_shrinks phrase_parses)
      fun _ h b t e => isPunct_comma b (h b t e)) fun _ _ _ _ => Flat.ok

theorem receivedToken_blocked (h : Blocked c i) (a : Bytes × ReceivedToken) : (receivedToken c i).out ≠ .ok a := by
  have hs := h.stops (p := isAtext) (by decide +kernel)
  have hd := h.stops (p := isDquote) (by decide +kernel)
  obtain ⟨e1, h1⟩ := (word_err h.skip hs hd).1
  obtain ⟨e2, h2⟩ := (angleAddr_err h.skip (h.stops (by decide +kernel))).1
  obtain ⟨e3, h3⟩ := (addrSpec_err h.skip hs hd).1
  obtain ⟨e4, h4⟩ := (domain_err h.skip hs (h.stops (by decide +kernel))).1
  unfold receivedToken
  simp only [on_out, h1, h2, h3, h4]
  intro h
  cases h

theorem receivedValue_flat : Flat 4873 i (receivedValue c i) :=
  Flat.bind (F := 4743) (G := 130) (Flat.manyRepaid (F := 1980) (A := 420) (C := 360) (p := receivedToken c)
    (fun _ => Flat.receivedToken) (fun _ => receivedToken_repaid)
    (fun _ _ _ h => shrinks_reach receivedToken_out (shrinks_of receivedToken_progress receivedToken_parses) h
      (receivedToken_repaid.adv h)) fun _ h => receivedToken_blocked h) fun _ _ _ _ =>
        (Flat.tag (e := b! ";") (by decide +kernel)).bind (G := 128) fun _ _ _ _ =>
          Flat.dateTime.bind (G := 0) fun _ _ _ _ => Flat.ok

end EmailParser.Timed
