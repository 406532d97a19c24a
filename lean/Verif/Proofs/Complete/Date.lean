import Verif.Proofs.Complete.Words
import Verif.Proofs.Sound.Mime
/-
Dates of the grammar are accepted.
-/
namespace EmailParser
open Spec (Gram)

variable {α β : Type} {c : Cfg}

theorem dayName_append {w r : Bytes} {d : Day} (h : Gram.litNoCase (Spec.dayName d) w ()) :
    dayName (w ++ r) = .ok (r, d) := by
  have hl : w.length = 3 := by
    have := congrArg List.length h
    simp only [List.length_map] at this
    rw [this]
    cases d <;> rfl
  unfold dayName
  rw [if_pos (by simp [hl])]
  have ht : (w ++ r).take 3 = w := by rw [← hl]; simp
  have hd : (w ++ r).drop 3 = r := by rw [← hl]; simp
  have : dayNames.lookup (w.map asciiLower) = some d := by
    rw [h]
    cases d <;> decide +kernel
  rw [ht, hd, this]

theorem month_append {w r : Bytes} {m : Month} (h : Spec.MonthG w m) :
    month (w ++ r) = .ok (r, m) := by
  have hl : w.length = 3 := by
    have := congrArg List.length h
    simp only [List.length_map] at this
    rw [this]
    cases m <;> rfl
  unfold month
  rw [if_pos (by simp [hl])]
  have ht : (w ++ r).take 3 = w := by rw [← hl]; simp
  have hd : (w ++ r).drop 3 = r := by rw [← hl]; simp
  have : monthNames.lookup (w.map asciiLower) = some m := by
    rw [h]
    cases m <;> decide +kernel
  rw [ht, hd, this]

/-- A name of the table consists of letters. -/
theorem litNoCase_head {s w : Bytes} (h : Gram.litNoCase s w ()) {p : UInt8 → Bool}
    (hs : ∃ b t, s.map asciiLower = b :: t ∧ ∀ x, asciiLower x = b → p x = true) :
    ∃ b t, w = b :: t ∧ p b = true := by
  obtain ⟨b, t, hs, hp⟩ := hs
  unfold Gram.litNoCase at h
  rw [hs] at h
  cases w with
  | nil => cases h
  | cons x w =>
    rw [List.map_cons, List.cons.injEq] at h
    exact ⟨x, w, rfl, hp x h.1⟩

/-- The letters a day or month name can start with. -/
def nameStart (b : UInt8) : Bool := (b! "mtwfsjaondMTWFSJAOND").contains b

theorem nameStart_end : ∀ b : UInt8, nameStart b = true →
    Spec.wsp b = false ∧ b ≠ 13 ∧ Spec.digit b = false := by decide +kernel

theorem dayName_head {w : Bytes} {d : Day} (h : Gram.litNoCase (Spec.dayName d) w ()) :
    ∃ b t, w = b :: t ∧ nameStart b = true := by
  refine litNoCase_head h ?_
  cases d <;> exact ⟨_, _, rfl, by decide +kernel⟩

theorem month_head {w : Bytes} {m : Month} (h : Spec.MonthG w m) :
    ∃ b t, w = b :: t ∧ nameStart b = true := by
  refine litNoCase_head h ?_
  cases m <;> exact ⟨_, _, rfl, by decide +kernel⟩

theorem dayOfWeek_append {w r : Bytes} {d : Day} (h : Spec.DayOfWeek w d) :
    dayOfWeek (w ++ r) = .ok (r, d) := by
  obtain ⟨f, _, o, rfl, hf, x, _, d', rfl, hx, _, _, _, rfl, rfl, rfl, rfl⟩ := h
  obtain ⟨b, t, hbt, hb⟩ := dayName_head hx
  obtain ⟨h1, h2, h3⟩ := nameStart_end b hb
  have e1 := optFws_append (r := x ++ (44 :: r)) hf (noSpace_append hbt h1 h2)
  have e2 := dayName_append (r := 44 :: r) hx
  have t1 := tag_append (b! ",") r
    "TAG ERROR: In a day_of_week, a day name must be followed by a comma."
  unfold dayOfWeek
  simp only [List.append_assoc, List.cons_append, List.nil_append, List.append_nil] at t1 ⊢
  simp only [e1, ok_bind, e2, t1]

theorem dayName_err {b : UInt8} {t : Bytes} (h : Spec.digit b = true) :
    ∃ e, dayName (b :: t) = .err e := by
  unfold dayName
  split
  · have key : ∀ (b : UInt8), Spec.digit b = true → asciiLower b = b ∧ b ≠ 109 ∧ b ≠ 116 ∧ b ≠ 119 ∧
        b ≠ 102 ∧ b ≠ 115 := by decide +kernel
    obtain ⟨h0, h1, h2, h3, h4, h5⟩ := key b h
    have : dayNames.lookup (((b :: t).take 3).map asciiLower) = none := by
      rw [List.take_succ_cons, List.map_cons, h0]
      simp only [dayNames, List.lookup]
      have ne : ∀ (x y : UInt8) (s t : Bytes), x ≠ y → (x :: s == y :: t) = false := by
        intro x y s t h
        simp [h]
      rw [ne _ _ _ _ h1, ne _ _ _ _ h2, ne _ _ _ _ h3, ne _ _ _ _ h2, ne _ _ _ _ h4, ne _ _ _ _ h5,
        ne _ _ _ _ h5]
    rw [this]
    exact ⟨_, rfl⟩
  · exact ⟨_, rfl⟩

theorem digit_noSpace : ∀ b : UInt8, Spec.digit b = true → Spec.wsp b = false ∧ b ≠ 13 := by
  decide +kernel

theorem dayOfWeek_err {f r : Bytes} {o : Option Bytes} {b : UInt8} (hf : Gram.opt Spec.Fws f o)
    (h : Spec.digit b = true) : ∃ e, dayOfWeek (f ++ b :: r) = .err e := by
  obtain ⟨h1, h2⟩ := digit_noSpace b h
  have e1 := optFws_append (r := b :: r) hf (noSpace_cons h1 h2)
  obtain ⟨e, he⟩ := dayName_err (t := r) h
  unfold dayOfWeek
  simp only [e1, ok_bind, he]
  exact ⟨_, rfl⟩

/-! ### Numbers -/

theorem digit_byte_ok {b : UInt8} {t : Bytes} (h : Spec.digit b = true) :
    digit (b :: t) = .ok (t, b.toNat - 48) := by
  have key : ∀ b : UInt8, Spec.digit b = true → (b ≥ 48 && b ≤ 57) = true := by decide +kernel
  unfold digit
  dsimp only
  rw [if_pos (key b h)]

theorem digit_none {r : Bytes} (h : Stops Spec.digit r) : ∃ e, digit r = .err e := by
  have key : ∀ b : UInt8, Spec.digit b = false → ¬ (b ≥ 48 && b ≤ 57) = true := by decide +kernel
  unfold digit
  cases r with
  | nil => exact ⟨_, rfl⟩
  | cons b t =>
    dsimp only
    rw [if_neg (key b (stops_cons.mp h))]
    exact ⟨_, rfl⟩

theorem digit_small : ∀ b : UInt8, Spec.digit b = true → b.toNat - 48 ≤ 9 := by decide +kernel

theorem number_cases {w : Bytes} {n : Nat} (h : Spec.Number 2 2 w n) :
    ∃ a b, w = [a, b] ∧ Spec.digit a = true ∧ Spec.digit b = true ∧
      n = (a.toNat - 48) * 10 + (b.toNat - 48) := by
  obtain ⟨w₁, _, v, rfl, ⟨⟨rfl, hv⟩, h1, h2⟩, rfl, rfl⟩ := h
  match v, h1, h2 with
  | [a, b], _, _ =>
    refine ⟨a, b, rfl, hv a (by simp), hv b (by simp), ?_⟩
    simp only [Spec.decimal, List.foldl]
    omega
  | [], h1, _ => simp at h1
  | [_], h1, _ => simp at h1
  | _ :: _ :: _ :: _, _, h2 => simp at h2

theorem twoDigits_append {w r : Bytes} {n : Nat} (h : Spec.Number 2 2 w n) :
    twoDigits (w ++ r) = .ok (r, n) := by
  obtain ⟨a, b, rfl, ha, hb, rfl⟩ := number_cases h
  have h1 := digit_small a ha
  have h2 := digit_small b hb
  unfold twoDigits
  simp only [List.cons_append, List.nil_append, digit_byte_ok ha, ok_bind, digit_byte_ok hb]
  rw [u8_ok (by omega)]
  simp only [ok_bind]
  rw [u8_ok (by omega)]
  rfl

theorem day_append {w r : Bytes} {n : Nat} (h : Spec.DayG w n) (hr : NoSpace r) :
    day (w ++ r) = .ok (r, n) := by
  obtain ⟨f, _, o, rfl, hf, x, _, d, rfl, ⟨hx, hd⟩, g, _, gv, rfl, hg, rfl, rfl⟩ := h
  have hfg := fws_append (r := r) hg hr.1 hr.2
  have hst : Stops Spec.digit (g ++ r) := by
    obtain ⟨b, t, rfl, hb⟩ := fws_head hg
    have key : ∀ b : UInt8, Spec.wsp b = true ∨ b = 13 → Spec.digit b = false := by decide +kernel
    exact stops_cons.mpr (key b hb)
  obtain ⟨w₁, _, v, rfl, ⟨⟨rfl, hv⟩, h1, h2⟩, rfl, rfl⟩ := hx
  match v, h1, h2, hv with
  | [a], _, _, hv =>
    have ha := hv a (by simp)
    obtain ⟨ha1, ha2⟩ := digit_noSpace a ha
    have e1 := optFws_append (r := a :: (g ++ r)) hf (noSpace_cons ha1 ha2)
    obtain ⟨e, he⟩ := digit_none hst
    have hs := digit_small a ha
    unfold day
    simp only [List.append_assoc, List.cons_append, List.nil_append, List.append_nil, e1, ok_bind,
      digit_byte_ok ha, secondDigit, he]
    rw [if_neg (by omega)]
    simp only [hfg, ok_bind, Spec.decimal, List.foldl, Nat.mul_zero, Nat.zero_add]
  | [a, b], _, _, hv =>
    have ha := hv a (by simp)
    have hb := hv b (by simp)
    obtain ⟨ha1, ha2⟩ := digit_noSpace a ha
    have e1 := optFws_append (r := a :: b :: (g ++ r)) hf (noSpace_cons ha1 ha2)
    have hs := digit_small a ha
    have hs' := digit_small b hb
    have hdec : Spec.decimal [a, b] = (a.toNat - 48) * 10 + (b.toNat - 48) := by
      simp only [Spec.decimal, List.foldl]
      omega
    rw [hdec] at hd ⊢
    unfold day
    simp only [List.append_assoc, List.cons_append, List.nil_append, List.append_nil, e1, ok_bind,
      digit_byte_ok ha, secondDigit, digit_byte_ok hb]
    rw [u8_ok (by omega)]
    simp only [ok_bind]
    rw [u8_ok (by omega)]
    simp only [ok_bind]
    rw [if_neg (by omega)]
    simp only [hfg, ok_bind]
  | [], h1, _, _ => simp at h1
  | _ :: _ :: _ :: _, _, h2, _ => simp at h2

theorem year_append {w r : Bytes} {n : Nat} (h : Spec.Year w n) (hr : NoSpace r) :
    year (w ++ r) = .ok (r, n) := by
  obtain ⟨f, _, fv, rfl, hf, x, _, v, rfl, ⟨⟨rfl, hv⟩, hl⟩, _, _, y, rfl, ⟨⟨rfl, rfl⟩, hy1, hy2⟩, g, _, gv,
    rfl, hg, rfl, rfl⟩ := h
  have hfg := fws_append (r := r) hg hr.1 hr.2
  have hst : Stops Spec.digit (g ++ r) := by
    obtain ⟨b, t, rfl, hb⟩ := fws_head hg
    have key : ∀ b : UInt8, Spec.wsp b = true ∨ b = 13 → Spec.digit b = false := by decide +kernel
    exact stops_cons.mpr (key b hb)
  have hne : v ≠ [] := by intro e; rw [e] at hl; simp at hl
  have hns : NoSpace (v ++ (g ++ r)) := by
    cases v with
    | nil => exact absurd rfl hne
    | cons b t =>
      obtain ⟨h1, h2⟩ := digit_noSpace b (hv b (by simp))
      exact noSpace_cons h1 h2
  have e1 := fws_append (r := v ++ (g ++ r)) hf hns.1 hns.2
  have e2 := takeWhile1_ok (r := g ++ r) hne hv hst
  unfold year
  simp only [List.append_assoc, List.nil_append, List.append_nil, e1, ok_bind, isDigit_eq, e2,
    Outcome.mapErr]
  rw [if_neg (by omega)]
  have hp : parseUnsigned (2 ^ 64) v = some (Spec.decimal v) := parseUnsigned_eq hy2
  rw [hp]
  dsimp only
  rw [if_neg (by omega)]
  simp only [hfg, ok_bind]

theorem timeOfDay_append {w r : Bytes} {t : Time} (h : Spec.TimeOfDay w t) (hr : Stops (· == 58) r) :
    timeOfDay (w ++ r) = .ok (r, t) := by
  obtain ⟨a, _, hour, rfl, ⟨ha, ha'⟩, _, _, _, rfl, rfl, b, _, minute, rfl, ⟨hb, hb'⟩, s, _, o, rfl, hs,
    rfl, rfl⟩ := h
  have e1 := twoDigits_append (r := 58 :: (b ++ (s ++ r))) ha
  have e2 := twoDigits_append (r := s ++ r) hb
  have t1 := tag_append (b! ":") (b ++ (s ++ r))
    "TAG ERROR: In a time_of_day, the hour must be followed by a colon."
  unfold timeOfDay
  simp only [List.append_assoc, List.cons_append, List.nil_append, List.append_nil] at t1 ⊢
  simp only [e1, ok_bind]
  rw [if_neg (by omega)]
  simp only [t1, ok_bind, e2]
  rw [if_neg (by omega)]
  rcases hs with ⟨rfl, rfl⟩ | ⟨n, rfl, _, x, _, rfl, rfl, hx, hx'⟩
  · have : startsWith r (b! ":") = false := by
      cases r with
      | nil => rfl
      | cons b t =>
        have := stops_cons.mp hr
        simp only [beq_eq_false_iff_ne] at this
        simp only [startsWith, List.isPrefixOf, Bool.and_true, beq_eq_false_iff_ne]
        exact fun e => this e.symm
    simp [this]
  · have e3 := twoDigits_append (r := r) hx
    simp only [List.cons_append, List.nil_append, startsWith_cons, if_true, sliceFrom_cons, ok_bind,
      e3]
    rw [if_neg (by omega)]
    rfl

theorem zone_append {w r : Bytes} {z : Zone} (h : Spec.ZoneG w z) : zone (w ++ r) = .ok (r, z) := by
  obtain ⟨f, _, fv, rfl, hf, s, _, sign, rfl, hs, a, _, ho, rfl, ha, b, _, mo, rfl, ⟨hb, hb'⟩, rfl, rfl⟩ :=
    h
  have e2 := twoDigits_append (r := b ++ r) ha
  have e3 := twoDigits_append (r := r) hb
  have hsg : zoneSign (s ++ (a ++ (b ++ r))) = .ok (a ++ (b ++ r), sign) ∧
      NoSpace (s ++ (a ++ (b ++ r))) := by
    rcases hs with ⟨_, rfl, rfl⟩ | ⟨_, rfl, rfl⟩
    · exact ⟨rfl, noSpace_cons (by decide) (by decide)⟩
    · exact ⟨rfl, noSpace_cons (by decide) (by decide)⟩
  have e1 := fws_append (r := s ++ (a ++ (b ++ r))) hf hsg.2.1 hsg.2.2
  unfold zone
  simp only [List.append_assoc, List.append_nil, e1, ok_bind, hsg.1, e2, e3]
  rw [if_neg (by omega)]

theorem dateTime_append {w r : Bytes} {d : DateTime} (h : Spec.DateTimeGOf (Spec.CommentN c.stack) w d) (hr : CfwsEnd w r) : dateTime c (w ++ r) = .ok (r, d) := by
  obtain ⟨a, _, o, rfl, ha, d, _, vd, rfl, hd, m, _, vm, rfl, hm, y, _, vy, rfl, hy, t, _, vt, rfl, ht,
    z, _, vz, rfl, hz, w₃, _, _, rfl, h3, rfl, rfl⟩ := h
  have hr' : CfwsEnd w₃ r := by
    simp only [List.append_nil, ← List.append_assoc] at hr
    exact hr.suffix
  have e7 := skipCfws_append (c := c) (r := r) h3 hr'
  have e6 := zone_append (r := w₃ ++ r) hz
  have hz1 : Stops (· == 58) (z ++ (w₃ ++ r)) := by
    obtain ⟨f, _, fv, rfl, hf, _⟩ := hz
    obtain ⟨b, t, rfl, hb⟩ := fws_head hf
    have key : ∀ b : UInt8, Spec.wsp b = true ∨ b = 13 → (b == 58) = false := by decide +kernel
    exact stops_cons.mpr (key b hb)
  have e5 := timeOfDay_append (r := z ++ (w₃ ++ r)) ht hz1
  have ht1 : NoSpace (t ++ (z ++ (w₃ ++ r))) := by
    obtain ⟨a, _, hour, rfl, ⟨ha, ha'⟩, _⟩ := ht
    obtain ⟨x, y, rfl, hx, hy, _⟩ := number_cases ha
    obtain ⟨h1, h2⟩ := digit_noSpace x hx
    exact noSpace_cons h1 h2
  have e4 := year_append hy ht1
  have e3 := month_append (r := y ++ (t ++ (z ++ (w₃ ++ r)))) hm
  have hm1 : NoSpace (m ++ (y ++ (t ++ (z ++ (w₃ ++ r))))) := by
    obtain ⟨b, t, rfl, hb⟩ := month_head hm
    obtain ⟨h1, h2, h3⟩ := nameStart_end b hb
    exact noSpace_cons h1 h2
  have e2 := day_append hd hm1
  have e1 : optional (a ++ (d ++ (m ++ (y ++ (t ++ (z ++ (w₃ ++ r))))))) dayOfWeek =
      .ok (d ++ (m ++ (y ++ (t ++ (z ++ (w₃ ++ r))))), o) := by
    rcases ha with ⟨rfl, rfl⟩ | ⟨v, rfl, ha⟩
    · refine optional_err ?_
      obtain ⟨f, _, fo, rfl, hf, x, _, dv, rfl, ⟨hx, hdv⟩, _⟩ := hd
      obtain ⟨w₁, _, v, rfl, ⟨⟨rfl, hv⟩, h1, h2⟩, rfl, rfl⟩ := hx
      cases v with
      | nil => simp at h1
      | cons b v =>
        simp only [List.append_assoc, List.cons_append]
        exact dayOfWeek_err hf (hv b (by simp))
    · exact optional_ok (dayOfWeek_append ha)
  unfold dateTime date time
  simp only [List.append_assoc, List.append_nil, e1, ok_bind, e2, e3, e4, e5, e6, e7]

end EmailParser
