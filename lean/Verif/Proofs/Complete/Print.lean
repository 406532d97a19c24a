import Verif.Proofs.Complete.Date
import Verif.Proofs.Complete.Text
import Verif.Model.Fields
import Verif.Spec.Print
/-
The canonical texts are derived from the grammar.
-/
namespace EmailParser
open Spec (Gram)

variable {α β : Type} {c : Cfg}

theorem gram_then {G : Gram α} {F : α → Gram β} {w₁ w₂ : Bytes} {a : α} {v : β} (h : G w₁ a)
    (h' : F a w₂ v) : (G >>= F) (w₁ ++ w₂) v := ⟨w₁, w₂, a, rfl, h, h'⟩

theorem gram_last {G : Gram α} {f : α → β} {w : Bytes} {a : α} {v : β} (h : G w a)
    (h' : v = f a) : (G >>= fun a => pure (f a) : Gram β) w v :=
  ⟨w, [], a, by simp, h, rfl, h'⟩

theorem cfwsEnd_of {w r : Bytes} (h : NoFws r) (h' : Stops (· == 40) r)
    (hw : ∀ u b, w = u ++ [b] → Spec.wsp b = false) : CfwsEnd w r :=
  ⟨fun b t e => by simp only [h.1 b t e, h' b t e, Bool.or_false], fun t e => ⟨h.2 t e, hw⟩⟩

theorem cfwsEnd_last {u r : Bytes} {b : UInt8} (h : NoFws r) (h' : Stops (· == 40) r)
    (hb : Spec.wsp b = false) : CfwsEnd (u ++ [b]) r :=
  cfwsEnd_of h h' fun u' b' e => by
    have := (List.append_inj' e rfl).2
    simp only [List.cons.injEq, and_true] at this
    rw [← this]
    exact hb

/-- Only the last character matters. -/
theorem CfwsEnd.prepend {u w r : Bytes} (h : CfwsEnd w r) (hne : w ≠ []) : CfwsEnd (u ++ w) r :=
  ⟨h.1, fun t e => ⟨(h.2 t e).1, fun u' b e' => by
    rcases List.eq_nil_or_concat w with rfl | ⟨g, b', rfl⟩
    · exact absurd rfl hne
    · rw [List.concat_eq_append] at *
      rw [← List.append_assoc] at e'
      have hb := (List.append_inj' e' rfl).2
      simp only [List.cons.injEq, and_true] at hb
      rw [← hb]
      exact (h.2 t e).2 g b' rfl⟩⟩

/-! ### Numbers and dates -/

theorem digitOf_digit (n : Nat) : Spec.digit (Spec.digitOf n) = true := by
  have : ∀ k, k < 10 → Spec.digit (UInt8.ofNat (48 + k)) = true := by decide +kernel
  exact this (n % 10) (Nat.mod_lt _ (by decide))

theorem digitOf_toNat (n : Nat) : (Spec.digitOf n).toNat - 48 = n % 10 := by
  have : ∀ k, k < 10 → (UInt8.ofNat (48 + k)).toNat - 48 = k := by decide +kernel
  exact this (n % 10) (Nat.mod_lt _ (by decide))

theorem printNat_digits (n : Nat) : ∀ x ∈ Spec.printNat n, Spec.digit x = true := by
  induction n using Spec.printNat.induct with
  | case1 n h =>
    rw [Spec.printNat, if_pos h]
    intro x hx
    rw [List.mem_singleton.mp hx]
    exact digitOf_digit n
  | case2 n h ih =>
    rw [Spec.printNat, if_neg h]
    intro x hx
    rcases List.mem_append.mp hx with hx | hx
    · exact ih x hx
    · rw [List.mem_singleton.mp hx]
      exact digitOf_digit n

theorem decimal_printNat (n : Nat) : Spec.decimal (Spec.printNat n) = n := by
  induction n using Spec.printNat.induct with
  | case1 n h =>
    rw [Spec.printNat, if_pos h]
    simp only [Spec.decimal, List.foldl_cons, List.foldl_nil, digitOf_toNat]
    omega
  | case2 n h ih =>
    rw [Spec.printNat, if_neg h, decimal_append, ih, digitOf_toNat]
    omega

theorem printNat_length {n : Nat} (h : 1000 ≤ n) : 4 ≤ (Spec.printNat n).length := by
  rw [Spec.printNat, if_neg (by omega), Spec.printNat, if_neg (by omega), Spec.printNat,
    if_neg (by omega)]
  have : 1 ≤ (Spec.printNat (n / 10 / 10 / 10)).length := by
    rw [Spec.printNat]
    split <;> simp
  simp only [List.length_append, List.length_cons, List.length_nil]
  omega

theorem printTwo_number {n lo : Nat} (h : n ≤ 99) (hl : lo ≤ 2) :
    Spec.Number lo 2 (Spec.printTwo n) n := by
  refine ⟨Spec.printTwo n, [], Spec.printTwo n, by simp, ⟨⟨rfl, ?_⟩, ?_⟩, rfl, ?_⟩
  · intro x hx
    simp only [Spec.printTwo, List.mem_cons, List.not_mem_nil, or_false] at hx
    rcases hx with rfl | rfl <;> exact digitOf_digit _
  · simpa [Spec.printTwo] using hl
  · simp only [Spec.printTwo, Spec.decimal, List.foldl_cons, List.foldl_nil, digitOf_toNat]
    omega

theorem space_fws : Spec.Fws (b! " ") (b! " ") :=
  .inr ⟨rfl, by simp, by decide +kernel⟩

theorem optCfws_nil {K : Gram Unit} : Spec.OptCfwsOf K [] () := ⟨none, .inl ⟨rfl, rfl⟩⟩

theorem printDate_after {K : Gram Unit} {seconds : Bool} {d : DateTime} {g : Bytes} {o : Option Bytes}
    (hg : Gram.opt Spec.Fws g o) (h : Spec.InRange d) (hs : seconds = true ∨ d.time.time.second = 0) :
    Spec.DateTimeGOf K (g ++ Spec.printDate seconds d) d := by
  obtain ⟨h1, h2, h3, h4, h5, h6, h7, h8⟩ := h
  have hday : Spec.DayG (((match d.dayName with | none => g | some _ => b! " ")) ++
      Spec.printTwo d.date.day ++ b! " ") d.date.day := by
    have ho : ∃ o, Gram.opt Spec.Fws (match d.dayName with | none => g | some _ => b! " ") o := by
      cases d.dayName with
      | none => exact ⟨o, hg⟩
      | some _ => exact ⟨some _, .inr ⟨_, rfl, space_fws⟩⟩
    obtain ⟨o, ho⟩ := ho
    exact ⟨_, Spec.printTwo d.date.day ++ b! " ", o, by simp, ho, _, _, _, rfl,
      ⟨printTwo_number (by omega) (by omega), h1⟩, _, [], _, by simp, space_fws, rfl, rfl⟩
  have hname : Gram.opt Spec.DayOfWeek
      (match d.dayName with | none => [] | some n => g ++ (Spec.dayName n ++ b! ",")) d.dayName := by
    cases d.dayName with
    | none => exact .inl ⟨rfl, rfl⟩
    | some n =>
      refine .inr ⟨n, rfl, g, _, o, rfl, hg, _, _, n, rfl, rfl, _, [], (), by simp,
        rfl, rfl, rfl⟩
  have hyear : Spec.Year (b! " " ++ Spec.printNat d.date.year ++ b! " ") d.date.year := by
    rw [List.append_assoc]
    refine gram_then space_fws (gram_then (a := Spec.printNat d.date.year)
      ⟨⟨rfl, printNat_digits _⟩, printNat_length (by omega)⟩ ?_)
    exact ⟨[], _, d.date.year, rfl, ⟨⟨rfl, (decimal_printNat _).symm⟩, h2, h3⟩, gram_last space_fws rfl⟩
  have htime : Spec.TimeOfDay (Spec.printTime seconds d.time.time) d.time.time := by
    unfold Spec.printTime
    have hsec : ∃ o, Gram.opt (do
        Gram.lit (b! ":")
        Gram.filter (· ≤ 60) (Spec.Number 2 2))
        (if seconds then b! ":" ++ Spec.printTwo d.time.time.second else []) o ∧
        o.getD 0 = d.time.time.second := by
      cases seconds with
      | true => exact ⟨some d.time.time.second, .inr ⟨_, rfl, _, _, (), rfl, rfl,
          printTwo_number (by omega) (by omega), h6⟩, rfl⟩
      | false => exact ⟨none, .inl ⟨rfl, rfl⟩, by simpa using (by simpa using hs : _ = 0).symm⟩
    obtain ⟨o, ho, ho'⟩ := hsec
    refine ⟨_, _, _, by simp only [List.append_assoc]; rfl,
      ⟨printTwo_number (by omega) (by omega), h4⟩, _, _, (), rfl, rfl, _, _, _, rfl,
      ⟨printTwo_number (by omega) (by omega), h5⟩, _, [], o, by simp, ho, rfl, ?_⟩
    rw [ho']
  have hzone : Spec.ZoneG (b! " " ++ (if d.time.zone.sign then b! "+" else b! "-") ++
      Spec.printTwo d.time.zone.hourOffset ++ Spec.printTwo d.time.zone.minuteOffset) d.time.zone := by
    refine ⟨_, _, _, by simp only [List.append_assoc]; rfl, space_fws, _, _, d.time.zone.sign, rfl, ?_,
      _, _, _, rfl, printTwo_number (by omega) (by omega), _, [], _, by simp,
      ⟨printTwo_number (by omega) (by omega), h8⟩, rfl, rfl⟩
    cases d.time.zone.sign with
    | true => exact .inl ⟨(), rfl, rfl⟩
    | false => exact .inr ⟨(), rfl, rfl⟩
  have := gram_then (F := fun dayName => do
    let day ← Spec.DayG
    let month ← Spec.MonthG
    let year ← Spec.Year
    let time ← Spec.TimeOfDay
    let zone ← Spec.ZoneG
    Spec.OptCfwsOf K
    pure ({ dayName, date := { day, month, year }, time := { time, zone } } : DateTime)) hname
    (gram_then hday (gram_then (w₁ := Spec.monthName d.date.month) (a := d.date.month) rfl
      (gram_then hyear (gram_then htime (gram_then hzone (gram_last optCfws_nil rfl))))))
  have e : g ++ Spec.printDate seconds d =
      (match d.dayName with | none => [] | some n => g ++ (Spec.dayName n ++ b! ",")) ++
      ((match d.dayName with | none => g | some _ => b! " ") ++ Spec.printTwo d.date.day ++ b! " " ++
      (Spec.monthName d.date.month ++ (b! " " ++ Spec.printNat d.date.year ++ b! " " ++
      (Spec.printTime seconds d.time.time ++
      (b! " " ++ (if d.time.zone.sign then b! "+" else b! "-") ++
      Spec.printTwo d.time.zone.hourOffset ++ Spec.printTwo d.time.zone.minuteOffset ++ []))))) := by
    unfold Spec.printDate
    cases d.dayName <;> simp
  rw [e]
  exact this

theorem printDate_grammar {K : Gram Unit} {seconds : Bool} {d : DateTime} (h : Spec.InRange d)
    (hs : seconds = true ∨ d.time.time.second = 0) :
    Spec.DateTimeGOf K (Spec.printDate seconds d) d :=
  printDate_after (g := []) (o := none) (.inl ⟨rfl, rfl⟩) h hs

/-! ### Quoted strings -/

theorem optFws_wsp {ws : Bytes} (h : ∀ b ∈ ws, Spec.wsp b = true) : Spec.OptFws ws ws := by
  by_cases hne : ws = []
  · subst hne
    exact ⟨none, rfl, .inl ⟨rfl, rfl⟩⟩
  · exact ⟨some ws, rfl, .inr ⟨ws, rfl, .inr ⟨rfl, hne, h⟩⟩⟩

theorem vchar_cases : ∀ b : UInt8, Spec.vchar b = true → Spec.mustEscape b = false →
    Spec.qtext b = true := by decide +kernel

theorem escape_parts : ∀ (x ws : Bytes), Spec.Printable x → (∀ b ∈ ws, Spec.wsp b = true) →
    ∃ s vs last, ws ++ Spec.escapeText x = s ++ last ∧ Gram.star QuotedPart s vs ∧
      (∀ b ∈ last, Spec.wsp b = true) ∧ vs.flatten ++ last = ws ++ x
  | [], ws, _, hws => ⟨[], [], ws, by simp [Spec.escapeText], .nil, hws, by simp⟩
  | b :: x, ws, hx, hws => by
    have hx' : Spec.Printable x := fun b hb => hx b (List.mem_cons_of_mem _ hb)
    have hmust : ∀ b : UInt8, Spec.wsp b = true → Spec.mustEscape b = false := by decide +kernel
    have he : Spec.escapeText (b :: x) = (if Spec.mustEscape b then [92, b] else [b]) ++ Spec.escapeText x := rfl
    rcases hx b (by simp) with hb | hb
    · obtain ⟨s, vs, last, h1, h2, h3, h4⟩ := escape_parts x [] hx' (by simp)
      refine ⟨ws ++ ((if Spec.mustEscape b then [92, b] else [b]) ++ []) ++ s, (ws ++ [b]) :: vs, last,
        ?_, .cons ⟨ws, _, ws, rfl, optFws_wsp hws, _, _, [b], rfl, ?_, rfl, rfl⟩ h2, h3, ?_⟩
      · rw [he]
        simp only [List.nil_append] at h1
        simp [h1]
      · cases hm : Spec.mustEscape b with
        | true =>
          exact .inr ⟨[92], [b], (), rfl, rfl, [b], [], b, rfl, ⟨rfl, by simp [hb]⟩, rfl, rfl⟩
        | false => exact .inl ⟨rfl, by simp, by simpa using vchar_cases b hb hm⟩
      · simp only [List.nil_append] at h4
        simp [h4]
    · obtain ⟨s, vs, last, h1, h2, h3, h4⟩ := escape_parts x (ws ++ [b]) hx' (by
        intro y hy
        rcases List.mem_append.mp hy with hy | hy
        · exact hws y hy
        · rw [List.mem_singleton.mp hy]
          exact hb)
      refine ⟨s, vs, last, ?_, h2, h3, ?_⟩
      · rw [← h1, he, hmust b hb]
        simp
      · rw [h4]
        simp

theorem quote_grammar {K : Gram Unit} {g₁ g₂ x : Bytes} (h1 : Spec.OptCfwsOf K g₁ ())
    (h2 : Spec.OptCfwsOf K g₂ ()) (hx : Spec.Printable x) : Spec.QuotedStringOf K (g₁ ++ Spec.quote x ++ g₂) x := by
  obtain ⟨s, vs, last, e, hs, hl, hv⟩ := escape_parts x [] hx (by simp)
  simp only [List.nil_append] at e hv
  exact ⟨g₁, b! "\"" ++ (s ++ (last ++ (b! "\"" ++ (g₂ ++ [])))), (), by simp [Spec.quote, e], h1, _, _, (), rfl, rfl, s, _, vs, rfl,
    hs, last, _, last, rfl, optFws_wsp hl, _, _, (), rfl, rfl, _, _, (), rfl, h2, rfl, hv.symm⟩

/-- A text between quotation marks, with comments and white space around. -/
theorem quote_append {g₁ g₂ x r : Bytes} (h1 : Spec.Gap c g₁ ()) (h2 : Spec.Gap c g₂ ()) (hx : Spec.Printable x)
    (hr : CfwsEnd g₂ r) : quotedString c (g₁ ++ (Spec.quote x ++ (g₂ ++ r))) = .ok (r, x) := by
  obtain ⟨s, vs, last, e, hs, hl, hv⟩ := escape_parts x [] hx (by simp)
  simp only [List.nil_append] at e hv
  rw [show g₁ ++ (Spec.quote x ++ (g₂ ++ r)) = g₁ ++ (34 :: (s ++ (last ++ 34 :: (g₂ ++ r)))) by
    simp [Spec.quote, e], quotedString_around h1 hs (optFws_wsp hl) h2 hr, hv]

/-! ### Message identifiers -/

theorem dotAtomText_lax {lax : Bool} {w v : Bytes} (h : Spec.DotAtomText false w v) :
    Spec.DotAtomText lax w v := by
  cases lax with
  | false => exact h
  | true =>
    obtain ⟨w₁, _, _, rfl, h1, w₂, _, vs, rfl, h2, rfl, rfl⟩ := h
    refine ⟨w₁, _, _, rfl, h1, w₂, _, vs, rfl, ?_, rfl, rfl⟩
    clear h1
    induction h2 with
    | nil => exact .nil
    | cons h1 h2 ih =>
      obtain ⟨_, _, _, rfl, hl, y, _, x, rfl, ⟨rfl, -, h⟩, rfl, rfl⟩ := h1
      exact .cons ⟨_, _, _, rfl, hl, _, _, _, rfl, ⟨rfl, h⟩, rfl, rfl⟩ ih

theorem printId_grammar {K : Gram Unit} {lax literal : Bool} {g₁ g₂ : Bytes} {id : Bytes × Bytes}
    (h1 : Spec.OptCfwsOf K g₁ ()) (h2 : Spec.OptCfwsOf K g₂ ()) (h : Spec.ValidId literal id) :
    Spec.MessageIdOf K lax (g₁ ++ Spec.printId literal id ++ g₂) id := by
  obtain ⟨l, r⟩ := id
  obtain ⟨hl, hr⟩ := h
  refine ⟨g₁, _, (), by simp only [Spec.printId, List.append_assoc]; rfl, h1, _, _, (), rfl, rfl, _, _,
    l, rfl, dotAtomText_lax hl, _, _, (), rfl, rfl, _, _, r, rfl, ?_, _, _, (), rfl, rfl, _, [], (), by simp, h2,
    rfl, rfl⟩
  cases literal with
  | false => exact .inl (dotAtomText_lax hr)
  | true => exact .inr ⟨_, _, (), by simp only [if_true]; rfl, rfl, _, _, r, rfl, ⟨rfl, hr⟩, _, [], (), by simp, rfl, rfl, rfl⟩

/-- A list of identifiers; the white space and comments between two of them belong to the first. -/
def IdList (K : Gram Unit) (lax : Bool) : Gram (List (Bytes × Bytes)) :=
  Gram.star fun w v => Spec.MessageIdOf K lax w v ∧ ∃ t, w = 60 :: t

theorem optCfws_space {K : Gram Unit} : Spec.OptCfwsOf K (b! " ") () := ⟨some (), .inr ⟨(), rfl, .inr ⟨_, space_fws⟩⟩⟩

theorem printIds_grammar {K : Gram Unit} {lax : Bool} : ∀ ids : List (Bool × (Bytes × Bytes)),
    (∀ x ∈ ids, Spec.ValidId x.1 x.2) → IdList K lax (Spec.printIds ids) (ids.map (·.2))
  | [], _ => .nil
  | [(l, id)], h => by
    have := printId_grammar (K := K) (lax := lax) optCfws_nil optCfws_nil (h (l, id) (by simp))
    rw [List.nil_append] at this
    have := Gram.star.cons (G := fun w v => Spec.MessageIdOf K lax w v ∧ ∃ t, w = 60 :: t)
      ⟨this, _, rfl⟩ .nil
    rw [List.append_nil, List.append_nil] at this
    exact this
  | (l, id) :: x :: ids, h => by
    have ih := printIds_grammar (K := K) (lax := lax) (x :: ids) fun y hy => h y (by simp_all)
    have := printId_grammar (K := K) (lax := lax) optCfws_nil optCfws_space (h (l, id) (by simp))
    rw [List.nil_append] at this
    exact Gram.star.cons (G := fun w v => Spec.MessageIdOf K lax w v ∧ ∃ t, w = 60 :: t)
      ⟨this, _, rfl⟩ ih

theorem dotAtom_no_paren {lax : Bool} {x v : Bytes} (h : Spec.DotAtomText lax x v) : ∀ b ∈ x, b ≠ 40 := by
  have key : ∀ b, Spec.atext b = true → b ≠ 40 := by decide +kernel
  obtain ⟨w₁, _, _, rfl, ⟨rfl, _, h1⟩, w₂, _, vs, rfl, h2, rfl, rfl⟩ := h
  have : ∀ b ∈ w₂, b ≠ 40 := by
    clear h1
    induction h2 with
    | nil => simp
    | cons h1 h2 ih =>
      obtain ⟨_, _, _, rfl, rfl, y, _, x, rfl, h, rfl, rfl⟩ := h1
      have hy : ∀ b ∈ y, b ≠ 40 := by
        unfold Spec.DotPart at h
        split at h
        · exact fun b hb => key b (h.2 b hb)
        · exact fun b hb => key b (h.2.2 b hb)
      intro b hb
      simp only [List.append_nil, List.mem_append, List.mem_cons, List.not_mem_nil, or_false] at hb
      rcases hb with (rfl | hb) | hb
      · decide
      · exact hy b hb
      · exact ih b hb
  intro b hb
  simp only [List.append_nil, List.mem_append] at hb
  rcases hb with hb | hb
  · exact key b (h1 b hb)
  · exact this b hb

theorem printIds_shape : ∀ ids : List (Bool × (Bytes × Bytes)),
    ids ≠ [] → ∃ u, Spec.printIds ids = u ++ [62]
  | [], h => absurd rfl h
  | [(l, id)], _ => ⟨_, rfl⟩
  | (l, id) :: x :: ids, _ => by
    obtain ⟨u, hu⟩ := printIds_shape (x :: ids) (by simp)
    exact ⟨Spec.printId l id ++ b! " " ++ u, by simp [Spec.printIds, hu]⟩

theorem messageId_err {r : Bytes} (hr : NoFws r) (h40 : Stops (· == 40) r) (h60 : Stops (· == 60) r) :
    ∃ e, messageId c r = .err e := by
  unfold messageId
  simp only [skipCfws_none hr h40, ok_bind]
  cases r with
  | nil => exact ⟨_, by rw [tag_nil_err]; rfl⟩
  | cons b t => exact ⟨_, by rw [tag_cons_err (by simpa using stops_cons.mp h60)]; rfl⟩

theorem idList_end {K : Gram Unit} {lax : Bool} {w u r : Bytes} {vs : List (Bytes × Bytes)} (hs : IdList K lax w vs)
    (hr : CfwsEnd (u ++ w) r) : CfwsEnd u (w ++ r) := by
  cases hs with
  | nil => simpa using hr
  | cons h _ =>
    obtain ⟨-, t, rfl⟩ := h
    exact cfwsEnd_cons (by decide) (by decide) (by decide)

theorem idListLoop_append {r : Bytes} (h60 : Stops (· == 60) r) :
    ∀ (fuel : Nat) (s : Bytes) (vs : List (Bytes × Bytes)), s.length < fuel →
      IdList (Spec.CommentN c.stack) c.feat.compatibilityFixes s vs → CfwsEnd s r →
      manyLoop (messageId c) fuel (s ++ r) = .ok (r, vs)
  | 0, _, _, h, _, _ => by omega
  | fuel + 1, s, vs, h, hs, hr => by
    cases hs with
    | nil => exact manyLoop_err (messageId_err hr.noFws hr.open h60)
    | cons h1 hs =>
      rename_i w₁ w₂ a as
      obtain ⟨h1, t, rfl⟩ := h1
      have e1 := messageId_append (c := c) (r := w₂ ++ r) h1 (idList_end hs hr)
      have e2 := idListLoop_append h60 fuel w₂ as (by simp at h; omega) hs hr.suffix
      unfold manyLoop
      simp only [List.append_assoc, e1, e2, ok_bind]

theorem messageIds_append {w s r : Bytes} {v : Bytes × Bytes} {vs : List (Bytes × Bytes)}
    (hw : Spec.MessageIdOf (Spec.CommentN c.stack) c.feat.compatibilityFixes w v)
    (hs : IdList (Spec.CommentN c.stack) c.feat.compatibilityFixes s vs)
    (hr : CfwsEnd (w ++ s) r) (h60 : Stops (· == 60) r) :
    messageIds c (w ++ (s ++ r)) = .ok (r, v :: vs) := by
  have e1 := messageId_append (c := c) (r := s ++ r) hw (idList_end hs hr)
  have e2 := idListLoop_append (c := c) h60 ((s ++ r).length + 1) s vs (by simp; omega) hs hr.suffix
  unfold messageIds many1
  simp only [e1, e2, ok_bind]

end EmailParser
