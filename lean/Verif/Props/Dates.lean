import Verif.Proofs.Complete.Lexical
import Verif.Props.Email
import Verif.Spec.Print
/-
C13, C20 and C22: header values conform to the grammar (Verif/Spec/Grammar.lean and
Verif/Spec/Fields.lean); ranges of dates.
-/
namespace EmailParser
open Spec

variable (c : Cfg)

/-! ### C13 -/

/-- An accepted message is derived from the grammar, with the fields and the body reported. -/
theorem C13_message_conforms (i : Bytes) (fs : List Field) (b : Option Bytes)
    (h : parseMessage c i = .ok (fs, b)) : Message c i (fs, b) :=
  (parseMessage_sat (c := c) i).of_ok h

/-- Every field reported for an accepted message is derived from its own part of the text: a typed field
from the grammar of that header. -/
theorem C13_fields_conform (i : Bytes) (fs : List Field) (b : Option Bytes)
    (h : parseMessage c i = .ok (fs, b)) (f : Field) (hf : f ∈ fs) :
    ∃ before w after, i = before ++ w ++ after ∧ (FieldG c w f ∨ TraceBlock c w f) := by
  obtain ⟨head, tail, rfl, hh⟩ := message_header c (C13_message_conforms c i fs b h)
  obtain ⟨x, w, y, rfl, hw⟩ := header_mem c hh hf
  exact ⟨x, w, y ++ tail, by simp, hw⟩

/-- The recipients of an accepted e-mail are those of an address list of RFC 5322 in the text. -/
theorem C13_recipients (hc : c.feat.compiles) (i : Bytes) (e : Email) (l : List Address)
    (h : Email.parse c i = .ok e) (hl : e.to = some l) :
    ∃ before w after, i = before ++ w ++ after ∧ HeaderLine (b! "To:") (AddressList c) w l := by
  obtain ⟨fs, b, hp, -, -, -, he⟩ := parse_ok c hc h
  rw [he.to] at hl
  obtain ⟨f, hf, hv⟩ := List.exists_of_findSome?_eq_some hl
  obtain ⟨x, w, y, rfl, hw⟩ := C13_fields_conform c i fs b hp f hf
  refine ⟨x, w, y, rfl, ?_⟩
  cases f <;> simp only [toOf, Option.some.injEq, reduceCtorEq] at hv
  subst hv
  rcases hw with hw | hw
  · exact hw.2
  · obtain ⟨_, _, _, -, -, _, _, _, -, -, _, _, _, -, -, -, hv⟩ := hw
    cases hv

/-- A group among the recipients. -/
example : ((outcomeValue (Email.parse (Cfg.concrete .default)
    (b! "From: a@b\r\nDate: 1 Jan 2024 00:00 +0000\r\nTo: A Group:Ed <j@d>(c);, x@y\r\n"))).bind (·.to)) =
    some [.group [b! "A", b! "Group"] [⟨some [b! "Ed"], ⟨b! "j", b! "d"⟩⟩],
      .mailbox ⟨none, ⟨b! "x", b! "y"⟩⟩] := by
  decide +kernel

/-! ### C20 -/

theorem decimal_two {v : Bytes} (hv : ∀ x ∈ v, Spec.digit x = true) (h : v.length ≤ 2) :
    decimal v ≤ 99 := by
  have hd : ∀ x : UInt8, Spec.digit x = true → x.toNat - 48 ≤ 9 := by decide +kernel
  match v, h with
  | [], _ => simp [decimal]
  | [a], _ =>
    have := hd a (hv a (by simp))
    simp [decimal]; omega
  | [a, b], _ =>
    have h1 := hd a (hv a (by simp))
    have h2 := hd b (hv b (by simp))
    simp [decimal]; omega

theorem number_le {lo : Nat} {w : Bytes} {n : Nat} (h : Number lo 2 w n) : n ≤ 99 := by
  obtain ⟨_, _, v, -, ⟨⟨rfl, hd⟩, -, hl⟩, -, rfl⟩ := h
  exact decimal_two hd hl

/-- Dates derived from the grammar are in range. -/
theorem dateTime_inRange {w : Bytes} {d : DateTime} (h : DateTimeG w d) : InRange d := by
  obtain ⟨_, _, dn, -, -, _, _, dd, -, h1, _, _, m, -, -, _, _, y, -, h3, _, _, t, -, h4, _, _, z, -,
    h5, _, _, _, -, -, -, rfl⟩ := h
  obtain ⟨_, _, _, -, -, _, _, _, -, ⟨-, h1⟩, _, _, _, -, -, -, rfl⟩ := h1
  obtain ⟨_, _, _, -, -, _, _, _, -, -, _, _, _, -, ⟨-, h3⟩, _, _, _, -, -, -, rfl⟩ := h3
  obtain ⟨_, _, _, -, ⟨-, ha⟩, _, _, _, -, -, _, _, _, -, ⟨-, hb⟩, _, _, o, -, hs, -, rfl⟩ := h4
  obtain ⟨_, _, _, -, -, _, _, _, -, -, _, _, _, -, hz, _, _, _, -, ⟨-, hm⟩, -, rfl⟩ := h5
  refine ⟨h1, h3.1, h3.2, ha, hb, ?_, number_le hz, hm⟩
  rcases hs with ⟨-, rfl⟩ | ⟨s, rfl, _, _, _, -, -, -, hs⟩
  · simp
  · exact hs

theorem headerLine_value {α : Type} {name : Bytes} {G : Gram α} {w : Bytes} {v : α}
    (h : HeaderLine name G w v) : ∃ w', G w' v := by
  obtain ⟨_, _, _, -, -, _, _, _, -, hg, _, _, _, -, -, -, rfl⟩ := h
  exact ⟨_, hg⟩

/-- The date reported is in range. -/
theorem C20_date_in_range (hc : c.feat.compiles) (i : Bytes) (e : Email) (d : DateTime)
    (h : Email.parse c i = .ok e) (hd : e.date = some d) : InRange d := by
  obtain ⟨fs, b, hp, -, -, -, he⟩ := parse_ok c hc h
  rw [he.date] at hd
  split at hd
  · obtain ⟨f, hf, hv⟩ := List.exists_of_findSome?_eq_some hd
    obtain ⟨x, w, y, -, hw⟩ := C13_fields_conform c i fs b hp f hf
    cases f <;> simp only [dateOf, Option.some.injEq, reduceCtorEq] at hv
    subst hv
    rcases hw with hw | hw
    · obtain ⟨w', hw⟩ := headerLine_value hw.2
      exact dateTime_inRange hw
    · obtain ⟨_, _, _, -, -, _, _, _, -, -, _, _, _, -, -, -, hv⟩ := hw
      cases hv
  · cases hd

theorem star_values {α : Type} {G : Gram α} {w : Bytes} {vs : List α} (h : Gram.star G w vs) :
    ∀ v ∈ vs, ∃ w', G w' v := fun v hv => by
  obtain ⟨_, u, _, -, hu⟩ := star_mem h v hv
  exact ⟨u, hu⟩

theorem plus_values {α : Type} {G : Gram α} {w : Bytes} {vs : List α} (h : Gram.plus G w vs) :
    ∀ v ∈ vs, ∃ w', G w' v := by
  obtain ⟨_, _, a, -, h1, _, _, as, -, h2, -, rfl⟩ := h
  intro v hv
  rcases List.mem_cons.1 hv with rfl | hv
  · exact ⟨_, h1⟩
  · exact star_values h2 v hv

/-- The dates of trace fields are in range. -/
theorem C20_trace_dates_in_range (hc : c.feat.compiles) (i : Bytes) (e : Email)
    (path : Option (Option EmailAddress)) (received : List (List ReceivedToken × DateTime))
    (resent : List TraceField) (h : Email.parse c i = .ok e) (ht : (path, received, resent) ∈ e.trace) :
    (∀ r ∈ received, InRange r.2) ∧ ∀ d, .date d ∈ resent → InRange d := by
  obtain ⟨fs, b, hp, -, -, -, he⟩ := parse_ok c hc h
  rw [he.trace] at ht
  obtain ⟨f, hf, hv⟩ := List.mem_filterMap.1 ht
  obtain ⟨x, w, y, -, hw⟩ := C13_fields_conform c i fs b hp f hf
  cases f <;> simp only [traceOf, Option.some.injEq, reduceCtorEq] at hv
  cases hv
  rcases hw with hw | hw
  · exact hw.elim
  · obtain ⟨_, _, _, -, -, _, _, rs, -, hr, _, _, ts, -, ht, -, hv⟩ := hw
    cases hv
    constructor
    · intro r hr'
      obtain ⟨w', hw'⟩ := plus_values hr r hr'
      obtain ⟨w'', hw''⟩ := headerLine_value hw'
      obtain ⟨_, _, _, -, -, _, _, _, -, -, _, _, d, -, hd, -, rfl⟩ := hw''
      exact dateTime_inRange hd
    · intro d hd
      obtain ⟨w', _, _, _, -, -, hw'⟩ := star_values ht _ hd
      obtain ⟨w'', hw''⟩ := headerLine_value hw'
      exact dateTime_inRange hw''

/-- The dates of a content disposition are in range. -/
theorem C20_disposition_dates_in_range (hc : c.feat.compiles) (i : Bytes) (e : Email) (raw : RawEntity)
    (disp : Disposition) (d : DateTime) (h : Email.parse c i = .ok e) (hr : e.mimeEntity = some raw)
    (hd : raw.disposition = some disp)
    (hm : disp.creationDate = some d ∨ disp.modificationDate = some d ∨ disp.readDate = some d) :
    InRange d := by
  obtain ⟨fs, b, hp, -, -, -, he⟩ := parse_ok c hc h
  by_cases hmime : c.feat.mime = true
  · obtain ⟨raw', hr', -, -, -, hdi, -, -, -⟩ := he.entity hmime
    rw [hr] at hr'; cases hr'
    rw [hd] at hdi
    obtain ⟨f, hf, hv⟩ := List.exists_of_findSome?_eq_some hdi.symm
    obtain ⟨x, w, y, -, hw⟩ := C13_fields_conform c i fs b hp f hf
    cases f <;> simp only [contentDispositionOf, Option.some.injEq, reduceCtorEq] at hv
    subst hv
    rcases hw with hw | hw
    · obtain ⟨w', hw'⟩ := headerLine_value hw.2
      obtain ⟨_, _, _, -, -, _, _, _, -, -, _, _, items, -, hi, _, _, _, -, -, _, _, _, -, -, -, rfl⟩ := hw'
      have key : ∀ item ∈ items, item = .creationDate d ∨ item = .modificationDate d ∨
          item = .readDate d → InRange d := by
        intro item hit hcase
        obtain ⟨w'', hw''⟩ := star_values hi item hit
        have : ∃ n w₀, DateParam n w₀ d := by
          rcases hcase with rfl | rfl | rfl
          · rcases hw'' with ⟨_, h, -⟩ | ⟨_, h, hh⟩ | ⟨_, h, hh⟩ | ⟨_, h, hh⟩ | ⟨_, h, -⟩ <;> cases h
            exact ⟨_, _, hh⟩
          · rcases hw'' with ⟨_, h, -⟩ | ⟨_, h, hh⟩ | ⟨_, h, hh⟩ | ⟨_, h, hh⟩ | ⟨_, h, -⟩ <;> cases h
            exact ⟨_, _, hh⟩
          · rcases hw'' with ⟨_, h, -⟩ | ⟨_, h, hh⟩ | ⟨_, h, hh⟩ | ⟨_, h, hh⟩ | ⟨_, h, -⟩ <;> cases h
            exact ⟨_, _, hh⟩
        obtain ⟨n, w₀, _, _, _, -, -, _, _, _, -, -, _, _, _, -, -, _, _, _, -, -, _, _, _, -, -, _, _, _, -,
          hd, _, _, _, -, -, -, rfl⟩ := this
        exact dateTime_inRange hd
      rcases hm with hm | hm | hm <;> dsimp only at hm <;>
        obtain ⟨item, hit, he'⟩ := List.mem_filterMap.1 (List.mem_of_getLast? hm) <;>
        cases item <;> simp only [Option.some.injEq, reduceCtorEq] at he' <;> subst he' <;>
        exact key _ hit (by simp)
    · obtain ⟨_, _, _, -, -, _, _, _, -, -, _, _, _, -, -, -, hv⟩ := hw
      cases hv
  · rw [he.noEntity (by simpa using hmime)] at hr; cases hr

/-- A leap second, day 31 and the largest year are accepted; the day of the month and the day name are
not checked against the calendar. -/
example : ((outcomeValue (Email.parse (Cfg.concrete .default)
    (b! "From: a@b\r\nDate: Mon, 31 Feb 18446744073709551615 23:59:60 -9959\r\n"))).bind (·.date)) =
    some ⟨some .monday, ⟨31, .february, 2 ^ 64 - 1⟩, ⟨⟨23, 59, 60⟩, ⟨false, 99, 59⟩⟩⟩ := by
  decide +kernel

/-! ### C22 -/

/-- A year between white space is accepted exactly if it has at least four digits and is at least 1990
and less than 2^64; then it is read exactly. -/
theorem C22_year_iff (w₁ v₁ ds w₂ v₂ r : Bytes) (y : Nat) (h₁ : Fws w₁ v₁)
    (hne : ds ≠ []) (hd : ∀ x ∈ ds, Spec.digit x = true) (h₂ : Fws w₂ v₂) (hr : Stops wsp r) (hr' : ¬ CRLF <+: r) :
    year (w₁ ++ ds ++ w₂ ++ r) = .ok (r, y) ↔
      4 ≤ ds.length ∧ 1990 ≤ decimal ds ∧ decimal ds < 2 ^ 64 ∧ y = decimal ds := by
  have hw : ∀ {w v : Bytes}, Fws w v → ∃ b t, w = b :: t ∧ (wsp b = true ∨ b = 13) := by
    intro w v h
    rcases h with ⟨_, _, a, rfl, ⟨rfl, ha⟩, _, _, ⟨⟩, rfl, rfl, _, _, b, rfl, ⟨rfl, hne, hb⟩, rfl, rfl⟩ |
      ⟨rfl, hne, h⟩
    · cases a with
      | nil => exact ⟨13, _, rfl, .inr rfl⟩
      | cons x a => exact ⟨x, _, rfl, .inl (ha x (by simp))⟩
    · cases v with
      | nil => exact absurd rfl hne
      | cons x a => exact ⟨x, _, rfl, .inl (h x (by simp))⟩
  have hstop : Stops Spec.digit (w₂ ++ r) := by
    obtain ⟨b, t, rfl, hb⟩ := hw h₂
    have : ∀ b : UInt8, wsp b = true ∨ b = 13 → Spec.digit b = false := by decide +kernel
    exact stops_cons.2 (this b hb)
  have heq : natOfDigits ds = decimal ds := by
    unfold natOfDigits decimal
    congr 1
    funext n d
    rw [Nat.mul_comm]
  obtain ⟨d, ds', rfl⟩ : ∃ d ds', ds = d :: ds' := by
    cases ds with
    | nil => exact absurd rfl hne
    | cons d ds' => exact ⟨d, ds', rfl⟩
  have hdw : ∀ d : UInt8, Spec.digit d = true → wsp d = false ∧ d ≠ 13 := by decide +kernel
  have hd0 := hdw d (hd d (by simp))
  have e1 : fws (w₁ ++ (d :: ds' ++ (w₂ ++ r))) = .ok (d :: ds' ++ (w₂ ++ r), v₁) :=
    fws_append h₁ (stops_cons.2 hd0.1) fun hp => by
      rw [List.cons_append] at hp
      exact hd0.2 (List.cons_prefix_cons.1 hp).1.symm
  have e2 : takeWhile1 (d :: ds' ++ (w₂ ++ r)) Spec.digit = .ok (w₂ ++ r, d :: ds') :=
    takeWhile1_ok (by simp) hd hstop
  have e3 : fws (w₂ ++ r) = .ok (r, v₂) := fws_append h₂ hr hr'
  unfold year
  rw [List.append_assoc, List.append_assoc, e1]
  simp only [ok_bind, isDigit_eq, e2, Outcome.mapErr, parseUnsigned, heq]
  by_cases hl : (d :: ds').length < 4
  · rw [if_pos hl]
    constructor
    · rintro ⟨⟩
    · rintro ⟨h, -⟩; omega
  · rw [if_neg hl]
    by_cases hb : decimal (d :: ds') < 2 ^ 64
    · rw [if_pos hb]
      dsimp only
      by_cases h90 : decimal (d :: ds') < 1990
      · rw [if_pos h90]
        constructor
        · rintro ⟨⟩
        · rintro ⟨-, h, -⟩; omega
      · rw [if_neg h90, e3]
        simp only [ok_bind]
        constructor
        · rintro ⟨⟩; exact ⟨by omega, by omega, hb, rfl⟩
        · rintro ⟨-, -, -, rfl⟩; rfl
    · rw [if_neg hb]
      constructor
      · rintro ⟨⟩
      · rintro ⟨-, -, h, -⟩; exact absurd h hb

/-- Leading zeros are allowed. -/
example : outcomeValue (year (b! " 000002024 x")) = some (b! "x", 2024) := by decide +kernel
/-- Three digits are not a year, nor is a year before 1990 or one that does not fit in 64 bits. -/
example : outcomeValue (year (b! " 999 x")) = none ∧ outcomeValue (year (b! " 1989 x")) = none ∧
    outcomeValue (year (b! " 18446744073709551616 x")) = none := by decide +kernel

end EmailParser
