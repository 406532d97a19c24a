import Verif.Proofs.Sound.Common
/-
Soundness of the parsers of src/parsing/address.rs and src/parsing/time.rs.
-/
namespace EmailParser
open Spec (Gram)

variable {A : Aborts} {α β : Type} {c : Cfg}

/-! ### Addresses -/

theorem noFoldLitteral_parses : Parses A Spec.NoFoldLiteral noFoldLitteral := by
  intro i
  unfold noFoldLitteral
  rw [isDtext_eq]
  refine .bind (tag_parses _ _ i) fun r v w _ _ => ?_
  refine .bind (takeWhile_parses _ r) fun r v w _ _ => ?_
  refine .bind (tag_parses _ _ r) fun r v w _ _ => ?_
  exact .pure

theorem messageId_parses :
    Parses (aborts c) (Spec.MessageId c.feat.compatibilityFixes) (messageId c) := by
  intro i
  unfold messageId
  refine .bindRest (skipCfws_sat i) fun r w _ _ => ?_
  refine .bind (tag_parses _ _ r) fun r v w _ _ => ?_
  refine .bind (dotAtomText_parses r) fun r v w _ _ => ?_
  refine .bind (tag_parses _ _ r) fun r v w _ _ => ?_
  refine .bind (matchParsers_two dotAtomText_parses noFoldLitteral_parses r) fun r v w _ _ => ?_
  refine .bind (tag_parses _ _ r) fun r v w _ _ => ?_
  refine .bindRest (skipCfws_sat r) fun r w _ _ => ?_
  exact .pure

theorem messageId_progress {lax : Bool} : Progress (Spec.MessageId lax) :=
  progress_bind_right fun _ => progress_bind_left (progress_lit (by decide))

/-- Grammar of the text in a domain literal. -/
def DParts : Gram Bytes := Gram.map List.flatten (Gram.star do
  let _ ← Gram.opt Spec.Fws
  Gram.chars1 Spec.dtext)

theorem domainLiteralLoop_psat : ∀ fuel i, i.length < fuel →
    PSat A DParts i (domainLiteralLoop fuel i)
  | 0, _, h => by omega
  | fuel + 1, i, h => by
    unfold domainLiteralLoop
    have h1 := optFws_psat (A := A) i
    cases hx : optional i fws with
    | err e => exact .err
    | abort k => rw [hx] at h1; exact h1
    | ok r =>
      rw [hx] at h1
      obtain ⟨j, o⟩ := r
      obtain ⟨w, hi, hw⟩ := h1
      dsimp only at hi hw
      subst hi
      simp only [ok_bind]
      have h2 := takeWhile1_parses (A := A) isDtext j
      dsimp only at h2
      cases hy : takeWhile1 j isDtext with
      | abort k => rw [hy] at h2; exact A.mono w j k h2
      | err e => exact .ok [] rfl ⟨[], rfl, .nil⟩
      | ok r =>
        rw [hy] at h2
        obtain ⟨r, v⟩ := r
        obtain ⟨w', hj, hw'⟩ := h2
        rw [isDtext_eq] at hw'
        dsimp only at hj hw' ⊢
        subst hj
        have hlen : r.length < fuel := by
          have := List.length_pos_iff.mpr (progress_chars1 _ _ hw')
          simp at h; omega
        have ih := domainLiteralLoop_psat fuel r hlen
        cases hz : domainLiteralLoop fuel r with
        | err e => exact .err
        | abort k =>
          rw [hz] at ih
          exact A.mono w _ k (A.mono w' _ k ih)
        | ok s =>
          rw [hz] at ih
          obtain ⟨w'', hr, vs, hvs, hstar⟩ := ih
          refine .ok ((w ++ w') ++ w'') (by simp_all) ⟨v :: vs, ?_, ?_⟩
          · simp [hvs]
          · exact .cons ⟨w, w', o, rfl, hw, hw'⟩ hstar

theorem domainLiteral_parses : Parses (aborts c) Spec.DomainLiteral (domainLiteral c) := by
  intro i
  unfold domainLiteral
  refine (PSat.bindRest (skipCfws_sat i) (F := do
    Gram.lit (b! "[")
    let parts ← DParts
    let _ ← Gram.opt Spec.Fws
    Gram.lit (b! "]")
    Spec.OptCfws
    pure parts) fun r w _ _ => ?_).imp ?_
  · refine .bind (tag_parses _ _ r) fun r v w _ _ => ?_
    refine .bind (domainLiteralLoop_psat _ r (by omega)) fun r v w _ _ => ?_
    refine .bind (optFws_psat r) fun r v w _ _ => ?_
    refine .bind (tag_parses _ _ r) fun r v w _ _ => ?_
    refine .bindRest (skipCfws_sat r) fun r w _ _ => ?_
    exact .pure
  · rintro w v ⟨w₁, w₂, u, rfl, h₁, w₃, w₄, u', rfl, h₃, w₅, w₆, _, rfl, ⟨parts, rfl, h₅⟩, h₆⟩
    exact ⟨w₁, _, u, rfl, h₁, w₃, _, u', rfl, h₃, w₅, w₆, parts, rfl, h₅, h₆⟩

theorem localPart_parses :
    Parses (aborts c) (Spec.LocalPart c.feat.compatibilityFixes) (localPart c) :=
  matchParsers_two dotAtom_parses quotedString_parses

theorem localPart_progress {lax : Bool} : Progress (Spec.LocalPart lax) :=
  progress_or dotAtom_progress quotedString_progress

theorem domain_parses : Parses (aborts c) (Spec.Domain c.feat.compatibilityFixes) (domain c) :=
  matchParsers_two dotAtom_parses domainLiteral_parses

theorem domain_progress {lax : Bool} : Progress (Spec.Domain lax) :=
  progress_or dotAtom_progress
    (progress_bind_right fun _ => progress_bind_left (progress_lit (by decide)))

theorem addrSpec_parses :
    Parses (aborts c) (Spec.AddrSpec c.feat.compatibilityFixes) (addrSpec c) := by
  intro i
  unfold addrSpec
  refine .bind (localPart_parses i) fun r v w _ _ => ?_
  refine .bind (tag_parses _ _ r) fun r v w _ _ => ?_
  refine .bind (domain_parses r) fun r v w _ _ => ?_
  exact .pure

theorem addrSpec_progress {lax : Bool} : Progress (Spec.AddrSpec lax) :=
  progress_bind_left localPart_progress

theorem angleAddr_parses :
    Parses (aborts c) (Spec.AngleAddr c.feat.compatibilityFixes) (angleAddr c) := by
  intro i
  unfold angleAddr
  refine .bindRest (skipCfws_sat i) fun r w _ _ => ?_
  refine .bind (tag_parses _ _ r) fun r v w _ _ => ?_
  refine .bind (addrSpec_parses r) fun r v w _ _ => ?_
  refine .bind (tag_parses _ _ r) fun r v w _ _ => ?_
  refine .bindRest (skipCfws_sat r) fun r w _ _ => ?_
  exact .pure

theorem angleAddr_progress {lax : Bool} : Progress (Spec.AngleAddr lax) :=
  progress_bind_right fun _ => progress_bind_left (progress_lit (by decide))

theorem nameAddr_parses : Parses (aborts c) (do
    let name ← Gram.opt (Spec.Phrase c)
    let address ← Spec.AngleAddr c.feat.compatibilityFixes
    pure ({ name, address } : Mailbox)) (nameAddr c) := by
  intro i
  unfold nameAddr
  refine .bind (optional_psat (phrase_parses i)) fun r v w _ _ => ?_
  refine .bind (angleAddr_parses r) fun r v w _ _ => ?_
  exact .pure

theorem mailbox_parses : Parses (aborts c) (Spec.MailboxG c) (mailbox c) := by
  refine matchParsers_two (A := aborts c) nameAddr_parses ?_
  intro i
  refine .bind (addrSpec_parses i) fun r v w _ _ => ?_
  exact .pure

theorem mailbox_progress : Progress (Spec.MailboxG c) :=
  progress_or
    (progress_bind_right fun _ => progress_bind_left angleAddr_progress)
    (progress_bind_left addrSpec_progress)

theorem commaList_parses {G : Gram α} {p : Bytes → Res α} (hp : Parses A G p) :
    Parses A (Spec.CommaList G) (fun i => (do
      let (input, first) ← p i
      let (input, others) ← many input fun input => prefixed input p (b! ",")
      .ok (input, first :: others))) := by
  intro i
  refine .bind (hp i) fun r v w _ _ => ?_
  refine .bind (many_parses (progress_bind_left (progress_lit (by decide)))
    (prefixed_parses (b! ",") hp) r) fun r v w _ _ => ?_
  exact .pure

theorem commaList_progress {G : Gram α} (h : Progress G) : Progress (Spec.CommaList G) :=
  progress_bind_left h

theorem mailboxList_parses : Parses (aborts c) (Spec.MailboxList c) (mailboxList c) :=
  commaList_parses mailbox_parses

theorem groupList_parses : Parses (aborts c) (Spec.GroupList c) (groupList c) := by
  intro i
  unfold groupList
  have h := mailboxList_parses (c := c) i
  cases hx : mailboxList c i with
  | ok r => rw [hx] at h; exact h.orLeft
  | abort k => rw [hx] at h; exact h
  | err e =>
    dsimp only
    have h' := cfws_parses (c := c) i
    cases hy : cfws c i with
    | ok r =>
      rw [hy] at h'
      obtain ⟨w, hi, ⟨⟩, hw⟩ := h'
      refine .ok w hi (.inr ⟨w, [], (), by simp, ⟨some (), .inr ⟨_, rfl, hw⟩⟩, rfl, rfl⟩)
    | abort k => rw [hy] at h'; exact h'
    | err e => exact .ok [] rfl (.inr ⟨[], [], (), rfl, ⟨none, .inl ⟨rfl, rfl⟩⟩, rfl, rfl⟩)

theorem group_parses : Parses (aborts c) (Spec.Group c) (group c) := by
  intro i
  unfold group
  refine .bind (phrase_parses i) fun r v w _ _ => ?_
  refine .bind (tag_parses _ _ r) fun r v w _ _ => ?_
  refine .bind (groupList_parses r) fun r v w _ _ => ?_
  refine .bind (tag_parses _ _ r) fun r v w _ _ => ?_
  refine .bindRest (skipCfws_sat r) fun r w _ _ => ?_
  exact .pure

theorem address_parses : Parses (aborts c) (Spec.AddressG c) (address c) := by
  intro i
  unfold address
  have h := mailbox_parses (c := c) i
  cases hx : mailbox c i with
  | ok r =>
    rw [hx] at h
    obtain ⟨w, hi, hw⟩ := h
    exact .ok w hi (.inl ⟨_, rfl, hw⟩)
  | abort k => rw [hx] at h; exact h
  | err e =>
    dsimp only
    have h' := group_parses (c := c) i
    cases hy : group c i with
    | ok r =>
      rw [hy] at h'
      obtain ⟨w, hi, hw⟩ := h'
      exact .ok w hi (.inr ⟨_, rfl, hw⟩)
    | abort k => rw [hy] at h'; exact h'
    | err e => exact .err

theorem address_progress : Progress (Spec.AddressG c) :=
  progress_or (progress_map mailbox_progress) (progress_map (progress_bind_left phrase_progress))

theorem addressList_parses : Parses (aborts c) (Spec.AddressList c) (addressList c) :=
  commaList_parses address_parses

/-! ### Date and time -/

theorem lookup_mem [BEq α] [LawfulBEq α] {l : List (α × β)} {a : α} {b : β}
    (h : l.lookup a = some b) : (a, b) ∈ l := by
  induction l with
  | nil => simp at h
  | cons x l ih =>
    obtain ⟨x, y⟩ := x
    rw [List.lookup_cons] at h
    split at h
    · rename_i hx
      simp only [Option.some.injEq] at h
      rw [eq_of_beq hx, h]
      exact List.mem_cons_self
    · exact List.mem_cons_of_mem _ (ih h)

theorem dayName_parses :
    Parses A (fun w d => Gram.litNoCase (Spec.dayName d) w ()) dayName := by
  intro i
  unfold dayName
  split
  · rename_i hlen
    cases h : dayNames.lookup ((i.take 3).map asciiLower) with
    | none => exact .err
    | some d =>
      refine .ok (i.take 3) (by simp) ?_
      have hm := lookup_mem h
      have : ∀ x ∈ dayNames, (Spec.dayName x.2).map asciiLower = x.1 := by decide
      exact (this _ hm).symm
  · exact .err

theorem month_parses : Parses A Spec.MonthG month := by
  intro i
  unfold month
  split
  · rename_i hlen
    cases h : monthNames.lookup ((i.take 3).map asciiLower) with
    | none => exact .err
    | some d =>
      refine .ok (i.take 3) (by simp) ?_
      have hm := lookup_mem h
      have : ∀ x ∈ monthNames, (Spec.monthName x.2).map asciiLower = x.1 := by decide
      exact (this _ hm).symm
  · exact .err

theorem dayOfWeek_parses : Parses A Spec.DayOfWeek dayOfWeek := by
  intro i
  unfold dayOfWeek
  refine .bind (optFws_psat i) fun r v w _ _ => ?_
  refine .bind (dayName_parses r) fun r v w _ _ => ?_
  refine .bind (tag_parses _ _ r) fun r v w _ _ => ?_
  exact .pure

theorem natOfDigits_eq (v : Bytes) : natOfDigits v = Spec.decimal v := by
  unfold natOfDigits Spec.decimal
  congr 1
  funext n d
  omega

theorem year_parses : Parses A Spec.Year year := by
  intro i
  unfold year
  rw [isDigit_eq]
  refine (PSat.bind (fws_parses i) (F := fun _ => do
    let v ← Gram.chars1 Spec.digit
    fun w y => y = Spec.decimal v ∧ 4 ≤ v.length ∧ 1990 ≤ y ∧ y < 2 ^ 64 ∧ Gram.skip Spec.Fws w ())
    fun r v w _ _ => ?_).imp ?_
  · refine .bind (takeWhile1_parses Spec.digit r).mapErr fun r v w _ _ => ?_
    dsimp only
    split
    · exact .err
    · rename_i h4
      unfold parseUnsigned
      split
      · exact .err
      · rename_i y hy
        split at hy
        · rename_i hlt
          simp only [Option.some.injEq] at hy
          split
          · exact .err
          · rename_i hge
            refine (PSat.bind (fws_parses r) (F := fun _ => pure y)
              fun r v w _ _ => .pure).imp ?_
            intro w y' hw
            obtain ⟨x, hx, rfl⟩ := gram_bind_pure.mp hw
            rw [natOfDigits_eq] at hy hlt
            exact ⟨hy.symm, by omega, by omega, by omega, _, hx⟩
        · simp at hy
  · rintro w y ⟨w₁, _, a, rfl, h₁, w₂, w₃, v, rfl, ⟨rfl, h₂, h₂'⟩, rfl, h4, hy, hy', x, h₃⟩
    exact ⟨w₁, _, a, rfl, h₁, _, _, _, rfl, ⟨⟨rfl, h₂'⟩, h4⟩, [], w₃, _, rfl, ⟨⟨rfl, rfl⟩, hy, hy'⟩,
      w₃, [], x, by simp, h₃, rfl, rfl⟩

/-- One digit with its value. -/
def DigitG : Gram Nat := fun w n => ∃ d, w = [d] ∧ Spec.digit d = true ∧ n = d.toNat - 48

theorem digit_parses : Parses A DigitG digit := by
  intro i
  unfold digit
  cases i with
  | nil => exact .err
  | cons b i =>
    dsimp only
    split
    · rename_i h
      exact .ok [b] rfl ⟨b, rfl, h, rfl⟩
    · exact .err

theorem digit_le {w : Bytes} {n : Nat} (h : DigitG w n) : n ≤ 9 := by
  obtain ⟨d, -, hd, rfl⟩ := h
  revert d
  decide +kernel

theorem number_two {w₁ w₂ : Bytes} {a b : Nat} (h₁ : DigitG w₁ a) (h₂ : DigitG w₂ b) :
    Spec.Number 2 2 (w₁ ++ w₂) (a * 10 + b) := by
  obtain ⟨d, rfl, hd, rfl⟩ := h₁
  obtain ⟨e, rfl, he, rfl⟩ := h₂
  refine ⟨[d, e], [], [d, e], rfl, ⟨⟨rfl, ?_⟩, by simp⟩, rfl, ?_⟩
  · simp [hd, he]
  · simp [Spec.decimal]; omega

theorem number_one {w : Bytes} {a : Nat} (h : DigitG w a) : Spec.Number 1 2 w a := by
  obtain ⟨d, rfl, hd, rfl⟩ := h
  exact ⟨[d], [], [d], rfl, ⟨⟨rfl, by simp [hd]⟩, by simp⟩, rfl, by simp [Spec.decimal]⟩

theorem number_weaken {w : Bytes} {a : Nat} (h : Spec.Number 2 2 w a) : Spec.Number 1 2 w a := by
  obtain ⟨w₁, w₂, v, rfl, ⟨h, h'⟩, h''⟩ := h
  exact ⟨w₁, w₂, v, rfl, ⟨h, by omega, h'.2⟩, h''⟩

theorem u8_ok {n : Nat} (h : n < 256) : u8 n = .ok n := by simp [u8, h]

theorem twoDigits_parses : Parses A (Spec.Number 2 2) twoDigits := by
  intro i
  unfold twoDigits
  refine (PSat.bind (digit_parses i) (F := fun a => do
    let b ← DigitG
    pure (a * 10 + b)) fun r a w _ ha => ?_).imp ?_
  · refine .bind (digit_parses r) fun r b w _ hb => ?_
    have := digit_le ha
    have := digit_le hb
    simp only [u8_ok (show a * 10 < 256 by omega), ok_bind, u8_ok (show a * 10 + b < 256 by omega)]
    exact .pure
  · rintro w v ⟨w₁, _, a, rfl, h₁, h₂⟩
    obtain ⟨b, h₃, rfl⟩ := gram_bind_pure.mp h₂
    exact number_two h₁ h₃

theorem day_parses : Parses A Spec.DayG day := by
  intro i
  unfold day
  refine (PSat.bind (optFws_psat i) (F := fun _ => do
    let a ← DigitG
    let d ← fun w d => (w = [] ∧ d = a) ∨ ∃ b, DigitG w b ∧ d = a * 10 + b
    fun w v => v = d ∧ d ≤ 31 ∧ Gram.skip Spec.Fws w ())
    fun r v w _ _ => ?_).imp ?_
  · refine .bind (digit_parses r) fun r a w _ ha => ?_
    refine .bind (G := fun w d => (w = [] ∧ d = a) ∨ ∃ b, DigitG w b ∧ d = a * 10 + b) ?_
      fun r d w _ _ => ?_
    · unfold secondDigit
      have h := digit_parses (A := A) r
      cases hx : digit r with
      | err e => exact .ok [] rfl (.inl ⟨rfl, rfl⟩)
      | abort k => rw [hx] at h; exact h
      | ok s =>
        rw [hx] at h
        obtain ⟨s, b⟩ := s
        obtain ⟨w', hr, hb⟩ := h
        have := digit_le ha
        have := digit_le hb
        dsimp only at this
        simp only [u8_ok (show a * 10 < 256 by omega), ok_bind,
          u8_ok (show a * 10 + b < 256 by omega)]
        exact .ok w' hr (.inr ⟨b, hb, rfl⟩)
    · dsimp only
      split
      · exact .err
      · refine (PSat.bind (fws_parses r) (F := fun _ => pure d) fun r v w _ _ => .pure).imp ?_
        intro w y' hw
        obtain ⟨x, hx, rfl⟩ := gram_bind_pure.mp hw
        exact ⟨rfl, by omega, _, hx⟩
  · rintro w v ⟨w₁, _, a, rfl, h₁, w₂, _, d, rfl, h₂, w₃, w₄, n, rfl, h₃, rfl, hn, x, h₄⟩
    refine ⟨w₁, _, a, rfl, h₁, w₂ ++ w₃, w₄, v, by simp, ⟨?_, hn⟩, w₄, [], x, by simp, h₄, rfl, rfl⟩
    rcases h₃ with ⟨rfl, rfl⟩ | ⟨b, hb, rfl⟩
    · simpa using number_one h₂
    · exact number_weaken (number_two h₂ hb)

theorem filter_psat {G : Gram Nat} {F : Nat → Gram β} {i : Bytes} {x : Res Nat} {q : Nat → Prop}
    {e : Error} {f : Bytes × Nat → Res β} [DecidablePred q]
    (hx : PSat A G i x) (hf : ∀ r v w, i = w ++ r → G w v → ¬ q v → PSat A (F v) r (f (r, v))) :
    PSat A (Gram.filter (fun v => ¬ q v) G >>= F) i
      (x >>= fun r => if q r.2 then .err e else f r) := by
  cases x with
  | err e => exact .err
  | abort k => exact hx
  | ok r =>
    obtain ⟨r, v⟩ := r
    rw [ok_bind]
    dsimp only
    split
    · exact .err
    · rename_i hq
      obtain ⟨w, hi, hw⟩ := hx
      have : PSat A (Gram.filter (fun v => ¬ q v) G) i (.ok (r, v)) := .ok w hi ⟨hw, hq⟩
      exact .bind this fun r v w hi hw => hf r v w hi hw.1 hw.2

theorem timeOfDay_parses : Parses A Spec.TimeOfDay timeOfDay := by
  intro i
  unfold timeOfDay
  refine (filter_psat (twoDigits_parses i) (q := fun h => h > 23) (F := fun hour => do
    Gram.lit (b! ":")
    let minute ← Gram.filter (fun v => ¬ v > 59) (Spec.Number 2 2)
    let second ← Gram.opt do
      Gram.lit (b! ":")
      Gram.filter (· ≤ 60) (Spec.Number 2 2)
    pure ({ hour, minute, second := second.getD 0 } : Time))
    fun r hour w _ _ _ => ?_).imp ?_
  · refine .bind (tag_parses _ _ r) fun r v w _ _ => ?_
    refine filter_psat (twoDigits_parses r) (q := fun h => h > 59) fun r minute w _ _ _ => ?_
    have none : PSat A (do
        let second ← Gram.opt do
          Gram.lit (b! ":")
          Gram.filter (· ≤ 60) (Spec.Number 2 2)
        pure ({ hour, minute, second := second.getD 0 } : Time)) r
        (.ok (r, { hour, minute, second := 0 })) :=
      .ok [] rfl ⟨[], [], none, rfl, .inl ⟨rfl, rfl⟩, rfl, rfl⟩
    dsimp only
    split
    · rename_i hs
      obtain ⟨r, rfl⟩ := startsWith_iff.mp hs
      have e1 : sliceFrom (b! ":" ++ r) 1 = .ok r := by simp [sliceFrom]
      rw [e1, ok_bind]
      have h := twoDigits_parses (A := A) r
      cases hx : twoDigits r with
      | err e => exact none
      | abort k => rw [hx] at h; exact A.mono (b! ":") r k h
      | ok s =>
        rw [hx] at h
        obtain ⟨s, second⟩ := s
        obtain ⟨w', hr, hn⟩ := h
        dsimp only at hr hn ⊢
        subst hr
        split
        · exact .err
        · refine .ok (b! ":" ++ w') (by simp) (gram_bind_pure.mpr ⟨some second, ?_, rfl⟩)
          exact .inr ⟨_, rfl, b! ":", w', (), rfl, rfl, hn, by omega⟩
    · exact none
  · rintro w v ⟨w₁, _, h, rfl, ⟨h₁, h₁'⟩, w₂, _, u, rfl, h₂, w₃, w₄, m, rfl, ⟨h₃, h₃'⟩, h₄⟩
    exact ⟨w₁, _, h, rfl, ⟨h₁, by omega⟩, w₂, _, u, rfl, h₂, w₃, w₄, m, rfl, ⟨h₃, by omega⟩, h₄⟩

theorem zoneSign_parses :
    Parses A (Gram.or (Gram.map (fun _ => true) (Gram.lit (b! "+")))
      (Gram.map (fun _ => false) (Gram.lit (b! "-")))) zoneSign := by
  intro i
  unfold zoneSign
  cases i with
  | nil => exact .err
  | cons b i =>
    dsimp only
    split
    · rename_i h
      rw [eq_of_beq h]
      exact .ok [43] rfl (.inl ⟨(), rfl, rfl⟩)
    · split
      · rename_i h
        rw [eq_of_beq h]
        exact .ok [45] rfl (.inr ⟨(), rfl, rfl⟩)
      · exact .err

theorem zone_parses : Parses A Spec.ZoneG zone := by
  intro i
  unfold zone
  refine (PSat.bind (fws_parses i) (F := fun _ => do
    let sign ← Gram.or (Gram.map (fun _ => true) (Gram.lit (b! "+")))
      (Gram.map (fun _ => false) (Gram.lit (b! "-")))
    let hourOffset ← Spec.Number 2 2
    let minuteOffset ← Gram.filter (fun v => ¬ v > 59) (Spec.Number 2 2)
    pure ({ sign, hourOffset, minuteOffset } : Zone)) fun r v w _ _ => ?_).imp ?_
  · refine .bind (zoneSign_parses r) fun r v w _ _ => ?_
    refine .bind (twoDigits_parses r) fun r v w _ _ => ?_
    refine filter_psat (twoDigits_parses r) (q := fun h => h > 59) fun r minute w _ _ _ => ?_
    exact .pure
  · rintro w v ⟨w₁, _, h, rfl, h₁, w₂, _, u, rfl, h₂, w₃, _, m, rfl, h₃, w₄, w₅, n, rfl, ⟨h₄, h₄'⟩, h₅⟩
    exact ⟨w₁, _, h, rfl, h₁, w₂, _, u, rfl, h₂, w₃, _, m, rfl, h₃, w₄, w₅, n, rfl, ⟨h₄, by omega⟩, h₅⟩

theorem dateTime_parses : Parses (aborts c) Spec.DateTimeG (dateTime c) := by
  intro i
  unfold dateTime date time
  simp only [outcome_bind_assoc, ok_bind]
  refine .bind (optional_psat (dayOfWeek_parses i)) fun r v w _ _ => ?_
  refine .bind (day_parses r) fun r v w _ _ => ?_
  refine .bind (month_parses r) fun r v w _ _ => ?_
  refine .bind (year_parses r) fun r v w _ _ => ?_
  refine .bind (timeOfDay_parses r) fun r v w _ _ => ?_
  refine .bind (zone_parses r) fun r v w _ _ => ?_
  refine .bindRest (skipCfws_sat r) fun r w _ _ => ?_
  exact .pure

end EmailParser
