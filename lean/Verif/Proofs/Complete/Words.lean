import Verif.Proofs.Complete.Cfws
import Verif.Proofs.Sound.Address
/-
Atoms, quoted strings, domain literals, addresses between angle brackets and message identifiers of
the grammar are accepted, with arbitrary comments and folding around them.
-/
namespace EmailParser
open Spec (Gram)

variable {α β : Type} {c : Cfg}

/-! ### What can follow -/

/-- A class without white space, CR and `(`: its members end white space and comments. -/
theorem cfwsEnd_run {p : UInt8 → Bool} (hp : ∀ b, p b = true → Spec.wsp b = false ∧ b ≠ 40 ∧ b ≠ 13)
    {w t r : Bytes} (hne : t ≠ []) (ht : ∀ b ∈ t, p b = true) : CfwsEnd w (t ++ r) := by
  cases t with
  | nil => exact absurd rfl hne
  | cons b t =>
    obtain ⟨h1, h2, h3⟩ := hp b (ht b (by simp))
    exact cfwsEnd_cons h1 h2 h3

theorem atext_end : ∀ b : UInt8, Spec.atext b = true → Spec.wsp b = false ∧ b ≠ 40 ∧ b ≠ 13 := by
  decide +kernel

theorem atext_cfwsEnd {w t r : Bytes} (hne : t ≠ []) (ht : ∀ b ∈ t, Spec.atext b = true) :
    CfwsEnd w (t ++ r) := cfwsEnd_run atext_end hne ht

theorem cfws_head {n : Nat} {w : Bytes} (h : Spec.CfwsOf (Spec.CommentN n) w ()) :
    ∃ b t, w = b :: t ∧ (Spec.wsp b = true ∨ b = 13 ∨ b = 40) := by
  rcases h with ⟨s, _, vs, rfl, ⟨u, s', a, rfl, ⟨g, x, o', rfl, hg, hx⟩, _⟩, _⟩ | ⟨v, h⟩
  · rcases hg with ⟨rfl, rfl⟩ | ⟨v, rfl, hg⟩
    · obtain ⟨t, rfl⟩ := commentN_head n _ _ hx
      exact ⟨40, _, rfl, by simp⟩
    · obtain ⟨b, t, rfl, hb⟩ := fws_head hg
      exact ⟨b, _, rfl, by rcases hb with hb | hb <;> simp [hb]⟩
  · obtain ⟨b, t, rfl, hb⟩ := fws_head h
    exact ⟨b, _, rfl, by rcases hb with hb | hb <;> simp [hb]⟩

/-- White space and comments end a run of a class without their first characters. -/
theorem optCfws_stops {n : Nat} {w r : Bytes} (h : Spec.OptCfwsOf (Spec.CommentN n) w ()) {p : UInt8 → Bool}
    (hp : ∀ b, Spec.wsp b = true ∨ b = 13 ∨ b = 40 → p b = false) (hr : Stops p r) :
    Stops p (w ++ r) := by
  obtain ⟨o, ⟨rfl, rfl⟩ | ⟨⟨⟩, rfl, h⟩⟩ := h
  · exact hr
  · obtain ⟨b, t, rfl, hb⟩ := cfws_head h
    exact stops_cons.mpr (hp b hb)

theorem space_not_atext : ∀ b : UInt8, Spec.wsp b = true ∨ b = 13 ∨ b = 40 → Spec.atext b = false := by
  decide +kernel

theorem optFws_stops {w v r : Bytes} (h : Spec.OptFws w v) {p : UInt8 → Bool}
    (hp : ∀ b, Spec.wsp b = true ∨ b = 13 → p b = false) (hr : Stops p r) : Stops p (w ++ r) := by
  obtain ⟨o, rfl, ⟨rfl, rfl⟩ | ⟨v, rfl, h⟩⟩ := h
  · exact hr
  · obtain ⟨b, t, rfl, hb⟩ := fws_head h
    exact stops_cons.mpr (hp b hb)

/-! ### Atoms -/

/-- `atom` on the text it is made of. -/
theorem atom_append {w v r : Bytes} (h : Spec.AtomOf (Spec.CommentN c.stack) w v)
    (hr : CfwsEnd w r) (ha : Stops Spec.atext r) : atom c (w ++ r) = .ok (r, v) := by
  obtain ⟨w₁, _, _, rfl, h1, w₂, _, v', rfl, ⟨rfl, hne, hv⟩, w₃, _, _, rfl, h3, rfl, rfl⟩ := h
  have e1 := skipCfws_append (c := c) (r := v ++ (w₃ ++ r)) h1 (atext_cfwsEnd hne hv)
  have e2 := takeWhile1_ok (r := w₃ ++ r) hne hv (optCfws_stops h3 space_not_atext ha)
  have hr' : CfwsEnd w₃ r := by
    rw [List.append_nil, ← List.append_assoc] at hr
    exact hr.suffix
  have e3 := skipCfws_append (c := c) (r := r) h3 hr'
  unfold atom
  simp only [List.append_assoc, List.append_nil, e1, ok_bind, isAtext_eq, e2, Outcome.mapErr, e3]

/-- The text of a dot-atom is its value. -/
theorem dotAtomText_value {lax : Bool} {w v : Bytes} (h : Spec.DotAtomText lax w v) : v = w := by
  obtain ⟨w₁, _, _, rfl, ⟨rfl, _⟩, w₂, _, vs, rfl, h2, rfl, rfl⟩ := h
  have : ∀ {w : Bytes} {vs : List Bytes}, Gram.star (do
      Gram.lit (b! ".")
      let v ← Spec.DotPart lax
      pure (b! "." ++ v)) w vs → vs.flatten = w := by
    intro w vs h
    induction h with
    | nil => rfl
    | cons h1 h2 ih =>
      obtain ⟨_, _, _, rfl, rfl, y, _, x, rfl, h, rfl, rfl⟩ := h1
      have : x = y := by
        unfold Spec.DotPart at h
        split at h
        · exact h.1
        · exact h.1
      subst this
      simp [ih]
  rw [this h2]
  simp

theorem dotAtomText_head {lax : Bool} {w v : Bytes} (h : Spec.DotAtomText lax w v) :
    ∃ b t, w = b :: t ∧ Spec.atext b = true := by
  obtain ⟨w₁, _, v₁, rfl, ⟨rfl, hne, h1⟩, _⟩ := h
  cases v₁ with
  | nil => exact absurd rfl hne
  | cons b t => exact ⟨b, _, rfl, h1 b (by simp)⟩

/-- One `.` and what follows it. -/
def DotThen (lax : Bool) : Gram Bytes := do
  Gram.lit (b! ".")
  let v ← Spec.DotPart lax
  pure (b! "." ++ v)

theorem dotAtomTextLoop_append {r : Bytes} (hr : Stops (fun b => Spec.atext b || b == 46) r) :
    ∀ (fuel : Nat) (s : Bytes) (vs : List Bytes), s.length < fuel →
      Gram.star (DotThen c.feat.compatibilityFixes) s vs →
      dotAtomTextLoop c fuel (s ++ r) = .ok (r, vs.flatten)
  | 0, _, _, h, _ => by omega
  | fuel + 1, s, vs, h, hs => by
    have hra : Stops Spec.atext r := fun b t e => by
      have := hr b t e
      simp only [Bool.or_eq_false_iff] at this
      exact this.1
    unfold dotAtomTextLoop
    cases hs with
    | nil =>
      have : startsWith r (b! ".") = false := by
        cases r with
        | nil => rfl
        | cons b t =>
          have := stops_cons.mp hr
          simp only [Bool.or_eq_false_iff, beq_eq_false_iff_ne] at this
          simp only [startsWith, List.isPrefixOf, Bool.and_true, beq_eq_false_iff_ne]
          exact fun e => this.2 e.symm
      simp [this]
    | cons hp hs =>
      rename_i w₁ w₂ a as
      obtain ⟨_, _, _, rfl, rfl, x, _, v, rfl, hx, rfl, rfl⟩ := hp
      have hst : Stops Spec.atext (w₂ ++ r) := by
        cases hs with
        | nil => exact hra
        | cons hp hs =>
          obtain ⟨_, _, _, rfl, rfl, _⟩ := hp
          exact stops_cons.mpr (by decide)
      simp only [List.append_nil, List.append_assoc]
      have hs1 : startsWith (b! "." ++ (x ++ (w₂ ++ r))) (b! ".") = true := by
        simp [startsWith, List.isPrefixOf]
      have hs2 : sliceFrom (b! "." ++ (x ++ (w₂ ++ r))) 1 = .ok (x ++ (w₂ ++ r)) := rfl
      have hs3 : sliceTo (b! "." ++ (x ++ (w₂ ++ r))) 1 = .ok (b! ".") := rfl
      have ih := dotAtomTextLoop_append hr fuel w₂ as (by simp at h; omega) hs
      have ht : (if c.feat.compatibilityFixes then takeWhile (x ++ (w₂ ++ r)) isAtext
          else takeWhile1 (x ++ (w₂ ++ r)) isAtext) = .ok (w₂ ++ r, v) := by
        rw [isAtext_eq]
        unfold Spec.DotPart at hx
        by_cases hc : c.feat.compatibilityFixes
        · rw [if_pos hc] at hx ⊢
          obtain ⟨rfl, hv⟩ := hx
          exact takeWhile_ok hv hst
        · rw [if_neg hc] at hx ⊢
          obtain ⟨rfl, hne, hv⟩ := hx
          exact takeWhile1_ok hne hv hst
      rw [if_pos hs1]
      simp only [hs2, ok_bind, ht, hs3, ih, List.flatten_cons, List.append_assoc]

theorem dotAtomText_append {w v r : Bytes} (h : Spec.DotAtomText c.feat.compatibilityFixes w v)
    (hr : Stops (fun b => Spec.atext b || b == 46) r) : dotAtomText c (w ++ r) = .ok (r, v) := by
  obtain ⟨w₁, _, v₁, rfl, ⟨rfl, hne, h1⟩, w₂, _, vs, rfl, h2, rfl, rfl⟩ := h
  have hst : Stops Spec.atext (w₂ ++ r) := by
    cases h2 with
    | nil =>
      intro b t e
      have := hr b t e
      simp only [Bool.or_eq_false_iff] at this
      exact this.1
    | cons hp hs =>
      obtain ⟨_, _, _, rfl, rfl, _⟩ := hp
      exact stops_cons.mpr (by decide)
  unfold dotAtomText
  have e1 := takeWhile1_ok (r := w₂ ++ r) hne h1 hst
  have e2 := dotAtomTextLoop_append hr ((w₂ ++ r).length + 1) w₂ vs (by simp; omega) h2
  simp only [List.append_assoc, List.append_nil, isAtext_eq, e1, ok_bind, e2]

theorem dotAtom_append {w v r : Bytes} (h : Spec.DotAtomOf (Spec.CommentN c.stack) c.feat.compatibilityFixes w v) (hr : CfwsEnd w r)
    (ha : Stops (fun b => Spec.atext b || b == 46) r) : dotAtom c (w ++ r) = .ok (r, v) := by
  obtain ⟨w₁, _, _, rfl, h1, w₂, _, v', rfl, hv, w₃, _, _, rfl, h3, rfl, rfl⟩ := h
  have hs : CfwsEnd w₁ (w₂ ++ (w₃ ++ r)) := by
    obtain ⟨b, t, rfl, hb⟩ := dotAtomText_head hv
    obtain ⟨h1, h2, h3⟩ := atext_end b hb
    exact cfwsEnd_cons h1 h2 h3
  have e1 := skipCfws_append (c := c) (r := w₂ ++ (w₃ ++ r)) h1 hs
  have e2 := dotAtomText_append (c := c) (r := w₃ ++ r) hv (optCfws_stops h3 (by decide +kernel) ha)
  have hr' : CfwsEnd w₃ r := by
    rw [List.append_nil, ← List.append_assoc] at hr
    exact hr.suffix
  have e3 := skipCfws_append (c := c) (r := r) h3 hr'
  unfold dotAtom
  simp only [List.append_assoc, List.append_nil, e1, ok_bind, e2, e3]

/-! ### Quoted strings -/

/-- One element of a quoted string. -/
def QuotedPart : Gram Bytes := do
  let white ← Spec.OptFws
  let v ← Gram.or (Gram.chars1 Spec.qtext) Spec.QuotedPair
  pure (white ++ v)

theorem qtext_noSpace : ∀ b : UInt8, Spec.qtext b = true → Spec.wsp b = false ∧ b ≠ 13 := by
  decide +kernel

theorem space_not_qtext : ∀ b : UInt8, Spec.wsp b = true ∨ b = 13 → Spec.qtext b = false := by
  decide +kernel

theorem quotedParts_residual {r : Bytes} (hr : Stops Spec.qtext r) {s : Bytes} {vs : List Bytes}
    (h : Gram.star QuotedPart s vs) :
    ∃ y s' vs', s = y ++ s' ∧ (∀ x ∈ y, Spec.qtext x = true) ∧ vs.flatten = y ++ vs'.flatten ∧
      Gram.star QuotedPart s' vs' ∧ Stops Spec.qtext (s' ++ r) := by
  induction h with
  | nil => exact ⟨[], [], [], rfl, by simp, rfl, .nil, hr⟩
  | cons hp hs ih =>
    rename_i w₁ w₂ a as
    have hp' := hp
    obtain ⟨f, x, o, rfl, hf, x', _, v, rfl, hx, rfl, rfl⟩ := hp
    have hstop : ∀ b t, f ++ (x' ++ []) = b :: t → Spec.qtext b = false →
        ∃ y s' vs', f ++ (x' ++ []) ++ w₂ = y ++ s' ∧ (∀ x ∈ y, Spec.qtext x = true) ∧
          ((o ++ v) :: as).flatten = y ++ vs'.flatten ∧
          Gram.star QuotedPart s' vs' ∧ Stops Spec.qtext (s' ++ r) := by
      intro b t e hb
      refine ⟨[], f ++ (x' ++ []) ++ w₂, (o ++ v) :: as, rfl, by simp, rfl, .cons hp' hs, ?_⟩
      rw [e]
      exact stops_cons.mpr hb
    obtain ⟨o', rfl, ⟨rfl, rfl⟩ | ⟨v', rfl, hf⟩⟩ := hf
    · rcases hx with ⟨rfl, hne, hv⟩ | ⟨_, _, _, rfl, rfl, -⟩
      · obtain ⟨y, s', vs', rfl, hy, hfl, hs', hstop⟩ := ih
        refine ⟨v ++ y, s', vs', by simp, ?_, by simp [hfl], hs', hstop⟩
        intro x hx
        rcases List.mem_append.mp hx with hx | hx
        · exact hv x hx
        · exact hy x hx
      · exact hstop 92 _ rfl (by decide)
    · obtain ⟨b, t, rfl, hb⟩ := fws_head hf
      exact hstop b (t ++ (x' ++ [])) rfl (space_not_qtext b hb)

theorem quotedPart_noSpace {x v r : Bytes}
    (h : Gram.or (Gram.chars1 Spec.qtext) Spec.QuotedPair x v) : NoSpace (x ++ r) ∧ 0 < x.length := by
  rcases h with ⟨rfl, hne, hv⟩ | ⟨_, _, _, rfl, rfl, -⟩
  · cases v with
    | nil => exact absurd rfl hne
    | cons b t =>
      obtain ⟨h1, h2⟩ := qtext_noSpace b (hv b (by simp))
      exact ⟨noSpace_cons h1 h2, by simp⟩
  · exact ⟨noSpace_cons (by decide) (by decide), by simp⟩

theorem quotedStringLoop_append {f fv r : Bytes} (hf : Spec.OptFws f fv) :
    ∀ (fuel : Nat) (s : Bytes) (vs : List Bytes), s.length < fuel → Gram.star QuotedPart s vs →
      quotedStringLoop fuel (s ++ (f ++ 34 :: r)) = .ok (f ++ 34 :: r, vs.flatten)
  | 0, _, _, h, _ => by omega
  | fuel + 1, s, vs, h, hs => by
    have hstop : Stops Spec.qtext (f ++ 34 :: r) :=
      optFws_stops hf space_not_qtext (stops_cons.mpr (by decide))
    unfold quotedStringLoop
    rw [isQtext_eq]
    cases hs with
    | nil =>
      have h1 := fwsOrEmpty_append hf (r := 34 :: r) (noSpace_cons (by decide) (by decide))
      obtain ⟨e1, he1⟩ := takeWhile1_err (p := Spec.qtext) (r := 34 :: r)
        (stops_cons.mpr (by decide))
      obtain ⟨e2, he2⟩ := quotedPair_err (b := 34) (t := r) (by decide)
      simp only [List.nil_append, h1, ok_bind, he1, he2, List.flatten_nil]
    | cons hp hs =>
      rename_i w₁ w₂ a as
      obtain ⟨g, _, gv, rfl, hg, x, _, v, rfl, hx, rfl, rfl⟩ := hp
      obtain ⟨hns, hlen⟩ := quotedPart_noSpace (r := w₂ ++ (f ++ 34 :: r)) hx
      have h1 := fwsOrEmpty_append hg hns
      simp only [List.append_nil, List.append_assoc, h1, ok_bind]
      simp only [List.length_append, List.length_nil] at h
      rcases hx with ⟨rfl, hne, hv⟩ | hx
      · obtain ⟨y, s', vs', rfl, hy, hfl, hs', hst⟩ := quotedParts_residual hstop hs
        have h2 := takeWhile1_ok (p := Spec.qtext) (w := v ++ y) (r := s' ++ (f ++ 34 :: r))
          (by simp [hne]) (by
            intro x hx
            rcases List.mem_append.mp hx with hx | hx
            · exact hv x hx
            · exact hy x hx) hst
        simp only [List.append_assoc] at h2
        have ih := quotedStringLoop_append (r := r) hf fuel s' vs'
          (by simp only [List.length_append] at h; omega) hs'
        simp only [List.append_assoc, h2, ih, ok_bind, List.flatten_cons, hfl]
      · have h2 : ∃ e, takeWhile1 (x ++ (w₂ ++ (f ++ 34 :: r))) Spec.qtext = .err e := by
          obtain ⟨_, _, _, rfl, rfl, -⟩ := hx
          exact takeWhile1_err (stops_cons.mpr (by decide))
        obtain ⟨e, he⟩ := h2
        have hq := quotedPair_append (r := w₂ ++ (f ++ 34 :: r)) hx
        have ih := quotedStringLoop_append (r := r) hf fuel w₂ as (by omega) hs
        simp only [he, hq, ih, ok_bind, List.flatten_cons, List.append_assoc]

theorem startsWith_cons {b : UInt8} {t : Bytes} : startsWith (b :: t) [b] = true := by
  simp [startsWith, List.isPrefixOf]

theorem sliceFrom_cons {b : UInt8} {t : Bytes} : sliceFrom (b :: t) 1 = .ok t := by
  simp [sliceFrom]

/-- Only the comments around the quotation marks need stack. -/
theorem quotedString_around {w₁ s f fv w₃ r : Bytes} {vs : List Bytes} (h1 : Spec.Gap c w₁ ()) (hs : Gram.star QuotedPart s vs) (hf : Spec.OptFws f fv)
    (h3 : Spec.Gap c w₃ ()) (hr : CfwsEnd w₃ r) :
    quotedString c (w₁ ++ (34 :: (s ++ (f ++ 34 :: (w₃ ++ r))))) = .ok (r, vs.flatten ++ fv) := by
  have e1 := skipCfws_append (c := c) (r := 34 :: (s ++ (f ++ 34 :: (w₃ ++ r)))) h1
    (cfwsEnd_cons (by decide) (by decide) (by decide))
  have e2 := quotedStringLoop_append (r := w₃ ++ r) hf ((s ++ (f ++ 34 :: (w₃ ++ r))).length + 1) s vs
    (by simp; omega) hs
  have e3 := fwsOrEmpty_append (r := 34 :: (w₃ ++ r)) hf (noSpace_cons (by decide) (by decide))
  have e4 := skipCfws_append (c := c) (r := r) h3 hr
  unfold quotedString
  simp only [e1, ok_bind, startsWith_cons, if_true, sliceFrom_cons, e2, e3, e4]

theorem quotedString_append {w v r : Bytes} (h : Spec.QuotedStringOf (Spec.CommentN c.stack) w v)
    (hr : CfwsEnd w r) : quotedString c (w ++ r) = .ok (r, v) := by
  obtain ⟨w₁, _, _, rfl, h1, _, _, _, rfl, rfl, s, _, vs, rfl, hs, f, _, fv, rfl, hf, _, _, _, rfl,
    rfl, w₃, _, _, rfl, h3, rfl, rfl⟩ := h
  have hr' : CfwsEnd w₃ r := by
    simp only [List.append_nil, ← List.append_assoc] at hr
    exact hr.suffix
  rw [show w₁ ++ (b! "\"" ++ (s ++ (f ++ (b! "\"" ++ (w₃ ++ []))))) ++ r =
    w₁ ++ (34 :: (s ++ (f ++ 34 :: (w₃ ++ r)))) by simp]
  exact quotedString_around h1 hs hf h3 hr'

theorem quotedString_err {r : Bytes} (h : NoFws r) (h' : Stops (fun b => b == 40 || b == 34) r) :
    ∃ e, quotedString c r = .err e := by
  unfold quotedString
  have h1 : Stops (· == 40) r := fun b t e => by
    have := h' b t e
    simp only [Bool.or_eq_false_iff] at this
    exact this.1
  have : startsWith r (b! "\"") = false := by
    cases r with
    | nil => rfl
    | cons b t =>
      have := stops_cons.mp h'
      simp only [Bool.or_eq_false_iff, beq_eq_false_iff_ne] at this
      simp only [startsWith, List.isPrefixOf, Bool.and_true, beq_eq_false_iff_ne]
      exact fun e => this.2 e.symm
  simp [skipCfws_none (c := c) h h1, this]

/-! ### Words -/

theorem atom_err {w r : Bytes} (h : Spec.Gap c w ())
    (hr : CfwsEnd w r) (ha : Stops Spec.atext r) : ∃ e, atom c (w ++ r) = .err e := by
  obtain ⟨e, he⟩ := takeWhile1_err ha
  unfold atom
  simp only [skipCfws_append h hr, ok_bind, isAtext_eq, he, Outcome.mapErr]
  exact ⟨_, rfl⟩

theorem dotAtomText_err {r : Bytes} (ha : Stops Spec.atext r) : ∃ e, dotAtomText c r = .err e := by
  obtain ⟨e, he⟩ := takeWhile1_err ha
  unfold dotAtomText
  simp only [isAtext_eq, he]
  exact ⟨_, rfl⟩

theorem dotAtom_err {w r : Bytes} (h : Spec.Gap c w ())
    (hr : CfwsEnd w r) (ha : Stops Spec.atext r) : ∃ e, dotAtom c (w ++ r) = .err e := by
  obtain ⟨e, he⟩ := dotAtomText_err (c := c) ha
  unfold dotAtom
  simp only [skipCfws_append h hr, ok_bind, he]
  exact ⟨_, rfl⟩

/-- Where a quoted string starts. -/
theorem quotedString_open {w v : Bytes} (h : Spec.QuotedStringOf (Spec.CommentN c.stack) w v) :
    ∃ w₁ t, w = w₁ ++ 34 :: t ∧ Spec.Gap c w₁ () := by
  obtain ⟨w₁, _, _, rfl, h1, _, t, _, rfl, rfl, _⟩ := h
  exact ⟨w₁, t, rfl, h1⟩

theorem word_append {w v r : Bytes} (h : Spec.WordOf (Spec.CommentN c.stack) w v)
    (hr : CfwsEnd w r) (ha : Stops Spec.atext r) : word c (w ++ r) = .ok (r, v) := by
  unfold word
  rcases h with h | h
  · rw [matchParsers, atom_append h hr ha]
  · have hq := quotedString_append (c := c) h hr
    obtain ⟨w₁, t, rfl, h1⟩ := quotedString_open h
    obtain ⟨e, he⟩ := atom_err (c := c) (r := 34 :: (t ++ r)) h1
      (cfwsEnd_cons (by decide) (by decide) (by decide)) (stops_cons.mpr (by decide))
    simp only [List.append_assoc, List.cons_append] at hq ⊢
    simp only [matchParsers, he, hq]

theorem localPart_append {w v r : Bytes} (h : Spec.LocalPartOf (Spec.CommentN c.stack) c.feat.compatibilityFixes w v) (hr : CfwsEnd w r)
    (ha : Stops (fun b => Spec.atext b || b == 46) r) : localPart c (w ++ r) = .ok (r, v) := by
  unfold localPart
  rcases h with h | h
  · rw [matchParsers, dotAtom_append h hr ha]
  · have hq := quotedString_append (c := c) h hr
    obtain ⟨w₁, t, rfl, h1⟩ := quotedString_open h
    obtain ⟨e, he⟩ := dotAtom_err (c := c) (r := 34 :: (t ++ r)) h1
      (cfwsEnd_cons (by decide) (by decide) (by decide)) (stops_cons.mpr (by decide))
    simp only [List.append_assoc, List.cons_append] at hq ⊢
    simp only [matchParsers, he, hq]

/-! ### Domain literals -/

/-- One element of a domain literal. -/
def LiteralPart : Gram Bytes := do
  let _ ← Gram.opt Spec.Fws
  Gram.chars1 Spec.dtext

theorem dtext_noSpace : ∀ b : UInt8, Spec.dtext b = true → Spec.wsp b = false ∧ b ≠ 13 := by
  decide +kernel

theorem space_not_dtext : ∀ b : UInt8, Spec.wsp b = true ∨ b = 13 → Spec.dtext b = false := by
  decide +kernel

theorem literalParts_residual {r : Bytes} (hr : Stops Spec.dtext r) {s : Bytes} {vs : List Bytes}
    (h : Gram.star LiteralPart s vs) :
    ∃ y s' vs', s = y ++ s' ∧ (∀ x ∈ y, Spec.dtext x = true) ∧ vs.flatten = y ++ vs'.flatten ∧
      Gram.star LiteralPart s' vs' ∧ Stops Spec.dtext (s' ++ r) := by
  induction h with
  | nil => exact ⟨[], [], [], rfl, by simp, rfl, .nil, hr⟩
  | cons hp hs ih =>
    rename_i w₁ w₂ a as
    have hp' := hp
    obtain ⟨f, x, o, rfl, hf, rfl, hne, hv⟩ := hp
    rcases hf with ⟨rfl, rfl⟩ | ⟨v', rfl, hf⟩
    · obtain ⟨y, s', vs', rfl, hy, hfl, hs', hstop⟩ := ih
      refine ⟨a ++ y, s', vs', by simp, ?_, by simp [hfl], hs', hstop⟩
      intro x hx
      rcases List.mem_append.mp hx with hx | hx
      · exact hv x hx
      · exact hy x hx
    · obtain ⟨b, t, rfl, hb⟩ := fws_head hf
      refine ⟨[], _, a :: as, rfl, by simp, rfl, .cons hp' hs, ?_⟩
      exact stops_cons.mpr (space_not_dtext b hb)

theorem domainLiteralLoop_append {f r : Bytes} {o : Option Bytes} (hf : Gram.opt Spec.Fws f o) :
    ∀ (fuel : Nat) (s : Bytes) (vs : List Bytes), s.length < fuel → Gram.star LiteralPart s vs →
      domainLiteralLoop fuel (s ++ (f ++ 93 :: r)) = .ok (f ++ 93 :: r, vs.flatten)
  | 0, _, _, h, _ => by omega
  | fuel + 1, s, vs, h, hs => by
    have hstop : Stops Spec.dtext (f ++ 93 :: r) :=
      optFws_stops (v := o.getD []) ⟨o, rfl, hf⟩ space_not_dtext (stops_cons.mpr (by decide))
    unfold domainLiteralLoop
    rw [isDtext_eq]
    cases hs with
    | nil =>
      have h1 := optFws_append hf (r := 93 :: r) (noSpace_cons (by decide) (by decide))
      obtain ⟨e1, he1⟩ := takeWhile1_err (p := Spec.dtext) (r := 93 :: r)
        (stops_cons.mpr (by decide))
      simp only [List.nil_append, h1, ok_bind, he1, List.flatten_nil]
    | cons hp hs =>
      rename_i w₁ w₂ v as
      obtain ⟨g, _, gv, rfl, hg, rfl, hne, hv⟩ := hp
      have hns : NoSpace (v ++ (w₂ ++ (f ++ 93 :: r))) := by
        cases v with
        | nil => exact absurd rfl hne
        | cons b t =>
          obtain ⟨h1, h2⟩ := dtext_noSpace b (hv b (by simp))
          exact noSpace_cons h1 h2
      have h1 := optFws_append hg hns
      simp only [List.append_assoc, h1, ok_bind]
      have hlen : 0 < v.length := by cases v <;> simp_all
      obtain ⟨y, s', vs', rfl, hy, hfl, hs', hst⟩ := literalParts_residual hstop hs
      have h2 := takeWhile1_ok (p := Spec.dtext) (w := v ++ y) (r := s' ++ (f ++ 93 :: r))
        (by simp [hne]) (by
          intro x hx
          rcases List.mem_append.mp hx with hx | hx
          · exact hv x hx
          · exact hy x hx) hst
      simp only [List.append_assoc] at h2
      have ih := domainLiteralLoop_append (r := r) hf fuel s' vs'
        (by simp only [List.length_append] at h; omega) hs'
      simp only [List.append_assoc, h2, ih, ok_bind, List.flatten_cons, hfl]

theorem domainLiteral_append {w v r : Bytes} (h : Spec.DomainLiteralOf (Spec.CommentN c.stack) w v) (hr : CfwsEnd w r) : domainLiteral c (w ++ r) = .ok (r, v) := by
  obtain ⟨w₁, _, _, rfl, h1, _, _, _, rfl, rfl, s, _, vs, rfl, hs, f, _, fv, rfl, hf, _, _, _, rfl,
    rfl, w₃, _, _, rfl, h3, rfl, rfl⟩ := h
  have hr' : CfwsEnd w₃ r := by
    simp only [List.append_nil, ← List.append_assoc] at hr
    exact hr.suffix
  have e1 := skipCfws_append (c := c) (r := 91 :: (s ++ (f ++ 93 :: (w₃ ++ r)))) h1
    (cfwsEnd_cons (by decide) (by decide) (by decide))
  have e2 := domainLiteralLoop_append (r := w₃ ++ r) hf ((s ++ (f ++ 93 :: (w₃ ++ r))).length + 1)
    s vs (by simp; omega) hs
  have e3 := optFws_append (r := 93 :: (w₃ ++ r)) hf (noSpace_cons (by decide) (by decide))
  have e4 := skipCfws_append (c := c) (r := r) h3 hr'
  have t1 := tag_append (b! "[") (s ++ (f ++ 93 :: (w₃ ++ r)))
    "TAG ERROR: A domain litteral must be preceded by a `[`."
  have t2 := tag_append (b! "]") (w₃ ++ r)
    "TAG ERROR: A domain litteral must be followed by a `]`."
  unfold domainLiteral
  rw [show w₁ ++ (b! "[" ++ (s ++ (f ++ (b! "]" ++ (w₃ ++ []))))) ++ r =
    w₁ ++ (91 :: (s ++ (f ++ 93 :: (w₃ ++ r)))) by simp]
  simp only [List.cons_append, List.nil_append] at t1 t2
  simp only [e1, ok_bind, t1, e2, e3, t2, e4]

theorem domain_append {w v r : Bytes} (h : Spec.DomainOf (Spec.CommentN c.stack) c.feat.compatibilityFixes w v) (hr : CfwsEnd w r)
    (ha : Stops (fun b => Spec.atext b || b == 46) r) : domain c (w ++ r) = .ok (r, v) := by
  unfold domain
  rcases h with h | h
  · rw [matchParsers, dotAtom_append h hr ha]
  · have hq := domainLiteral_append (c := c) h hr
    obtain ⟨w₁, _, _, rfl, h1, _, t, _, rfl, rfl, _⟩ := h
    obtain ⟨e, he⟩ := dotAtom_err (c := c) (r := 91 :: (t ++ r)) h1
      (cfwsEnd_cons (by decide) (by decide) (by decide)) (stops_cons.mpr (by decide))
    simp only [List.append_assoc, List.cons_append, List.nil_append] at hq ⊢
    simp only [matchParsers, he, hq]

/-! ### Addresses and identifiers -/

theorem addrSpec_append {w r : Bytes} {v : EmailAddress}
    (h : Spec.AddrSpecOf (Spec.CommentN c.stack) c.feat.compatibilityFixes w v) (hr : CfwsEnd w r)
    (ha : Stops (fun b => Spec.atext b || b == 46) r) : addrSpec c (w ++ r) = .ok (r, v) := by
  obtain ⟨w₁, _, l, rfl, h1, _, _, _, rfl, rfl, w₃, _, d, rfl, h3, rfl, rfl⟩ := h
  have hr' : CfwsEnd w₃ r := by
    simp only [List.append_nil, ← List.append_assoc] at hr
    exact hr.suffix
  have e1 := localPart_append (c := c) (r := 64 :: (w₃ ++ r)) h1
    (cfwsEnd_cons (by decide) (by decide) (by decide)) (stops_cons.mpr (by decide))
  have e2 := domain_append (c := c) (r := r) h3 hr' ha
  have t1 := tag_append (b! "@") (w₃ ++ r)
    "TAG ERROR: An address local part must be followed by a `@`."
  unfold addrSpec
  simp only [List.append_assoc, List.cons_append, List.nil_append, List.append_nil] at t1 ⊢
  simp only [e1, ok_bind, t1, e2]

theorem angleAddr_append {w r : Bytes} {v : EmailAddress}
    (h : Spec.AngleAddrOf (Spec.CommentN c.stack) c.feat.compatibilityFixes w v) (hr : CfwsEnd w r) : angleAddr c (w ++ r) = .ok (r, v) := by
  obtain ⟨w₁, _, _, rfl, h1, _, _, _, rfl, rfl, a, _, _, rfl, ha, _, _, _, rfl, rfl, w₃, _, _, rfl, h3,
    rfl, rfl⟩ := h
  have hr' : CfwsEnd w₃ r := by
    simp only [List.append_nil, ← List.append_assoc] at hr
    exact hr.suffix
  have e1 := skipCfws_append (c := c) (r := 60 :: (a ++ (62 :: (w₃ ++ r)))) h1
    (cfwsEnd_cons (by decide) (by decide) (by decide))
  have e2 := addrSpec_append (c := c) (r := 62 :: (w₃ ++ r)) ha
    (cfwsEnd_cons (by decide) (by decide) (by decide)) (stops_cons.mpr (by decide))
  have e4 := skipCfws_append (c := c) (r := r) h3 hr'
  have t1 := tag_append (b! "<") (a ++ (62 :: (w₃ ++ r)))
    "TAG ERROR: A angle_addr must start with a `<`."
  have t2 := tag_append (b! ">") (w₃ ++ r) "TAG ERROR: A angle_addr must end with a `>`."
  unfold angleAddr
  simp only [List.append_assoc, List.cons_append, List.nil_append, List.append_nil] at t1 t2 ⊢
  simp only [e1, ok_bind, t1, e2, t2, e4]

theorem angleAddr_err {w r : Bytes} (h : Spec.Gap c w ())
    (hr : CfwsEnd w r) (ha : Stops (· == 60) r) : ∃ e, angleAddr c (w ++ r) = .err e := by
  have : ∃ e, tag r (b! "<") "TAG ERROR: A angle_addr must start with a `<`." = .err e := by
    cases r with
    | nil => exact ⟨_, tag_nil_err⟩
    | cons b t => exact ⟨_, tag_cons_err (by simpa using stops_cons.mp ha)⟩
  obtain ⟨e, he⟩ := this
  unfold angleAddr
  simp only [skipCfws_append h hr, ok_bind, he]
  exact ⟨_, rfl⟩

theorem noFoldLitteral_append {w v r : Bytes} (h : Spec.NoFoldLiteral w v) :
    noFoldLitteral (w ++ r) = .ok (r, v) := by
  obtain ⟨_, _, _, rfl, rfl, _, _, x, rfl, ⟨rfl, hx⟩, _, _, _, rfl, rfl, rfl, rfl⟩ := h
  have t1 := tag_append (b! "[") (v ++ (93 :: r))
    "TAG ERROR: In message_id, a no_fold_litteral domain must be preceded by a `[`."
  have t2 := tag_append (b! "]") r
    "TAG ERROR: In message_id, a no_fold_litteral domain must be closed by a `]`."
  have e1 := takeWhile_ok (p := Spec.dtext) (r := 93 :: r) hx (stops_cons.mpr (by decide))
  unfold noFoldLitteral
  simp only [List.append_assoc, List.cons_append, List.nil_append, List.append_nil] at t1 t2 ⊢
  simp only [t1, ok_bind, isDtext_eq, e1, t2]

theorem messageId_append {w r : Bytes} {v : Bytes × Bytes}
    (h : Spec.MessageIdOf (Spec.CommentN c.stack) c.feat.compatibilityFixes w v)
    (hr : CfwsEnd w r) : messageId c (w ++ r) = .ok (r, v) := by
  obtain ⟨w₁, _, _, rfl, h1, _, _, _, rfl, rfl, a, _, va, rfl, ha, _, _, _, rfl, rfl, d, _, vd, rfl, hd,
    _, _, _, rfl, rfl, w₃, _, _, rfl, h3, rfl, rfl⟩ := h
  have hr' : CfwsEnd w₃ r := by
    simp only [List.append_nil, ← List.append_assoc] at hr
    exact hr.suffix
  have e1 := skipCfws_append (c := c) (r := 60 :: (a ++ (64 :: (d ++ (62 :: (w₃ ++ r)))))) h1
    (cfwsEnd_cons (by decide) (by decide) (by decide))
  have e2 := dotAtomText_append (c := c) (r := 64 :: (d ++ (62 :: (w₃ ++ r)))) ha
    (stops_cons.mpr (by decide))
  have e3 : matchParsers (d ++ (62 :: (w₃ ++ r))) [dotAtomText c, noFoldLitteral] =
      .ok (62 :: (w₃ ++ r), vd) := by
    rcases hd with hd | hd
    · rw [matchParsers, dotAtomText_append (c := c) hd (stops_cons.mpr (by decide))]
    · have hl := noFoldLitteral_append (r := 62 :: (w₃ ++ r)) hd
      obtain ⟨_, t, _, rfl, rfl, _⟩ := hd
      obtain ⟨e, he⟩ := dotAtomText_err (c := c) (r := 91 :: (t ++ 62 :: (w₃ ++ r)))
        (stops_cons.mpr (by decide))
      simp only [List.cons_append, List.nil_append] at hl ⊢
      simp only [matchParsers, he, hl]
  have e4 := skipCfws_append (c := c) (r := r) h3 hr'
  have t1 := tag_append (b! "<") (a ++ (64 :: (d ++ (62 :: (w₃ ++ r)))))
    "TAG ERROR: A message ID must start with a `<`."
  have t2 := tag_append (b! "@") (d ++ (62 :: (w₃ ++ r)))
    "TAG ERROR: A message ID right part must be followed by a `@`."
  have t3 := tag_append (b! ">") (w₃ ++ r)
    "TAG ERROR: A message ID left part must be followed by a `>`."
  unfold messageId
  simp only [List.append_assoc, List.cons_append, List.nil_append, List.append_nil] at t1 t2 t3 ⊢
  simp only [e1, ok_bind, t1, e2, t2, e3, t3, e4]

end EmailParser
