import Verif.Proofs.Exact
/-
MIME header lines of the grammar are read: wherever a derivation divides the white space, the comments and the
quoted values, the parsers find their way to the end of the line.
-/
namespace EmailParser
open Spec

variable {α : Type} {c : Cfg} {w t : Bytes}

/-! ### White space and comments before the end of a line -/

/-- Comments are skipped, and then white space if it can be. -/
theorem realCfwsLoop_then {f r : Bytes} {o : Option Bytes} (hf : optional f fws = .ok (r, o))
    (hr : Stops (· == 40) r) : ∀ (fuel : Nat) (s : Bytes) (vs : List Unit), s.length < fuel →
      Gram.star (FwsThenComment c.stack) s vs → ∃ v, realCfwsLoop c fuel (s ++ f) = .ok (f, v)
  | 0, _, _, h, _ => by omega
  | fuel + 1, s, vs, h, hs => by
    unfold realCfwsLoop
    cases hs with
    | nil =>
      simp only [List.nil_append, hf, ok_bind]
      obtain ⟨e, he⟩ := comment_err (n := c.stack) hr
      simp only [he]
      exact ⟨_, rfl⟩
    | cons hp hs =>
      rename_i w₁ w₂ a as
      obtain ⟨g, x, o', rfl, hg, hx⟩ := hp
      have h1 := optFws_append hg (r := x ++ (w₂ ++ f)) (comment_noSpace hx)
      have h2 := comment_append c.stack x (w₂ ++ f) hx
      have h3 : 0 < x.length := by
        obtain ⟨t, rfl⟩ := commentN_head _ _ _ hx
        simp
      simp only [List.length_append] at h
      obtain ⟨v, hv⟩ := realCfwsLoop_then hf hr fuel w₂ as (by omega) hs
      simp only [List.append_assoc, h1, ok_bind, h2, hv]
      exact ⟨_, rfl⟩

theorem skipCfws_then {s f r : Bytes} {vs : List Unit} {o : Option Bytes}
    (hs : Gram.star (FwsThenComment c.stack) s vs) (hf : optional f fws = .ok (r, o)) (hr : Stops (· == 40) r) :
    skipCfws c (s ++ f) = .ok r := by
  unfold skipCfws cfws
  obtain ⟨e, he⟩ := comment_err (n := c.stack) hr
  cases hs with
  | nil =>
    simp only [List.nil_append, matchParsers, realCfws, hf, ok_bind, he]
    unfold optional at hf
    cases hx : fws f with
    | ok y => rw [hx] at hf; cases hf; rfl
    | err y => rw [hx] at hf; cases hf; rfl
    | abort y => rw [hx] at hf; cases hf
  | cons hp hs =>
    rename_i w₁ w₂ a as
    obtain ⟨g, x, o', rfl, hg, hx⟩ := hp
    have h1 := optFws_append hg (r := x ++ (w₂ ++ f)) (comment_noSpace hx)
    have h2 := comment_append c.stack x (w₂ ++ f) hx
    obtain ⟨v, hv⟩ := realCfwsLoop_then (c := c) hf hr ((w₂ ++ f).length + 1) w₂ as
      (by simp only [List.length_append]; omega) hs
    unfold realCfws
    simp only [List.append_assoc, matchParsers, h1, ok_bind, h2, hv, hf]

/-- White space at the end of a line is not skipped. -/
theorem wsp_line_optional {ws : Bytes} (hw : ∀ b ∈ ws, Spec.wsp b = true) (ht : Stops Spec.wsp t) :
    optional (ws ++ (CRLF ++ t)) fws = .ok (ws ++ (CRLF ++ t), none) := by
  refine optional_err ?_
  rw [fws_eq]
  have hd := takeWhile_stop (p := Spec.wsp) (w := ws) (b := 13) (r := 10 :: t) hw (by decide)
  have e : ws ++ (CRLF ++ t) = ws ++ 13 :: 10 :: t := rfl
  have hp : CRLF <+: 13 :: 10 :: t := List.prefix_append CRLF t
  rw [e, hd.2, if_pos hp]
  obtain ⟨x, hx⟩ := takeWhile1_err ht
  refine ⟨x, ?_⟩
  show (takeWhile1 t Spec.wsp).bind _ = _
  rw [hx]
  rfl

/-- White space with a fold is. -/
theorem fold_line_optional {a b : Bytes} (ha : ∀ x ∈ a, Spec.wsp x = true) (hb : b ≠ []) (hb' : ∀ x ∈ b, Spec.wsp x = true) :
    ∃ v, optional (a ++ (CRLF ++ b) ++ (CRLF ++ t)) fws = .ok (CRLF ++ t, some v) := by
  refine ⟨a ++ b, optional_ok ?_⟩
  rw [fws_eq]
  have e : a ++ (CRLF ++ b) ++ (CRLF ++ t) = a ++ 13 :: 10 :: (b ++ (CRLF ++ t)) := by simp [CRLF]
  have hd := takeWhile_stop (p := Spec.wsp) (w := a) (b := 13) (r := 10 :: (b ++ (CRLF ++ t))) ha (by decide)
  have hp : CRLF <+: 13 :: 10 :: (b ++ (CRLF ++ t)) := List.prefix_append CRLF _
  rw [e, hd.2, hd.1, if_pos hp]
  show (takeWhile1 (b ++ (CRLF ++ t)) Spec.wsp).bind _ = _
  rw [takeWhile1_ok hb hb' (crlf_stops (r := t) (by decide))]
  rfl

/-- White space and comments, then white space up to the end of a line: all is skipped but white space. -/
theorem skipCfws_line {g ws : Bytes} (hg : Gap c g ()) (hw : ∀ b ∈ ws, Spec.wsp b = true) (ht : Stops Spec.wsp t) :
    ∃ ws', (∀ b ∈ ws', Spec.wsp b = true) ∧ ws'.length ≤ (g ++ ws).length ∧
      skipCfws c (g ++ ws ++ (CRLF ++ t)) = .ok (ws' ++ (CRLF ++ t)) := by
  obtain ⟨s, f, vs, o, rfl, hs, hf⟩ := gap_iff.mp hg
  have stop : ∀ ws' : Bytes, (∀ b ∈ ws', Spec.wsp b = true) → Stops (· == 40) (ws' ++ (CRLF ++ t)) := by
    intro ws' h
    cases ws' with
    | nil => exact stops_cons.mpr (by decide)
    | cons b ws' =>
      have key : ∀ b : UInt8, Spec.wsp b = true → (b == 40) = false := by decide +kernel
      exact stops_cons.mpr (key b (h b (by simp)))
  have inline : ∀ f : Bytes, (∀ b ∈ f, Spec.wsp b = true) →
      ∃ ws', (∀ b ∈ ws', Spec.wsp b = true) ∧ ws'.length ≤ (s ++ f ++ ws).length ∧
        skipCfws c (s ++ f ++ ws ++ (CRLF ++ t)) = .ok (ws' ++ (CRLF ++ t)) := by
    intro f hf
    have h : ∀ b ∈ f ++ ws, Spec.wsp b = true := fun b hb => (List.mem_append.mp hb).elim (hf b) (hw b)
    refine ⟨f ++ ws, h, by simp only [List.length_append]; omega, ?_⟩
    have := skipCfws_then hs (wsp_line_optional h ht) (stop _ h)
    simpa only [List.append_assoc] using this
  rcases hf with ⟨rfl, rfl⟩ | ⟨v, rfl, hf⟩
  · exact inline [] (by simp)
  · rcases hf with ⟨_, _, a, rfl, ⟨rfl, ha⟩, _, _, ⟨⟩, rfl, rfl, _, _, b, rfl, ⟨rfl, hb, hb'⟩, rfl, rfl⟩ | ⟨rfl, -, h⟩
    · obtain ⟨v', hv⟩ := fold_line_optional (t := t) (b := b ++ ws) ha (by simp [hb]) fun x hx => by
        rcases List.mem_append.mp hx with hx | hx
        · exact hb' x hx
        · exact hw x hx
      refine ⟨[], by simp, by simp, ?_⟩
      have := skipCfws_then hs hv (stops_cons.mpr (by decide))
      simpa only [List.append_assoc, List.nil_append, List.append_nil] using this
    · exact inline _ h

/-- What ends a header with parameters: white space and comments of the last value, then white space and a comment. -/
theorem skipCfws_inline {g e : Bytes} (hg : Gap c g ()) (he : InlineCfws e ()) (hd : e.count 40 ≤ c.stack)
    (hl : NoWhiteLine (g ++ e)) (ht : Stops Spec.wsp t) :
    ∃ ws, (∀ b ∈ ws, Spec.wsp b = true) ∧ skipCfws c (g ++ (e ++ (CRLF ++ t))) = .ok (ws ++ (CRLF ++ t)) := by
  obtain ⟨a, _, va, rfl, ⟨rfl, ha⟩, x, _, o, rfl, hx, b, _, vb, rfl, ⟨rfl, hb⟩, rfl, _⟩ := he
  rcases hx with ⟨rfl, rfl⟩ | ⟨⟨⟩, rfl, m, hx⟩
  · obtain ⟨ws, h1, -, h2⟩ := skipCfws_line (c := c) (ws := va ++ vb) hg (fun y hy => (List.mem_append.mp hy).elim (ha y) (hb y)) ht
    exact ⟨ws, h1, by simpa only [List.append_assoc, List.append_nil, List.nil_append] using h2⟩
  · have hx := commentN_count m x c.stack hx (by simp only [List.count_append] at hd; omega)
    have hgap : Gap c (va ++ x) () := by
      refine gap_iff.mpr ⟨va ++ x, [], [()], none, by simp, ?_, .inl ⟨rfl, rfl⟩⟩
      have hs : FwsThenComment c.stack (va ++ x) () := by
        by_cases hv : va = []
        · exact ⟨[], x, none, by simp [hv], .inl ⟨rfl, rfl⟩, hx⟩
        · exact ⟨va, x, some va, rfl, .inr ⟨va, rfl, .inr ⟨rfl, hv, ha⟩⟩, hx⟩
      have := Gram.star.cons hs .nil
      rwa [List.append_nil] at this
    have hj := gap_join hg hgap (hl.infix ⟨[], vb, by simp⟩)
    obtain ⟨ws, h1, -, h2⟩ := skipCfws_line (c := c) (ws := vb) hj hb ht
    exact ⟨ws, h1, by simpa only [List.append_assoc, List.append_nil, List.nil_append] using h2⟩

/-! ### Parameters -/

theorem paramName_reads {w r : Bytes} {v : Bytes × Option Nat × Bool} (h : ParamName w v) :
    matchParsers (w ++ (b! "=" ++ r))
      [ extendedName,
        fun input => do
          let (input, name) ← token input
          .ok (input, (name, none, false)) ] = .ok (b! "=" ++ r, v) ∧ w ≠ [] ∧ ∀ b ∈ w, Spec.tokenChar b = true := by
  rcases h with h | ⟨h1, ⟨-, h2, h3⟩, rfl⟩
  · have hx : extendedName (w ++ (b! "=" ++ r)) = .ok (b! "=" ++ r, v) := extendedName_complete r h
    refine ⟨by simp only [matchParsers, hx], ?_, extendedName_token h⟩
    obtain ⟨_, _, _, rfl, ⟨rfl, hne, -⟩, -⟩ := h
    simp [hne]
  · obtain ⟨x, hx⟩ := extendedName_miss (r := r) h3 h1
    exact ⟨by simp only [matchParsers, hx, tokenName_append h2 h3, ok_bind], h2, h3⟩

/-- A quoted value takes what can be skipped after it. -/
theorem quotedString_then {w v : Bytes} (h : QuotedString w v) (hd : w.count 40 ≤ c.stack) :
    ∃ q t, w = q ++ t ∧ Gap c t () ∧ Stops Spec.tokenChar q ∧ q ≠ [] ∧
      ∀ i r, skipCfws c (t ++ i) = .ok r → quotedString c (w ++ i) = .ok (r, v) := by
  obtain ⟨w₁, _, _, rfl, h1, _, _, _, rfl, rfl, s, _, vs, rfl, hs, f, _, fv, rfl, hf, _, _, _, rfl,
    rfl, w₃, _, _, rfl, h3, rfl, rfl⟩ := quotedString_depth h hd
  refine ⟨w₁ ++ (34 :: (s ++ (f ++ [34]))), w₃, by simp, h3, ?_, by simp, fun i r hr => ?_⟩
  · exact gap_token h1 (stops_cons.mpr (by decide))
  · have e1 := skipCfws_append (c := c) (r := 34 :: (s ++ (f ++ 34 :: (w₃ ++ i)))) h1
      (cfwsEnd_cons (by decide) (by decide) (by decide))
    have e2 := quotedStringLoop_append (r := w₃ ++ i) hf ((s ++ (f ++ 34 :: (w₃ ++ i))).length + 1) s vs
      (by simp; omega) hs
    have e3 := fwsOrEmpty_append (r := 34 :: (w₃ ++ i)) hf (noSpace_cons (by decide) (by decide))
    have e : w₁ ++ (b! "\"" ++ (s ++ (f ++ (b! "\"" ++ (w₃ ++ []))))) ++ i = w₁ ++ (34 :: (s ++ (f ++ 34 :: (w₃ ++ i)))) := by
      simp
    unfold quotedString
    rw [e]
    simp only [e1, ok_bind, startsWith_cons, if_true, sliceFrom_cons, e2, e3, hr]

/-- Where the next parameter, or the end of the header, is looked for. -/
theorem params_start {g s e : Bytes} {ps : List RawParam} (hs : Gram.star Parameter s ps) (hg : Gap c g ())
    (he : InlineCfws e ()) (hd : (g ++ (s ++ e)).count 40 ≤ c.stack) (hl : NoWhiteLine (g ++ (s ++ e)))
    (ht : Stops Spec.wsp t) :
    ∃ j, skipCfws c (g ++ (s ++ (e ++ (CRLF ++ t)))) = .ok j ∧ skipCfws c j = .ok j := by
  cases hs with
  | nil =>
    simp only [List.nil_append, List.count_append] at hd hl ⊢
    obtain ⟨ws, h1, h2⟩ := skipCfws_inline (t := t) hg he (by omega) hl ht
    refine ⟨_, h2, ?_⟩
    exact skipCfws_then (s := []) .nil (wsp_line_optional h1 ht) (by
      cases ws with
      | nil => exact stops_cons.mpr (by decide)
      | cons b ws =>
        have key : ∀ b : UInt8, Spec.wsp b = true → (b == 40) = false := by decide +kernel
        exact stops_cons.mpr (key b (h1 b (by simp))))
  | @cons _ s' _ _ hp hs =>
    obtain ⟨w₁, _, _, rfl, hg1, _, w₂, _, rfl, rfl, -⟩ := hp
    have hg1 := gap_of_count (c := c) hg1 (by simp only [List.count_append] at hd; omega)
    have hj := gap_join hg hg1 (by
      simp only [← List.append_assoc] at hl
      simp only [List.append_assoc _ _ w₂, List.append_assoc _ _ e, List.append_assoc (g ++ w₁)] at hl
      exact hl.left)
    have semi : ∀ g r : Bytes, CfwsEnd g (b! ";" ++ r) := fun g r => cfwsEnd_cons (b := 59) (by decide) (by decide) (by decide)
    have h1 := skipCfws_append (c := c) hj (semi _ (w₂ ++ (s' ++ (e ++ (CRLF ++ t)))))
    have h2 := skipCfws_append (c := c) gap_nil (semi _ (w₂ ++ (s' ++ (e ++ (CRLF ++ t)))))
    exact ⟨_, by simpa only [List.append_assoc, List.nil_append] using h1, h2⟩

theorem params_stop {s e : Bytes} {ps : List RawParam} (hs : Gram.star Parameter s ps) (he : InlineCfws e ())
    (hd : s.count 40 ≤ c.stack) : Stops Spec.tokenChar (s ++ (e ++ (CRLF ++ t))) := by
  cases hs with
  | nil => exact inlineCfws_stops he (by decide +kernel) (by decide) (stops_cons.mpr (by decide))
  | cons hp hs =>
    obtain ⟨w₁, _, _, rfl, hg1, _, w₂, _, rfl, rfl, -⟩ := hp
    have hg1 := gap_of_count (c := c) hg1 (by simp only [List.count_append] at hd; omega)
    simp only [List.append_assoc]
    exact gap_token hg1 (stops_cons.mpr (by decide))

/-- Parameters are read one after the other, wherever the derivation divides what is between them. -/
theorem params_read {s e : Bytes} {ps : List RawParam} (hs : Gram.star Parameter s ps) (he : InlineCfws e ())
    (ht : Stops Spec.wsp t) : ∀ (g i : Bytes), Gap c g () → (g ++ (s ++ e)).count 40 ≤ c.stack →
      NoWhiteLine (g ++ (s ++ e)) →
      ((g = [] ∧ i = s ++ (e ++ (CRLF ++ t))) ∨ skipCfws c (g ++ (s ++ (e ++ (CRLF ++ t)))) = .ok i) →
      ∃ r, many i (parameter c) = .ok (r, ps) ∧ ignoreInlineCfws c r = .ok (CRLF ++ t, ()) := by
  induction hs with
  | nil =>
    intro g i hg hd hl hi
    simp only [List.nil_append, List.count_append] at hd hl hi
    obtain ⟨j, h1, h2⟩ := params_start (t := t) .nil hg he (by simpa [List.count_append] using hd) (by simpa using hl) ht
    obtain ⟨ws, h3, h4⟩ := skipCfws_inline (t := t) hg he (by omega) hl ht
    have hj : j = ws ++ (CRLF ++ t) := by
      simp only [List.nil_append] at h1
      rw [h4] at h1
      cases h1
      rfl
    have hskip : skipCfws c i = .ok j := by
      rcases hi with ⟨rfl, rfl⟩ | hi
      · exact h1
      · simp only [List.nil_append] at h1
        rw [h1] at hi
        cases hi
        exact h2
    have hend : ∃ x, parameter c i = .err x := by
      unfold parameter
      have hs : Stops (· == 59) j := by
        rw [hj]
        cases ws with
        | nil => exact stops_cons.mpr (by decide)
        | cons b ws =>
          have key : ∀ b : UInt8, Spec.wsp b = true → (b == 59) = false := by decide +kernel
          exact stops_cons.mpr (key b (h3 b (by simp)))
      simp only [hskip, ok_bind, semicolon_missing hs, err_bind]
      exact ⟨_, rfl⟩
    refine ⟨i, many_err hend, ?_⟩
    rcases hi with ⟨rfl, rfl⟩ | hi
    · exact ignoreInlineCfws_append he (by omega) crlf_cfwsStop
    · rw [h4] at hi
      cases hi
      refine ignoreInlineCfws_append ?_ ?_ crlf_cfwsStop
      · exact ⟨ws, [], ws, by simp, ⟨rfl, h3⟩, [], [], none, rfl, .inl ⟨rfl, rfl⟩, [], [], [], rfl, ⟨rfl, by simp⟩, rfl, rfl⟩
      · rw [List.count_eq_zero.mpr]
        · omega
        · exact fun h => absurd (h3 40 h) (by decide)
  | @cons w₁ s p ps hp hs ih =>
    intro g i hg hd hl hi
    obtain ⟨g₁, _, _, rfl, hg1, _, _, _, rfl, rfl, g₂, _, _, rfl, hg2, n, _, ⟨name, index, encoded⟩, rfl, hn, _, _, _, rfl, rfl,
      val, _, value, rfl, hv, rfl, rfl⟩ := hp
    simp only [List.append_assoc, List.append_nil] at hd hl hi ⊢
    have hd' := hd
    simp only [List.count_append] at hd'
    have hg1 := gap_of_count (c := c) hg1 (by omega)
    have hg2 := gap_of_count (c := c) hg2 (by omega)
    have hj := gap_join hg hg1 (by rw [← List.append_assoc] at hl; exact hl.left)
    have semi : ∀ g r : Bytes, CfwsEnd g (b! ";" ++ r) := fun g r => cfwsEnd_cons (b := 59) (by decide) (by decide) (by decide)
    generalize hrest : g₂ ++ (n ++ (b! "=" ++ (val ++ (s ++ (e ++ (CRLF ++ t)))))) = rest at hi ⊢
    have h1 := skipCfws_append (c := c) hj (semi _ rest)
    have h2 := skipCfws_append (c := c) gap_nil (semi _ rest)
    have h3 := skipCfws_append (c := c) hg1 (semi _ rest)
    simp only [List.append_assoc, List.nil_append] at h1 h2
    have hskip : skipCfws c i = .ok (b! ";" ++ rest) ∧ (b! ";" ++ rest).length ≤ i.length := by
      rcases hi with ⟨-, rfl⟩ | hi
      · exact ⟨h3, by simp only [List.length_append]; omega⟩
      · rw [h1] at hi
        cases hi
        exact ⟨h2, Nat.le_refl _⟩
    obtain ⟨hname, hne, htok⟩ := paramName_reads (r := val ++ (s ++ (e ++ (CRLF ++ t)))) hn
    have h4 := skipCfws_append (c := c) (r := n ++ (b! "=" ++ (val ++ (s ++ (e ++ (CRLF ++ t)))))) hg2 (tokenChar_cfwsEnd hne htok)
    have hval : ∃ g' i', parameterValue c (val ++ (s ++ (e ++ (CRLF ++ t)))) = .ok (i', value) ∧ Gap c g' () ∧ g' <:+ val ∧
        i'.length < (b! ";" ++ rest).length ∧
        ((g' = [] ∧ i' = s ++ (e ++ (CRLF ++ t))) ∨ skipCfws c (g' ++ (s ++ (e ++ (CRLF ++ t)))) = .ok i') := by
      unfold parameterValue
      rcases hv with ⟨rfl, hv1, hv2⟩ | hv
      · have := token_append hv1 hv2 (params_stop (c := c) (t := t) hs he (by omega))
        refine ⟨[], _, by simp only [matchParsers, this, ok_bind], gap_nil, List.nil_suffix, ?_, .inl ⟨rfl, rfl⟩⟩
        rw [← hrest]
        simp only [List.length_append]
        have : (b! ";").length = 1 := rfl
        omega
      · obtain ⟨q, g', rfl, hg', hq1, hq2, hq3⟩ := quotedString_then (c := c) hv (by omega)
        have hd3 : (g' ++ (s ++ e)).count 40 ≤ c.stack := by
          simp only [List.count_append] at hd' ⊢
          omega
        obtain ⟨j, hj1, -⟩ := params_start (c := c) (t := t) hs hg' he hd3
          (hl.infix ⟨g ++ (g₁ ++ (b! ";" ++ (g₂ ++ (n ++ (b! "=" ++ q))))), [], by simp⟩) ht
        have hq4 := hq3 _ _ hj1
        obtain ⟨x, hx⟩ : ∃ x, token (q ++ g' ++ (s ++ (e ++ (CRLF ++ t)))) = .err x := by
          unfold token
          rw [isTokenChar_eq]
          refine takeWhile1_err fun b u hb => hq1 b ?_ ?_
          · exact q.tail
          · cases q with
            | nil => exact absurd rfl hq2
            | cons b' q => cases hb; rfl
        refine ⟨g', j, by simp only [matchParsers, hx, hq4, err_bind], hg', List.suffix_append _ _, ?_, .inr hj1⟩
        have hsat := skipCfws_sat (c := c) (g' ++ (s ++ (e ++ (CRLF ++ t))))
        rw [hj1] at hsat
        obtain ⟨u, hu, -⟩ := hsat
        have hu := congrArg List.length hu
        rw [← hrest]
        have : (b! ";").length = 1 := rfl
        simp only [List.length_append] at hu ⊢
        omega
    obtain ⟨g', i', hv1, hg', hg'', hlen, hi'⟩ := hval
    have hparam : parameter c i = .ok (i', { name := name.map asciiLower, index := index, encoded := encoded, value := value }) := by
      unfold parameter
      rw [hskip.1, ok_bind, tag_append, ok_bind]
      dsimp only
      rw [← hrest, h4]
      simp only [ok_bind, hname, tag_append, hv1]
      rfl
    obtain ⟨pre, hpre⟩ := hg''
    obtain ⟨r, hr1, hr2⟩ := ih g' i' hg' (by
        rw [← hpre] at hd'
        simp only [List.count_append] at hd' ⊢
        omega)
      (hl.infix ⟨g ++ (g₁ ++ (b! ";" ++ (g₂ ++ (n ++ (b! "=" ++ pre))))), [], by rw [← hpre]; simp⟩) hi'
    exact ⟨r, many_cons hparam (by omega) hr1, hr2⟩

theorem params_collected {s : Bytes} {ps : List RawParam} {q : Params} (hs : Gram.star Parameter s ps)
    (hq : ∀ name, ParamValue c ps name (q name)) (hn : c.overflowChecks = true → s.count 42 < 256) :
    collectParameters c ps = .ok q := by
  obtain ⟨h1, h2⟩ := parameters_small hs
  obtain ⟨h3, h4, h5⟩ := collectParameters_spec (c := c) h1
  cases hx : collectParameters c ps with
  | ok q' =>
    congr 1
    exact funext fun name => paramValue_unique (h3 q' hx name) (hq name)
  | err x =>
    obtain ⟨name, hname⟩ := h4 x hx
    exact absurd (hq name) (hname _)
  | abort k =>
    obtain ⟨-, ho, name, ha⟩ := h5 k hx
    have := allSegments_count ha
    have := hn ho
    omega

theorem namedOr_written {table : List (Bytes × α)} {other : Bytes → α} {w : Bytes} {v : α}
    (h : NamedOr table other w v) : WrittenName table other w v := by
  rcases h with h | ⟨⟨-, h1, h2⟩, h3, h4⟩
  · exact .inl h
  · exact .inr ⟨h1, h2, h3, h4⟩

/-! ### Values of headers -/

theorem contentType_reads {v : ContentType × Bytes × Params} (h : ContentTypeG c w v) (hd : w.count 40 ≤ c.stack)
    (hl : NoWhiteLine w) (hn : c.overflowChecks = true → w.count 42 < 256) (ht : Stops Spec.wsp t) {n : Bytes}
    (hname : n.map asciiLower = b! "content-type:") : contentType c (n ++ (w ++ (CRLF ++ t))) = .ok (t, v) := by
  obtain ⟨g, _, _, rfl, hg, ty, _, type, rfl, hty, _, _, _, rfl, rfl, st, _, sub, rfl, ⟨rfl, hst1, hst2⟩, s, _, ps, rfl, hs,
    _, _, q, rfl, ⟨rfl, hq⟩, e, _, _, rfl, he, rfl, rfl⟩ := h
  have hty := namedOr_written hty
  obtain ⟨hty1, hty2⟩ := writtenName_token (by decide +kernel) hty
  have hg := gap_of_count (c := c) hg (by simp only [List.count_append] at hd; omega)
  have hps := params_stop (c := c) (t := t) hs he (by simp only [List.count_append] at hd; omega)
  have hcol := params_collected hs hq fun h => by
    have := hn h
    simp only [List.count_append] at this
    omega
  obtain ⟨r, h1, h2⟩ := params_read (c := c) hs he ht [] _ gap_nil (by simp only [List.count_append, List.count_nil] at hd ⊢; omega)
    (hl.infix ⟨g ++ (ty ++ (b! "/" ++ sub)), [], by simp⟩) (.inl ⟨rfl, rfl⟩)
  unfold contentType
  refine headerLine_append (by decide +kernel) (by rw [hname]; decide +kernel) ?_
  unfold contentTypeValue
  have hslash : ∀ t, Stops Spec.tokenChar (b! "/" ++ t) := fun t => stops_cons.mpr (by decide)
  simp only [List.append_assoc, List.nil_append, List.append_nil]
  rw [skipCfws_append hg (tokenChar_cfwsEnd hty1 hty2), ok_bind, mimeType_append hty (hslash _), ok_bind]
  dsimp only
  rw [tag_append, ok_bind]
  dsimp only
  rw [token_append hst1 hst2 hps, ok_bind]
  dsimp only
  rw [h1, ok_bind]
  dsimp only
  rw [hcol, ok_bind, h2, ok_bind]
  rfl

theorem mimeVersion_exact {v : Nat × Nat} (h : MimeVersion w v) (hd : w.count 40 ≤ c.stack) :
    ValueL c w (.mimeVersion v.1 v.2) := by
  obtain ⟨g, _, _, rfl, hg, ds, _, _, rfl, ⟨⟨_, rfl, rfl, h1, h2⟩, h3⟩, _, _, _, rfl, rfl, ds', _, _, rfl,
    ⟨⟨_, rfl, rfl, h4, h5⟩, h6⟩, e, _, _, rfl, he, rfl, rfl⟩ := h
  simp only [List.count_append] at hd
  exact ⟨g, _, _, e, by simp, ⟨hg, by omega⟩, ⟨he, by omega⟩, ⟨h1, h2, h3, rfl⟩, h4, h5, h6, rfl⟩

theorem encoding_exact {v : ContentTransferEncoding} (h : TransferEncodingG w v) (hd : w.count 40 ≤ c.stack) :
    ValueL c w (.contentTransferEncoding v) := by
  obtain ⟨g, _, _, rfl, hg, n, _, _, rfl, hn, e, _, _, rfl, he, rfl, rfl⟩ := h
  simp only [List.count_append] at hd
  exact ⟨g, n, e, by simp, ⟨hg, by omega⟩, ⟨he, by omega⟩, namedOr_written hn⟩

end EmailParser
