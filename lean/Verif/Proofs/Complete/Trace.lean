import Verif.Proofs.Complete.Address
import Verif.Proofs.Complete.Mime
import Verif.Spec.HeaderLayout
/-
The values of `Received` and `Return-Path` lines are read back.
-/
namespace EmailParser
open Spec

variable {c : Cfg}

/-! ### Tokens -/

theorem literal_of {g x t v : Bytes} (hg : Gap c g ()) (hx : Literal x v) (ht : Gap c t ()) :
    DomainLiteralOf (CommentN c.stack) (g ++ (x ++ t)) v := by
  obtain ⟨_, _, _, rfl, rfl, s, _, vs, rfl, hs, f, _, fv, rfl, hf, _, _, _, rfl, rfl, rfl, rfl⟩ := hx
  rw [show g ++ (b! "[" ++ (s ++ (f ++ (b! "]" ++ []))) ++ t) = g ++ (b! "[" ++ (s ++ (f ++ (b! "]" ++ (t ++ [])))))
    by simp]
  exact ⟨g, _, (), rfl, hg, _, _, (), rfl, rfl, s, _, vs, rfl, hs, f, _, fv, rfl,
    hf, _, _, (), rfl, rfl, t, [], (), rfl, ht, rfl, rfl⟩

theorem literal_head {x v : Bytes} (h : Literal x v) : ∃ t, x = 91 :: t := by
  obtain ⟨_, t, _, rfl, rfl, _⟩ := h
  exact ⟨t, rfl⟩

theorem angleAddr_of {g x t : Bytes} {v : EmailAddress} (hg : Gap c g ())
    (hx : AddrSpecOf (CommentN c.stack) c.feat.compatibilityFixes x v) (ht : Gap c t ()) :
    AngleAddrOf (CommentN c.stack) c.feat.compatibilityFixes (g ++ (60 :: (x ++ [62]) ++ t)) v := by
  rw [show g ++ (60 :: (x ++ [62]) ++ t) = g ++ (b! "<" ++ (x ++ (b! ">" ++ (t ++ [])))) by simp]
  exact ⟨g, _, (), rfl, hg, _, _, (), rfl, rfl, x, _, v, rfl, hx, _, _, (), rfl, rfl, t, [], (), rfl, ht, rfl, rfl⟩

/-- A dot-atom with a dot begins with an atom before a dot. -/
theorem dotted_split {lax : Bool} {x : Bytes} (h : DotAtomText lax x x) (hd : 46 ∈ x) :
    ∃ y z, x = y ++ 46 :: z ∧ y ≠ [] ∧ ∀ b ∈ y, Spec.atext b = true := by
  obtain ⟨w₁, w₂, v, rfl, ⟨rfl, hne, h1⟩, w₃, w₄, vs, rfl, h2, rfl, e⟩ := h
  cases h2 with
  | nil =>
    simp only [List.append_nil] at hd
    exact absurd (h1 46 hd) (by decide)
  | cons h _ =>
    obtain ⟨_, _, _, rfl, rfl, _⟩ := h
    exact ⟨_, _, by simp; rfl, hne, h1⟩

theorem literal_last {x v : Bytes} (h : Literal x v) : ∃ s, x = s ++ [93] := by
  obtain ⟨_, _, _, rfl, rfl, s, _, vs, rfl, hs, f, _, fv, rfl, hf, _, _, _, rfl, rfl, rfl, rfl⟩ := h
  exact ⟨91 :: (s ++ f), by simp⟩

theorem CfwsEnd.extend {a t r : Bytes} {b : UInt8} (h : CfwsEnd t r) (hb : Spec.wsp b = false) :
    CfwsEnd (a ++ [b] ++ t) r := by
  refine ⟨h.1, fun t' e => ⟨(h.2 t' e).1, fun u y e' => ?_⟩⟩
  rcases List.eq_nil_or_concat t with rfl | ⟨t, z, rfl⟩
  · rw [List.append_nil] at e'
    obtain ⟨-, e'⟩ := List.append_inj' e' rfl
    cases e'
    exact hb
  · rw [List.concat_eq_append, ← List.append_assoc] at e'
    obtain ⟨-, e'⟩ := List.append_inj' e' rfl
    cases e'
    exact (h.2 t' e).2 t y (by simp)

theorem receivedTokenL_head {x : Bytes} {bare : Bool} {v : ReceivedToken} (h : ReceivedTokenL c x bare v) :
    ∃ b s, x = b :: s ∧ (Spec.atext b || b == 34 || b == 91 || b == 60) = true := by
  cases h with
  | @atom x hne hx =>
    cases x with
    | nil => exact absurd rfl hne
    | cons b s => exact ⟨b, s, rfl, by simp [hx b]⟩
  | quoted h =>
    obtain ⟨t, rfl⟩ := quoted_head h
    exact ⟨_, _, rfl, by decide⟩
  | dotted h _ =>
    obtain ⟨b, t, rfl, hb⟩ := dotAtomText_head h
    exact ⟨b, t, rfl, by simp [hb]⟩
  | literal h =>
    obtain ⟨t, rfl⟩ := literal_head h
    exact ⟨_, _, rfl, by decide⟩
  | addr h => exact ⟨_, _, rfl, by decide⟩

theorem token_start (b : UInt8) (h : (Spec.atext b || b == 34 || b == 91 || b == 60) = true) :
    Spec.wsp b = false ∧ b ≠ 40 ∧ b ≠ 13 ∧ b ≠ 46 := by
  revert b; decide +kernel

theorem quotedString_miss {g r : Bytes} (hg : Gap c g ()) (hr : CfwsEnd g r) (h : Stops (· == 34) r) :
    ∃ e, quotedString c (g ++ r) = .err e := by
  have hq : startsWith r (b! "\"") = false := by
    cases r with
    | nil => rfl
    | cons b t =>
      have := stops_cons.mp h
      simp only [beq_eq_false_iff_ne] at this
      simp only [startsWith, List.isPrefixOf, Bool.and_true, beq_eq_false_iff_ne]
      exact fun h => this h.symm
  unfold quotedString
  simp only [skipCfws_append hg hr, ok_bind, hq]
  exact ⟨_, rfl⟩

theorem domainLiteral_miss {g r : Bytes} (hg : Gap c g ()) (hr : CfwsEnd g r) (h : Stops (· == 91) r) :
    ∃ e, domainLiteral c (g ++ r) = .err e := by
  have : ∃ e, tag r (b! "[") "TAG ERROR: A domain litteral must be preceded by a `[`." = .err e := by
    cases r with
    | nil => exact ⟨_, tag_nil_err⟩
    | cons b t => exact ⟨_, tag_cons_err (by simpa using stops_cons.mp h)⟩
  obtain ⟨e, he⟩ := this
  unfold domainLiteral
  simp only [skipCfws_append hg hr, ok_bind, he]
  exact ⟨_, rfl⟩

theorem domain_miss {g r : Bytes} (hg : Gap c g ()) (hr : CfwsEnd g r)
    (h : Stops (fun b => Spec.atext b || b == 91) r) : ∃ e, domain c (g ++ r) = .err e := by
  obtain ⟨e, he⟩ := dotAtom_err hg hr (stops_mono h (by simp +contextual))
  obtain ⟨e', he'⟩ := domainLiteral_miss hg hr (stops_mono h (by simp))
  unfold domain
  simp only [matchParsers, he, he']
  exact ⟨_, rfl⟩

theorem addrSpec_miss {g r : Bytes} (hg : Gap c g ()) (hr : CfwsEnd g r)
    (h : Stops (fun b => Spec.atext b || b == 34) r) : ∃ e, addrSpec c (g ++ r) = .err e := by
  obtain ⟨e, he⟩ := dotAtom_err hg hr (stops_mono h (by simp +contextual))
  obtain ⟨e', he'⟩ := quotedString_miss hg hr (stops_mono h (by simp))
  unfold addrSpec localPart
  simp only [matchParsers, he, he']
  exact ⟨_, rfl⟩

theorem solid_end {w r : Bytes} (h : Solid w) (hr : Stops Spec.wsp r) : CfwsEnd w (CRLF ++ r) :=
  ⟨stops_cons.mpr (by decide), fun t e => by
    cases e
    exact ⟨hr, h⟩⟩

theorem gap_stops {w r : Bytes} (h : Gap c w ()) (hne : w ≠ []) {p : UInt8 → Bool}
    (hp : ∀ b, Spec.wsp b = true ∨ b = 13 ∨ b = 40 → p b = false) : Stops p (w ++ r) := by
  obtain ⟨o, ⟨rfl, rfl⟩ | ⟨⟨⟩, rfl, h⟩⟩ := h
  · exact absurd rfl hne
  · obtain ⟨b, t, rfl, hb⟩ := cfws_head h
    exact stops_cons.mpr (hp b hb)

/-- One token with the comments and white space around it. -/
theorem receivedToken_append {g x t r : Bytes} {bare : Bool} {v : ReceivedToken} (hg : Gap c g ())
    (hx : ReceivedTokenL c x bare v) (ht : Gap c t ()) (hr : CfwsEnd t r)
    (hb : bare = true → Stops (fun b => Spec.atext b || b == 46) (t ++ r)) :
    receivedToken c (g ++ (x ++ (t ++ r))) = .ok (r, v) := by
  unfold receivedToken
  have hend : CfwsEnd g (x ++ (t ++ r)) := by
    obtain ⟨b, s, rfl, h⟩ := receivedTokenL_head hx
    obtain ⟨h1, h2, h3, -⟩ := token_start b h
    exact cfwsEnd_cons h1 h2 h3
  cases hx with
  | atom hne hx =>
    have h1 := atom_around hg hne hx ht hr (stops_mono (hb rfl) (by simp +contextual))
    have hd : DotAtomText c.feat.compatibilityFixes x x :=
      ⟨x, [], x, by simp, ⟨rfl, hne, hx⟩, [], [], [], rfl, .nil, rfl, by simp⟩
    have h2 := dotAtom_around hg hd ht hr (hb rfl)
    simp [word, domain, matchParsers, h1, h2]
  | quoted hx =>
    have h2 := quoted_around hg hx ht hr
    obtain ⟨s, rfl⟩ := quoted_head hx
    obtain ⟨e, he⟩ := atom_err hg hend (stops_cons.mpr (by decide))
    obtain ⟨e', he'⟩ := domain_miss hg hend (stops_cons.mpr (by decide))
    simp only [word, matchParsers, he, h2, he']
  | dotted hx hd =>
    have h2 := dotAtom_around hg hx ht hr (hb rfl)
    obtain ⟨y, z, rfl, hne, hy⟩ := dotted_split hx hd
    have h1 := atom_around (t := []) (r := 46 :: (z ++ (t ++ r))) hg hne hy optCfws_nil
      (cfwsEnd_cons (by decide) (by decide) (by decide)) (stops_cons.mpr (by decide))
    simp only [List.append_assoc, List.cons_append, List.nil_append] at h1 h2 ⊢
    simp [word, domain, matchParsers, h1, h2]
  | literal hx =>
    have h2 := domainLiteral_append (literal_of hg hx ht) (r := r) (by
      obtain ⟨s, rfl⟩ := literal_last hx
      rw [show g ++ (s ++ [93] ++ t) = (g ++ s) ++ [93] ++ t by simp]
      exact hr.extend (by decide))
    obtain ⟨s, rfl⟩ := literal_head hx
    obtain ⟨e, he⟩ := word_err hg hend (stops_cons.mpr (by decide))
    obtain ⟨e', he'⟩ := angleAddr_err hg hend (stops_cons.mpr (by decide))
    obtain ⟨e'', he''⟩ := addrSpec_miss hg hend (stops_cons.mpr (by decide))
    obtain ⟨e₃, he₃⟩ := dotAtom_err hg hend (stops_cons.mpr (by decide))
    simp only [List.append_assoc] at h2
    simp only [domain, matchParsers, he, he', he'', he₃, h2]
  | @addr x v hx =>
    have h2 := angleAddr_append (angleAddr_of hg hx ht) (r := r) (by
      rw [show g ++ (60 :: (x ++ [62]) ++ t) = (g ++ 60 :: x) ++ [62] ++ t by simp]
      exact hr.extend (by decide))
    obtain ⟨e, he⟩ := word_err hg hend (stops_cons.mpr (by decide))
    simp only [List.append_assoc] at h2
    simp only [he, h2]

theorem receivedToken_end {r : Bytes} : ∃ e, receivedToken c (59 :: r) = .err e := by
  have hg : Gap c [] () := optCfws_nil
  have hr : ∀ {g : Bytes}, CfwsEnd g (59 :: r) := cfwsEnd_cons (by decide) (by decide) (by decide)
  obtain ⟨e, he⟩ := word_err hg hr (stops_cons.mpr (by decide))
  obtain ⟨e', he'⟩ := angleAddr_err hg hr (stops_cons.mpr (by decide))
  obtain ⟨e'', he''⟩ := addrSpec_miss hg hr (stops_cons.mpr (by decide))
  obtain ⟨e₃, he₃⟩ := domain_miss hg hr (stops_cons.mpr (by decide))
  simp only [List.nil_append] at he he' he'' he₃
  unfold receivedToken
  simp only [he, he', he'', he₃]
  exact ⟨_, rfl⟩

/-! ### Lists of tokens -/

theorem receivedTokensL_start {ts r : Bytes} {vs : List ReceivedToken} (h : ReceivedTokensL c ts vs) :
    ∃ b s, ts ++ 59 :: r = b :: s ∧ Spec.wsp b = false ∧ b ≠ 40 ∧ b ≠ 13 ∧ b ≠ 46 := by
  cases h with
  | nil => exact ⟨_, _, rfl, by decide, by decide, by decide, by decide⟩
  | cons hx _ _ _ =>
    obtain ⟨b, s, rfl, hb⟩ := receivedTokenL_head hx
    exact ⟨b, _, rfl, token_start b hb⟩

theorem receivedTokens_append {ts r : Bytes} {vs : List ReceivedToken} (h : ReceivedTokensL c ts vs) :
    ∀ g, Gap c g () → (ts = [] → g = []) → many (g ++ (ts ++ 59 :: r)) (receivedToken c) = .ok (59 :: r, vs) := by
  induction h with
  | nil =>
    intro g _ hg
    rw [hg rfl]
    exact many_err receivedToken_end
  | @cons x bare v t s vs hx ht hb hs ih =>
    intro g hg _
    obtain ⟨b, s', e, h1, h2, h3, h4⟩ := receivedTokensL_start (r := r) hs
    have hr : CfwsEnd t (s ++ 59 :: r) := by
      rw [e]
      exact cfwsEnd_cons h1 h2 h3
    have hst : bare = true → Stops (fun b => Spec.atext b || b == 46) (t ++ (s ++ 59 :: r)) := by
      intro hbare
      by_cases hte : t = []
      · subst hte
        have hn := hb hbare rfl
        cases s with
        | nil => exact stops_cons.mpr (by decide)
        | cons y s =>
          cases e
          have hy := hn b s rfl
          refine stops_cons.mpr ?_
          simp [hy, h4]
      · exact gap_stops ht hte (by decide +kernel)
    have := receivedToken_append hg hx ht hr hst
    obtain ⟨y, x', rfl, -⟩ := receivedTokenL_head hx
    simp only [List.append_assoc] at this ⊢
    refine many_cons this (by simp; omega) ?_
    exact ih [] optCfws_nil (fun _ => rfl)

theorem receivedValue_append {w r : Bytes} {v : List ReceivedToken × DateTime} (h : ReceivedL c w v)
    (hr : Stops Spec.wsp r) : receivedValue c (w ++ (CRLF ++ r)) = .ok (CRLF ++ r, v) := by
  obtain ⟨g, ts, d, rfl, hg, hne, hts, hd, hs⟩ := h
  have h1 := receivedTokens_append (r := d ++ (CRLF ++ r)) hts g hg hne
  have h2 := dateTime_append hd (solid_end hs hr)
  generalize CRLF ++ r = r' at h1 h2 ⊢
  unfold receivedValue
  simp only [List.append_assoc, List.cons_append]
  rw [h1, ok_bind]
  dsimp only
  rw [show 59 :: (d ++ r') = b! ";" ++ (d ++ r') from rfl, tag_append, ok_bind]
  dsimp only
  rw [h2, ok_bind]

/-! ### Return paths -/

theorem emptyPath_append {g g' g'' r : Bytes} (h1 : Gap c g ()) (h2 : Gap c g' ()) (h3 : Gap c g'' ())
    (hr : CfwsEnd g'' r) : emptyPath c (g ++ 60 :: (g' ++ 62 :: (g'' ++ r))) = .ok (r, ()) := by
  have e1 := skipCfws_append (r := 60 :: (g' ++ 62 :: (g'' ++ r))) h1
    (cfwsEnd_cons (by decide) (by decide) (by decide))
  have e2 := skipCfws_append (r := 62 :: (g'' ++ r)) h2 (cfwsEnd_cons (by decide) (by decide) (by decide))
  have e3 := skipCfws_append h3 hr
  have t1 := tag_append (b! "<") (g' ++ 62 :: (g'' ++ r)) "TAG ERROR: An empty path must start with `<`."
  have t2 := tag_append (b! ">") (g'' ++ r) "TAG ERROR: An empty path must end with `>`."
  unfold emptyPath
  simp only [List.cons_append, List.nil_append] at t1 t2
  simp only [e1, ok_bind, t1, e2, t2, e3]

theorem returnPathValue_append {w r : Bytes} {v : Option EmailAddress} (h : ReturnPathL c w v) (hs : Solid w)
    (hr : Stops Spec.wsp r) : returnPathValue c (w ++ (CRLF ++ r)) = .ok (CRLF ++ r, v) := by
  have he := solid_end hs hr
  generalize CRLF ++ r = r' at he ⊢
  unfold returnPathValue
  cases h with
  | address h => simp only [matchParsers, angleAddr_append h he, ok_bind]
  | @empty g g' g'' h1 h2 h3 =>
    have he' : CfwsEnd g'' r' := by
      rw [show g ++ 60 :: (g' ++ 62 :: g'') = (g ++ 60 :: (g' ++ [62])) ++ g'' by simp] at he
      exact he.suffix
    have e1 := emptyPath_append h1 h2 h3 he'
    have e2 : ∃ e, angleAddr c (g ++ 60 :: (g' ++ 62 :: (g'' ++ r'))) = .err e := by
      have s1 := skipCfws_append (r := 60 :: (g' ++ 62 :: (g'' ++ r'))) h1
        (cfwsEnd_cons (by decide) (by decide) (by decide))
      have t1 := tag_append (b! "<") (g' ++ 62 :: (g'' ++ r')) "TAG ERROR: A angle_addr must start with a `<`."
      obtain ⟨e, he⟩ := addrSpec_miss (r := 62 :: (g'' ++ r')) h2
        (cfwsEnd_cons (by decide) (by decide) (by decide)) (stops_cons.mpr (by decide))
      unfold angleAddr
      simp only [List.cons_append, List.nil_append] at t1
      simp only [s1, ok_bind, t1, he]
      exact ⟨_, rfl⟩
    obtain ⟨e, e2⟩ := e2
    simp only [List.append_assoc, List.cons_append]
    simp only [matchParsers, e2, e1, ok_bind, err_bind]

end EmailParser
