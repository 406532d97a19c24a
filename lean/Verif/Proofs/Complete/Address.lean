import Verif.Proofs.Complete.Print
import Verif.Spec.Addresses
/-
Phrases, mailboxes, groups and lists of them are read back.
-/
namespace EmailParser
open Spec (Gap Names MailboxL Commas GroupName AddressL)

variable {c : Cfg}

/-! ### Words -/

theorem atom_around {g x t r : Bytes} (h1 : Gap c g ()) (hne : x ≠ [])
    (hx : ∀ b ∈ x, Spec.atext b = true) (h2 : Gap c t ()) (hr : CfwsEnd t r)
    (ha : Stops Spec.atext (t ++ r)) : atom c (g ++ (x ++ (t ++ r))) = .ok (r, x) := by
  have e1 := skipCfws_append (c := c) (r := x ++ (t ++ r)) h1 (atext_cfwsEnd hne hx)
  have e2 := takeWhile1_ok (r := t ++ r) hne hx ha
  have e3 := skipCfws_append (c := c) (r := r) h2 hr
  unfold atom
  simp only [e1, ok_bind, isAtext_eq, e2, Outcome.mapErr, e3]

theorem dotAtom_around {g x t r : Bytes} (h1 : Gap c g ())
    (hx : Spec.DotAtomText c.feat.compatibilityFixes x x) (h2 : Gap c t ()) (hr : CfwsEnd t r)
    (ha : Stops (fun b => Spec.atext b || b == 46) (t ++ r)) :
    dotAtom c (g ++ (x ++ (t ++ r))) = .ok (r, x) := by
  have hs : CfwsEnd g (x ++ (t ++ r)) := by
    obtain ⟨b, t, rfl, hb⟩ := dotAtomText_head hx
    obtain ⟨h1, h2, h3⟩ := atext_end b hb
    exact cfwsEnd_cons h1 h2 h3
  have e1 := skipCfws_append (c := c) (r := x ++ (t ++ r)) h1 hs
  have e2 := dotAtomText_append (c := c) (r := t ++ r) hx ha
  have e3 := skipCfws_append (c := c) (r := r) h2 hr
  unfold dotAtom
  simp only [e1, ok_bind, e2, e3]

theorem quoted_around {g x v t r : Bytes} (h1 : Gap c g ()) (hx : Spec.Quoted x v) (h2 : Gap c t ())
    (hr : CfwsEnd t r) : quotedString c (g ++ (x ++ (t ++ r))) = .ok (r, v) := by
  obtain ⟨_, _, _, rfl, rfl, s, _, vs, rfl, hs, f, _, fv, rfl, hf, _, _, _, rfl, rfl, rfl, rfl⟩ := hx
  have := quotedString_around (r := r) h1 hs hf h2 hr
  simpa using this

theorem quoted_head {x v : Bytes} (h : Spec.Quoted x v) : ∃ t, x = 34 :: t := by
  obtain ⟨_, t, _, rfl, rfl, _⟩ := h
  exact ⟨t, rfl⟩

theorem encodedWord_err_start {i : Bytes} (h : ¬ [61, 63] <+: i) : ∃ e, encodedWord c i = .err e := by
  refine encodedWord_err fun p v hp hg => ?_
  obtain ⟨t, rfl⟩ := encodedWord_head hg
  exact h (List.IsPrefix.trans ⟨t, rfl⟩ hp)

/-- White space is passed before the check for an encoded word. -/
theorem optional_fws_gap {g r : Bytes} (h : Gap c g ()) (hr : CfwsEnd g r) :
    ∃ r' o, optional (g ++ r) fws = .ok (r', o) ∧ (r' = r ∨ ∃ t, r' = 40 :: t) := by
  obtain ⟨o, h⟩ := h
  rcases h with ⟨rfl, rfl⟩ | ⟨v, rfl, h⟩
  · exact ⟨r, none, optional_err hr.noFws.err, .inl rfl⟩
  · rcases h with ⟨s, s₁, vs, rfl, ⟨u, s', a, rfl, ⟨g, x, o', rfl, hg, hx⟩, _⟩, _⟩ | ⟨v, h⟩
    · have := optFws_append hg (r := x ++ (s' ++ (s₁ ++ r))) (comment_noSpace hx)
      obtain ⟨t, rfl⟩ := commentN_head _ _ _ hx
      exact ⟨_, _, by simpa using this, .inr ⟨_, rfl⟩⟩
    · exact ⟨r, some v, CfwsEnd.optFws (.inr ⟨v, rfl, h⟩) hr, .inl rfl⟩

/-- Where no encoded word begins, a word of a phrase is a plain word. -/
theorem phraseWord_plain {g i : Bytes} (hg : Gap c g ()) (hi : CfwsEnd g i)
    (h : c.feat.mime = true → ¬ [61, 63] <+: i) :
    (∀ x, word c (g ++ i) = .ok x → phraseWord c (g ++ i) = .ok x) ∧
    ((∃ e, word c (g ++ i) = .err e) → ∃ e, phraseWord c (g ++ i) = .err e) := by
  unfold phraseWord
  split
  · rename_i hm
    obtain ⟨r', o, h1, h2⟩ := optional_fws_gap hg hi
    have h3 : ¬ [61, 63] <+: r' := by
      rcases h2 with rfl | ⟨t, rfl⟩
      · exact h hm
      · intro hp
        rw [List.cons_prefix_cons] at hp
        exact absurd hp.1 (by decide)
    obtain ⟨e, he⟩ := encodedWord_err_start (c := c) h3
    simp only [matchParsers, h1, ok_bind, he]
    constructor
    · intro x hx
      rw [hx]
    · rintro ⟨e, hx⟩
      rw [hx]
      exact ⟨_, rfl⟩
  · exact ⟨fun _ h => h, id⟩

theorem word_err {g r : Bytes} (hg : Gap c g ()) (hr : CfwsEnd g r)
    (ha : Stops (fun b => Spec.atext b || b == 34) r) : ∃ e, word c (g ++ r) = .err e := by
  have ha1 : Stops Spec.atext r := fun b t e => by
    have := ha b t e
    simp only [Bool.or_eq_false_iff] at this
    exact this.1
  obtain ⟨e, he⟩ := atom_err hg hr ha1
  have hq : startsWith r (b! "\"") = false := by
    cases r with
    | nil => rfl
    | cons b t =>
      have := stops_cons.mp ha
      simp only [Bool.or_eq_false_iff, beq_eq_false_iff_ne] at this
      simp only [startsWith, List.isPrefixOf, Bool.and_true, beq_eq_false_iff_ne]
      exact fun h => this.2 h.symm
  have : ∃ e, quotedString c (g ++ r) = .err e := by
    unfold quotedString
    simp only [skipCfws_append hg hr, ok_bind, hq]
    exact ⟨_, rfl⟩
  obtain ⟨e', he'⟩ := this
  unfold word
  simp only [matchParsers, he, he']
  exact ⟨_, rfl⟩

theorem stops_mono {p q : UInt8 → Bool} {r : Bytes} (h : Stops p r) (hpq : ∀ b, p b = false → q b = false) :
    Stops q r := fun b t e => hpq b (h b t e)

theorem not_encoded_of_stops {r : Bytes} (h : Stops Spec.atext r) : ¬ [61, 63] <+: r := by
  rintro ⟨t, rfl⟩
  exact absurd (stops_cons.mp h) (by decide)

theorem phraseWord_err {g r : Bytes} (hg : Gap c g ()) (hr : CfwsEnd g r)
    (ha : Stops (fun b => Spec.atext b || b == 34) r) : ∃ e, phraseWord c (g ++ r) = .err e := by
  exact (phraseWord_plain hg hr fun _ => not_encoded_of_stops (stops_mono ha (by simp +contextual))).2
    (word_err hg hr ha)

theorem not_encoded_atom {x r : Bytes} (hne : x ≠ []) (hx : ¬ [61, 63] <+: x) (hr : Stops Spec.atext r) :
    ¬ [61, 63] <+: x ++ r := by
  rintro ⟨t, e⟩
  cases x with
  | nil => exact absurd rfl hne
  | cons a x =>
    cases x with
    | nil =>
      cases r with
      | nil => simp at e
      | cons b r =>
        simp only [List.cons_append, List.nil_append, List.cons.injEq] at e
        obtain ⟨-, rfl, -⟩ := e
        exact absurd (stops_cons.mp hr) (by decide)
    | cons b x =>
      simp only [List.cons_append, List.nil_append, List.cons.injEq] at e
      obtain ⟨rfl, rfl, -⟩ := e
      exact hx ⟨x, rfl⟩

/-! ### Phrases -/

theorem names_head {p q : Bool} {s : Bytes} {vs : List Bytes} (h : Names c p s vs q) :
    (s = [] ∧ vs = [] ∧ p = q) ∨ ∃ g y t, s = g ++ (y :: t) ∧ Gap c g () ∧ (p = true → g = []) ∧
      (Spec.atext y = true ∨ y = 34) := by
  cases h with
  | nil => exact .inl ⟨rfl, rfl, rfl⟩
  | atom hg hp hne hx hm ht hts hs =>
    rename_i g x t s vs
    cases x with
    | nil => exact absurd rfl hne
    | cons y x => exact .inr ⟨g, y, _, rfl, hg, hp, .inl (hx y (by simp))⟩
  | quoted hg hp hx _ _ =>
    obtain ⟨t, rfl⟩ := quoted_head hx
    exact .inr ⟨_, 34, _, rfl, hg, hp, .inr rfl⟩
  | encoded _ hf hp hw _ =>
    obtain ⟨t, rfl⟩ := encodedWord_head hw
    refine .inr ⟨_, 61, _, rfl, ?_, hp, .inl (by decide)⟩
    obtain ⟨o, -, ⟨rfl, rfl⟩ | ⟨v, rfl, hf⟩⟩ := hf
    · exact optCfws_nil
    · exact ⟨some (), .inr ⟨(), rfl, .inr ⟨v, hf⟩⟩⟩

theorem word_start {y : UInt8} (h : Spec.atext y = true ∨ y = 34) :
    Spec.wsp y = false ∧ y ≠ 40 ∧ y ≠ 13 ∧ y ≠ 64 ∧ y ≠ 46 ∧ y ≠ 58 := by
  have key : ∀ y, Spec.atext y = true ∨ y = 34 →
      Spec.wsp y = false ∧ y ≠ 40 ∧ y ≠ 13 ∧ y ≠ 64 ∧ y ≠ 46 ∧ y ≠ 58 := by decide +kernel
  exact key y h

/-- After a plain word, its white space ends where the next word begins or the phrase ends. -/
theorem names_end {q : Bool} {u t s g r : Bytes} {vs : List Bytes} (h : Names c true s vs q)
    (hq : q = true → g = []) (hr : CfwsEnd (u ++ (t ++ s) ++ g) r) : CfwsEnd t (s ++ (g ++ r)) := by
  rcases names_head h with ⟨rfl, -, rfl⟩ | ⟨g', y, t', rfl, -, hp, hy⟩
  · rw [hq rfl] at hr ⊢
    simp only [List.append_nil] at hr
    exact hr.suffix
  · rw [hp rfl]
    obtain ⟨h1, h2, h3, -⟩ := word_start hy
    exact cfwsEnd_cons h1 h2 h3

theorem names_stops {q : Bool} {t s g r : Bytes} {vs : List Bytes} (h : Names c true s vs q)
    (ht : Gap c t ()) (hts : t = [] → Spec.NotBefore Spec.atext s) (hg : Gap c g ())
    (ha : Stops Spec.atext r) : Stops Spec.atext (t ++ (s ++ (g ++ r))) := by
  have hgr : Stops Spec.atext (g ++ r) := optCfws_stops hg space_not_atext ha
  cases t with
  | nil =>
    cases s with
    | nil => exact hgr
    | cons b s => exact stops_cons.mpr (hts rfl b s rfl)
  | cons b t =>
    obtain ⟨o, ⟨e, -⟩ | ⟨⟨⟩, -, ht⟩⟩ := ht
    · cases e
    · obtain ⟨b', t', e, hb⟩ := cfws_head ht
      cases e
      exact stops_cons.mpr (space_not_atext b hb)

/-- The first word of a phrase. -/
theorem phraseWord_names {p q : Bool} {w g r v : Bytes} {vs : List Bytes} (h : Names c p w (v :: vs) q)
    (hg : Gap c g ()) (hq : q = true → g = []) (hr : CfwsEnd (w ++ g) r) (ha : Stops Spec.atext r) :
    ∃ s p', phraseWord c (w ++ (g ++ r)) = .ok (s ++ (g ++ r), v) ∧ Names c p' s vs q ∧
      s.length < w.length ∧ s <:+ w := by
  cases h with
  | atom h1 hp hne hx hm h2 hts hs =>
    rename_i g' t s
    have hst := names_stops hs h2 hts hg ha
    have hend : CfwsEnd t (s ++ (g ++ r)) := names_end (u := g' ++ v) hs hq (by simpa using hr)
    refine ⟨s, true, ?_, hs, ?_, g' ++ (v ++ t), by simp⟩
    · have e : g' ++ (v ++ (t ++ s)) ++ (g ++ r) = g' ++ (v ++ (t ++ (s ++ (g ++ r)))) := by simp
      rw [e]
      refine (phraseWord_plain h1 (atext_cfwsEnd hne hx) fun h => not_encoded_atom hne (hm h) hst).1 _ ?_
      rw [word, matchParsers, atom_around h1 hne hx h2 hend hst]
    · have := List.length_pos_iff.mpr hne
      simp only [List.length_append]
      omega
  | quoted h1 hp hx h2 hs =>
    rename_i g' x t s
    have hend : CfwsEnd t (s ++ (g ++ r)) := names_end (u := g' ++ x) hs hq (by simpa using hr)
    refine ⟨s, true, ?_, hs, ?_, g' ++ (x ++ t), by simp⟩
    · have e : g' ++ (x ++ (t ++ s)) ++ (g ++ r) = g' ++ (x ++ (t ++ (s ++ (g ++ r)))) := by simp
      have hq := quoted_around h1 hx h2 hend
      obtain ⟨y, rfl⟩ := quoted_head hx
      have hc : CfwsEnd g' (34 :: y ++ (t ++ (s ++ (g ++ r)))) :=
        cfwsEnd_cons (by decide) (by decide) (by decide)
      obtain ⟨e', he⟩ := atom_err (c := c) h1 hc (stops_cons.mpr (by decide))
      rw [e]
      refine (phraseWord_plain h1 hc fun _ hp => ?_).1 _ ?_
      · rw [List.cons_append, List.cons_prefix_cons] at hp
        exact absurd hp.1 (by decide)
      rw [word, matchParsers, he]
      dsimp only
      rw [matchParsers, hq]
    · obtain ⟨y, rfl⟩ := quoted_head hx
      simp only [List.length_append, List.length_cons]
      omega
  | encoded hm hf hp hw hs =>
    rename_i f white x s
    refine ⟨s, false, ?_, hs, ?_, f ++ x, by simp⟩
    · have e : f ++ (x ++ s) ++ (g ++ r) = f ++ (x ++ (s ++ (g ++ r))) := by simp
      obtain ⟨o, -, hf⟩ := hf
      have hns : NoSpace (x ++ (s ++ (g ++ r))) := by
        obtain ⟨t, rfl⟩ := encodedWord_head hw
        exact noSpace_cons (by decide) (by decide)
      unfold phraseWord
      rw [if_pos hm, e, matchParsers]
      simp only [optFws_append hf hns, ok_bind, encodedWord_append hw]
    · obtain ⟨y, rfl⟩ := encodedWord_head hw
      simp only [List.length_append, List.length_cons]
      omega

theorem phraseLoop_append {q : Bool} {g r : Bytes} (hg : Gap c g ()) (hq : q = true → g = [])
    (ha : Stops (fun b => Spec.atext b || b == 34) r) :
    ∀ (fuel : Nat) (p : Bool) (w : Bytes) (vs : List Bytes), w.length < fuel → Names c p w vs q →
      CfwsEnd (w ++ g) r → manyLoop (phraseWord c) fuel (w ++ (g ++ r)) = .ok (g ++ r, vs)
  | 0, _, _, _, h, _, _ => by omega
  | fuel + 1, p, w, [], h, hw, hr => by
    cases hw
    exact manyLoop_err (phraseWord_err (g := g) hg hr ha)
  | fuel + 1, p, w, v :: vs, h, hw, hr => by
    obtain ⟨s, p', h1, h2, h3, u, rfl⟩ := phraseWord_names hw hg hq hr (stops_mono ha (by simp +contextual))
    unfold manyLoop
    rw [h1]
    dsimp only
    rw [phraseLoop_append hg hq ha fuel p' s vs (by omega) h2 (by rw [List.append_assoc] at hr; exact hr.suffix)]
    rfl

theorem phrase_append {q : Bool} {w g r : Bytes} {vs : List Bytes} (h : Names c false w vs q)
    (hne : vs ≠ []) (hg : Gap c g ()) (hq : q = true → g = [])
    (ha : Stops (fun b => Spec.atext b || b == 34) r) (hr : CfwsEnd (w ++ g) r) :
    phrase c (w ++ (g ++ r)) = .ok (g ++ r, vs) := by
  cases vs with
  | nil => exact absurd rfl hne
  | cons v vs =>
    obtain ⟨s, p', h1, h2, h3, u, rfl⟩ := phraseWord_names h hg hq hr (stops_mono ha (by simp +contextual))
    unfold phrase many1
    rw [h1]
    simp only [ok_bind]
    rw [phraseLoop_append hg hq ha _ p' s vs (by simp; omega) h2 (by rw [List.append_assoc] at hr; exact hr.suffix)]
    rfl

/-! ### Mailboxes -/

theorem phrase_err {g r : Bytes} (hg : Gap c g ()) (hr : CfwsEnd g r)
    (ha : Stops (fun b => Spec.atext b || b == 34) r) : ∃ e, phrase c (g ++ r) = .err e := by
  obtain ⟨e, he⟩ := phraseWord_err hg hr ha
  unfold phrase many1
  rw [he]
  exact ⟨_, rfl⟩

/-- A phrase that is not followed by an angle bracket. -/
theorem nameAddr_err {q : Bool} {w g r : Bytes} {vs : List Bytes} (h : Names c false w vs q)
    (hne : vs ≠ []) (hg : Gap c g ()) (hq : q = true → g = [])
    (ha : Stops (fun b => Spec.atext b || b == 34) r) (h60 : Stops (· == 60) r) (hr : CfwsEnd (w ++ g) r) :
    ∃ e, nameAddr c (w ++ (g ++ r)) = .err e := by
  obtain ⟨e, he⟩ := angleAddr_err hg hr.suffix h60
  unfold nameAddr
  rw [optional_ok (phrase_append h hne hg hq ha hr)]
  simp only [ok_bind, he]
  exact ⟨_, rfl⟩

theorem angleAddr_open {a : Bytes} {v : EmailAddress}
    (h : Spec.AngleAddrOf (Spec.CommentN c.stack) c.feat.compatibilityFixes a v) :
    ∃ g t, a = g ++ 60 :: t ∧ Gap c g () := by
  obtain ⟨g, _, _, rfl, hg, _, t, _, rfl, rfl, _⟩ := h
  exact ⟨g, t, rfl, hg⟩

theorem mailbox_append {w r : Bytes} {m : Mailbox} (h : MailboxL c w m) (hr : CfwsEnd w r)
    (ha : Stops (fun b => Spec.atext b || b == 46) r) : mailbox c (w ++ r) = .ok (r, m) := by
  unfold mailbox
  rw [matchParsers]
  cases h with
  | named hn hne hv hp =>
    rename_i n vs p a v
    have e1 := angleAddr_append hv hr.suffix
    obtain ⟨g, t, rfl, hg⟩ := angleAddr_open hv
    have hpg : p = true → g = [] := by
      intro h
      obtain ⟨t', e⟩ := hp h
      cases g with
      | nil => rfl
      | cons b g =>
        exfalso
        obtain ⟨o, ⟨e', -⟩ | ⟨⟨⟩, -, hg⟩⟩ := hg
        · cases e'
        · obtain ⟨b', t', e', hb⟩ := cfws_head hg
          cases e'
          simp only [List.cons_append, List.cons.injEq] at e
          obtain ⟨rfl, -⟩ := e
          exact absurd hb (by decide)
    have e2 := phrase_append (r := 60 :: (t ++ r)) hn hne hg hpg (stops_cons.mpr (by decide))
      (cfwsEnd_cons (by decide) (by decide) (by decide))
    have e : n ++ (g ++ 60 :: t) ++ r = n ++ (g ++ 60 :: (t ++ r)) := by simp
    have e' : g ++ 60 :: t ++ r = g ++ 60 :: (t ++ r) := by simp
    rw [e'] at e1
    unfold nameAddr
    simp only [e, optional_ok e2, ok_bind, e1]
  | angle hv =>
    have e1 := angleAddr_append hv hr
    obtain ⟨g, t, rfl, hg⟩ := angleAddr_open hv
    have e : g ++ 60 :: t ++ r = g ++ 60 :: (t ++ r) := by simp
    rw [e] at e1 ⊢
    unfold nameAddr
    rw [optional_err (phrase_err hg (cfwsEnd_cons (by decide) (by decide) (by decide))
      (stops_cons.mpr (by decide)))]
    simp only [ok_bind, e1]
  | dotAtom hl hm hd =>
    rename_i l lv d dv
    have e1 := addrSpec_append (c := c) (r := r) (w := l ++ (b! "@" ++ (d ++ []))) (v := ⟨lv, dv⟩)
      ⟨l, _, lv, rfl, .inl hl, _, _, (), rfl, rfl, d, _, dv, rfl, hd, rfl, rfl⟩ (by simpa using hr) ha
    have e : l ++ (b! "@" ++ (d ++ [])) ++ r = l ++ 64 :: d ++ r := by simp
    rw [e] at e1
    obtain ⟨g, _, _, rfl, hg, x, _, v', rfl, hx, t, _, _, rfl, ht, rfl, rfl⟩ := hl
    obtain rfl := dotAtomText_value hx
    obtain ⟨y, _, _, rfl, ⟨rfl, hne, hy⟩, z, _, zs, rfl, hz, rfl, hv⟩ := hx
    rename_i v₁
    have hm' : c.feat.mime = true → ¬ b! "=?" <+: v₁ := fun h hp => hm h (hp.trans (List.prefix_append _ _))
    have : ∃ e, nameAddr c (g ++ ((v₁ ++ (z ++ [])) ++ (t ++ [])) ++ 64 :: d ++ r) = .err e := by
      cases hz with
      | nil =>
        have := nameAddr_err (c := c) (g := []) (r := 64 :: (d ++ r)) (q := true)
          (.atom hg (by simp) hne hy hm' ht (s := []) (fun _ => stops_nil) .nil) (by simp) optCfws_nil
          (by simp) (stops_cons.mpr (by decide)) (stops_cons.mpr (by decide))
          (cfwsEnd_cons (by decide) (by decide) (by decide))
        simpa using this
      | cons hz1 hz2 =>
        obtain ⟨_, z1, _, rfl, rfl, -⟩ := hz1
        rename_i z2 _ _ _
        have := nameAddr_err (c := c) (g := []) (r := 46 :: (z1 ++ (z2 ++ (t ++ 64 :: (d ++ r))))) (q := true)
          (.atom hg (by simp) hne hy hm' optCfws_nil (s := []) (fun _ => stops_nil) .nil) (by simp) optCfws_nil
          (by simp) (stops_cons.mpr (by decide)) (stops_cons.mpr (by decide))
          (cfwsEnd_cons (by decide) (by decide) (by decide))
        simpa using this
    obtain ⟨e', he⟩ := this
    rw [he]
    dsimp only
    rw [matchParsers]
    simp only [e1, ok_bind]
  | quoted hl hd =>
    rename_i l lv d dv
    have e1 := addrSpec_append (c := c) (r := r) (w := l ++ (b! "@" ++ (d ++ []))) (v := ⟨lv, dv⟩)
      ⟨l, _, lv, rfl, .inr hl, _, _, (), rfl, rfl, d, _, dv, rfl, hd, rfl, rfl⟩ (by simpa using hr) ha
    have e : l ++ (b! "@" ++ (d ++ [])) ++ r = l ++ 64 :: d ++ r := by simp
    rw [e] at e1
    obtain ⟨g, _, _, rfl, hg, _, _, _, rfl, rfl, s, _, vs, rfl, hs, f, _, fv, rfl, hf, _, _, _, rfl, rfl,
      t, _, _, rfl, ht, rfl, rfl⟩ := hl
    have hx : Spec.Quoted (b! "\"" ++ (s ++ (f ++ (b! "\"" ++ [])))) (vs.flatten ++ fv) :=
      ⟨_, _, (), rfl, rfl, s, _, vs, rfl, hs, f, _, fv, rfl, hf, _, _, (), rfl, rfl, rfl, rfl⟩
    have := nameAddr_err (c := c) (g := []) (r := 64 :: (d ++ r)) (q := true)
      (.quoted hg (by simp) hx ht (s := []) .nil) (by simp) optCfws_nil
      (by simp) (stops_cons.mpr (by decide)) (stops_cons.mpr (by decide))
      (cfwsEnd_cons (by decide) (by decide) (by decide))
    obtain ⟨e', he⟩ := this
    simp only [List.append_nil, List.append_assoc, List.cons_append, List.nil_append] at he e1 ⊢
    rw [he]
    dsimp only
    rw [matchParsers]
    simp only [e1, ok_bind]

/-! ### Lists -/

theorem prefixed_append {α : Type} {p : Bytes → Res α} {b : UInt8} {i : Bytes} :
    prefixed (b :: i) p [b] = p i := by
  unfold prefixed
  simp [startsWith_cons, getUncheckedFrom]

theorem prefixed_err {α : Type} {p : Bytes → Res α} {b : UInt8} {i : Bytes} (h : Stops (· == b) i) :
    ∃ e, prefixed i p [b] = .err e := by
  unfold prefixed
  have : startsWith i [b] = false := by
    cases i with
    | nil => rfl
    | cons x i =>
      have := stops_cons.mp h
      simp only [startsWith, List.isPrefixOf, Bool.and_true]
      simp only [beq_eq_false_iff_ne] at this ⊢
      exact fun h => this h.symm
  rw [this]
  exact ⟨_, rfl⟩

theorem commas_append_of {α : Type} {L : Bytes → α → Prop} {p : Bytes → Res α} {cls : UInt8 → Bool}
    (h44 : cls 44 = false)
    (hp : ∀ w v r, L w v → CfwsEnd w r → Stops cls r → p (w ++ r) = .ok (r, v)) {w r : Bytes} {vs : List α}
    (h : Commas L w vs) : CfwsEnd w r → Stops (fun b => cls b || b == 44) r →
    ∃ i v vs', vs = v :: vs' ∧ p (w ++ r) = .ok (i, v) ∧ i.length ≤ (w ++ r).length ∧
      ∀ fuel, i.length < fuel → manyLoop (fun input => prefixed input p (b! ",")) fuel i = .ok (r, vs') := by
  induction h with
  | one h =>
    rename_i w v
    intro hr ha
    refine ⟨r, v, [], rfl, hp _ _ _ h hr (stops_mono ha (by simp +contextual)), by simp,
      fun fuel hf => ?_⟩
    cases fuel with
    | zero => omega
    | succ fuel => exact manyLoop_err (prefixed_err (stops_mono ha (by simp)))
  | cons h _ ih =>
    rename_i w v s vs _
    intro hr ha
    obtain ⟨i, v', vs', rfl, h1, hi, h2⟩ := ih (by
      rw [show w ++ 44 :: s = (w ++ [44]) ++ s by simp] at hr
      exact hr.suffix) ha
    refine ⟨44 :: (s ++ r), v, v' :: vs', rfl, ?_, by simp, fun fuel hf => ?_⟩
    · have := hp w v (44 :: (s ++ r)) h (cfwsEnd_cons (by decide) (by decide) (by decide))
        (stops_cons.mpr h44)
      simpa using this
    · cases fuel with
      | zero => omega
      | succ fuel =>
        unfold manyLoop
        rw [prefixed_append, h1]
        dsimp only
        rw [h2 fuel (by simp at hf hi; omega)]
        rfl

theorem commas_append {α : Type} {L : Bytes → α → Prop} {p : Bytes → Res α}
    (hp : ∀ w v r, L w v → CfwsEnd w r → Stops (fun b => Spec.atext b || b == 46) r →
      p (w ++ r) = .ok (r, v)) {w r : Bytes} {vs : List α} (h : Commas L w vs) :
    CfwsEnd w r → Stops (fun b => Spec.atext b || b == 46 || b == 44) r →
    ∃ i v vs', vs = v :: vs' ∧ p (w ++ r) = .ok (i, v) ∧ i.length ≤ (w ++ r).length ∧
      ∀ fuel, i.length < fuel → manyLoop (fun input => prefixed input p (b! ",")) fuel i = .ok (r, vs') :=
  commas_append_of (by decide) hp h

theorem mailboxList_append {w r : Bytes} {ms : List Mailbox} (h : Commas (MailboxL c) w ms)
    (hr : CfwsEnd w r) (ha : Stops (fun b => Spec.atext b || b == 46 || b == 44) r) :
    mailboxList c (w ++ r) = .ok (r, ms) := by
  obtain ⟨i, v, vs, rfl, h1, -, h2⟩ := commas_append (p := mailbox c)
    (fun _ _ _ h => mailbox_append h) h hr ha
  unfold mailboxList many
  simp only [h1, ok_bind, h2 _ (Nat.lt_succ_self _)]

/-! ### Groups -/

theorem names_no_at {p q : Bool} {s r : Bytes} {vs : List Bytes} {m : String} (h : Names c p s vs q) :
    ∃ i, skipCfws c (s ++ 58 :: r) = .ok i ∧ ∃ e, tag i (b! "@") m = .err e := by
  rcases names_head h with ⟨rfl, -, -⟩ | ⟨g, y, t, rfl, hg, -, hy⟩
  · exact ⟨58 :: r, skipCfws_none (noFws_of (stops_cons.mpr (by decide)) (fun hp => by
      rw [List.nil_append, Spec.CRLF, List.cons_prefix_cons] at hp; exact absurd hp.1 (by decide)))
      (stops_cons.mpr (by decide)), _, tag_cons_err (by decide)⟩
  · obtain ⟨h1, h2, h3, h4, -⟩ := word_start hy
    refine ⟨y :: (t ++ 58 :: r), ?_, _, tag_cons_err h4⟩
    rw [show g ++ y :: t ++ 58 :: r = g ++ y :: (t ++ 58 :: r) by simp]
    exact skipCfws_append hg (cfwsEnd_cons h1 h2 h3)

theorem names_true_no_at {q : Bool} {s r : Bytes} {vs : List Bytes} {m : String} (h : Names c true s vs q) :
    ∃ e, tag (s ++ 58 :: r) (b! "@") m = .err e := by
  rcases names_head h with ⟨rfl, -, -⟩ | ⟨g, y, t, rfl, hg, hp, hy⟩
  · exact ⟨_, tag_cons_err (by decide)⟩
  · rw [hp rfl]
    exact ⟨_, tag_cons_err (word_start hy).2.2.2.1⟩

theorem dotAtomText_run {lax : Bool} {x : Bytes} (hne : x ≠ []) (hx : ∀ b ∈ x, Spec.atext b = true) :
    Spec.DotAtomText lax x x :=
  ⟨x, [], x, by simp, ⟨rfl, hne, hx⟩, [], [], [], rfl, .nil, rfl, by simp⟩

/-- The name of a group is not the beginning of an address. -/
theorem groupName_addrSpec {n r : Bytes} {vs : List Bytes} (h : GroupName c n vs) :
    ∃ e, addrSpec c (n ++ 58 :: r) = .err e := by
  obtain ⟨hne, ⟨p, hn⟩, henc⟩ := h
  unfold addrSpec
  cases hn with
  | nil => exact absurd rfl hne
  | atom h1 hp hxne hx hm h2 hts hs =>
    rename_i g x t s vs
    have hst : Stops (fun b => Spec.atext b || b == 46) (t ++ (s ++ 58 :: r)) := by
      cases t with
      | nil =>
        rcases names_head hs with ⟨rfl, -, -⟩ | ⟨g', y, t', rfl, -, hp', hy⟩
        · exact stops_cons.mpr (by decide)
        · have := hp' rfl
          subst this
          have h5 := (word_start hy).2.2.2.2.1
          exact stops_cons.mpr (by simp [h5, hts rfl y t' rfl])
      | cons b t =>
        obtain ⟨o, ⟨e, -⟩ | ⟨⟨⟩, -, ht⟩⟩ := h2
        · cases e
        · obtain ⟨b', t', e, hb⟩ := cfws_head ht
          cases e
          have key : ∀ b : UInt8, Spec.wsp b = true ∨ b = 13 ∨ b = 40 →
            (Spec.atext b || b == 46) = false := by decide +kernel
          exact stops_cons.mpr (key b hb)
    have hend : CfwsEnd t (s ++ 58 :: r) :=
      names_end (u := []) (g := []) hs (by simp) (cfwsEnd_cons (by decide) (by decide) (by decide))
    have e1 := dotAtom_around h1 (dotAtomText_run hxne hx) h2 hend hst
    obtain ⟨e, he⟩ := names_true_no_at (r := r)
      (m := "TAG ERROR: An address local part must be followed by a `@`.") hs
    have e : g ++ (x ++ (t ++ s)) ++ 58 :: r = g ++ (x ++ (t ++ (s ++ 58 :: r))) := by simp
    unfold localPart
    simp only [e, matchParsers, e1, ok_bind, he]
    exact ⟨_, rfl⟩
  | quoted h1 hp hx h2 hs =>
    rename_i g x v t s vs
    have hend : CfwsEnd t (s ++ 58 :: r) :=
      names_end (u := []) (g := []) hs (by simp) (cfwsEnd_cons (by decide) (by decide) (by decide))
    have e1 := quoted_around h1 hx h2 hend
    obtain ⟨y, rfl⟩ := quoted_head hx
    obtain ⟨e0, he0⟩ := dotAtom_err (c := c) (r := 34 :: y ++ (t ++ (s ++ 58 :: r))) h1
      (cfwsEnd_cons (by decide) (by decide) (by decide)) (stops_cons.mpr (by decide))
    obtain ⟨e, he⟩ := names_true_no_at (r := r)
      (m := "TAG ERROR: An address local part must be followed by a `@`.") hs
    have e : g ++ (34 :: y ++ (t ++ s)) ++ 58 :: r = g ++ (34 :: y ++ (t ++ (s ++ 58 :: r))) := by simp
    unfold localPart
    simp only [e, matchParsers, he0, e1, ok_bind, he]
    exact ⟨_, rfl⟩
  | encoded hm hf hp hw hs =>
    rename_i f white x v s vs
    obtain ⟨hx, hst⟩ := henc f white x v s rfl hf hw hm
    have hxne : x ≠ [] := by
      obtain ⟨t, rfl⟩ := encodedWord_head hw
      simp
    have hf' : Gap c f () := by
      obtain ⟨o, -, ⟨rfl, rfl⟩ | ⟨v, rfl, hf⟩⟩ := hf
      · exact optCfws_nil
      · exact ⟨some (), .inr ⟨(), rfl, .inr ⟨v, hf⟩⟩⟩
    have hst' : Stops (fun b => Spec.atext b || b == 46) (s ++ 58 :: r) := by
      cases s with
      | nil => exact stops_cons.mpr (by decide)
      | cons b s => exact stops_cons.mpr (hst b s rfl)
    have e1 := skipCfws_append (c := c) (r := x ++ (s ++ 58 :: r)) hf' (atext_cfwsEnd hxne hx)
    have e2 := dotAtomText_append (c := c) (r := s ++ 58 :: r) (dotAtomText_run hxne hx) hst'
    obtain ⟨i, e3, e, he⟩ := names_no_at (r := r)
      (m := "TAG ERROR: An address local part must be followed by a `@`.") hs
    have e : f ++ (x ++ s) ++ 58 :: r = f ++ (x ++ (s ++ 58 :: r)) := by simp
    unfold localPart dotAtom
    simp only [e, matchParsers, e1, ok_bind, e2, e3, he]
    exact ⟨_, rfl⟩

theorem groupName_mailbox {n r : Bytes} {vs : List Bytes} (h : GroupName c n vs) :
    ∃ e, mailbox c (n ++ 58 :: r) = .err e := by
  obtain ⟨e1, h1⟩ := groupName_addrSpec (r := r) h
  obtain ⟨hne, ⟨p, hn⟩, -⟩ := h
  obtain ⟨e2, h2⟩ := nameAddr_err (g := []) (r := 58 :: r) hn hne optCfws_nil (by simp)
    (stops_cons.mpr (by decide)) (stops_cons.mpr (by decide))
    (cfwsEnd_cons (by decide) (by decide) (by decide))
  simp only [List.nil_append] at h2
  unfold mailbox
  simp only [matchParsers, h1, h2]
  exact ⟨_, rfl⟩

theorem mailbox_none {g r : Bytes} (hg : Gap c g ()) (hr : CfwsEnd g r)
    (ha : Stops (fun b => Spec.atext b || b == 34 || b == 60) r) : ∃ e, mailbox c (g ++ r) = .err e := by
  have h34 : Stops (fun b => Spec.atext b || b == 34) r := stops_mono ha (by simp +contextual)
  obtain ⟨e1, h1⟩ := angleAddr_err hg hr (stops_mono ha (by simp +contextual))
  have h2 : ∃ e, addrSpec c (g ++ r) = .err e := by
    obtain ⟨e3, h3⟩ := dotAtom_err hg hr (stops_mono ha (by simp +contextual))
    have hq : startsWith r (b! "\"") = false := by
      cases r with
      | nil => rfl
      | cons b t =>
        have := stops_cons.mp h34
        simp only [Bool.or_eq_false_iff, beq_eq_false_iff_ne] at this
        simp only [startsWith, List.isPrefixOf, Bool.and_true, beq_eq_false_iff_ne]
        exact fun h => this.2 h.symm
    have : ∃ e, quotedString c (g ++ r) = .err e := by
      unfold quotedString
      simp only [skipCfws_append hg hr, ok_bind, hq]
      exact ⟨_, rfl⟩
    obtain ⟨e4, h4⟩ := this
    unfold addrSpec localPart
    simp only [matchParsers, h3, h4]
    exact ⟨_, rfl⟩
  obtain ⟨e2, h2⟩ := h2
  unfold mailbox nameAddr
  simp only [matchParsers, optional_err (phrase_err hg hr h34), ok_bind, h1, h2]
  exact ⟨_, rfl⟩

theorem groupList_append {w r : Bytes} {ms : List Mailbox} (h : Commas (MailboxL c) w ms) :
    groupList c (w ++ 59 :: r) = .ok (59 :: r, ms) := by
  unfold groupList
  rw [mailboxList_append h (cfwsEnd_cons (by decide) (by decide) (by decide))
    (stops_cons.mpr (by decide))]

theorem groupList_empty {w r : Bytes} (h : Gap c w ()) :
    groupList c (w ++ 59 :: r) = .ok (59 :: r, []) := by
  have hr : CfwsEnd w (59 :: r) := cfwsEnd_cons (by decide) (by decide) (by decide)
  obtain ⟨e, he⟩ := mailbox_none h hr (stops_cons.mpr (by decide))
  have hl : ∃ e, mailboxList c (w ++ 59 :: r) = .err e := by
    unfold mailboxList
    rw [he]
    exact ⟨_, rfl⟩
  obtain ⟨e', he'⟩ := hl
  unfold groupList
  rw [he']
  dsimp only
  obtain ⟨o, ⟨rfl, rfl⟩ | ⟨⟨⟩, rfl, h⟩⟩ := h
  · obtain ⟨e, he⟩ := cfws_none (c := c) (r := 59 :: r) hr.noFws hr.open
    simp only [List.nil_append, he]
  · obtain ⟨v, hv⟩ := cfws_append h hr
    rw [hv]

theorem group_append {n w t r : Bytes} {vs : List Bytes} {ms : List Mailbox} (hn : GroupName c n vs)
    (hw : groupList c (w ++ 59 :: (t ++ r)) = .ok (59 :: (t ++ r), ms)) (ht : Gap c t ())
    (hr : CfwsEnd t r) : group c (n ++ 58 :: (w ++ 59 :: t) ++ r) = .ok (r, (vs, ms)) := by
  obtain ⟨hne, ⟨p, hn⟩, -⟩ := hn
  have e1 := phrase_append (g := []) (r := 58 :: (w ++ 59 :: (t ++ r))) hn hne optCfws_nil (by simp)
    (stops_cons.mpr (by decide)) (cfwsEnd_cons (by decide) (by decide) (by decide))
  have t1 := tag_append (b! ":") (w ++ 59 :: (t ++ r))
    "TAG ERROR: A group display name must be followed by a `:`."
  have t2 := tag_append (b! ";") (t ++ r) "TAG ERROR: A group mailbox list must be closed by a `;`."
  have e3 := skipCfws_append ht hr
  have e : n ++ 58 :: (w ++ 59 :: t) ++ r = n ++ ([] ++ 58 :: (w ++ 59 :: (t ++ r))) := by simp
  simp only [List.cons_append, List.nil_append] at t1 t2 e1 e
  unfold group
  simp only [e, e1, ok_bind, t1, hw, t2, e3]

theorem address_append {w r : Bytes} {a : Address} (h : AddressL c w a) (hr : CfwsEnd w r)
    (ha : Stops (fun b => Spec.atext b || b == 46) r) : address c (w ++ r) = .ok (r, a) := by
  unfold address
  cases h with
  | mailbox h => rw [mailbox_append h hr ha]
  | group hn hm ht =>
    rename_i n vs w ms t
    have hr' : CfwsEnd t r := by
      rw [show n ++ 58 :: (w ++ 59 :: t) = (n ++ 58 :: (w ++ [59])) ++ t by simp] at hr
      exact hr.suffix
    obtain ⟨e, he⟩ := groupName_mailbox (r := (w ++ 59 :: t) ++ r) hn
    have e1 := group_append hn (groupList_append (r := t ++ r) hm) ht hr'
    rw [show n ++ 58 :: (w ++ 59 :: t ++ r) = n ++ 58 :: (w ++ 59 :: t) ++ r by simp] at he
    rw [he]
    dsimp only
    rw [e1]
  | emptyGroup hn hm ht =>
    rename_i n vs w t
    have hr' : CfwsEnd t r := by
      rw [show n ++ 58 :: (w ++ 59 :: t) = (n ++ 58 :: (w ++ [59])) ++ t by simp] at hr
      exact hr.suffix
    obtain ⟨e, he⟩ := groupName_mailbox (r := (w ++ 59 :: t) ++ r) hn
    have e1 := group_append hn (groupList_empty (r := t ++ r) hm) ht hr'
    rw [show n ++ 58 :: (w ++ 59 :: t ++ r) = n ++ 58 :: (w ++ 59 :: t) ++ r by simp] at he
    rw [he]
    dsimp only
    rw [e1]

theorem addressList_append {w r : Bytes} {as : List Address} (h : Commas (AddressL c) w as)
    (hr : CfwsEnd w r) (ha : Stops (fun b => Spec.atext b || b == 46 || b == 44) r) :
    addressList c (w ++ r) = .ok (r, as) := by
  obtain ⟨i, v, vs, rfl, h1, -, h2⟩ := commas_append (p := address c)
    (fun _ _ _ h => address_append h) h hr ha
  unfold addressList many
  simp only [h1, ok_bind, h2 _ (Nat.lt_succ_self _)]

end EmailParser
