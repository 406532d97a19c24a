import Verif.Proofs.ExactWords
/-
Mailboxes, groups and keywords with encoded words are read in the preferred way.
-/
namespace EmailParser
open Spec

variable {α : Type} {c : Cfg}

/-! ### Phrases are read as they are meant -/

theorem optFws_gap {f white : Bytes} (h : OptFws f white) : Gap c f () := by
  obtain ⟨o, -, ⟨rfl, rfl⟩ | ⟨v, rfl, hf⟩⟩ := h
  · exact optCfws_nil
  · exact ⟨some (), .inr ⟨(), rfl, .inr ⟨v, hf⟩⟩⟩

theorem phrases_head {e : Bytes} {p q : Bool} {s : Bytes} {vs : List Bytes} (h : Phrases c e p s vs q) :
    (s = [] ∧ vs = [] ∧ p = q) ∨ ∃ g y t, s = g ++ (y :: t) ∧ Gap c g () ∧ (p = true → g = []) ∧
      (Spec.atext y = true ∨ y = 34) := by
  cases h with
  | nil => exact .inl ⟨rfl, rfl, rfl⟩
  | atom hg hp hne hx ht hts hm hs =>
    rename_i g x t s vs
    cases x with
    | nil => exact absurd rfl hne
    | cons y x => exact .inr ⟨g, y, _, rfl, hg, hp, .inl (hx y (by simp))⟩
  | quoted hg hp hx _ _ =>
    obtain ⟨t, rfl⟩ := quoted_head hx
    exact .inr ⟨_, 34, _, rfl, hg, hp, .inr rfl⟩
  | encoded _ hf hp hw _ =>
    obtain ⟨t, rfl⟩ := encodedWord_head hw
    exact .inr ⟨_, 61, _, rfl, optFws_gap hf, hp, .inl (by decide)⟩

theorem phrases_end {e : Bytes} {q : Bool} {u t s g r : Bytes} {vs : List Bytes} (h : Phrases c e true s vs q)
    (hq : q = true → g = []) (hr : q = true → CfwsEnd (u ++ (t ++ s) ++ g) r) : CfwsEnd t (s ++ (g ++ r)) := by
  rcases phrases_head h with ⟨rfl, -, rfl⟩ | ⟨g', y, t', rfl, -, hp, hy⟩
  · replace hr := hr rfl
    rw [hq rfl] at hr ⊢
    simp only [List.append_nil] at hr
    exact hr.suffix
  · rw [hp rfl]
    obtain ⟨h1, h2, h3, -⟩ := word_start hy
    exact cfwsEnd_cons h1 h2 h3

/-- The first word of a phrase. -/
theorem phraseWord_phrases {p q : Bool} {w g r v : Bytes} {vs : List Bytes} (h : Phrases c (g ++ r) p w (v :: vs) q)
    (hq : q = true → g = []) (hr : q = true → CfwsEnd (w ++ g) r) :
    ∃ s p', phraseWord c (w ++ (g ++ r)) = .ok (s ++ (g ++ r), v) ∧ Phrases c (g ++ r) p' s vs q ∧
      s.length < w.length ∧ s <:+ w := by
  cases h with
  | atom h1 hp hne hx h2 hts hm hs =>
    rename_i g' t s
    have hst : Stops Spec.atext (t ++ (s ++ (g ++ r))) := by
      cases t with
      | nil => exact hts rfl
      | cons b t =>
        obtain ⟨o, ⟨e, -⟩ | ⟨⟨⟩, -, ht⟩⟩ := h2
        · cases e
        · obtain ⟨b', t', e, hb⟩ := cfws_head ht
          cases e
          exact stops_cons.mpr (space_not_atext b hb)
    have hend : CfwsEnd t (s ++ (g ++ r)) := phrases_end (u := g' ++ v) hs hq (by simpa using hr)
    refine ⟨s, true, ?_, hs, ?_, g' ++ (v ++ t), by simp⟩
    · have e : g' ++ (v ++ (t ++ s)) ++ (g ++ r) = g' ++ (v ++ (t ++ (s ++ (g ++ r)))) := by simp
      have hw : word c (g' ++ (v ++ (t ++ (s ++ (g ++ r))))) = .ok (s ++ (g ++ r), v) := by
        rw [word, matchParsers, atom_around h1 hne hx h2 hend hst]
      rw [e, phraseWord_eq]
      split
      · rename_i hmi
        rcases spacedWord_cases (c := c) (g' ++ (v ++ (t ++ (s ++ (g ++ r))))) with
          ⟨f, white, x, r', v', e', hf, hx, -⟩ | ⟨⟨er, h1⟩, -⟩
        · exact absurd ⟨f ++ x, r', v', by rw [e']; simp, f, white, x, rfl, hf, hx⟩ (hm hmi)
        · rw [matchParsers, h1]
          dsimp only
          rw [matchParsers, hw]
      · exact hw
    · have := List.length_pos_iff.mpr hne
      simp only [List.length_append]
      omega
  | quoted h1 hp hx h2 hs =>
    rename_i g' x t s
    have hend : CfwsEnd t (s ++ (g ++ r)) := phrases_end (u := g' ++ x) hs hq (by simpa using hr)
    refine ⟨s, true, ?_, hs, ?_, g' ++ (x ++ t), by simp⟩
    · have e : g' ++ (x ++ (t ++ s)) ++ (g ++ r) = g' ++ (x ++ (t ++ (s ++ (g ++ r)))) := by simp
      have hq := quoted_around h1 hx h2 hend
      obtain ⟨y, rfl⟩ := quoted_head hx
      have hc : CfwsEnd g' (34 :: y ++ (t ++ (s ++ (g ++ r)))) :=
        cfwsEnd_cons (by decide) (by decide) (by decide)
      obtain ⟨e', he⟩ := atom_err (c := c) h1 hc (stops_cons.mpr (by decide))
      rw [e]
      refine (phraseWord_plain h1 hc fun _ hp => ?_).1 _ ?_
      · rw [List.cons_append, List.cons_prefix_cons] at hp
        exact absurd hp.1 (by decide)
      rw [word, matchParsers, he]
      dsimp only
      rw [matchParsers, hq]
    · obtain ⟨y, rfl⟩ := quoted_head hx
      simp only [List.length_append, List.length_cons]
      omega
  | encoded hm hf hp hw hs =>
    rename_i f white x s
    refine ⟨s, false, ?_, hs, ?_, f ++ x, by simp⟩
    · have e : f ++ (x ++ s) ++ (g ++ r) = f ++ (x ++ (s ++ (g ++ r))) := by simp
      rw [phraseWord_eq, if_pos hm, e, matchParsers, spacedWord_append hf hw]
    · obtain ⟨y, rfl⟩ := encodedWord_head hw
      simp only [List.length_append, List.length_cons]
      omega

theorem phraseLoop_phrases {q : Bool} {g r : Bytes} (hg : Gap c g ()) (hq : q = true → g = [])
    (ha : Stops (fun b => Spec.atext b || b == 34) r) :
    ∀ (fuel : Nat) (p : Bool) (w : Bytes) (vs : List Bytes), w.length < fuel → Phrases c (g ++ r) p w vs q →
      CfwsEnd (w ++ g) r → manyLoop (phraseWord c) fuel (w ++ (g ++ r)) = .ok (g ++ r, vs)
  | 0, _, _, _, h, _, _ => by omega
  | fuel + 1, p, w, [], h, hw, hr => by
    cases hw
    exact manyLoop_err (phraseWord_err (g := g) hg hr ha)
  | fuel + 1, p, w, v :: vs, h, hw, hr => by
    obtain ⟨s, p', h1, h2, h3, u, rfl⟩ := phraseWord_phrases hw hq fun _ => hr
    unfold manyLoop
    rw [h1]
    dsimp only
    rw [phraseLoop_phrases hg hq ha fuel p' s vs (by omega) h2 (by rw [List.append_assoc] at hr; exact hr.suffix)]
    rfl

theorem phrase_phrases {q : Bool} {w g r : Bytes} {vs : List Bytes} (h : Phrases c (g ++ r) false w vs q)
    (hne : vs ≠ []) (hg : Gap c g ()) (hq : q = true → g = [])
    (ha : Stops (fun b => Spec.atext b || b == 34) r) (hr : CfwsEnd (w ++ g) r) :
    phrase c (w ++ (g ++ r)) = .ok (g ++ r, vs) := by
  cases vs with
  | nil => exact absurd rfl hne
  | cons v vs =>
    obtain ⟨s, p', h1, h2, h3, u, rfl⟩ := phraseWord_phrases h hq fun _ => hr
    unfold phrase many1
    rw [h1]
    simp only [ok_bind]
    rw [phraseLoop_phrases hg hq ha _ p' s vs (by simp; omega) h2 (by rw [List.append_assoc] at hr; exact hr.suffix)]
    rfl

/-! ### What begins in the grammar is read, whatever follows -/

theorem dotAtomTextLoop_noErr : ∀ {fuel : Nat} {i : Bytes} {e : Error}, dotAtomTextLoop c fuel i ≠ .err e
  | 0, _, _, h => by cases h
  | fuel + 1, i, e, h => by
    unfold dotAtomTextLoop at h
    split at h
    · rcases bind_eq_err.1 h with h1 | ⟨j, h1, h⟩
      · unfold sliceFrom at h1
        split at h1 <;> cases h1
      · split at h
        · rcases bind_eq_err.1 h with h1 | ⟨j, h1, h⟩
          · unfold sliceTo at h1
            split at h1 <;> cases h1
          · rcases bind_eq_err.1 h with h1 | ⟨j, h1, h⟩
            · exact dotAtomTextLoop_noErr h1
            · cases h
        · cases h
        · cases h
    · cases h

theorem skipCfws_noErr {i : Bytes} {e : Error} : skipCfws c i ≠ .err e := by
  intro h
  unfold skipCfws at h
  split at h <;> cases h

theorem dotAtom_prefix {w v r : Bytes} (h : DotAtomOf (CommentN c.stack) c.feat.compatibilityFixes w v)
    (hi : Calm c (w ++ r)) : ∃ x, dotAtom c (w ++ r) = .ok x := by
  rcases hi.parse (dotAtom_parses (c := c)) with ⟨_, r', v', -, -, h'⟩ | ⟨e, he⟩
  · exact ⟨_, h'⟩
  · exfalso
    obtain ⟨w₁, _, _, rfl, h1, w₂, _, v', rfl, hv, w₃, _, _, rfl, h3, rfl, rfl⟩ := h
    have hs : CfwsEnd w₁ (w₂ ++ (w₃ ++ r)) := by
      obtain ⟨b, t, rfl, hb⟩ := dotAtomText_head hv
      obtain ⟨h1, h2, h3⟩ := atext_end b hb
      exact cfwsEnd_cons h1 h2 h3
    have e1 := skipCfws_append (c := c) (r := w₂ ++ (w₃ ++ r)) h1 hs
    unfold dotAtom at he
    simp only [List.append_assoc, List.append_nil, e1, ok_bind] at he
    rcases bind_eq_err.1 he with he | ⟨j, -, he⟩
    · unfold dotAtomText at he
      rcases bind_eq_err.1 he with he | ⟨j, -, he⟩
      · obtain ⟨b, t, rfl, hb⟩ := dotAtomText_head hv
        rcases takeWhile1_cases isAtext (b :: t ++ (w₃ ++ r)) with ⟨hst, -⟩ | ⟨w, r', -, -, -, -, h'⟩
        · rw [isAtext_eq] at hst
          have := stops_cons.mp hst
          rw [hb] at this
          cases this
        · rw [he] at h'
          cases h'
      · rcases bind_eq_err.1 he with he | ⟨j, -, he⟩
        · exact dotAtomTextLoop_noErr he
        · cases he
    · rcases bind_eq_err.1 he with he | ⟨j, -, he⟩
      · exact skipCfws_noErr he
      · cases he

theorem domainLiteral_prefix {w v r : Bytes} (h : DomainLiteralOf (CommentN c.stack) w v) (hi : Calm c (w ++ r)) :
    ∃ x, domainLiteral c (w ++ r) = .ok x := by
  obtain ⟨w₁, _, _, rfl, h1, _, _, _, rfl, rfl, s, _, vs, rfl, hs, f, _, fv, rfl, hf, _, _, _, rfl,
    rfl, w₃, _, _, rfl, h3, rfl, rfl⟩ := h
  have e1 := skipCfws_append (c := c) (r := 91 :: (s ++ (f ++ 93 :: (w₃ ++ r)))) h1
    (cfwsEnd_cons (by decide) (by decide) (by decide))
  have e2 := domainLiteralLoop_append (r := w₃ ++ r) hf ((s ++ (f ++ 93 :: (w₃ ++ r))).length + 1)
    s vs (by simp; omega) hs
  have e3 := optFws_append (r := 93 :: (w₃ ++ r)) hf (noSpace_cons (by decide) (by decide))
  have hi' : Calm c (w₃ ++ r) := hi.infix ⟨w₁ ++ (b! "[" ++ (s ++ (f ++ b! "]"))), [], by simp⟩
  obtain ⟨g, r', -, -, e4⟩ := hi'.skip
  have t1 := tag_append (b! "[") (s ++ (f ++ 93 :: (w₃ ++ r)))
    "TAG ERROR: A domain litteral must be preceded by a `[`."
  have t2 := tag_append (b! "]") (w₃ ++ r)
    "TAG ERROR: A domain litteral must be followed by a `]`."
  unfold domainLiteral
  rw [show w₁ ++ (b! "[" ++ (s ++ (f ++ (b! "]" ++ (w₃ ++ []))))) ++ r =
    w₁ ++ (91 :: (s ++ (f ++ 93 :: (w₃ ++ r)))) by simp]
  simp only [List.cons_append, List.nil_append] at t1 t2
  simp only [e1, ok_bind, t1, e2, e3, t2, e4]
  exact ⟨_, rfl⟩

theorem domain_prefix {w v r : Bytes} (h : DomainOf (CommentN c.stack) c.feat.compatibilityFixes w v)
    (hi : Calm c (w ++ r)) : ∃ x, domain c (w ++ r) = .ok x := by
  unfold domain
  rcases h with h | h
  · obtain ⟨x, hx⟩ := dotAtom_prefix h hi
    exact ⟨x, by rw [matchParsers, hx]⟩
  · obtain ⟨x, hx⟩ := domainLiteral_prefix h hi
    obtain ⟨w₁, _, _, rfl, h1, _, t, _, rfl, rfl, _⟩ := h
    obtain ⟨e, he⟩ := dotAtom_err (c := c) (r := 91 :: (t ++ r)) h1
      (cfwsEnd_cons (by decide) (by decide) (by decide)) (stops_cons.mpr (by decide))
    simp only [List.append_assoc, List.cons_append, List.nil_append] at hx ⊢
    simp only [matchParsers, he, hx]
    exact ⟨_, rfl⟩

theorem addrSpec_prefix {w r : Bytes} {v : EmailAddress}
    (h : AddrSpecOf (CommentN c.stack) c.feat.compatibilityFixes w v) (hi : Calm c (w ++ r)) :
    ∃ x, addrSpec c (w ++ r) = .ok x := by
  obtain ⟨w₁, _, l, rfl, h1, _, _, _, rfl, rfl, w₃, _, d, rfl, h3, rfl, rfl⟩ := h
  have e1 := localPart_append (c := c) (r := 64 :: (w₃ ++ r)) h1
    (cfwsEnd_cons (by decide) (by decide) (by decide)) (stops_cons.mpr (by decide))
  have hi' : Calm c (w₃ ++ r) := hi.infix ⟨w₁ ++ b! "@", [], by simp⟩
  obtain ⟨x, e2⟩ := domain_prefix h3 hi'
  have t1 := tag_append (b! "@") (w₃ ++ r)
    "TAG ERROR: An address local part must be followed by a `@`."
  unfold addrSpec
  simp only [List.append_assoc, List.cons_append, List.nil_append, List.append_nil] at t1 ⊢
  simp only [e1, ok_bind, t1, e2]
  exact ⟨_, rfl⟩

theorem angleAddr_prefix {w r : Bytes} {v : EmailAddress}
    (h : AngleAddrOf (CommentN c.stack) c.feat.compatibilityFixes w v) (hi : Calm c (w ++ r)) :
    ∃ x, angleAddr c (w ++ r) = .ok x := by
  obtain ⟨w₁, _, _, rfl, h1, _, _, _, rfl, rfl, a, _, _, rfl, ha, _, _, _, rfl, rfl, w₃, _, _, rfl, h3,
    rfl, rfl⟩ := h
  have e1 := skipCfws_append (c := c) (r := 60 :: (a ++ (62 :: (w₃ ++ r)))) h1
    (cfwsEnd_cons (by decide) (by decide) (by decide))
  have e2 := addrSpec_append (c := c) (r := 62 :: (w₃ ++ r)) ha
    (cfwsEnd_cons (by decide) (by decide) (by decide)) (stops_cons.mpr (by decide))
  have hi' : Calm c (w₃ ++ r) := hi.infix ⟨w₁ ++ (b! "<" ++ (a ++ b! ">")), [], by simp⟩
  obtain ⟨g, r', -, -, e4⟩ := hi'.skip
  have t1 := tag_append (b! "<") (a ++ (62 :: (w₃ ++ r)))
    "TAG ERROR: A angle_addr must start with a `<`."
  have t2 := tag_append (b! ">") (w₃ ++ r) "TAG ERROR: A angle_addr must end with a `>`."
  unfold angleAddr
  simp only [List.append_assoc, List.cons_append, List.nil_append, List.append_nil] at t1 t2 ⊢
  simp only [e1, ok_bind, t1, e2, t2, e4]
  exact ⟨_, rfl⟩

/-! ### Mailboxes -/

/-- The name before an angle bracket is read. -/
theorem nameAddr_name {a r n : Bytes} {vs : List Bytes} {p : Bool} {v : EmailAddress}
    (hn : Phrases c (a ++ r) false n vs p) (hne : vs ≠ [])
    (hv : AngleAddrOf (CommentN c.stack) c.feat.compatibilityFixes a v) (hp : p = true → ∃ t, a = 60 :: t) :
    phrase c (n ++ a ++ r) = .ok (a ++ r, vs) := by
  obtain ⟨g, t, rfl, hg⟩ := angleAddr_open hv
  have hpg : p = true → g = [] := by
    intro h
    obtain ⟨t', e⟩ := hp h
    exact gap_start hg e (by decide) (by decide) (by decide)
  have e' : g ++ 60 :: t ++ r = g ++ (60 :: (t ++ r)) := by simp
  rw [e'] at hn
  have e2 := phrase_phrases (r := 60 :: (t ++ r)) hn hne hg hpg (stops_cons.mpr (by decide))
    (cfwsEnd_cons (by decide) (by decide) (by decide))
  rw [List.append_assoc, e']
  exact e2

theorem nameAddr_noName {a r : Bytes} {v : EmailAddress}
    (hv : AngleAddrOf (CommentN c.stack) c.feat.compatibilityFixes a v) : ∃ e, phrase c (a ++ r) = .err e := by
  obtain ⟨g, t, rfl, hg⟩ := angleAddr_open hv
  rw [show g ++ 60 :: t ++ r = g ++ (60 :: (t ++ r)) by simp]
  exact phrase_err hg (cfwsEnd_cons (by decide) (by decide) (by decide)) (stops_cons.mpr (by decide))

theorem nameAddr_append {w r : Bytes} {m : Mailbox} (h : NameAddrE c r w m) (hr : CfwsEnd w r) :
    nameAddr c (w ++ r) = .ok (r, m) := by
  unfold nameAddr
  cases h with
  | named hn hne hv hp =>
    rw [optional_ok (nameAddr_name hn hne hv hp)]
    simp only [ok_bind, angleAddr_append hv hr.suffix]
  | angle hv =>
    rw [optional_err (nameAddr_noName hv)]
    simp only [ok_bind, angleAddr_append hv hr]

theorem nameAddr_prefix {i : Bytes} (h : StartsIn (NameAddrE c) i) (hi : Calm c i) : ∃ x, nameAddr c i = .ok x := by
  obtain ⟨w, r, m, rfl, h⟩ := h
  unfold nameAddr
  cases h with
  | named hn hne hv hp =>
    rw [List.append_assoc] at hi
    obtain ⟨x, hx⟩ := angleAddr_prefix hv hi.right
    rw [optional_ok (nameAddr_name hn hne hv hp)]
    simp only [ok_bind, hx]
    exact ⟨_, rfl⟩
  | angle hv =>
    obtain ⟨x, hx⟩ := angleAddr_prefix hv hi
    rw [optional_err (nameAddr_noName hv)]
    simp only [ok_bind, hx]
    exact ⟨_, rfl⟩

theorem angleAddr_sound {i r : Bytes} {v : EmailAddress} (h : angleAddr c i = .ok (r, v)) (hi : Calm c i) :
    ∃ a, i = a ++ r ∧ AngleAddrOf (CommentN c.stack) c.feat.compatibilityFixes a v ∧
      (Settled c i → ∃ t, a = 60 :: t) := by
  have hp := angleAddr_parses (c := c) i
  rw [h] at hp
  obtain ⟨a, ha, hg⟩ := hp
  dsimp only at ha hg
  subst ha
  have hd := angleAddr_depth hg hi.left.fits.depth
  refine ⟨a, rfl, hd, fun hs => ?_⟩
  obtain ⟨g, t, rfl, hgap⟩ := angleAddr_open hd
  unfold angleAddr at h
  obtain ⟨j, h1, h⟩ := bind_eq_ok.1 h
  rw [hs.start h1] at h
  obtain ⟨⟨r', u⟩, h2, h⟩ := bind_eq_ok.1 h
  have := tag_ok_iff.1 h2
  rw [List.append_assoc] at this
  exact ⟨t, by rw [gap_start hgap this (by decide) (by decide) (by decide)]; rfl⟩

theorem nameAddr_sound {i r : Bytes} {m : Mailbox} (h : nameAddr c i = .ok (r, m)) (hi : Calm c i) :
    ∃ w, i = w ++ r ∧ NameAddrE c r w m := by
  unfold nameAddr at h
  obtain ⟨⟨j, o⟩, h1, h⟩ := bind_eq_ok.1 h
  obtain ⟨⟨r', a⟩, h2, h⟩ := bind_eq_ok.1 h
  cases h
  unfold optional at h1
  split at h1
  · rename_i j' vs hph
    cases h1
    obtain ⟨n, q, rfl, hq, hn, hne⟩ := phrase_sound hph hi
    obtain ⟨a', rfl, ha, hs⟩ := angleAddr_sound h2 hi.right
    exact ⟨n ++ a', by simp, .named hn hne ha fun h => hs (hq h)⟩
  · cases h1
    obtain ⟨a', rfl, ha, -⟩ := angleAddr_sound h2 hi
    exact ⟨a', rfl, .angle ha⟩
  · cases h1

theorem nameAddr_parsesOrErr {i : Bytes} (hi : Calm c i) :
    (∃ r m, nameAddr c i = .ok (r, m)) ∨ ∃ e, nameAddr c i = .err e := by
  rcases hi.parse (nameAddr_parses (c := c)) with ⟨_, r', v', -, -, h'⟩ | he
  · exact .inl ⟨_, _, h'⟩
  · exact .inr he

theorem nameAddr_none {i : Bytes} (hi : Calm c i) (h : ¬ StartsIn (NameAddrE c) i) : ∃ e, nameAddr c i = .err e := by
  rcases nameAddr_parsesOrErr hi with ⟨r, m, h'⟩ | he
  · obtain ⟨w, rfl, hw⟩ := nameAddr_sound h' hi
    exact absurd ⟨w, r, m, rfl, hw⟩ h
  · exact he

theorem mailbox_sound {i r : Bytes} {m : Mailbox} (h : mailbox c i = .ok (r, m)) (hi : Calm c i) :
    ∃ w, i = w ++ r ∧ MailboxE c r w m := by
  unfold mailbox at h
  rw [matchParsers] at h
  cases hx : nameAddr c i with
  | abort k => rw [hx] at h; cases h
  | ok a =>
    rw [hx] at h
    cases h
    obtain ⟨w, rfl, hw⟩ := nameAddr_sound hx hi
    exact ⟨w, rfl, .nameAddr hw⟩
  | err e =>
    rw [hx] at h
    simp only [matchParsers] at h
    cases hy : addrSpec c i with
    | abort k => rw [hy] at h; cases h
    | err e => rw [hy] at h; cases h
    | ok a =>
      rw [hy] at h
      cases h
      have hp := addrSpec_parses (c := c) i
      rw [hy] at hp
      obtain ⟨w, hw, hg⟩ := hp
      subst hw
      refine ⟨w, rfl, .addr (addrSpec_depth hg hi.left.fits.depth) fun hs => ?_⟩
      obtain ⟨x, hx'⟩ := nameAddr_prefix hs hi
      rw [hx] at hx'
      cases hx'

theorem mailboxE_append {w r : Bytes} {m : Mailbox} (h : MailboxE c r w m) (hi : Calm c (w ++ r)) (hr : CfwsEnd w r)
    (ha : Stops (fun b => Spec.atext b || b == 46) r) : mailbox c (w ++ r) = .ok (r, m) := by
  unfold mailbox
  cases h with
  | nameAddr h => rw [matchParsers, nameAddr_append h hr]
  | addr h hn =>
    obtain ⟨e, he⟩ := nameAddr_none hi hn
    simp only [matchParsers, he, addrSpec_append h hr ha, ok_bind]

theorem mailbox_prefix {i : Bytes} (h : StartsIn (MailboxE c) i) (hi : Calm c i) : ∃ x, mailbox c i = .ok x := by
  obtain ⟨w, r, m, rfl, h⟩ := h
  unfold mailbox
  cases h with
  | nameAddr h =>
    obtain ⟨x, hx⟩ := nameAddr_prefix ⟨w, r, m, rfl, h⟩ hi
    exact ⟨x, by rw [matchParsers, hx]⟩
  | addr h hn =>
    obtain ⟨e, he⟩ := nameAddr_none hi hn
    obtain ⟨x, hx⟩ := addrSpec_prefix h hi
    simp only [matchParsers, he, hx, ok_bind]
    exact ⟨_, rfl⟩

theorem mailbox_noneE {i : Bytes} (hi : Calm c i) (h : ¬ StartsIn (MailboxE c) i) : ∃ e, mailbox c i = .err e := by
  rcases hi.parse (mailbox_parses (c := c)) with ⟨_, r', v', -, -, h'⟩ | he
  · obtain ⟨w, rfl, hw⟩ := mailbox_sound h' hi
    exact absurd ⟨w, _, _, rfl, hw⟩ h
  · exact he

/-! ### Lists -/

theorem commaLoop_sound {L : Bytes → Bytes → α → Prop} {p : Bytes → Res α}
    (hp : ∀ i r v, Calm c i → p i = .ok (r, v) → ∃ w, i = w ++ r ∧ L r w v) :
    ∀ {fuel : Nat} {i r : Bytes} {vs : List α}, Calm c i →
      manyLoop (fun input => prefixed input p (b! ",")) fuel i = .ok (r, vs) →
      (vs = [] ∧ i = r) ∨ ∃ s, i = 44 :: (s ++ r) ∧ CommasE L r s vs
  | 0, _, _, _, _, h => by cases h
  | fuel + 1, i, r, vs, hi, h => by
    unfold manyLoop at h
    cases hx : prefixed i p (b! ",") with
    | abort k => rw [hx] at h; cases h
    | err e =>
      rw [hx] at h
      cases h
      exact .inl ⟨rfl, rfl⟩
    | ok a =>
      obtain ⟨j, v⟩ := a
      rw [hx] at h
      obtain ⟨⟨r', vs'⟩, h1, h⟩ := bind_eq_ok.1 h
      cases h
      unfold prefixed at hx
      split at hx
      · rename_i hst
        obtain ⟨k, rfl⟩ := startsWith_iff.mp hst
        have hx : p k = .ok (j, v) := by simpa [getUncheckedFrom] using hx
        have hk : Calm c k := hi.right
        obtain ⟨w, rfl, hw⟩ := hp _ _ _ hk hx
        rcases commaLoop_sound hp hk.right h1 with ⟨rfl, rfl⟩ | ⟨s, rfl, hs⟩
        · exact .inr ⟨w, rfl, .one hw⟩
        · exact .inr ⟨w ++ 44 :: s, by simp, .cons hw hs⟩
      · cases hx

/-- A list separated by commas. -/
theorem commas_sound {L : Bytes → Bytes → α → Prop} {p : Bytes → Res α}
    (hp : ∀ i r v, Calm c i → p i = .ok (r, v) → ∃ w, i = w ++ r ∧ L r w v) {i j r : Bytes} {v : α} {vs : List α}
    (hi : Calm c i) (h1 : p i = .ok (j, v)) (h2 : many j (fun input => prefixed input p (b! ",")) = .ok (r, vs)) :
    ∃ w, i = w ++ r ∧ CommasE L r w (v :: vs) := by
  obtain ⟨w, rfl, hw⟩ := hp _ _ _ hi h1
  unfold many at h2
  rcases commaLoop_sound hp hi.right h2 with ⟨rfl, rfl⟩ | ⟨s, rfl, hs⟩
  · exact ⟨w, rfl, .one hw⟩
  · exact ⟨w ++ 44 :: s, by simp, .cons hw hs⟩

theorem commasE_append {L : Bytes → Bytes → α → Prop} {p : Bytes → Res α} {cls : UInt8 → Bool} (h44 : cls 44 = false)
    (hp : ∀ w v r, Calm c (w ++ r) → L r w v → CfwsEnd w r → Stops cls r → p (w ++ r) = .ok (r, v)) {w r : Bytes}
    {vs : List α} (h : CommasE L r w vs) : Calm c (w ++ r) → CfwsEnd w r → Stops (fun b => cls b || b == 44) r →
    ∃ i v vs', vs = v :: vs' ∧ p (w ++ r) = .ok (i, v) ∧ i.length ≤ (w ++ r).length ∧
      ∀ fuel, i.length < fuel → manyLoop (fun input => prefixed input p (b! ",")) fuel i = .ok (r, vs') := by
  induction h with
  | one h =>
    rename_i w v
    intro hi hr ha
    refine ⟨r, v, [], rfl, hp _ _ _ hi h hr (stops_mono ha (by simp +contextual)), by simp,
      fun fuel hf => ?_⟩
    cases fuel with
    | zero => omega
    | succ fuel => exact manyLoop_err (prefixed_err (stops_mono ha (by simp)))
  | cons h _ ih =>
    rename_i w v s vs _
    intro hi hr ha
    have e : w ++ 44 :: s ++ r = w ++ 44 :: (s ++ r) := by simp
    obtain ⟨i, v', vs', rfl, h1, hi', h2⟩ := ih (hi.infix ⟨w ++ [44], [], by simp⟩) (by
      rw [show w ++ 44 :: s = (w ++ [44]) ++ s by simp] at hr
      exact hr.suffix) ha
    refine ⟨44 :: (s ++ r), v, v' :: vs', rfl, ?_, by simp, fun fuel hf => ?_⟩
    · have := hp w v (44 :: (s ++ r)) (e ▸ hi) h (cfwsEnd_cons (by decide) (by decide) (by decide))
        (stops_cons.mpr h44)
      rw [e]
      exact this
    · cases fuel with
      | zero => omega
      | succ fuel =>
        unfold manyLoop
        rw [prefixed_append, h1]
        dsimp only
        rw [h2 fuel (by simp at hf hi'; omega)]
        rfl

theorem mailboxList_sound {i r : Bytes} {ms : List Mailbox} (hi : Calm c i) (h : mailboxList c i = .ok (r, ms)) :
    ∃ w, i = w ++ r ∧ CommasE (MailboxE c) r w ms := by
  unfold mailboxList at h
  obtain ⟨⟨j, v⟩, h1, h⟩ := bind_eq_ok.1 h
  obtain ⟨⟨r', vs⟩, h2, h⟩ := bind_eq_ok.1 h
  cases h
  exact commas_sound (fun i r v hi h => mailbox_sound h hi) hi h1 h2

theorem mailboxListE_append {w r : Bytes} {ms : List Mailbox} (h : CommasE (MailboxE c) r w ms) (hi : Calm c (w ++ r))
    (hr : CfwsEnd w r) (ha : Stops (fun b => Spec.atext b || b == 46 || b == 44) r) :
    mailboxList c (w ++ r) = .ok (r, ms) := by
  obtain ⟨i, v, vs, rfl, h1, -, h2⟩ := commasE_append (p := mailbox c) (by decide)
    (fun _ _ _ hi h => mailboxE_append h hi) h hi hr ha
  unfold mailboxList many
  simp only [h1, ok_bind, h2 _ (Nat.lt_succ_self _)]

/-! ### Groups -/

theorem groupList_sound {i r : Bytes} {ms : List Mailbox} (hi : Calm c i) (h : groupList c i = .ok (r, ms)) :
    ∃ w, i = w ++ r ∧ MembersE c r w ms := by
  unfold groupList at h
  split at h
  · rename_i hl
    cases h
    obtain ⟨w, rfl, hw⟩ := mailboxList_sound hi hl
    exact ⟨w, rfl, .list hw⟩
  · split at h
    · rename_i hc
      cases h
      have hp := cfws_parses (c := c) i
      rw [hc] at hp
      obtain ⟨w, hw, hg⟩ := hp
      dsimp only at hw hg
      subst hw
      obtain ⟨⟨⟩, hg⟩ := hg
      exact ⟨w, rfl, .none (gap_of_count ⟨some (), .inr ⟨(), rfl, hg⟩⟩ hi.left.fits.depth)⟩
    · cases h
      exact ⟨[], rfl, .none optCfws_nil⟩
    · cases h
  · cases h

theorem membersE_append {w r : Bytes} {ms : List Mailbox} (h : MembersE c (59 :: r) w ms) (hi : Calm c (w ++ 59 :: r)) :
    groupList c (w ++ 59 :: r) = .ok (59 :: r, ms) := by
  cases h with
  | list h =>
    unfold groupList
    rw [mailboxListE_append h hi (cfwsEnd_cons (by decide) (by decide) (by decide)) (stops_cons.mpr (by decide))]
  | none h => exact groupList_empty h

theorem address_sound {i r : Bytes} {a : Address} (hi : Calm c i) (h : address c i = .ok (r, a)) :
    ∃ w, i = w ++ r ∧ AddressE c r w a := by
  unfold address at h
  cases hx : mailbox c i with
  | abort k => rw [hx] at h; cases h
  | ok a =>
    rw [hx] at h
    cases h
    obtain ⟨w, rfl, hw⟩ := mailbox_sound hx hi
    exact ⟨w, rfl, .mailbox hw⟩
  | err e =>
    rw [hx] at h
    dsimp only at h
    split at h
    · rename_i r' name members hg
      cases h
      unfold group at hg
      obtain ⟨⟨j, vs⟩, h1, hg⟩ := bind_eq_ok.1 hg
      obtain ⟨⟨k, u⟩, h2, hg⟩ := bind_eq_ok.1 hg
      obtain ⟨⟨l, ms⟩, h3, hg⟩ := bind_eq_ok.1 hg
      obtain ⟨⟨m, u'⟩, h4, hg⟩ := bind_eq_ok.1 hg
      obtain ⟨r', h5, hg⟩ := bind_eq_ok.1 hg
      cases hg
      obtain ⟨n, q, rfl, -, hn, hne⟩ := phrase_sound h1 hi
      obtain rfl := tag_ok_iff.1 h2
      have hk : Calm c k := hi.right.right
      obtain ⟨w, rfl, hw⟩ := groupList_sound hk h3
      obtain rfl := tag_ok_iff.1 h4
      have hm : Calm c m := hk.right.right
      obtain ⟨t, r', rfl, ht, h5'⟩ := hm.skip
      rw [h5] at h5'
      cases h5'
      refine ⟨n ++ 58 :: (w ++ 59 :: t), by simp, .group hn hne hw ht fun hs => ?_⟩
      obtain ⟨x, hx'⟩ := mailbox_prefix hs hi
      rw [show (n ++ (b! ":" ++ (w ++ (b! ";" ++ (t ++ r))))) = n ++ 58 :: (w ++ 59 :: (t ++ r)) from rfl] at hx
      rw [hx] at hx'
      cases hx'
    · cases h
    · cases h

theorem addressE_append {w r : Bytes} {a : Address} (h : AddressE c r w a) (hi : Calm c (w ++ r)) (hr : CfwsEnd w r)
    (ha : Stops (fun b => Spec.atext b || b == 46) r) : address c (w ++ r) = .ok (r, a) := by
  unfold address
  cases h with
  | mailbox h => rw [mailboxE_append h hi hr ha]
  | group hn hne hw ht hm =>
    rename_i n vs p w ms t
    have hr' : CfwsEnd t r := by
      rw [show n ++ 58 :: (w ++ 59 :: t) = (n ++ 58 :: (w ++ [59])) ++ t by simp] at hr
      exact hr.suffix
    have e : n ++ 58 :: (w ++ 59 :: t) ++ r = n ++ ([] ++ 58 :: (w ++ 59 :: (t ++ r))) := by simp
    rw [e] at hi ⊢
    obtain ⟨er, he⟩ := mailbox_noneE hi hm
    have e1 := phrase_phrases (g := []) (r := 58 :: (w ++ 59 :: (t ++ r))) hn hne optCfws_nil (by simp)
      (stops_cons.mpr (by decide)) (cfwsEnd_cons (by decide) (by decide) (by decide))
    have t1 := tag_append (b! ":") (w ++ 59 :: (t ++ r))
      "TAG ERROR: A group display name must be followed by a `:`."
    have hi' : Calm c (w ++ 59 :: (t ++ r)) := hi.infix ⟨n ++ [58], [], by simp⟩
    have e2 := membersE_append hw hi'
    have t2 := tag_append (b! ";") (t ++ r) "TAG ERROR: A group mailbox list must be closed by a `;`."
    have e3 := skipCfws_append ht hr'
    simp only [List.cons_append, List.nil_append] at t1 t2 e1 he ⊢
    rw [he]
    dsimp only
    unfold group
    simp only [e1, ok_bind, t1, e2, t2, e3]

theorem addressList_sound {i r : Bytes} {as : List Address} (hi : Calm c i) (h : addressList c i = .ok (r, as)) :
    ∃ w, i = w ++ r ∧ CommasE (AddressE c) r w as := by
  unfold addressList at h
  obtain ⟨⟨j, v⟩, h1, h⟩ := bind_eq_ok.1 h
  obtain ⟨⟨r', vs⟩, h2, h⟩ := bind_eq_ok.1 h
  cases h
  exact commas_sound (fun i r v hi h => address_sound hi h) hi h1 h2

theorem addressListE_append {w r : Bytes} {as : List Address} (h : CommasE (AddressE c) r w as) (hi : Calm c (w ++ r))
    (hr : CfwsEnd w r) (ha : Stops (fun b => Spec.atext b || b == 46 || b == 44) r) :
    addressList c (w ++ r) = .ok (r, as) := by
  obtain ⟨i, v, vs, rfl, h1, -, h2⟩ := commasE_append (p := address c) (by decide)
    (fun _ _ _ hi h => addressE_append h hi) h hi hr ha
  unfold addressList many
  simp only [h1, ok_bind, h2 _ (Nat.lt_succ_self _)]

/-! ### Keywords and blind copies -/

theorem keywordE_append {w r : Bytes} {vs : List Bytes} (h : KeywordE c r w vs) (hr : CfwsEnd w r)
    (ha : Stops (fun b => Spec.atext b || b == 34) r) : phrase c (w ++ r) = .ok (r, vs) := by
  obtain ⟨hne, q, h⟩ := h
  exact phrase_phrases (g := []) h hne optCfws_nil (fun _ => rfl) ha (by simpa using hr)

theorem keywordList_sound {i r : Bytes} {vs : List (List Bytes)} (hi : Calm c i) (h : keywordList c i = .ok (r, vs)) :
    ∃ w, i = w ++ r ∧ CommasE (KeywordE c) r w vs := by
  unfold keywordList at h
  obtain ⟨⟨j, v⟩, h1, h⟩ := bind_eq_ok.1 h
  obtain ⟨⟨r', vs⟩, h2, h⟩ := bind_eq_ok.1 h
  cases h
  refine commas_sound (fun i r v hi h => ?_) hi h1 h2
  obtain ⟨w, q, e, -, hw, hne⟩ := phrase_sound h hi
  exact ⟨w, e, hne, q, hw⟩

theorem keywordListE_append {w r : Bytes} {vs : List (List Bytes)} (h : CommasE (KeywordE c) r w vs)
    (hi : Calm c (w ++ r)) (hr : CfwsEnd w r) (ha : Stops (fun b => Spec.atext b || b == 34 || b == 44) r) :
    keywordList c (w ++ r) = .ok (r, vs) := by
  obtain ⟨i, v, vs, rfl, h1, -, h2⟩ := commasE_append (p := phrase c) (cls := fun b => Spec.atext b || b == 34)
    (by decide) (fun _ _ _ _ h hr ha => keywordE_append h hr ha) h hi hr ha
  unfold keywordList many
  simp only [h1, ok_bind, h2 _ (Nat.lt_succ_self _)]

theorem bccValue_sound {i r : Bytes} {v : List Address} (hi : Calm c i) (h : bccValue c i = .ok (r, v)) :
    ∃ w, i = w ++ r ∧ (CommasE (AddressE c) r w v ∨ (v = [] ∧ w ≠ [] ∧ Gap c w ())) := by
  unfold bccValue at h
  split at h
  · rename_i hl
    cases h
    obtain ⟨w, e, hw⟩ := addressList_sound hi hl
    exact ⟨w, e, .inl hw⟩
  · split at h
    · rename_i hc
      cases h
      have hp := cfws_parses (c := c) i
      rw [hc] at hp
      obtain ⟨w, hw, hg⟩ := hp
      dsimp only at hw hg
      subst hw
      obtain ⟨⟨⟩, hg⟩ := hg
      refine ⟨w, rfl, .inr ⟨rfl, fun h => ?_, gap_of_count ⟨some (), .inr ⟨(), rfl, hg⟩⟩ hi.left.fits.depth⟩⟩
      subst h
      exact cfws_ne_nil (K := Comment) (fun v hv => comment_progress _ _ hv |> fun h => by simp at h) hg
    · cases h
    · cases h
  · cases h

theorem bccValueE_append {w r : Bytes} {v : List Address} (hi : Calm c (w ++ (CRLF ++ r))) (hs : Solid w)
    (hr : Stops Spec.wsp r) (h : CommasE (AddressE c) (CRLF ++ r) w v ∨ (v = [] ∧ w ≠ [] ∧ Gap c w ())) :
    bccValue c (w ++ (CRLF ++ r)) = .ok (CRLF ++ r, v) := by
  rcases h with h | h
  · unfold bccValue
    rw [addressListE_append h hi (solid_end hs hr) (crlf_stops (by decide))]
  · exact bcc_value ⟨.inr h, hs⟩ hr

/-! ### Keywords end with a word -/

/-- The text read does not end with white space before the end of a line. -/
def WordEnd (u r : Bytes) : Prop := u ≠ [] ∧ (SolidEnd u ∨ End u r)

instance : Suffix WordEnd := ⟨fun _ _ _ h => ⟨by simp [h.1], h.2.imp (fun h' => h'.ext h.1) fun h' s e =>
  (h' s e).imp (fun h' => ⟨h'.1, h'.2.ext h.1⟩) FoldEnd.ext⟩⟩

theorem On.wordEnd {i : Bytes} {x : Res α} (h : On Cls i x) : On WordEnd i x := fun r v e =>
  let ⟨u, hu, hc⟩ := h r v e
  ⟨u, hu, hc.1, .inr hc.2⟩

theorem encodedWord_end {i : Bytes} : On WordEnd i (encodedWord c i) := by
  intro r v h
  have hp := encodedWord_parses (A := .none) (c := c) i
  rw [h] at hp
  obtain ⟨w, hw, hg⟩ := hp
  refine ⟨w, hw, ?_⟩
  obtain ⟨_, _, _, _, _, rfl, -⟩ := hg
  refine ⟨by simp, .inl ?_⟩
  intro y b e
  rw [show (b! "?=") = [63] ++ [61] from rfl, ← List.append_assoc] at e
  have := List.append_inj_right' e rfl
  simp only [List.cons.injEq, and_true] at this
  rw [← this]
  decide

theorem phraseWord_end {i : Bytes} : On WordEnd i (phraseWord c i) := by
  unfold phraseWord
  split
  · refine matchParsers_on fun p hp => ?_
    simp only [List.mem_cons, List.not_mem_nil, or_false] at hp
    rcases hp with rfl | rfl
    · refine .bind (.of_psat (A := .none) (optional_parses (fws_parses (A := .none)) i)) fun r v => encodedWord_end
    · exact word_on.wordEnd
  · exact word_on.wordEnd

theorem phrase_end {i : Bytes} : On WordEnd i (phrase c i) := many1_on fun _ => phraseWord_end

theorem keywordList_end {i : Bytes} : On WordEnd i (keywordList c i) :=
  .thenMany phrase_end (fun _ => prefixed_on fun _ => phrase_end) fun _ _ => ⟨_, _, rfl⟩

/-! ### Lines -/

theorem folding_line {x w : Bytes} (h : Folding x w) : NoWhiteLine (w ++ CRLF) := by
  intro y ws z e hw
  obtain ⟨s, h1, h2⟩ : ∃ s, w = y ++ 13 :: 10 :: s ∧ s ++ CRLF = ws ++ 13 :: 10 :: z := by
    have e' : w ++ CRLF = (y ++ [13, 10]) ++ (ws ++ 13 :: 10 :: z) := by rw [e]; simp
    rcases List.append_eq_append_iff.1 e' with ⟨s, h1, h2⟩ | ⟨s, h1, h2⟩
    · have hs : s = [] := by
        have := congrArg List.length h2
        simp [CRLF] at this
        exact List.length_eq_zero_iff.1 (by omega)
      subst hs
      exact ⟨[], by simpa using h1.symm, by simpa using h2⟩
    · exact ⟨s, by rw [h1]; simp, h2.symm⟩
  obtain ⟨ws', b, z', rfl, -, hw', hb⟩ := folding_break h y s h1
  have hb' := vchar_noWsp b hb
  have := wsp_run_unique (b := b) (b' := 13) (z := z' ++ CRLF) (z' := 10 :: z) hw' hw hb' (by decide) (by simpa using h2)
  subst this
  exact absurd hb (by decide)

theorem line_calm {x w : Bytes} (hf : Fits c w) (h : Folding x w) : Calm c (w ++ CRLF) := by
  refine ⟨⟨?_, ?_⟩, folding_line h⟩
  · have := hf.depth
    simpa [List.count_append, CRLF] using this
  · have := hf.stars
    simpa [List.count_append, CRLF] using this

/-- The parser of a header does with a line what the parser of the value does with the text. -/
theorem headerLine_iff {name s r n1 n2 : Bytes} {e1 e2 : String} {p : Bytes → Res α} {v : α}
    (hn : (name ++ b! ":").map asciiLower = n1.map asciiLower) (h2 : n2 = n1.map swapCase) :
    headerLine n1 n2 e1 e2 p (name ++ b! ":" ++ s) = .ok (r, v) ↔ p s = .ok (CRLF ++ r, v) := by
  unfold headerLine
  rw [h2, tagNoCase_append _ _ hn, ok_bind]
  constructor
  · intro h
    obtain ⟨⟨i, v'⟩, h1, h⟩ := bind_eq_ok.1 h
    obtain ⟨⟨i', _⟩, h2, h⟩ := bind_eq_ok.1 h
    cases h
    rw [tag_ok_iff] at h2
    rw [h1, h2]
  · intro h
    dsimp only
    rw [h, ok_bind]
    dsimp only
    rw [show (b! "\r\n") = CRLF from rfl, tag_append]
    rfl

theorem field_iff {name s r n n1 n2 : Bytes} {e1 e2 : String} {p : Bytes → Res α} {K : α → Field} {v : α}
    (hmem : (n, mapValue K (headerLine n1 n2 e1 e2 p)) ∈ headerTable c) (hn : name.map asciiLower = n)
    (h1 : n1.map asciiLower = n ++ b! ":") (h2 : n2 = n1.map swapCase) (hK : ∀ a b, K a = K b → a = b)
    (hu : ∀ a n x, K a ≠ .unknown n x) :
    field c (name ++ b! ":" ++ s) = .ok (r, K v) ↔ p s = .ok (CRLF ++ r, v) := by
  rw [← headerLine_iff (n1 := n1) (n2 := n2) (e1 := e1) (e2 := e2) (by rw [List.map_append, hn, h1]; rfl) h2]
  have hf := field_named (c := c) (i := name ++ b! ":" ++ s) hmem
    (by rw [List.map_append, List.map_append, hn]; exact List.prefix_append _ _)
  rw [hf]
  simp only [matchParsers]
  unfold mapValue
  cases hx : headerLine n1 n2 e1 e2 p (name ++ b! ":" ++ s) with
  | abort k => simp
  | ok a =>
    obtain ⟨r', v'⟩ := a
    simp only [ok_bind, Outcome.ok.injEq, Prod.mk.injEq]
    exact ⟨fun h => ⟨h.1, hK _ _ h.2⟩, fun h => ⟨h.1, by rw [h.2]⟩⟩
  | err e =>
    simp only [err_bind]
    refine ⟨fun h => ?_, nofun⟩
    cases hy : unknownField c (name ++ b! ":" ++ s) with
    | abort k => rw [hy] at h; cases h
    | err e => rw [hy] at h; cases h
    | ok a =>
      obtain ⟨r', f⟩ := a
      obtain ⟨_, _, rfl, -⟩ := unknownField_shape hy
      rw [hy] at h
      simp only [Outcome.ok.injEq, Prod.mk.injEq] at h
      exact absurd h.2.symm (hu _ _ _)

theorem phraseValue_kind {e w : Bytes} {f : Field} (h : PhraseValue c e w f) : ∃ n ∈ phraseHeaders, headerOf f = some n := by
  cases f <;> first | exact h.elim | exact ⟨_, by decide, rfl⟩

theorem phraseHeaders_recognized {n : Bytes} (hr : Recognized c.feat n) :
    (n = b! "from" → c.feat.from = true) ∧ (n = b! "sender" → c.feat.sender = true) ∧
    (n = b! "reply-to" → c.feat.replyTo = true) ∧ (n = b! "to" → c.feat.to = true) ∧
    (n = b! "cc" → c.feat.cc = true) ∧ (n = b! "bcc" → c.feat.bcc = true) ∧
    (n = b! "keywords" → c.feat.keywords = true) := by
  simp only [Recognized, List.mem_cons, List.not_mem_nil, or_false] at hr
  rcases hr with ⟨h, rfl⟩ | ⟨h, rfl⟩ | ⟨h, rfl⟩ | ⟨h, rfl⟩ | ⟨h, rfl⟩ | ⟨h, rfl⟩ | ⟨h, rfl⟩ | ⟨h, rfl⟩ | ⟨h, rfl⟩ |
    ⟨h, rfl⟩ | ⟨h, rfl⟩ | ⟨h, rfl⟩ | ⟨h, rfl⟩ | ⟨h, rfl | rfl | rfl | rfl | rfl | rfl⟩ <;> simp [h]

theorem field_from (hc : c.feat.from = true) {name s r : Bytes} (hn : name.map asciiLower = b! "from") {v} :
    field c (name ++ b! ":" ++ s) = .ok (r, .from v) ↔ mailboxList c s = .ok (CRLF ++ r, v) :=
  field_iff (K := .from) (n := b! "from") (show (_, mapValue .from (fromField c)) ∈ headerTable c by simp [headerTable, enabled, hc])
    hn (by decide +kernel)
    (by decide +kernel) (fun _ _ h => by cases h; rfl) (fun _ _ _ h => by cases h)

theorem field_sender (hc : c.feat.sender = true) {name s r : Bytes} (hn : name.map asciiLower = b! "sender") {v} :
    field c (name ++ b! ":" ++ s) = .ok (r, .sender v) ↔ mailbox c s = .ok (CRLF ++ r, v) :=
  field_iff (K := .sender) (n := b! "sender") (show (_, mapValue .sender (senderField c)) ∈ headerTable c by simp [headerTable, enabled, hc])
    hn (by decide +kernel)
    (by decide +kernel) (fun _ _ h => by cases h; rfl) (fun _ _ _ h => by cases h)

theorem field_replyTo (hc : c.feat.replyTo = true) {name s r : Bytes} (hn : name.map asciiLower = b! "reply-to") {v} :
    field c (name ++ b! ":" ++ s) = .ok (r, .replyTo v) ↔ addressList c s = .ok (CRLF ++ r, v) :=
  field_iff (K := .replyTo) (n := b! "reply-to") (show (_, mapValue .replyTo (replyToField c)) ∈ headerTable c by simp [headerTable, enabled, hc])
    hn (by decide +kernel)
    (by decide +kernel) (fun _ _ h => by cases h; rfl) (fun _ _ _ h => by cases h)

theorem field_to (hc : c.feat.to = true) {name s r : Bytes} (hn : name.map asciiLower = b! "to") {v} :
    field c (name ++ b! ":" ++ s) = .ok (r, .to v) ↔ addressList c s = .ok (CRLF ++ r, v) :=
  field_iff (K := .to) (n := b! "to") (show (_, mapValue .to (toField c)) ∈ headerTable c by simp [headerTable, enabled, hc])
    hn (by decide +kernel)
    (by decide +kernel) (fun _ _ h => by cases h; rfl) (fun _ _ _ h => by cases h)

theorem field_cc (hc : c.feat.cc = true) {name s r : Bytes} (hn : name.map asciiLower = b! "cc") {v} :
    field c (name ++ b! ":" ++ s) = .ok (r, .cc v) ↔ addressList c s = .ok (CRLF ++ r, v) :=
  field_iff (K := .cc) (n := b! "cc") (show (_, mapValue .cc (ccField c)) ∈ headerTable c by simp [headerTable, enabled, hc])
    hn (by decide +kernel)
    (by decide +kernel) (fun _ _ h => by cases h; rfl) (fun _ _ _ h => by cases h)

theorem field_bcc (hc : c.feat.bcc = true) {name s r : Bytes} (hn : name.map asciiLower = b! "bcc") {v} :
    field c (name ++ b! ":" ++ s) = .ok (r, .bcc v) ↔ bccValue c s = .ok (CRLF ++ r, v) :=
  field_iff (K := .bcc) (n := b! "bcc") (show (_, mapValue .bcc (bccField c)) ∈ headerTable c by simp [headerTable, enabled, hc])
    hn (by decide +kernel)
    (by decide +kernel) (fun _ _ h => by cases h; rfl) (fun _ _ _ h => by cases h)

theorem field_keywords (hc : c.feat.keywords = true) {name s r : Bytes} (hn : name.map asciiLower = b! "keywords") {v} :
    field c (name ++ b! ":" ++ s) = .ok (r, .keywords v) ↔ keywordList c s = .ok (CRLF ++ r, v) :=
  field_iff (K := .keywords) (n := b! "keywords") (show (_, mapValue .keywords (keywordsField c)) ∈ headerTable c by simp [headerTable, enabled, hc])
    hn (by decide +kernel)
    (by decide +kernel) (fun _ _ h => by cases h; rfl) (fun _ _ _ h => by cases h)

/-- What is read is a value before the rest. -/
theorem phraseField_sound {name i r : Bytes} {f : Field} (hn : name.map asciiLower ∈ phraseHeaders)
    (hr : Recognized c.feat (name.map asciiLower)) (ho : headerOf f = some (name.map asciiLower)) (hi : Calm c i)
    (h : field c (name ++ b! ":" ++ i) = .ok (r, f)) : ∃ w, i = w ++ (CRLF ++ r) ∧ PhraseValue c (CRLF ++ r) w f := by
  obtain ⟨r1, r2, r3, r4, r5, r6, r7⟩ := phraseHeaders_recognized hr
  cases f with
  | «from» v =>
    have hn' := (Option.some.inj ho).symm
    exact mailboxList_sound hi ((field_from (r1 hn') hn').mp h)
  | sender v =>
    have hn' := (Option.some.inj ho).symm
    exact mailbox_sound ((field_sender (r2 hn') hn').mp h) hi
  | replyTo v =>
    have hn' := (Option.some.inj ho).symm
    exact addressList_sound hi ((field_replyTo (r3 hn') hn').mp h)
  | to v =>
    have hn' := (Option.some.inj ho).symm
    exact addressList_sound hi ((field_to (r4 hn') hn').mp h)
  | cc v =>
    have hn' := (Option.some.inj ho).symm
    exact addressList_sound hi ((field_cc (r5 hn') hn').mp h)
  | bcc v =>
    have hn' := (Option.some.inj ho).symm
    exact bccValue_sound hi ((field_bcc (r6 hn') hn').mp h)
  | keywords v =>
    have hn' := (Option.some.inj ho).symm
    exact keywordList_sound hi ((field_keywords (r7 hn') hn').mp h)
  | trace => cases ho
  | unknown => cases ho
  | _ => rw [← Option.some.inj ho] at hn; exact absurd hn (by decide)

/-- A value that ends with the line is read. -/
theorem phraseField_complete {name w r : Bytes} {f : Field} (hr : Recognized c.feat (name.map asciiLower))
    (ho : headerOf f = some (name.map asciiLower)) (hi : Calm c (w ++ (CRLF ++ r))) (hs : Solid w) (ht : Stops Spec.wsp r)
    (h : PhraseValue c (CRLF ++ r) w f) : field c (name ++ b! ":" ++ (w ++ (CRLF ++ r))) = .ok (r, f) := by
  obtain ⟨r1, r2, r3, r4, r5, r6, r7⟩ := phraseHeaders_recognized hr
  have he := solid_end hs ht
  cases f with
  | «from» v =>
    have hn' := (Option.some.inj ho).symm
    exact (field_from (r1 hn') hn').mpr (mailboxListE_append h hi he (crlf_stops (by decide)))
  | sender v =>
    have hn' := (Option.some.inj ho).symm
    exact (field_sender (r2 hn') hn').mpr (mailboxE_append h hi he (crlf_stops (by decide)))
  | replyTo v =>
    have hn' := (Option.some.inj ho).symm
    exact (field_replyTo (r3 hn') hn').mpr (addressListE_append h hi he (crlf_stops (by decide)))
  | to v =>
    have hn' := (Option.some.inj ho).symm
    exact (field_to (r4 hn') hn').mpr (addressListE_append h hi he (crlf_stops (by decide)))
  | cc v =>
    have hn' := (Option.some.inj ho).symm
    exact (field_cc (r5 hn') hn').mpr (addressListE_append h hi he (crlf_stops (by decide)))
  | bcc v =>
    have hn' := (Option.some.inj ho).symm
    exact (field_bcc (r6 hn') hn').mpr (bccValueE_append hi hs ht h)
  | keywords v =>
    have hn' := (Option.some.inj ho).symm
    exact (field_keywords (r7 hn') hn').mpr (keywordListE_append h hi he (crlf_stops (by decide)))
  | _ => exact h.elim

end EmailParser
