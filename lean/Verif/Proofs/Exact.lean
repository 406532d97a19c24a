import Verif.Proofs.Complete.Fields
import Verif.Spec.Exact
/-
Every text of the grammar of RFC 5322 without white lines is laid out in the way the readers expect, after moving
white space and joining adjacent atoms.
-/
namespace EmailParser
open Spec

variable {α : Type} {c : Cfg}

/-! ### Comments no deeper than the stack allows -/

section Depth
variable {w : Bytes} {lax : Bool}

theorem dotAtom_depth {v : Bytes} (h : DotAtom lax w v) (hn : w.count 40 ≤ c.stack) :
    DotAtomOf (CommentN c.stack) lax w v := by
  obtain ⟨g, _, _, rfl, hg, x, _, v, rfl, hx, t, _, _, rfl, ht, rfl, rfl⟩ := h
  simp only [List.count_append] at hn
  exact ⟨g, _, _, rfl, gap_of_count hg (by omega), x, _, v, rfl, hx, t, _, _, rfl, gap_of_count ht (by omega), rfl, rfl⟩

theorem atom_depth {v : Bytes} (h : Atom w v) (hn : w.count 40 ≤ c.stack) :
    AtomOf (CommentN c.stack) w v := by
  obtain ⟨g, _, _, rfl, hg, x, _, v, rfl, hx, t, _, _, rfl, ht, rfl, rfl⟩ := h
  simp only [List.count_append] at hn
  exact ⟨g, _, _, rfl, gap_of_count hg (by omega), x, _, v, rfl, hx, t, _, _, rfl, gap_of_count ht (by omega), rfl, rfl⟩

theorem quotedString_depth {v : Bytes} (h : QuotedString w v) (hn : w.count 40 ≤ c.stack) :
    QuotedStringOf (CommentN c.stack) w v := by
  obtain ⟨g, _, _, rfl, hg, _, _, _, rfl, rfl, s, _, vs, rfl, hs, f, _, fv, rfl, hf, _, _, _, rfl, rfl, t, _, _, rfl, ht, rfl, rfl⟩ := h
  simp only [List.count_append] at hn
  exact ⟨g, _, _, rfl, gap_of_count hg (by omega), _, _, (), rfl, rfl, s, _, vs, rfl, hs, f, _, fv, rfl, hf, _, _, (), rfl, rfl,
    t, _, _, rfl, gap_of_count ht (by omega), rfl, rfl⟩

theorem word_depth {v : Bytes} (h : Word w v) (hn : w.count 40 ≤ c.stack) : WordOf (CommentN c.stack) w v :=
  h.imp (atom_depth · hn) (quotedString_depth · hn)

theorem domainLiteral_depth {v : Bytes} (h : DomainLiteral w v) (hn : w.count 40 ≤ c.stack) :
    DomainLiteralOf (CommentN c.stack) w v := by
  obtain ⟨g, _, _, rfl, hg, _, _, _, rfl, rfl, s, _, vs, rfl, hs, f, _, fv, rfl, hf, _, _, _, rfl, rfl, t, _, _, rfl, ht, rfl, rfl⟩ := h
  simp only [List.count_append] at hn
  exact ⟨g, _, _, rfl, gap_of_count hg (by omega), _, _, (), rfl, rfl, s, _, vs, rfl, hs, f, _, fv, rfl, hf, _, _, (), rfl, rfl,
    t, _, _, rfl, gap_of_count ht (by omega), rfl, rfl⟩

theorem localPart_depth {v : Bytes} (h : LocalPart lax w v) (hn : w.count 40 ≤ c.stack) :
    LocalPartOf (CommentN c.stack) lax w v :=
  h.imp (dotAtom_depth · hn) (quotedString_depth · hn)

theorem domain_depth {v : Bytes} (h : Domain lax w v) (hn : w.count 40 ≤ c.stack) :
    DomainOf (CommentN c.stack) lax w v :=
  h.imp (dotAtom_depth · hn) (domainLiteral_depth · hn)

theorem addrSpec_depth {v : EmailAddress} (h : AddrSpec lax w v) (hn : w.count 40 ≤ c.stack) :
    AddrSpecOf (CommentN c.stack) lax w v := by
  obtain ⟨l, _, lv, rfl, hl, _, _, _, rfl, rfl, d, _, dv, rfl, hd, rfl, rfl⟩ := h
  simp only [List.count_append] at hn
  exact ⟨l, _, lv, rfl, localPart_depth hl (by omega), _, _, (), rfl, rfl, d, _, dv, rfl, domain_depth hd (by omega), rfl, rfl⟩

theorem angleAddr_depth {v : EmailAddress} (h : AngleAddr lax w v) (hn : w.count 40 ≤ c.stack) :
    AngleAddrOf (CommentN c.stack) lax w v := by
  obtain ⟨g, _, _, rfl, hg, _, _, _, rfl, rfl, a, _, v, rfl, ha, _, _, _, rfl, rfl, t, _, _, rfl, ht, rfl, rfl⟩ := h
  simp only [List.count_append] at hn
  exact ⟨g, _, _, rfl, gap_of_count hg (by omega), _, _, (), rfl, rfl, a, _, v, rfl, addrSpec_depth ha (by omega),
    _, _, (), rfl, rfl, t, _, _, rfl, gap_of_count ht (by omega), rfl, rfl⟩

theorem messageId_depth {v : Bytes × Bytes} (h : MessageId lax w v) (hn : w.count 40 ≤ c.stack) :
    MessageIdOf (CommentN c.stack) lax w v := by
  obtain ⟨g, _, _, rfl, hg, _, _, _, rfl, rfl, a, _, l, rfl, ha, _, _, _, rfl, rfl, b, _, r, rfl, hb, _, _, _, rfl, rfl,
    t, _, _, rfl, ht, rfl, rfl⟩ := h
  simp only [List.count_append] at hn
  exact ⟨g, _, _, rfl, gap_of_count hg (by omega), _, _, (), rfl, rfl, a, _, l, rfl, ha, _, _, (), rfl, rfl, b, _, r, rfl, hb,
    _, _, (), rfl, rfl, t, _, _, rfl, gap_of_count ht (by omega), rfl, rfl⟩

theorem dateTime_depth {v : DateTime} (h : DateTimeG w v) (hn : w.count 40 ≤ c.stack) :
    DateTimeGOf (CommentN c.stack) w v := by
  obtain ⟨a1, _, v1, rfl, h1, a2, _, v2, rfl, h2, a3, _, v3, rfl, h3, a4, _, v4, rfl, h4, a5, _, v5, rfl, h5, a6, _, v6, rfl, h6,
    t, _, _, rfl, ht, rfl, rfl⟩ := h
  simp only [List.count_append] at hn
  exact ⟨a1, _, v1, rfl, h1, a2, _, v2, rfl, h2, a3, _, v3, rfl, h3, a4, _, v4, rfl, h4, a5, _, v5, rfl, h5, a6, _, v6, rfl, h6,
    t, _, _, rfl, gap_of_count ht (by omega), rfl, rfl⟩

end Depth

/-! ### White lines -/

/-- No line consists of white space only. -/
def NoWhiteLine (w : Bytes) : Prop :=
  ∀ y ws z, w = y ++ 13 :: 10 :: (ws ++ 13 :: 10 :: z) → ¬ ∀ b ∈ ws, Spec.wsp b = true

theorem NoWhiteLine.infix {u w : Bytes} (h : NoWhiteLine w) (hi : u <:+: w) : NoWhiteLine u := by
  obtain ⟨a, b, rfl⟩ := hi
  intro y ws z e
  exact h (a ++ y) ws (z ++ b) (by rw [e]; simp)

theorem NoWhiteLine.left {u w : Bytes} (h : NoWhiteLine (u ++ w)) : NoWhiteLine u := h.infix ⟨[], w, by simp⟩
theorem NoWhiteLine.right {u w : Bytes} (h : NoWhiteLine (u ++ w)) : NoWhiteLine w := h.infix ⟨u, [], by simp⟩

theorem folding_noWhiteLine {x w : Bytes} (h : Folding x w) : NoWhiteLine w := by
  intro y ws z e hw
  obtain ⟨ws', b, z', e', -, hw', hb⟩ := folding_break h y _ e
  have := wsp_run_unique hw hw' (by decide) (vchar_noWsp _ hb) e'
  subst this
  exact absurd hb (by decide)

/-- Two pieces of white space are one piece unless there is a white line between their line breaks. -/
theorem fws_join {f g v v' : Bytes} (hf : Fws f v) (hg : Fws g v') (h : NoWhiteLine (f ++ g)) :
    Fws (f ++ g) (v ++ v') := by
  rcases hf with ⟨_, _, a, rfl, ⟨rfl, ha⟩, _, _, ⟨⟩, rfl, rfl, _, _, b, rfl, ⟨rfl, hne, hb⟩, rfl, rfl⟩ | ⟨rfl, hne, hf⟩ <;>
  rcases hg with ⟨_, _, a', rfl, ⟨rfl, ha'⟩, _, _, ⟨⟩, rfl, rfl, _, _, b', rfl, ⟨rfl, hne', hb'⟩, rfl, rfl⟩ | ⟨rfl, hne', hg⟩
  · refine absurd ?_ (h a (b ++ a') b' (by simp [CRLF]))
    intro x hx
    rcases List.mem_append.mp hx with hx | hx
    · exact hb x hx
    · exact ha' x hx
  · refine .inl ⟨a, CRLF ++ (b ++ v'), a, by simp, ⟨rfl, ha⟩, CRLF, b ++ v', (), rfl, rfl, b ++ v', [], b ++ v', by simp, ⟨rfl, by simp [hne'], ?_⟩, rfl, by simp⟩
    intro x hx
    rcases List.mem_append.mp hx with hx | hx
    · exact hb x hx
    · exact hg x hx
  · refine .inl ⟨v ++ a', CRLF ++ b', v ++ a', by simp, ⟨rfl, ?_⟩, CRLF, b', (), rfl, rfl, b', [], b', by simp, ⟨rfl, hne', hb'⟩, rfl, by simp⟩
    intro x hx
    rcases List.mem_append.mp hx with hx | hx
    · exact hf x hx
    · exact ha' x hx
  · refine .inr ⟨rfl, by simp [hne], ?_⟩
    intro x hx
    rcases List.mem_append.mp hx with hx | hx
    · exact hf x hx
    · exact hg x hx

theorem optFws_join {f g : Bytes} {o o' : Option Bytes} (hf : Gram.opt Fws f o) (hg : Gram.opt Fws g o')
    (h : NoWhiteLine (f ++ g)) : ∃ o'', Gram.opt Fws (f ++ g) o'' := by
  rcases hf with ⟨rfl, rfl⟩ | ⟨v, rfl, hf⟩
  · exact ⟨_, hg⟩
  · rcases hg with ⟨rfl, rfl⟩ | ⟨v', rfl, hg⟩
    · exact ⟨some v, .inr ⟨v, rfl, by simpa using hf⟩⟩
    · exact ⟨_, .inr ⟨_, rfl, fws_join hf hg h⟩⟩

/-- Comments with white space before them, then white space. -/
theorem gap_iff {w : Bytes} : Gap c w () ↔ ∃ s f vs o, w = s ++ f ∧ Gram.star (FwsThenComment c.stack) s vs ∧
    Gram.opt Fws f o := by
  constructor
  · rintro ⟨o, ⟨rfl, rfl⟩ | ⟨⟨⟩, rfl, ⟨s, _, vs, rfl, ⟨u, s', a, rfl, hu, s'', _, as, rfl, hs, rfl, rfl⟩,
      f, _, o, rfl, hf, rfl, _⟩ | ⟨v, h⟩⟩⟩
    · exact ⟨[], [], [], none, rfl, .nil, .inl ⟨rfl, rfl⟩⟩
    · exact ⟨u ++ s'', f, _, o, by simp, .cons hu hs, hf⟩
    · exact ⟨[], w, [], _, rfl, .nil, .inr ⟨v, rfl, h⟩⟩
  · rintro ⟨s, f, vs, o, rfl, hs, hf⟩
    cases hs with
    | nil =>
      rcases hf with ⟨rfl, rfl⟩ | ⟨v, rfl, hf⟩
      · exact ⟨none, .inl ⟨rfl, rfl⟩⟩
      · exact ⟨some (), .inr ⟨(), rfl, .inr ⟨v, hf⟩⟩⟩
    | @cons w₁ w₂ a as hu hs =>
      exact ⟨some (), .inr ⟨(), rfl, .inl ⟨w₁ ++ w₂, f, a :: as, by simp, ⟨w₁, w₂, a, rfl, hu, w₂, [], as, by simp, hs, rfl, rfl⟩,
        f, [], o, by simp, hf, rfl, rfl⟩⟩⟩

theorem star_append {G : Gram α} {s s' : Bytes} {vs vs' : List α} (h : Gram.star G s vs) (h' : Gram.star G s' vs') :
    Gram.star G (s ++ s') (vs ++ vs') := by
  induction h with
  | nil => exact h'
  | cons hp _ ih => rw [List.append_assoc]; exact .cons hp ih

theorem gap_join {a b : Bytes} (ha : Gap c a ()) (hb : Gap c b ()) (h : NoWhiteLine (a ++ b)) : Gap c (a ++ b) () := by
  obtain ⟨s, f, vs, o, rfl, hs, hf⟩ := gap_iff.mp ha
  obtain ⟨s', f', vs', o', rfl, hs', hf'⟩ := gap_iff.mp hb
  refine gap_iff.mpr ?_
  cases hs' with
  | nil =>
    obtain ⟨o'', hj⟩ := optFws_join hf hf' (h.infix ⟨s, [], by simp⟩)
    exact ⟨s, f ++ f', vs, o'', by simp, hs, hj⟩
  | @cons w₁ w₂ a as hu hs' =>
    obtain ⟨g, x, og, rfl, hg, hx⟩ := hu
    obtain ⟨o'', hj⟩ := optFws_join hf hg (h.infix ⟨s, x ++ (w₂ ++ f'), by simp⟩)
    exact ⟨s ++ ((f ++ g ++ x) ++ w₂), f', _, o', by simp, star_append hs (.cons ⟨f ++ g, x, o'', rfl, hj, hx⟩ hs'), hf'⟩

/-! ### Texts that have one reading -/

/-- Comments are not nested too deep, there are no white lines, and no encoded words if they are read. -/
structure Fine (c : Cfg) (w : Bytes) : Prop where
  depth : w.count 40 ≤ c.stack
  lines : NoWhiteLine w
  words : c.feat.mime = true → ¬ b! "=?" <:+: w

theorem Fine.infix {u w : Bytes} (h : Fine c w) (hi : u <:+: w) : Fine c u :=
  ⟨Nat.le_trans (hi.sublist.count_le _) h.depth, h.lines.infix hi, fun hm hu => h.words hm (hu.trans hi)⟩

theorem Fine.left {u w : Bytes} (h : Fine c (u ++ w)) : Fine c u := h.infix ⟨[], w, by simp⟩
theorem Fine.right {u w : Bytes} (h : Fine c (u ++ w)) : Fine c w := h.infix ⟨u, [], by simp⟩

theorem encodedWord_mark {w v : Bytes} (h : EncodedWord c w v) : b! "=?" <+: w := by
  obtain ⟨charset, language, encoding, text, bytes, rfl, -⟩ := h
  simp only [List.append_assoc]
  exact List.prefix_append _ _

theorem Fine.noWord {u x w v : Bytes} (h : Fine c (u ++ (x ++ w))) (hm : c.feat.mime = true) : ¬ EncodedWord c x v := fun hx =>
  h.words hm ((encodedWord_mark hx).isInfix.trans ⟨u, w, by simp⟩)

theorem phraseWord_word {w v : Bytes} (h : PhraseWord c w v) (hw : Fine c w) : Word w v := by
  unfold PhraseWord at h
  split at h
  · rename_i hm
    rcases h with ⟨f, x, _, rfl, -, hx⟩ | h
    · exact absurd hx (hw.infix (u := f ++ (x ++ [])) ⟨[], [], by simp⟩ |>.noWord hm)
    · exact h
  · exact h

/-- A word is a token between comments and white space. -/
theorem word_parts {w v : Bytes} (h : Word w v) (hw : Fine c w) : ∃ g x t, w = g ++ (x ++ t) ∧ Gap c g () ∧ Gap c t () ∧
    ((x ≠ [] ∧ (∀ b ∈ x, atext b = true) ∧ v = x) ∨ Quoted x v) := by
  rcases word_depth h hw.depth with ⟨g, _, _, rfl, hg, x, _, v, rfl, ⟨rfl, hne, hx⟩, t, _, _, rfl, ht, rfl, rfl⟩ |
    ⟨g, _, _, rfl, hg, a, _, _, rfl, ha, s, _, vs, rfl, hs, f, _, fv, rfl, hf, b, _, _, rfl, hb, t, _, _, rfl, ht, rfl, rfl⟩
  · exact ⟨g, v, t, by simp, hg, ht, .inl ⟨hne, hx, rfl⟩⟩
  · exact ⟨g, a ++ (s ++ (f ++ (b ++ []))), t, by simp, hg, ht,
      .inr ⟨a, _, (), rfl, ha, s, _, vs, rfl, hs, f, _, fv, rfl, hf, b, [], (), rfl, hb, rfl, rfl⟩⟩

/-- Comments and white space before the words. -/
theorem names_lead {g s : Bytes} {vs : List Bytes} (hg : Gap c g ()) (h : Names c true s vs true) (hvs : vs ≠ [])
    (hw : Fine c s) : Names c false (g ++ s) vs true := by
  cases h with
  | nil => exact absurd rfl hvs
  | atom hg' hp hne hx hm ht hn hs =>
    rw [hp rfl, List.nil_append]
    exact .atom hg (by simp) hne hx hm ht hn hs
  | quoted hg' hp hx ht hs =>
    rw [hp rfl, List.nil_append]
    exact .quoted hg (by simp) hx ht hs
  | encoded hm hf hp hx hs => exact absurd hx (hw.noWord hm)

/-- One more token before the words; two atoms without anything between them are one. -/
theorem names_cons {x t s v : Bytes} {vs : List Bytes} (h : (x ≠ [] ∧ (∀ b ∈ x, atext b = true) ∧ v = x) ∨ Quoted x v)
    (ht : Gap c t ()) (hs : Names c true s vs true) (hw : Fine c (x ++ (t ++ s))) :
    ∃ vs', Names c true (x ++ (t ++ s)) vs' true ∧ vs' ≠ [] ∧ vs'.flatten = v ++ vs.flatten := by
  rcases h with ⟨hne, hx, rfl⟩ | h
  · have hm : c.feat.mime = true → ¬ b! "=?" <+: v := fun hm hp => hw.words hm (hp.isInfix.trans ⟨[], t ++ s, by simp⟩)
    by_cases hn : t = [] → NotBefore atext s
    · exact ⟨v :: vs, .atom (g := []) ⟨none, .inl ⟨rfl, rfl⟩⟩ (by simp) hne hx hm ht hn hs, by simp, rfl⟩
    · obtain ⟨rfl, hb⟩ : t = [] ∧ ¬ NotBefore atext s := Classical.not_imp.mp hn
      clear hn
      cases hs with
      | nil => exact absurd (stops_nil (p := atext)) hb
      | @atom _ _ g x' t' s' vs' hg' hp hne' hx' hm' ht' hn' hs' =>
        obtain rfl := hp rfl
        refine ⟨(v ++ x') :: vs', ?_, by simp, by simp⟩
        have := Names.atom (c := c) (p := true) (q := true) (g := []) (x := v ++ x') (t := t') (s := s') (vs := vs')
          ⟨none, .inl ⟨rfl, rfl⟩⟩ (by simp) (by simp [hne]) (by
            intro b hb
            rcases List.mem_append.mp hb with hb | hb
            · exact hx b hb
            · exact hx' b hb)
          (fun hm hp => hw.words hm (hp.isInfix.trans ⟨[], t' ++ s', by simp⟩)) ht' hn' hs'
        simpa using this
      | @quoted _ _ g x' _ t' s' vs' hg' hp hx' ht' hs' =>
        obtain rfl := hp rfl
        obtain ⟨y, rfl⟩ := quoted_head hx'
        exact absurd (stops_cons (p := atext).mpr (by decide)) hb
      | @encoded _ _ f _ x' _ s' _ hm' hf hp hx' hs' =>
        exact absurd hx' (hw.infix (u := (v ++ f) ++ (x' ++ s')) ⟨[], [], by simp⟩ |>.noWord hm')
  · exact ⟨v :: vs, .quoted (g := []) ⟨none, .inl ⟨rfl, rfl⟩⟩ (by simp) h ht hs, by simp, rfl⟩

theorem gap_nil : Gap c [] () := ⟨none, .inl ⟨rfl, rfl⟩⟩

/-- Words and the comments and white space after them, with a fixed reading. -/
theorem words_names {s e : Bytes} {vs : List Bytes} (h : Gram.star (PhraseWord c) s vs) (he : Gap c e ())
    (hw : Fine c (s ++ e)) (hne : vs ≠ []) :
    ∃ g s' vs', s ++ e = g ++ s' ∧ Gap c g () ∧ Names c true s' vs' true ∧ vs' ≠ [] ∧ vs'.flatten = vs.flatten := by
  induction h with
  | nil => exact absurd rfl hne
  | @cons w₁ w₂ v vs hp hs ih =>
    rw [List.append_assoc] at hw
    obtain ⟨g, x, t, rfl, hg, ht, hx⟩ := word_parts (phraseWord_word hp hw.left) hw.left
    cases hs with
    | nil =>
      have hw' : Fine c (x ++ ((t ++ e) ++ [])) := hw.infix ⟨g, [], by simp⟩
      obtain ⟨vs', h1, h2, h3⟩ := names_cons hx (gap_join ht he (hw'.right.left).lines) .nil hw'
      exact ⟨g, _, vs', by simp, hg, h1, h2, by simpa using h3⟩
    | cons hp' hs' =>
      obtain ⟨g', s', vs', h1, h2, h3, h4, h5⟩ := ih hw.right (by simp)
      rw [h1] at hw
      have hw' : Fine c (x ++ ((t ++ g') ++ s')) := hw.infix ⟨g, [], by simp⟩
      obtain ⟨vs'', h6, h7, h8⟩ := names_cons hx (gap_join ht h2 (hw'.right.left).lines) h3 hw'
      refine ⟨g, _, vs'', ?_, hg, h6, h7, ?_⟩
      · rw [List.append_assoc, h1]
        simp
      · rw [h8, h5]
        rfl

theorem plus_star {G : Gram α} {w : Bytes} {vs : List α} (h : Gram.plus G w vs) : Gram.star G w vs ∧ vs ≠ [] := by
  obtain ⟨w₁, _, a, rfl, ha, w₂, _, as, rfl, hs, rfl, rfl⟩ := h
  rw [List.append_nil]
  exact ⟨.cons ha hs, by simp⟩

theorem phrase_names {w e : Bytes} {vs : List Bytes} (h : Phrase c w vs) (he : Gap c e ()) (hw : Fine c (w ++ e)) :
    ∃ vs', Names c false (w ++ e) vs' true ∧ vs' ≠ [] ∧ vs'.flatten = vs.flatten := by
  obtain ⟨hs, hne⟩ := plus_star h
  obtain ⟨g, s', vs', h1, h2, h3, h4, h5⟩ := words_names hs he hw hne
  rw [h1] at hw ⊢
  exact ⟨vs', names_lead h2 h3 h4 hw.right, h4, h5⟩

theorem phrase_keyword {w : Bytes} {vs : List Bytes} (h : Phrase c w vs) (hw : Fine c w) :
    ∃ vs', KeywordL c w vs' ∧ vs'.flatten = vs.flatten := by
  obtain ⟨vs', h1, h2, h3⟩ := phrase_names h gap_nil (by simpa using hw)
  rw [List.append_nil] at h1
  exact ⟨vs', ⟨h2, _, h1⟩, h3⟩

theorem phrase_groupName {w : Bytes} {vs : List Bytes} (h : Phrase c w vs) (hw : Fine c w) :
    ∃ vs', GroupName c w vs' ∧ vs'.flatten = vs.flatten := by
  obtain ⟨vs', ⟨h1, h2⟩, h3⟩ := phrase_keyword h hw
  refine ⟨vs', ⟨h1, h2, ?_⟩, h3⟩
  rintro f white x v s rfl - hx hm
  exact absurd hx (hw.noWord hm)

theorem mailbox_exact {w : Bytes} {m : Mailbox} (h : MailboxG c w m) (hw : Fine c w) :
    ∃ m', MailboxL c w m' ∧ joinBox m' = joinBox m := by
  rcases h with ⟨n, _, o, rfl, hn, a, _, v, rfl, ha, rfl, rfl⟩ | ⟨a, _, v, rfl, ⟨l, _, lv, rfl, hl, _, _, _, rfl, rfl, d, _, dv, rfl, hd, rfl, rfl⟩, rfl, rfl⟩
  · rw [List.append_nil] at hw ⊢
    have ha := angleAddr_depth ha hw.right.depth
    rcases hn with ⟨rfl, rfl⟩ | ⟨vs, rfl, hn⟩
    · exact ⟨_, .angle ha, rfl⟩
    · obtain ⟨g, s, _, rfl, hg, l, s', _, rfl, rfl, hb⟩ := ha
      obtain ⟨vs', h1, h2, h3⟩ := phrase_names hn hg (hw.infix ⟨[], b! "<" ++ s', by simp⟩)
      refine ⟨⟨some vs', v⟩, ?_, by simp [joinBox, h3]⟩
      rw [← List.append_assoc]
      exact .named h1 h2 ⟨[], _, (), rfl, gap_nil, _, s', (), rfl, rfl, hb⟩ fun _ => ⟨s', rfl⟩
  · have hn := hw.depth
    simp only [List.count_append] at hn
    have hd := domain_depth (c := c) hd (by omega)
    refine ⟨_, ?_, rfl⟩
    simp only [List.append_nil]
    rcases hl with hl | hl
    · refine .dotAtom (dotAtom_depth hl (by omega)) ?_ hd
      intro hm hp
      obtain ⟨g, _, _, rfl, hg, x, _, v, rfl, hx, t, _, _, rfl, ht, rfl, rfl⟩ := hl
      obtain rfl := dotAtomText_value hx
      exact hw.words hm (hp.isInfix.trans ⟨g, t ++ (b! "@" ++ d), by simp⟩)
    · exact .quoted (quotedString_depth hl (by omega)) hd

/-- The elements of a list. -/
theorem commas_exact {G : Gram α} {L : Bytes → α → Prop} {J : α → α} {w : Bytes} {vs : List α}
    (h : CommaList G w vs) (hw : Fine c w) (hl : ∀ w v, G w v → Fine c w → ∃ v', L w v' ∧ J v' = J v) :
    ∃ vs', Commas L w vs' ∧ vs'.map J = vs.map J := by
  obtain ⟨w₁, _, v, rfl, hv, s, _, vs, rfl, hs, rfl, rfl⟩ := h
  rw [List.append_nil] at hw ⊢
  induction hs generalizing w₁ v with
  | nil =>
    rw [List.append_nil] at hw ⊢
    obtain ⟨v', h1, h2⟩ := hl _ _ hv hw
    exact ⟨[v'], .one h1, by simp [h2]⟩
  | cons hp hs ih =>
    obtain ⟨_, w₂, _, rfl, rfl, hv'⟩ := hp
    obtain ⟨v', h1, h2⟩ := hl _ _ hv hw.left
    obtain ⟨vs', h3, h4⟩ := ih _ _ hv' (hw.infix ⟨w₁ ++ b! ",", [], by simp⟩)
    exact ⟨v' :: vs', by simpa using Commas.cons h1 h3, by simp [h2, h4]⟩

theorem address_exact {w : Bytes} {a : Address} (h : AddressG c w a) (hw : Fine c w) :
    ∃ a', AddressL c w a' ∧ joinAddress a' = joinAddress a := by
  rcases h with ⟨m, rfl, h⟩ | ⟨⟨n, ms⟩, rfl, ⟨x, _, vs, rfl, hx, _, _, _, rfl, rfl, y, _, ms', rfl, hy, _, _, _, rfl, rfl, t, _, _, rfl, ht, rfl, hv⟩⟩
  · obtain ⟨m', h1, h2⟩ := mailbox_exact h hw
    exact ⟨.mailbox m', .mailbox h1, by simp [joinAddress, h2]⟩
  · cases hv
    obtain ⟨vs', h1, h2⟩ := phrase_groupName hx hw.left
    have ht := gap_of_count (c := c) ht (hw.infix (u := t) ⟨x ++ (b! ":" ++ (y ++ b! ";")), [], by simp⟩).depth
    have hy' : Fine c y := hw.infix ⟨x ++ b! ":", b! ";" ++ t, by simp⟩
    simp only [List.append_nil]
    rcases hy with hy | ⟨y, _, _, rfl, hy, rfl, rfl⟩
    · obtain ⟨ms'', h3, h4⟩ := commas_exact hy hy' fun _ _ => mailbox_exact
      exact ⟨_, .group h1 h3 ht, by simp [joinAddress, h2, h4]⟩
    · rw [List.append_nil] at hy' ⊢
      exact ⟨_, .emptyGroup h1 (gap_of_count hy hy'.depth) ht, by simp [joinAddress, h2]⟩

theorem cfws_ne_nil {K : Gram Unit} (hK : ∀ v, ¬ K [] v) {v : Unit} : ¬ CfwsOf K [] v := by
  rintro (⟨s, _, vs, e, ⟨u, _, _, rfl, ⟨f, x, o, rfl, hf, hx⟩, _⟩, _⟩ | ⟨_, h⟩)
  · obtain ⟨rfl, rfl⟩ : f = [] ∧ x = [] := by
      have := e.symm
      simp only [List.append_eq_nil_iff] at this
      exact this.1.1
    exact hK _ hx
  · rcases h with ⟨a, _, _, e, -, _, _, _, rfl, rfl, _⟩ | ⟨-, h, -⟩
    · have := e.symm
      simp at this
    · exact h rfl

theorem bcc_exact {w : Bytes} {vs : List Address} (h : Bcc c w vs) (hw : Fine c w) :
    ∃ vs', (Commas (AddressL c) w vs' ∨ (vs' = [] ∧ w ≠ [] ∧ Gap c w ())) ∧ vs'.map joinAddress = vs.map joinAddress := by
  rcases h with h | ⟨w, _, _, rfl, h, rfl, rfl⟩
  · obtain ⟨vs', h1, h2⟩ := commas_exact h hw fun _ _ => address_exact
    exact ⟨vs', .inl h1, h2⟩
  · rw [List.append_nil] at hw ⊢
    refine ⟨[], .inr ⟨rfl, ?_, gap_of_count ⟨some (), .inr ⟨(), rfl, h⟩⟩ hw.depth⟩, rfl⟩
    rintro rfl
    refine cfws_ne_nil ?_ h
    rintro _ ⟨n, hn⟩
    cases n with
    | zero => exact hn
    | succ n =>
      obtain ⟨_, _, _, e, rfl, -⟩ := hn
      cases e

theorem ids_exact {w : Bytes} {v : Bytes × Bytes} {s : Bytes} {vs : List (Bytes × Bytes)}
    (h : MessageIdOf (CommentN c.stack) c.feat.compatibilityFixes w v)
    (hs : Gram.star (MessageId c.feat.compatibilityFixes) s vs) (hw : Fine c (w ++ s)) : IdsL c (w ++ s) (v :: vs) := by
  induction hs generalizing w v with
  | nil =>
    rw [List.append_nil]
    exact .one h
  | @cons w₁ w₂ v' vs' hp hs ih =>
    obtain ⟨g, _, _, rfl, hg, _, x, _, rfl, rfl, hx⟩ := messageId_depth (c := c) hp hw.right.left.depth
    have h' : IdsL c (60 :: x ++ w₂) (v' :: vs') :=
      ih (w := 60 :: x) ⟨[], _, (), rfl, gap_nil, b! "<", x, (), rfl, rfl, hx⟩ (hw.infix ⟨w ++ g, [], by simp⟩)
    obtain ⟨a1, _, _, rfl, h1, a2, _, _, rfl, h2, a3, _, v3, rfl, h3, a4, _, _, rfl, h4, a5, _, v5, rfl, h5, a6, _, _, rfl, h6,
      t, _, _, rfl, ht, rfl, rfl⟩ := h
    have hj := gap_join ht hg (hw.infix (u := t ++ g) ⟨a1 ++ (a2 ++ (a3 ++ (a4 ++ (a5 ++ a6)))), 60 :: x ++ w₂, by simp⟩).lines
    have := IdsL.cons (c := c) (w := a1 ++ (a2 ++ (a3 ++ (a4 ++ (a5 ++ (a6 ++ ((t ++ g) ++ []))))))) (v := (v3, v5))
      ⟨a1, _, _, rfl, h1, a2, _, _, rfl, h2, a3, _, v3, rfl, h3, a4, _, _, rfl, h4, a5, _, v5, rfl, h5, a6, _, _, rfl, h6,
        t ++ g, [], (), rfl, hj, rfl, rfl⟩ ⟨_, rfl⟩ h'
    simpa using this

theorem messageIds_exact {w : Bytes} {vs : List (Bytes × Bytes)} (h : MessageIds c.feat.compatibilityFixes w vs)
    (hw : Fine c w) : IdsL c w vs := by
  obtain ⟨w₁, _, a, rfl, ha, s, _, as, rfl, hs, rfl, rfl⟩ := h
  rw [List.append_nil] at hw ⊢
  exact ids_exact (messageId_depth ha hw.left.depth) hs hw

/-! ### Unstructured text -/

theorem optFws_white {f white : Bytes} (h : OptFws f white) : ∀ b ∈ white, Spec.wsp b = true := by
  obtain ⟨o, rfl, ⟨rfl, rfl⟩ | ⟨a, rfl, h⟩⟩ := h
  · simp
  · rcases h with ⟨_, _, a, rfl, ⟨rfl, ha⟩, _, _, ⟨⟩, rfl, rfl, _, _, b, rfl, ⟨rfl, hne, hb⟩, rfl, rfl⟩ | ⟨rfl, hne, hf⟩
    · intro x hx
      rcases List.mem_append.mp hx with hx | hx
      · exact ha x hx
      · exact hb x hx
    · exact hf

theorem optFws_empty {f : Bytes} (h : OptFws f []) : f = [] := by
  obtain ⟨o, e, ⟨rfl, rfl⟩ | ⟨a, rfl, h⟩⟩ := h
  · rfl
  · obtain rfl : [] = a := e
    rcases h with ⟨_, _, a, rfl, ⟨rfl, ha⟩, _, _, ⟨⟩, rfl, rfl, _, _, b, rfl, ⟨rfl, hne, hb⟩, rfl, e⟩ | ⟨rfl, hne, hf⟩
    · have := e.symm
      simp only [List.append_eq_nil_iff] at this
      exact absurd this.2 hne
    · exact absurd rfl hne

theorem wsp_prefix {ws x a b : Bytes} (hw : ∀ b ∈ ws, Spec.wsp b = true) (h : ws ++ x = a ++ 61 :: b) :
    ∃ a', x = a' ++ 61 :: b := by
  rcases List.append_eq_append_iff.mp h with ⟨a', rfl, e⟩ | ⟨c', rfl, e⟩
  · exact ⟨a', e⟩
  · cases c' with
    | nil => exact ⟨[], by simpa using e.symm⟩
    | cons y c' =>
      simp only [List.cons_append, List.cons.injEq] at e
      have := hw y (by simp)
      rw [← e.1] at this
      exact absurd this (by decide)

/-- Line breaks of folds do not hide the beginning of an encoded word. -/
theorem textParts_mark {s : Bytes} {vs : List Bytes} (h : Gram.star TextPart s vs) :
    (∀ a b, vs.flatten = a ++ 61 :: 63 :: b → b! "=?" <:+: s) ∧ (∀ b, vs.flatten = 63 :: b → ∃ s', s = 63 :: s') := by
  induction h with
  | nil => exact ⟨fun a b e => by simp at e, fun b e => by simp at e⟩
  | @cons w₁ w₂ v vs hp hs ih =>
    obtain ⟨f, _, white, rfl, hf, _, _, x, rfl, ⟨rfl, hne, hx⟩, rfl, rfl⟩ := hp
    have hwhite := optFws_white hf
    constructor
    · intro a b e
      rw [List.flatten_cons, List.append_assoc] at e
      obtain ⟨a', e'⟩ := wsp_prefix hwhite e
      clear e
      rcases List.append_eq_append_iff.mp e' with ⟨a'', rfl, e⟩ | ⟨x', rfl, e⟩ <;> clear e'
      · exact (ih.1 _ _ e).trans (List.suffix_append _ _).isInfix
      · match x', e with
        | [], e => exact (ih.1 [] b e.symm).trans (List.suffix_append _ _).isInfix
        | [y], e =>
          simp only [List.cons_append, List.nil_append, List.cons.injEq] at e
          obtain ⟨rfl, e⟩ := e
          obtain ⟨s', rfl⟩ := ih.2 _ e.symm
          exact ⟨f ++ a', s', by simp⟩
        | y :: z :: x', e =>
          simp only [List.cons_append, List.cons.injEq] at e
          obtain ⟨rfl, rfl, -⟩ := e
          exact ⟨f ++ a', x' ++ w₂, by simp⟩
    · intro b e
      rw [List.flatten_cons] at e
      cases white with
      | cons y white =>
        simp only [List.cons_append, List.cons.injEq] at e
        have := hwhite y (by simp)
        rw [e.1] at this
        exact absurd this (by decide)
      | nil =>
        obtain rfl := optFws_empty hf
        cases x with
        | nil => exact absurd rfl hne
        | cons y x =>
          simp only [List.nil_append, List.cons_append, List.cons.injEq] at e
          exact ⟨x ++ w₂, by simp [e.1]⟩

theorem folding_mark {x w : Bytes} (hf : Folding x w) (hx : b! "=?" <:+: x) : b! "=?" <:+: w := by
  obtain ⟨s, vs, t, rfl, hs, ht, rfl⟩ := folding_parts hf
  obtain ⟨a, b, e⟩ := hx
  rw [List.append_assoc] at e
  refine List.IsInfix.trans ?_ (List.prefix_append s t).isInfix
  rcases List.append_eq_append_iff.mp e with ⟨b', hv, e'⟩ | ⟨a', rfl, e'⟩
  · match b', e' with
    | [], e' => exact absurd (ht 61 (by rw [← List.nil_append t, ← e']; simp)) (by decide)
    | [y], e' =>
      simp only [List.cons_append, List.nil_append, List.cons.injEq] at e'
      exact absurd (ht 63 (by rw [← e'.2]; simp)) (by decide)
    | y :: z :: b', e' =>
      simp only [List.cons_append, List.nil_append, List.cons.injEq] at e'
      obtain ⟨rfl, rfl, -⟩ := e'
      exact (textParts_mark hs).1 a b' hv
  · exact absurd (ht 61 (by rw [e']; simp)) (by decide)

theorem unstructured_folding {x w v : Bytes} (h : Unstructured w v) (hf : Folding x w) : v = trimEnd x := by
  have h1 := unstructured_append (r := []) h ⟨stops_nil, by simp⟩ stops_nil
  obtain ⟨s, vs, t, rfl, hs, ht, rfl⟩ := folding_parts hf
  have h2 := unstructured_append (r := []) (w := s ++ t) ⟨s, t ++ [], vs, by simp, hs, t, [], t, rfl, ⟨rfl, ht⟩, rfl, rfl⟩
    ⟨stops_nil, by simp⟩ stops_nil
  rw [h2] at h1
  simp only [Outcome.ok.injEq, Prod.mk.injEq, true_and] at h1
  rw [trimEnd_append ht (textParts_last hs), h1]

theorem mimeText_parts {s : Bytes} {ps : List Piece}
    (h : Gram.star (do
      let white ← OptFws
      Gram.or
        (do
          let text ← EncodedWord c
          pure (Piece.mk white true text))
        (do
          let text ← Gram.chars1 vchar
          pure (Piece.mk white false text))) s ps) (hm : c.feat.mime = true) (hw : Fine c s) :
    ∃ vs, Gram.star TextPart s vs ∧ joinPieces false ps = vs.flatten := by
  induction h with
  | nil => exact ⟨[], .nil, rfl⟩
  | @cons w₁ w₂ p ps hp hs ih =>
    obtain ⟨vs, h1, h2⟩ := ih hw.right
    obtain ⟨f, _, white, rfl, hf, ⟨x, y, t, rfl, hx, -⟩ | ⟨_, _, x, rfl, ⟨rfl, hne, hx⟩, rfl, rfl⟩⟩ := hp
    · exact absurd hx (hw.infix (u := f ++ (x ++ (y ++ w₂))) ⟨[], [], by simp⟩ |>.noWord hm)
    · exact ⟨(white ++ x) :: vs, .cons ⟨f, _, white, rfl, hf, x, [], x, rfl, ⟨rfl, hne, hx⟩, rfl, rfl⟩ h1, by simp [joinPieces, h2]⟩

theorem mimeText_exact {w v : Bytes} (h : MimeUnstructured c w v) (hm : c.feat.mime = true) (hw : Fine c w) :
    TextL c true w v := by
  obtain ⟨s, _, ps, rfl, hs, t, _, _, rfl, ⟨rfl, ht⟩, rfl, rfl⟩ := h
  obtain ⟨vs, h1, h2⟩ := mimeText_parts hs hm hw.left
  have hno : ¬ [61, 63] <:+: vs.flatten := by
    rintro ⟨a, b, e⟩
    exact hw.left.words hm ((textParts_mark h1).1 a b (by rw [← e]; simp))
  obtain ⟨ps', h3, h4⟩ := layout_plain (c := c) _ s vs (Nat.le_refl _) h1 hno
  exact ⟨s, _, ps', by simp, h3, ht, by rw [h4, h2]⟩

theorem text_exact {x w v : Bytes} (h : TextValue c.feat.mime c w v) (hf : Folding x w) (hw : Fine c w) :
    TextL c c.feat.mime w v := by
  by_cases hm : c.feat.mime = true
  · rw [hm] at h ⊢
    exact mimeText_exact h hm hw
  · have hm : c.feat.mime = false := by simpa using hm
    rw [hm] at h ⊢
    exact ⟨x, hf, unstructured_folding h hf⟩

/-! ### Header lines -/

theorem header_value {nm name w l : Bytes} {G : Gram α} {v : α} (h : HeaderLine (nm ++ b! ":") G l v)
    (hl : l = name ++ b! ":" ++ w ++ CRLF) (hn : name.map asciiLower = nm.map asciiLower) : G w v := by
  obtain ⟨n, _, _, rfl, hn', y, _, v, rfl, hy, _, _, _, rfl, rfl, rfl, rfl⟩ := h
  have hlen : n.length = (name ++ b! ":").length := by
    have h1 := congrArg List.length hn'
    have h2 := congrArg List.length hn
    simp only [List.length_map, List.length_append] at h1 h2 ⊢
    omega
  rw [List.append_assoc (name ++ b! ":")] at hl
  have := (List.append_inj hl hlen).2
  rw [List.append_nil] at this
  rw [← List.append_cancel_right this]
  exact hy

theorem _root_.EmailParser.Spec.Plain.fine {name x w : Bytes} (h : Plain c name w) (hf : Folding x w) : Fine c w :=
  ⟨h.depth, folding_noWhiteLine hf, fun hm => (h.mime hm).2.1⟩

/-- A line of the grammar is laid out so that it can be read. -/
theorem field_exact {name x w l : Bytes} {f : Field} (h : FieldG c l f) (hl : HeaderText name x w l)
    (ho : headerOf f = some (name.map asciiLower)) (hp : Plain c name w)
    (hs : Ends name w) :
    ∃ f', ValueL c w f' ∧ headerOf f' = headerOf f ∧ joinWords f' = joinWords f := by
  have hw := hp.fine hl.folding
  have key : ∀ {α : Type} (nm : Bytes) {G : Gram α} {v : α}, HeaderLine (nm ++ b! ":") G l v →
      headerOf f = some (nm.map asciiLower) → G w v := fun nm _ _ h e =>
    header_value h hl.text (Option.some.inj (ho.symm.trans e))
  have hs' : ∀ n : Bytes, headerOf f = some n → n ∈ structuredNames ++ [b! "keywords"] → Solid w := fun n e hn =>
    hs (by rw [← Option.some.inj (ho.symm.trans e)] at hn; exact hn)
  have hx' : ∀ n : Bytes, headerOf f = some n → c.feat.mime = true → n ∈ mimeExactNames := fun n e hm => by
    rw [← Option.some.inj (ho.symm.trans e)]; exact (hp.mime hm).1
  cases f with
  | date v => exact ⟨.date v, ⟨dateTime_depth (key (b! "Date") h.2 rfl) hw.depth, hs' _ rfl (by decide)⟩, rfl, rfl⟩
  | «from» v =>
    obtain ⟨v', h1, h2⟩ := commas_exact (key (b! "From") h.2 rfl) hw fun _ _ => mailbox_exact
    exact ⟨.from v', ⟨h1, hs' _ rfl (by decide)⟩, rfl, by simp only [joinWords, h2]⟩
  | sender v =>
    obtain ⟨v', h1, h2⟩ := mailbox_exact (key (b! "Sender") h.2 rfl) hw
    exact ⟨.sender v', ⟨h1, hs' _ rfl (by decide)⟩, rfl, by simp only [joinWords, h2]⟩
  | replyTo v =>
    obtain ⟨v', h1, h2⟩ := commas_exact (key (b! "Reply-To") h.2 rfl) hw fun _ _ => address_exact
    exact ⟨.replyTo v', ⟨h1, hs' _ rfl (by decide)⟩, rfl, by simp only [joinWords, h2]⟩
  | to v =>
    obtain ⟨v', h1, h2⟩ := commas_exact (key (b! "To") h.2 rfl) hw fun _ _ => address_exact
    exact ⟨.to v', ⟨h1, hs' _ rfl (by decide)⟩, rfl, by simp only [joinWords, h2]⟩
  | cc v =>
    obtain ⟨v', h1, h2⟩ := commas_exact (key (b! "Cc") h.2 rfl) hw fun _ _ => address_exact
    exact ⟨.cc v', ⟨h1, hs' _ rfl (by decide)⟩, rfl, by simp only [joinWords, h2]⟩
  | bcc v =>
    obtain ⟨v', h1, h2⟩ := bcc_exact (key (b! "Bcc") h.2 rfl) hw
    exact ⟨.bcc v', ⟨h1, hs' _ rfl (by decide)⟩, rfl, by simp only [joinWords, h2]⟩
  | messageId v =>
    exact ⟨.messageId v, ⟨messageId_depth (key (b! "Message-ID") h.2 rfl) hw.depth, hs' _ rfl (by decide)⟩, rfl, rfl⟩
  | inReplyTo v =>
    exact ⟨.inReplyTo v, ⟨messageIds_exact (key (b! "In-Reply-To") h.2 rfl) hw, hs' _ rfl (by decide)⟩, rfl, rfl⟩
  | references v =>
    exact ⟨.references v, ⟨messageIds_exact (key (b! "References") h.2 rfl) hw, hs' _ rfl (by decide)⟩, rfl, rfl⟩
  | subject v => exact ⟨.subject v, text_exact (key (b! "Subject") h.2 rfl) hl.folding hw, rfl, rfl⟩
  | comments v => exact ⟨.comments v, text_exact (key (b! "Comments") h.2 rfl) hl.folding hw, rfl, rfl⟩
  | keywords v =>
    obtain ⟨v', h1, h2⟩ := commas_exact (L := KeywordL c) (J := fun ws => [ws.flatten])
      (key (b! "Keywords") h.2 rfl) hw fun _ _ h hw => by
        obtain ⟨vs', h1, h2⟩ := phrase_keyword h hw
        exact ⟨vs', h1, by rw [h2]⟩
    exact ⟨.keywords v', ⟨h1, hs' _ rfl (by decide)⟩, rfl, by simp only [joinWords, h2]⟩
  | contentId v =>
    exact ⟨.contentId v, ⟨messageId_depth (key (b! "Content-ID") h.2 rfl) hw.depth, hs' _ rfl (by decide)⟩, rfl, rfl⟩
  | contentDescription v =>
    exact ⟨.contentDescription v, mimeText_exact (key (b! "Content-Description") h.2 rfl) h.1 hw, rfl, rfl⟩
  | mimeVersion => exact absurd (hx' _ rfl h.1) (by decide)
  | contentType => exact absurd (hx' _ rfl h.1) (by decide)
  | contentTransferEncoding => exact absurd (hx' _ rfl h.1) (by decide)
  | contentDisposition => exact absurd (hx' _ rfl h.1) (by decide)
  | trace => cases ho
  | unknown => cases ho

theorem fieldG_recognized {l : Bytes} {f : Field} {n : Bytes} (h : FieldG c l f) (ho : headerOf f = some n) :
    Recognized c.feat n := by
  cases f <;> cases ho <;> simp only [FieldG] at h <;> simp [Recognized, h.1]

theorem exact_reads {name x w l t : Bytes} {f : Field} (h : FieldG c l f) (hl : HeaderText name x w l)
    (ho : headerOf f = some (name.map asciiLower)) (hp : Plain c name w)
    (hs : Ends name w) (ht : Stops Spec.wsp t) :
    ∃ f', field c (l ++ t) = .ok (t, f') ∧ headerOf f' = headerOf f ∧ joinWords f' = joinWords f := by
  obtain ⟨f', h1, h2, h3⟩ := field_exact h hl ho hp hs
  have := known_field (r := t) (h2.trans ho) (fieldG_recognized h ho) rfl h1 ht
  rw [← hl.text] at this
  exact ⟨f', this, h2, h3⟩

end EmailParser
