import Verif.Proofs.Exact
import Verif.Proofs.Complete.Message
import Verif.Spec.ExactTrace
/-
Trace header lines in the grammar are laid out in the way the readers expect.
-/
namespace EmailParser
open Spec

variable {α : Type} {c : Cfg}

/-! ### Tokens -/

theorem tokenItems_cons (v : ReceivedToken) (vs : List ReceivedToken) :
    tokenItems (v :: vs) = tokenItems [v] ++ tokenItems vs := by
  cases v <;> simp [tokenItems]

theorem dotParts_grow {lax : Bool} {s f s' : Bytes} {vs vs' : List Bytes}
    (h : Gram.star (do
      Gram.lit (b! ".")
      let v ← DotPart lax
      pure (b! "." ++ v)) s vs) (hf : f ≠ [] ∧ ∀ b ∈ f, atext b = true)
    (h' : Gram.star (do
      Gram.lit (b! ".")
      let v ← DotPart lax
      pure (b! "." ++ v)) s' vs') (hne : vs ≠ []) :
    ∃ vs'', Gram.star (do
      Gram.lit (b! ".")
      let v ← DotPart lax
      pure (b! "." ++ v)) (s ++ (f ++ s')) vs'' := by
  induction h with
  | nil => exact absurd rfl hne
  | @cons w₁ w₂ v vs hp hs ih =>
    cases hs with
    | nil =>
      obtain ⟨_, _, _, rfl, rfl, p, _, v, rfl, hv, rfl, rfl⟩ := hp
      have hj : DotPart lax (p ++ f) (p ++ f) := by
        have hall : ∀ b ∈ p ++ f, atext b = true := by
          intro b hb
          rcases List.mem_append.mp hb with hb | hb
          · unfold DotPart at hv
            split at hv
            · obtain ⟨-, hv⟩ := hv
              exact hv b hb
            · obtain ⟨-, -, hv⟩ := hv
              exact hv b hb
          · exact hf.2 b hb
        unfold DotPart
        split
        · exact ⟨rfl, hall⟩
        · exact ⟨rfl, by simp [hf.1], hall⟩
      refine ⟨(b! "." ++ (p ++ f)) :: vs', ?_⟩
      rw [show b! "." ++ (p ++ []) ++ [] ++ (f ++ s') = b! "." ++ ((p ++ f) ++ []) ++ s' by simp]
      exact .cons ⟨_, _, (), rfl, rfl, p ++ f, [], _, rfl, hj, rfl, rfl⟩ h'
    | cons hp' hs' =>
      obtain ⟨vs'', h''⟩ := ih (by simp)
      exact ⟨_, by rw [List.append_assoc]; exact .cons hp h''⟩

/-- Two dot-atoms without anything between them are one. -/
theorem dotAtomText_join {lax : Bool} {x y : Bytes} (hx : DotAtomText lax x x) (hy : DotAtomText lax y y) :
    DotAtomText lax (x ++ y) (x ++ y) := by
  have key : ∃ v, DotAtomText lax (x ++ y) v := by
    obtain ⟨f, _, v, rfl, ⟨rfl, hne, hf⟩, s, _, vs, rfl, hs, rfl, -⟩ := hx
    obtain ⟨f', _, v', rfl, ⟨rfl, hne', hf'⟩, s', _, vs', rfl, hs', rfl, -⟩ := hy
    cases hs with
    | nil =>
      refine ⟨(v ++ v') ++ vs'.flatten, v ++ v', s' ++ [], _, by simp, ⟨rfl, by simp [hne], ?_⟩, s', [], vs', by simp, hs', rfl, rfl⟩
      intro b hb
      rcases List.mem_append.mp hb with hb | hb
      · exact hf b hb
      · exact hf' b hb
    | cons hp hs =>
      obtain ⟨vs'', h''⟩ := dotParts_grow (.cons hp hs) ⟨hne', hf'⟩ hs' (by simp)
      exact ⟨_, v, _, v, by simp only [List.append_nil, List.append_assoc]; rfl, ⟨rfl, hne, hf⟩, _, [], vs'',
        by simp only [List.append_nil, List.append_assoc], h'', rfl, rfl⟩
  obtain ⟨v, h⟩ := key
  have := dotAtomText_value h
  subst this
  exact h

theorem dotAtomText_atom {lax : Bool} {x : Bytes} (h : DotAtomText lax x x) (hd : 46 ∉ x) :
    x ≠ [] ∧ ∀ b ∈ x, atext b = true := by
  obtain ⟨f, _, v, rfl, ⟨rfl, hne, hf⟩, s, _, vs, rfl, hs, rfl, -⟩ := h
  cases hs with
  | nil => simpa using ⟨hne, hf⟩
  | cons hp hs =>
    obtain ⟨_, _, _, rfl, rfl, _⟩ := hp
    simp at hd

theorem atom_dotAtomText {lax : Bool} {x : Bytes} (hne : x ≠ []) (hx : ∀ b ∈ x, atext b = true) : DotAtomText lax x x :=
  ⟨x, [], x, by simp, ⟨rfl, hne, hx⟩, [], [], [], rfl, .nil, rfl, by simp⟩

/-- Text of atoms and dots is one token. -/
theorem bare_token {x : Bytes} (h : DotAtomText c.feat.compatibilityFixes x x) :
    ∃ v, ReceivedTokenL c x true v ∧ tokenItems [v] = x.map .inl := by
  by_cases hd : 46 ∈ x
  · exact ⟨_, .dotted h hd, by simp [tokenItems]⟩
  · obtain ⟨h1, h2⟩ := dotAtomText_atom h hd
    exact ⟨_, .atom h1 h2, by simp [tokenItems]⟩

theorem token_bare {x : Bytes} {v : ReceivedToken} (h : ReceivedTokenL c x true v) :
    DotAtomText c.feat.compatibilityFixes x x ∧ tokenItems [v] = x.map .inl := by
  cases h with
  | atom h1 h2 => exact ⟨atom_dotAtomText h1 h2, by simp [tokenItems]⟩
  | dotted h _ => exact ⟨h, by simp [tokenItems]⟩

/-- A token between comments and white space. -/
theorem token_parts {w : Bytes} {v : ReceivedToken} (h : TokenG c.feat.compatibilityFixes w v) (hn : w.count 40 ≤ c.stack) :
    ∃ g x t bare v', w = g ++ (x ++ t) ∧ Gap c g () ∧ Gap c t () ∧ ReceivedTokenL c x bare v' ∧
      tokenItems [v'] = tokenItems [v] := by
  cases v with
  | word y =>
    rcases word_depth h hn with ⟨g, _, _, rfl, hg, x, _, v, rfl, ⟨rfl, hne, hx⟩, t, _, _, rfl, ht, rfl, rfl⟩ |
      ⟨g, _, _, rfl, hg, a, _, _, rfl, ha, s, _, vs, rfl, hs, f, _, fv, rfl, hf, b, _, _, rfl, hb, t, _, _, rfl, ht, rfl, rfl⟩
    · exact ⟨g, y, t, _, _, by simp, hg, ht, .atom hne hx, rfl⟩
    · exact ⟨g, a ++ (s ++ (f ++ (b ++ []))), t, _, _, by simp, hg, ht,
        .quoted ⟨a, _, (), rfl, ha, s, _, vs, rfl, hs, f, _, fv, rfl, hf, b, [], (), rfl, hb, rfl, rfl⟩, rfl⟩
  | addr a =>
    obtain ⟨g, _, _, rfl, hg, _, _, _, rfl, rfl, x, _, v, rfl, hx, _, _, _, rfl, rfl, t, _, _, rfl, ht, rfl, rfl⟩ :=
      angleAddr_depth (c := c) h hn
    exact ⟨g, 60 :: (x ++ [62]), t, _, _, by simp, hg, ht, .addr hx, rfl⟩
  | domain d =>
    rcases domain_depth (c := c) h hn with ⟨g, _, _, rfl, hg, x, _, v, rfl, hx, t, _, _, rfl, ht, rfl, rfl⟩ |
      ⟨g, _, _, rfl, hg, a, _, _, rfl, ha, s, _, vs, rfl, hs, f, _, fv, rfl, hf, b, _, _, rfl, hb, t, _, _, rfl, ht, rfl, rfl⟩
    · have := dotAtomText_value hx
      subst this
      obtain ⟨v', h1, h2⟩ := bare_token hx
      exact ⟨g, d, t, _, _, by simp, hg, ht, h1, by rw [h2]; simp [tokenItems]⟩
    · exact ⟨g, a ++ (s ++ (f ++ (b ++ []))), t, _, _, by simp, hg, ht,
        .literal ⟨a, _, (), rfl, ha, s, _, vs, rfl, hs, f, _, fv, rfl, hf, b, [], (), rfl, hb, rfl, rfl⟩, rfl⟩

/-- One more token before the others; two bare ones without anything between them are one. -/
theorem tokens_cons {x t s : Bytes} {bare : Bool} {v : ReceivedToken} {vs : List ReceivedToken}
    (hx : ReceivedTokenL c x bare v) (ht : Gap c t ()) (hs : ReceivedTokensL c s vs) :
    ∃ vs', ReceivedTokensL c (x ++ (t ++ s)) vs' ∧ x ++ (t ++ s) ≠ [] ∧ tokenItems vs' = tokenItems (v :: vs) := by
  have hne : x ++ (t ++ s) ≠ [] := by
    obtain ⟨b, x', rfl, -⟩ := receivedTokenL_head hx
    simp
  by_cases hn : bare = true → t = [] → NotBefore atext s
  · exact ⟨_, .cons hx ht hn hs, hne, rfl⟩
  · simp only [Classical.not_imp] at hn
    obtain ⟨rfl, rfl, hb⟩ := hn
    obtain ⟨h1, h2⟩ := token_bare hx
    cases hs with
    | nil => exact absurd (stops_nil (p := atext)) hb
    | @cons x' bare' v' t' s' vs' hx' ht' hn' hs' =>
      cases bare' with
      | false =>
        refine absurd ?_ hb
        cases hx' with
        | quoted h =>
          obtain ⟨y, rfl⟩ := quoted_head h
          exact stops_cons (p := atext).mpr (by decide)
        | literal h =>
          obtain ⟨y, rfl⟩ := literal_head h
          exact stops_cons (p := atext).mpr (by decide)
        | addr h => exact stops_cons (p := atext).mpr (by decide)
      | true =>
        obtain ⟨h3, h4⟩ := token_bare hx'
        obtain ⟨v'', h5, h6⟩ := bare_token (dotAtomText_join h1 h3)
        refine ⟨v'' :: vs', ?_, hne, ?_⟩
        · have := ReceivedTokensL.cons h5 ht' hn' hs'
          simpa using this
        · rw [tokenItems_cons v'', tokenItems_cons v, tokenItems_cons v', h6, h2, h4]
          simp

theorem tokens_exact {s : Bytes} {vs : List ReceivedToken} (h : Gram.star (TokenG c.feat.compatibilityFixes) s vs)
    (hd : s.count 40 ≤ c.stack) (hw : NoWhiteLine s) :
    ∃ g s' vs', s = g ++ s' ∧ Gap c g () ∧ (s' = [] → g = []) ∧ ReceivedTokensL c s' vs' ∧ tokenItems vs' = tokenItems vs := by
  induction h with
  | nil => exact ⟨[], [], [], rfl, gap_nil, fun _ => rfl, .nil, rfl⟩
  | @cons w₁ w₂ v vs hp hs ih =>
    rw [List.count_append] at hd
    obtain ⟨g, x, t, bare, v', rfl, hg, ht, hx, hi⟩ := token_parts hp (by omega)
    obtain ⟨g', s', vs', rfl, h2, -, h3, h4⟩ := ih (by omega) hw.right
    have hj := gap_join ht h2 (hw.infix (u := t ++ g') ⟨g ++ x, s', by simp⟩)
    obtain ⟨vs'', h5, h6, h7⟩ := tokens_cons hx hj h3
    refine ⟨g, x ++ ((t ++ g') ++ s'), vs'', by simp, hg, fun h => absurd h h6, h5, ?_⟩
    rw [h7, tokenItems_cons v', tokenItems_cons v, hi, h4]

theorem solid_suffix {a w : Bytes} (h : Solid (a ++ w)) : Solid w := fun u b e => h (a ++ u) b (by rw [e]; simp)

/-- The value of a `Received` line. -/
theorem received_exact {w : Bytes} {v : List ReceivedToken × DateTime} (h : TokensDate c.feat.compatibilityFixes w v)
    (hd : w.count 40 ≤ c.stack) (hw : NoWhiteLine w) (hs : Solid w) :
    ∃ v', ReceivedL c w v' ∧ tokenItems v'.1 = tokenItems v.1 ∧ v'.2 = v.2 := by
  obtain ⟨s, _, vs, rfl, h1, _, _, _, rfl, rfl, d, _, date, rfl, h2, rfl, rfl⟩ := h
  simp only [List.append_nil] at hd hw hs ⊢
  have hd' := hd
  simp only [List.count_append] at hd'
  obtain ⟨g, s', vs', rfl, h3, h4, h5, h6⟩ := tokens_exact h1 (by omega) hw.left
  refine ⟨(vs', date), ⟨g, s', d, by simp, h3, h4, h5, dateTime_depth h2 (by omega), ?_⟩, h6, rfl⟩
  exact solid_suffix (a := g ++ s' ++ b! ";") (by simpa using hs)

/-! ### Addresses that are not between angle brackets -/

/-- If there is no word then there is no address without angle brackets. -/
theorem addrSpec_word {i : Bytes} {e : Error} (h : word c i = .err e) (r : Bytes × EmailAddress) : addrSpec c i ≠ .ok r := by
  have ha : ∃ e, atom c i = .err e := by
    unfold word matchParsers at h
    cases hx : atom c i with
    | ok a => rw [hx] at h; cases h
    | err e => exact ⟨e, rfl⟩
    | abort k => rw [hx] at h; cases h
  obtain ⟨e', ha⟩ := ha
  have hq : ∃ e, quotedString c i = .err e := by
    unfold word matchParsers at h
    rw [ha] at h
    unfold matchParsers at h
    cases hx : quotedString c i with
    | ok a => simp [hx] at h
    | err e => exact ⟨e, rfl⟩
    | abort k => simp [hx] at h
  obtain ⟨e'', hq⟩ := hq
  have hd : ∃ e, dotAtom c i = .err e := by
    unfold atom at ha
    unfold dotAtom
    cases hs : skipCfws c i with
    | err e => exact ⟨_, rfl⟩
    | abort k => rw [hs] at ha; cases ha
    | ok j =>
      rw [hs, ok_bind] at ha
      rw [ok_bind]
      unfold dotAtomText
      cases ht : takeWhile1 j isAtext with
      | err e => exact ⟨_, rfl⟩
      | abort k => rw [ht] at ha; cases ha
      | ok a =>
        rw [ht] at ha
        have ha : (skipCfws c a.1 >>= fun input => Outcome.ok (input, a.2)) = .err e' := ha
        cases hs' : skipCfws c a.1 with
        | err e => exact absurd hs' (by unfold skipCfws; split <;> simp)
        | abort k => rw [hs'] at ha; cases ha
        | ok a => rw [hs'] at ha; cases ha
  obtain ⟨e₃, hd⟩ := hd
  intro hr
  simp only [addrSpec, localPart, matchParsers, hd, hq] at hr
  cases hr

theorem receivedToken_tokens : Parses (aborts c) (TokenG c.feat.compatibilityFixes) (receivedToken c) := by
  intro i
  have h := receivedToken_parses (c := c) i
  cases hx : receivedToken c i with
  | err e => exact .err
  | abort k => rw [hx] at h; exact h
  | ok a =>
    obtain ⟨r, v⟩ := a
    rw [hx] at h
    obtain ⟨w, hi, hw⟩ := h
    cases v with
    | word x => exact ⟨w, hi, hw⟩
    | domain d => exact ⟨w, hi, hw⟩
    | addr a =>
      have h2 := angleAddr_parses (c := c) i
      unfold receivedToken at hx
      cases h1 : word c i with
      | abort k => simp [h1] at hx
      | ok b =>
        simp only [h1] at hx
        split at hx
        · split at hx <;> simp at hx
        · simp at hx
        · simp at hx
      | err e =>
        simp only [h1] at hx
        cases hy : angleAddr c i with
        | ok b =>
          rw [hy] at h2
          simp only [hy, Outcome.ok.injEq, Prod.mk.injEq, ReceivedToken.addr.injEq] at hx
          obtain ⟨rfl, rfl⟩ := hx
          exact h2
        | abort k => simp [hy] at hx
        | err e =>
          simp only [hy] at hx
          cases hz : addrSpec c i with
          | ok b => exact absurd hz (addrSpec_word h1 b)
          | abort k => simp [hz] at hx
          | err e =>
            simp only [hz] at hx
            split at hx <;> simp at hx

theorem tokenG_progress {lax : Bool} : Progress (TokenG lax) := fun w v h =>
  receivedToken_progress (lax := lax) w v (by cases v <;> first | exact h | exact .inl h)

theorem received_tokens : Parses (aborts c) (HeaderLine (b! "Received:") (TokensDate c.feat.compatibilityFixes)) (received c) := by
  refine headerLine_parses (by decide) ?_
  intro i
  unfold receivedValue
  refine .bind (many_parses tokenG_progress receivedToken_tokens i) fun r v w _ _ => ?_
  refine .bind (tag_parses _ _ r) fun r _ w _ _ => ?_
  refine .bind (dateTime_parses r) fun r v w _ _ => ?_
  exact .pure

/-! ### Return paths -/

theorem path_exact {w : Bytes} {v : Option EmailAddress} (h : Path c.feat.compatibilityFixes w v)
    (hd : w.count 40 ≤ c.stack) : ReturnPathL c w v := by
  rcases h with ⟨v, rfl, h⟩ | ⟨g, _, _, rfl, hg, _, _, _, rfl, rfl, g', _, _, rfl, hg', _, _, _, rfl, rfl, g'', _, _, rfl, hg'', rfl, rfl⟩
  · exact .address (angleAddr_depth h hd)
  · simp only [List.count_append] at hd
    have := ReturnPathL.empty (c := c) (gap_of_count hg (by omega)) (gap_of_count hg' (by omega)) (gap_of_count hg'' (by omega))
    simpa using this

/-! ### Names -/

theorem headerLine_name {nm name x w l : Bytes} {G : Gram α} {v : α} (hl : HeaderText name x w l)
    (h : HeaderLine (nm ++ b! ":") G l v) (hc : 58 ∉ nm) : name.map asciiLower = nm.map asciiLower := by
  obtain ⟨n, r, _, e, hn, -⟩ := h
  rw [hl.text] at e
  have hn : n.map asciiLower = nm.map asciiLower ++ [58] := by
    rw [hn, List.map_append]
    rfl
  obtain ⟨n', n'', rfl, h1, h2⟩ := List.map_eq_append_iff.mp hn
  obtain ⟨b, rfl, hb⟩ : ∃ b, n'' = [b] ∧ asciiLower b = 58 := by
    cases n'' with
    | nil => simp at h2
    | cons b t =>
      simp only [List.map_cons, List.cons.injEq, List.map_eq_nil_iff] at h2
      exact ⟨b, by rw [h2.2], h2.1⟩
  rw [lower_colon] at hb
  subst hb
  have hc' : 58 ∉ n' := by
    intro hm
    have : 58 ∈ nm.map asciiLower := by
      rw [← h1]
      exact List.mem_map.mpr ⟨58, hm, rfl⟩
    obtain ⟨b, hb, e⟩ := List.mem_map.mp this
    rw [lower_colon] at e
    exact hc (e ▸ hb)
  have := (first_colon (ftext_colon hl.name_chars) hc' (s := w ++ CRLF) (s' := r) (by simpa using e)).1
  rw [this, h1]

/-! ### Lines -/

theorem solid_line {p : Bytes → Res α} (hp : TraceHeader p) {name x w l t r : Bytes} {v : α} (hl : HeaderText name x w l)
    (ht : Stops wsp t) (h : p (l ++ t) = .ok (r, v)) : r = t ∧ Solid w := by
  refine hp (ftext_colon hl.name_chars) hl.folding ht (v := v) ?_
  rw [← h, hl.text]
  simp [lineText, CRLF]

/-- What a reader does with lines of which the grammar is `G` and the layout is `L`. -/
structure Exact (c : Cfg) (G L : Bytes → α → Prop) (p : Bytes → Res α) (w l : Bytes) : Prop where
  read : ∀ t v, Stops wsp t → (p (l ++ t) = .ok (t, v) ↔ L l v)
  grammar : (∃ v, L l v) ↔ ∃ v, G l v ∧ Solid w
  sound : ∀ v, L l v → G l v
  fail : (∀ v, ¬ L l v) → ∀ t, Stops wsp t → ∃ e, p (l ++ t) = .err e

theorem Exact.of {G : Gram α} {L : Bytes → α → Prop} {p : Bytes → Res α} {name x w l : Bytes} (hloc : LocalLine p)
    (htr : TraceHeader p) (hp : Parses (aborts c) G p) (hl : HeaderText name x w l)
    (hab : ∀ k, p l ≠ .abort k) (hr : ∀ v, L l v → p l = .ok ([], v)) (hx : ∀ v, G l v → Solid w → ∃ v', L l v') :
    Exact c G L p w l := by
  have hl' := hl.text
  have hsame : ∀ t, Stops wsp t → ∀ v, p l = .ok ([], v) → p (l ++ t) = .ok (t, v) := by
    intro t ht v h
    rcases hloc.cases (w := name ++ b! ":" ++ w) (t := []) (t' := t) ⟨stops_nil, ht⟩ with
      ⟨u, s, v', e, h1, h2⟩ | ⟨v', h1, h2⟩ | ⟨e, e', h1, h2⟩ | ⟨k, h1, h2⟩ <;>
      rw [show name ++ b! ":" ++ w ++ 13 :: 10 :: [] = l from hl'.symm, h] at h1
    · simp only [Outcome.ok.injEq, Prod.mk.injEq] at h1
      exact absurd h1.1 (by simp)
    · cases h1
      rw [hl', List.append_assoc]
      exact h2
    · cases h1
    · cases h1
  have hread : ∀ t v, Stops wsp t → p (l ++ t) = .ok (t, v) → ∃ v', L l v' := by
    intro t v ht h
    have hs := hp (l ++ t)
    rw [h] at hs
    obtain ⟨l', e, hg⟩ := hs
    rw [← List.append_cancel_right e] at hg
    exact hx v hg (solid_line htr hl ht h).2
  have hG : ∀ v, L l v → G l v ∧ Solid w := by
    intro v hv
    have h := hsame [] stops_nil v (hr v hv)
    have hs := hp (l ++ [])
    rw [h] at hs
    obtain ⟨l', e, hg⟩ := hs
    rw [← List.append_cancel_right e] at hg
    exact ⟨hg, (solid_line htr hl stops_nil h).2⟩
  refine ⟨fun t v ht => ⟨fun h => ?_, fun h => hsame t ht v (hr v h)⟩, ⟨fun ⟨v, h⟩ => ⟨v, hG v h⟩, fun ⟨v, h, hs⟩ => hx v h hs⟩,
    fun v h => (hG v h).1, fun hno t ht => ?_⟩
  · obtain ⟨v', h'⟩ := hread t v ht h
    have := hsame t ht v' (hr v' h')
    rw [h] at this
    cases this
    exact h'
  · cases h : p (l ++ t) with
    | err e => exact ⟨e, rfl⟩
    | ok a =>
      obtain ⟨r, v⟩ := a
      obtain ⟨rfl, -⟩ := solid_line htr hl ht h
      obtain ⟨v', h'⟩ := hread _ v ht h
      exact absurd h' (hno v')
    | abort k =>
      rcases hloc.cases (w := name ++ b! ":" ++ w) (t := []) (t' := t) ⟨stops_nil, ht⟩ with
        ⟨u, s, v', e, h1, h2⟩ | ⟨v', h1, h2⟩ | ⟨e, e', h1, h2⟩ | ⟨k', h1, h2⟩
      all_goals
        rw [show name ++ b! ":" ++ w ++ 13 :: 10 :: t = l ++ t by rw [hl']; simp [CRLF], h] at h2
        cases h2
      rw [show name ++ b! ":" ++ w ++ 13 :: 10 :: [] = l from hl'.symm] at h1
      exact absurd h1 (hab _)

theorem traceNames_letters : ∀ n ∈ traceNames, 40 ∉ n ∧ 42 ∉ n := by decide +kernel

theorem trace_no_abort {G : Gram α} {p : Bytes → Res α} {name x w l : Bytes} (hp : Parses (aborts c) G p)
    (hl : HeaderText name x w l) (hn : name.map asciiLower ∈ traceNames → Fits c w)
    (ho : name.map asciiLower ∉ traceNames → ∃ e, p l = .err e) (k : Abort) : p l ≠ .abort k := by
  intro ha
  by_cases hm : name.map asciiLower ∈ traceNames
  · have hs := hp l
    rw [ha] at hs
    obtain ⟨h40, h42⟩ := traceNames_letters _ hm
    have n40 : 40 ∉ name := fun hm => h40 (List.mem_map.mpr ⟨40, hm, rfl⟩)
    have n42 : 42 ∉ name := fun hm => h42 (List.mem_map.mpr ⟨42, hm, rfl⟩)
    have c40 : l.count 40 = w.count 40 := by
      rw [hl.text]
      simp [List.count_append, List.count_eq_zero.mpr n40, CRLF]
    have c42 : l.count 42 = w.count 42 := by
      rw [hl.text]
      simp [List.count_append, List.count_eq_zero.mpr n42, CRLF]
    have hf := hn hm
    rcases hs with ⟨-, hs⟩ | ⟨-, ho, hm, hs⟩
    · have := hf.depth
      omega
    · have := hf.stars ho
      omega
  · obtain ⟨e, he⟩ := ho hm
    rw [he] at ha
    cases ha

theorem lineText_nil {name x w l : Bytes} (hl : HeaderText name x w l) : l = lineText name w [] := by
  rw [hl.text]
  simp [lineText, CRLF]

theorem returnPath_exact {name x w l : Bytes} (hl : HeaderText name x w l)
    (hn : name.map asciiLower ∈ traceNames → Fits c w) :
    Exact c (HeaderLine (b! "Return-Path:") (Path c.feat.compatibilityFixes)) (ReturnPathLineL c) (returnPath c) w l := by
  have hh := headerLine_header (n := b! "Return-Path") rfl rfl (by decide) (returnPath_local (c := c))
    (whole_of_on (fun _ => returnPathValue_on) true)
  refine .of returnPath_local returnPath_trace returnPath_parses hl
    (trace_no_abort returnPath_parses hl hn fun h => ?_) (fun _ => returnPathL_line) fun v hv hs => ?_
  · rw [lineText_nil hl]
    exact hh.other (ftext_colon hl.name_chars) fun e => h (by rw [e]; decide)
  · have hnm := headerLine_name (nm := b! "Return-Path") hl hv (by decide)
    have hw := header_value (nm := b! "Return-Path") hv hl.text hnm
    exact ⟨v, name, w, hl.text, by rw [hnm]; rfl, path_exact hw (hn (by rw [hnm]; decide)).depth, hs⟩

theorem received_line_exact {name x w l : Bytes} (hl : HeaderText name x w l)
    (hn : name.map asciiLower ∈ traceNames → Fits c w) :
    Exact c (HeaderLine (b! "Received:") (TokensDate c.feat.compatibilityFixes)) (ReceivedLineL c) (received c) w l := by
  have hh := headerLine_header (n := b! "Received") rfl rfl (by decide) (received_local (c := c))
    (whole_of_on (fun _ => receivedValue_on) true)
  refine .of received_local received_trace received_tokens hl
    (trace_no_abort received_tokens hl hn fun h => ?_) (fun _ => receivedL_line) fun v hv hs => ?_
  · rw [lineText_nil hl]
    exact hh.other (ftext_colon hl.name_chars) fun e => h (by rw [e]; decide)
  · have hnm := headerLine_name (nm := b! "Received") hl hv (by decide)
    have hw := header_value (nm := b! "Received") hv hl.text hnm
    obtain ⟨v', h1, -⟩ := received_exact hw (hn (by rw [hnm]; decide)).depth (folding_noWhiteLine hl.folding) hs
    exact ⟨v', name, w, hl.text, by rw [hnm]; rfl, h1⟩

/-- The grammar of the value of a resent line. -/
def ResentValue (c : Cfg) (w : Bytes) : TraceField → Prop
  | .date v => DateTimeG w v
  | .from v => MailboxList c w v
  | .sender v => MailboxG c w v
  | .to v => AddressList c w v
  | .cc v => AddressList c w v
  | .bcc v => Bcc c w v
  | .messageId v => MessageId c.feat.compatibilityFixes w v

/-- The header of which the line is a copy. -/
theorem resent_name {name x w l : Bytes} {f : TraceField} (hl : HeaderText name x w l) (h : ResentG c l f) :
    ∃ nm, headerOf (resentField f) = some nm ∧ name.map asciiLower = b! "resent-" ++ nm ∧ ResentValue c w f := by
  obtain ⟨n, r, _, e, hn, h⟩ := h
  have hn : n.map asciiLower = b! "resent-" := hn
  have h58 : 58 ∉ n := fun hm => absurd (hn ▸ List.mem_map.mpr ⟨58, hm, rfl⟩ : 58 ∈ b! "resent-") (by decide)
  have hl' := hl.text
  rw [e] at hl'
  obtain ⟨u, rfl, e'⟩ := prefix_no_colon h58 (name := name) (rest := w ++ CRLF) (r := r) (by rw [hl']; simp)
  have ht : u ≠ [] → HeaderText u x w r := fun hu =>
    ⟨by rw [e']; simp, hu, fun b hb => hl.name_chars b (by simp [hb]), hl.folding⟩
  have key : ∀ {α : Type} (nm : Bytes) {G : Gram α} {v : α}, HeaderLine (nm ++ b! ":") G r v → 58 ∉ nm → nm ≠ [] →
      (n ++ u).map asciiLower = b! "resent-" ++ nm.map asciiLower ∧ G w v := by
    intro α nm G v h hc hne
    have hu : u ≠ [] := by
      rintro rfl
      obtain ⟨m, r', _, e'', hm, -⟩ := h
      have hm : m.map asciiLower = (nm ++ b! ":").map asciiLower := hm
      rw [e'] at e''
      cases nm with
      | nil => exact hne rfl
      | cons a nm =>
        cases m with
        | nil => simp at hm
        | cons b m =>
          simp only [List.map_cons, List.cons_append, List.cons.injEq] at hm
          simp only [List.nil_append, List.cons_append, List.cons.injEq] at e''
          rw [← e''.1] at hm
          have : asciiLower a = 58 := hm.1.symm
          rw [lower_colon] at this
          simp [this] at hc
    have hnm := headerLine_name (ht hu) h hc
    exact ⟨by rw [List.map_append, hn, hnm], header_value h (ht hu).text hnm⟩
  cases f with
  | date v => exact ⟨_, rfl, key (b! "Date") (G := DateTimeG) (v := v) h (by decide) (by decide)⟩
  | «from» v => exact ⟨_, rfl, key (b! "From") (G := MailboxList c) (v := v) h (by decide) (by decide)⟩
  | sender v => exact ⟨_, rfl, key (b! "Sender") (G := MailboxG c) (v := v) h (by decide) (by decide)⟩
  | to v => exact ⟨_, rfl, key (b! "To") (G := AddressList c) (v := v) h (by decide) (by decide)⟩
  | cc v => exact ⟨_, rfl, key (b! "Cc") (G := AddressList c) (v := v) h (by decide) (by decide)⟩
  | bcc v => exact ⟨_, rfl, key (b! "Bcc") (G := Bcc c) (v := v) h (by decide) (by decide)⟩
  | messageId v => exact ⟨_, rfl, key (b! "Message-ID") (G := MessageId c.feat.compatibilityFixes) (v := v) h (by decide) (by decide)⟩

theorem resentValue_exact {w : Bytes} {f : TraceField} (h : ResentValue c w f) (hw : Fine c w) (hs : Solid w) :
    ∃ f', ValueL c w (resentField f') ∧ headerOf (resentField f') = headerOf (resentField f) ∧
      joinWords (resentField f') = joinWords (resentField f) := by
  cases f with
  | date v => exact ⟨.date v, ⟨dateTime_depth h hw.depth, hs⟩, rfl, rfl⟩
  | «from» v =>
    obtain ⟨v', h1, h2⟩ := commas_exact h hw fun _ _ => mailbox_exact
    exact ⟨.from v', ⟨h1, hs⟩, rfl, by simp only [resentField, joinWords, h2]⟩
  | sender v =>
    obtain ⟨v', h1, h2⟩ := mailbox_exact h hw
    exact ⟨.sender v', ⟨h1, hs⟩, rfl, by simp only [resentField, joinWords, h2]⟩
  | to v =>
    obtain ⟨v', h1, h2⟩ := commas_exact h hw fun _ _ => address_exact
    exact ⟨.to v', ⟨h1, hs⟩, rfl, by simp only [resentField, joinWords, h2]⟩
  | cc v =>
    obtain ⟨v', h1, h2⟩ := commas_exact h hw fun _ _ => address_exact
    exact ⟨.cc v', ⟨h1, hs⟩, rfl, by simp only [resentField, joinWords, h2]⟩
  | bcc v =>
    obtain ⟨v', h1, h2⟩ := bcc_exact h hw
    exact ⟨.bcc v', ⟨h1, hs⟩, rfl, by simp only [resentField, joinWords, h2]⟩
  | messageId v => exact ⟨.messageId v, ⟨messageId_depth h hw.depth, hs⟩, rfl, rfl⟩

theorem resentG_layout {name x w l : Bytes} {f : TraceField} (hl : HeaderText name x w l) (h : ResentG c l f)
    (hw : Fine c w) (hs : Solid w) : ∃ f', ResentLineL c l f' ∧ headerOf (resentField f') = headerOf (resentField f) ∧
      joinWords (resentField f') = joinWords (resentField f) := by
  obtain ⟨nm, h1, h2, h3⟩ := resent_name hl h
  obtain ⟨f', h4, h5, h6⟩ := resentValue_exact h3 hw hs
  exact ⟨f', ⟨nm, name, w, hl.text, h5.trans h1, h2, h4⟩, h5, h6⟩

theorem resentNames : ∀ {f : TraceField} {nm : Bytes}, headerOf (resentField f) = some nm → b! "resent-" ++ nm ∈ traceNames := by
  intro f nm h
  cases f <;> cases h <;> decide

/-- Lines with other names are not resent lines. -/
theorem resent_unnamed {name x w l : Bytes} (hl : HeaderText name x w l) (hn : name.map asciiLower ∉ traceNames) :
    ∃ e, matchParsers l (traceFieldParsers c) = .err e := by
  by_cases hp : b! "resent-" <+: name.map asciiLower
  · obtain ⟨r, hr⟩ := hp
    obtain ⟨n, u, rfl, h1, h2⟩ := List.map_eq_append_iff.mp hr.symm
    have e : l = n ++ (u ++ b! ":" ++ (w ++ CRLF)) := by rw [hl.text]; simp
    rw [e]
    refine matchParsers_all_err fun p hp => ?_
    obtain ⟨e, he, rfl⟩ : ∃ e ∈ resentTable c, e.2 = p := by
      simp only [traceFieldParsers, List.mem_cons, List.not_mem_nil, or_false] at hp
      rcases hp with rfl | rfl | rfl | rfl | rfl | rfl | rfl <;> simp [resentTable]
    refine resentTable_other h1 e he fun hm => hn ?_
    have hu : 58 ∉ u.map asciiLower := fun hm => by
      obtain ⟨b, hb, e⟩ := List.mem_map.mp hm
      rw [lower_colon] at e
      exact ftext_colon hl.name_chars (by simp [← e, hb])
    rw [List.map_append, List.map_append] at hm
    have h58 : 58 ∉ e.1 := by
      simp only [resentTable, List.mem_cons, List.not_mem_nil, or_false] at he
      rcases he with rfl | rfl | rfl | rfl | rfl | rfl | rfl <;> dsimp only <;> decide
    rw [← hr, ← h2, ← prefix_name hu h58 hm]
    simp only [resentTable, List.mem_cons, List.not_mem_nil, or_false] at he
    rcases he with rfl | rfl | rfl | rfl | rfl | rfl | rfl <;> dsimp only <;> decide
  · refine resent_lines.other _ fun hm => hp ?_
    rw [hl.text, List.map_append, List.map_append, List.map_append, show (b! ":").map asciiLower = b! ":" from rfl] at hm
    exact prefix_before (n := name.map asciiLower) (s := w.map asciiLower ++ CRLF.map asciiLower) (by decide)
      (by rwa [List.append_assoc] at hm)

theorem resent_exact {name x w l : Bytes} (hl : HeaderText name x w l)
    (hn : name.map asciiLower ∈ traceNames → FitsTrace c name w) :
    Exact c (ResentG c) (ResentLineL c) (fun i => matchParsers i (traceFieldParsers c)) w l := by
  refine .of traceFields_local traceFields_trace traceFields_parses hl
    (trace_no_abort traceFields_parses hl (fun h => (hn h).fits) (resent_unnamed hl)) (fun _ => resentL_line) fun v hv hs => ?_
  obtain ⟨nm, h1, h2, -⟩ := resent_name hl hv
  have hf := hn (by rw [h2]; exact resentNames h1)
  obtain ⟨f', h, -⟩ := resentG_layout hl hv ⟨hf.fits.depth, folding_noWhiteLine hl.folding,
    fun hm => hf.words hm (by rw [h2]; exact List.prefix_append _ _)⟩ hs
  exact ⟨f', h⟩

/-! ### Blocks -/

theorem texts_stops {ls : List Bytes} {tail : Bytes} (h : ∀ l ∈ ls, TraceWithin c l) (ht : Stops wsp tail) :
    Stops wsp (ls.flatten ++ tail) := by
  cases ls with
  | nil => simpa using ht
  | cons l ls =>
    obtain ⟨name, x, w, hl, -⟩ := h l (by simp)
    cases name with
    | nil => exact absurd rfl hl.name_ne
    | cons b name =>
      rw [List.flatten_cons, hl.text]
      exact stops_cons.mpr (by
        have h1 := hl.name_chars b (by simp)
        revert h1
        have key : ∀ b : UInt8, ftext b = true → wsp b = false := by decide +kernel
        exact key b)

theorem text_ne_nil {l : Bytes} (h : TraceWithin c l) : l ≠ [] := by
  obtain ⟨name, x, w, hl, -⟩ := h
  rw [hl.text]
  simp

/-- What is needed of a reader of lines. -/
def ReadsLine (L : Bytes → α → Prop) (p : Bytes → Res α) (l : Bytes) : Prop :=
  ∀ t, Stops wsp t → (∀ v, L l v → p (l ++ t) = .ok (t, v)) ∧ ((∀ v, ¬ L l v) → ∃ e, p (l ++ t) = .err e)

theorem Exact.reads {G L : Bytes → α → Prop} {p : Bytes → Res α} {w l : Bytes} (h : Exact c G L p w l) : ReadsLine L p l :=
  fun t ht => ⟨fun v => (h.read t v ht).mpr, fun hno => h.fail hno t ht⟩

theorem returnPath_reads {l : Bytes} : TraceWithin c l → ReadsLine (ReturnPathLineL c) (returnPath c) l := by
  rintro ⟨name, x, w, hl, hn⟩
  exact (returnPath_exact hl hn).reads

theorem received_reads {l : Bytes} : TraceWithin c l → ReadsLine (ReceivedLineL c) (received c) l := by
  rintro ⟨name, x, w, hl, hn⟩
  exact (received_line_exact hl hn).reads

theorem resent_reads {l : Bytes} : TraceText c l → ReadsLine (ResentLineL c) (fun i => matchParsers i (traceFieldParsers c)) l := by
  rintro ⟨name, x, w, hl, hn⟩
  exact (resent_exact hl hn).reads

theorem _root_.EmailParser.Spec.TraceText.within {l : Bytes} : TraceText c l → TraceWithin c l :=
  fun ⟨name, x, w, hl, hn⟩ => ⟨name, x, w, hl, fun h => (hn h).fits⟩

theorem _root_.EmailParser.Spec.Run.suffix {L : Bytes → α → Prop} {ls rest : List Bytes} {vs : List α} (h : Run L ls vs rest) : rest <:+ ls := by
  induction h with
  | stop => exact List.suffix_refl _
  | next _ _ ih => exact ih.trans (List.suffix_cons _ _)

theorem run_many {L : Bytes → α → Prop} {p : Bytes → Res α} {ls rest : List Bytes} {vs : List α} {tail : Bytes}
    (h : Run L ls vs rest) (hp : ∀ l ∈ ls, ReadsLine L p l) (hls : ∀ l ∈ ls, TraceWithin c l) (ht : Stops wsp tail) (he : ∃ e, p tail = .err e) :
    many (ls.flatten ++ tail) p = .ok (rest.flatten ++ tail, vs) := by
  induction h with
  | @stop ls hno =>
    refine many_err ?_
    cases ls with
    | nil => simpa using he
    | cons l ls =>
      rw [List.flatten_cons, List.append_assoc]
      exact (hp l (by simp) _ (texts_stops (fun l h => hls l (by simp [h])) ht)).2 fun v => hno l ls v rfl
  | @next l v ls vs rest hl _ ih =>
    have h1 := (hp l (by simp) _ (texts_stops (ls := ls) (fun l h => hls l (by simp [h])) ht)).1 v hl
    rw [List.flatten_cons, List.append_assoc]
    refine many_cons h1 ?_ (ih (fun l h => hp l (by simp [h])) fun l h => hls l (by simp [h]))
    have := List.length_pos_iff.mpr (text_ne_nil (hls l (by simp)))
    simp only [List.length_append]
    omega

theorem run_nil {L : Bytes → α → Prop} {p : Bytes → Res α} {ls rest : List Bytes} {tail : Bytes}
    (h : Run L ls [] rest) (hp : ∀ l ∈ ls, ReadsLine L p l) (hls : ∀ l ∈ ls, TraceWithin c l) (ht : Stops wsp tail) (he : ∃ e, p tail = .err e) :
    ∃ e, p (ls.flatten ++ tail) = .err e := by
  cases h with
  | stop hno =>
    cases ls with
    | nil => simpa using he
    | cons l ls =>
      rw [List.flatten_cons, List.append_assoc]
      exact (hp l (by simp) _ (texts_stops (fun l h => hls l (by simp [h])) ht)).2 fun v => hno l ls v rfl

theorem firstPath_optional {ls ls' : List Bytes} {path : Option (Option EmailAddress)} {tail : Bytes}
    (h : FirstPath c ls path ls') (hls : ∀ l ∈ ls, TraceWithin c l) (ht : Stops wsp tail)
    (he : ∃ e, returnPath c tail = .err e) :
    optional (ls.flatten ++ tail) (returnPath c) = .ok (ls'.flatten ++ tail, path) ∧ ls' <:+ ls := by
  cases h with
  | none hno =>
    obtain ⟨e, h⟩ := run_nil (.stop hno) (fun l h => returnPath_reads (hls l h)) hls ht he
    refine ⟨?_, List.suffix_refl _⟩
    unfold optional
    rw [h]
  | @some l v ls hl =>
    have h1 := (returnPath_reads (hls l (by simp)) _ (texts_stops (ls := ls') (fun l h => hls l (by simp [h])) ht)).1 v hl
    refine ⟨?_, List.suffix_cons _ _⟩
    unfold optional
    rw [List.flatten_cons, List.append_assoc, h1]

theorem division_many {R : Bytes → TraceField → Prop} {ls rest : List Bytes} {fs : List Field} {tail : Bytes}
    (h : DivisionBy c R ls fs rest) (hls : ∀ l ∈ ls, TraceWithin c l)
    (hR : ∀ l ∈ ls, ReadsLine R (fun i => matchParsers i (traceFieldParsers c)) l) (hq : Quiet c tail) :
    many (ls.flatten ++ tail) (traceBlock c) = .ok (rest.flatten ++ tail, fs) ∧ rest <:+ ls := by
  induction h with
  | @stop ls path ls' hp hr =>
    refine ⟨many_err ?_, List.suffix_refl _⟩
    obtain ⟨h1, h2⟩ := firstPath_optional hp hls hq.stops hq.returnPath
    obtain ⟨e, h3⟩ := run_nil hr (fun l h => received_reads (hls l (h2.mem h))) (fun l h => hls l (h2.mem h)) hq.stops hq.received
    exact ⟨e, by simp [traceBlock, trace, h1, many1, h3]⟩
  | @block ls path ls₁ received ls₂ resent ls₃ fs rest hp hr hne hs _ ih =>
    obtain ⟨h1, s1⟩ := firstPath_optional hp hls hq.stops hq.returnPath
    have k1 : ∀ l ∈ ls₁, TraceWithin c l := fun l h => hls l (s1.mem h)
    have s2 := hr.suffix
    have k2 : ∀ l ∈ ls₂, TraceWithin c l := fun l h => k1 l (s2.mem h)
    have s3 := hs.suffix
    have h4 := run_many hs (fun l h => hR l (s1.mem (s2.mem h))) k2 hq.stops hq.resent
    obtain ⟨h5, s4⟩ := ih (fun l h => k2 l (s3.mem h)) fun l h => hR l (s1.mem (s2.mem (s3.mem h)))
    have h2 : many1 (ls₁.flatten ++ tail) (EmailParser.received c) = .ok (ls₂.flatten ++ tail, received) := by
      cases hr with
      | stop => exact absurd rfl hne
      | @next l v ls₁ vs _ hl hr =>
        have e1 := (received_reads (k1 l (by simp)) _ (texts_stops (ls := ls₁) (fun l h => k1 l (by simp [h])) hq.stops)).1 v hl
        have e2 := run_many hr (fun l h => received_reads (k1 l (by simp [h]))) (fun l h => k1 l (by simp [h])) hq.stops hq.received
        unfold many at e2
        unfold many1
        rw [List.flatten_cons, List.append_assoc, e1, ok_bind]
        dsimp only
        rw [e2, ok_bind]
    have hb : traceBlock c (ls.flatten ++ tail) = .ok (ls₃.flatten ++ tail, .trace path received resent) := by
      unfold traceBlock trace
      rw [h1, ok_bind]
      dsimp only
      rw [h2, ok_bind]
      dsimp only
      rw [ok_bind]
      dsimp only
      rw [h4, ok_bind]
    exact ⟨many_cons hb (shrinks_of traceBlock_progress traceBlock_parses _ _ _ hb) h5, s4.trans (s3.trans (s2.trans s1))⟩

/-! ### Every list of lines has a division -/

theorem run_exists (L : Bytes → α → Prop) : ∀ ls, ∃ vs rest, Run L ls vs rest
  | [] => ⟨[], [], .stop nofun⟩
  | l :: ls => by
    by_cases h : ∃ v, L l v
    · obtain ⟨v, h⟩ := h
      obtain ⟨vs, rest, hr⟩ := run_exists L ls
      exact ⟨v :: vs, rest, .next h hr⟩
    · exact ⟨[], l :: ls, .stop fun l' ls' v e h' => by cases e; exact h ⟨v, h'⟩⟩

theorem firstPath_exists (c : Cfg) : ∀ ls, ∃ path rest, FirstPath c ls path rest
  | [] => ⟨none, [], .none nofun⟩
  | l :: ls => by
    by_cases h : ∃ v, ReturnPathLineL c l v
    · obtain ⟨v, h⟩ := h
      exact ⟨some v, ls, .some h⟩
    · exact ⟨none, l :: ls, .none fun l' ls' v e h' => by cases e; exact h ⟨v, h'⟩⟩

theorem _root_.EmailParser.Spec.FirstPath.length {ls ls' : List Bytes} {path : Option (Option EmailAddress)} (h : FirstPath c ls path ls') :
    ls'.length ≤ ls.length := by
  cases h <;> simp

theorem division_exists (c : Cfg) (R : Bytes → TraceField → Prop) (ls : List Bytes) : ∃ fs rest, DivisionBy c R ls fs rest := by
  generalize hn : ls.length = n
  induction n using Nat.strongRecOn generalizing ls with
  | ind n ih =>
    obtain ⟨path, ls₁, h1⟩ := firstPath_exists c ls
    obtain ⟨received, ls₂, h2⟩ := run_exists (ReceivedLineL c) ls₁
    cases h2 with
    | stop h => exact ⟨[], ls, .stop h1 (.stop h)⟩
    | @next l v ls' vs _ hl hr =>
      obtain ⟨resent, ls₃, h3⟩ := run_exists R ls₂
      have k1 := h1.length
      have k2 := hr.suffix.length_le
      have k3 := h3.suffix.length_le
      simp only [List.length_cons] at k1
      obtain ⟨fs, rest, h4⟩ := ih ls₃.length (by omega) ls₃ rfl
      exact ⟨_, _, .block h1 (.next hl hr) (by simp) h3 h4⟩

theorem flatten_suffix {a b : List Bytes} (h : a <:+ b) (hb : ∀ l ∈ b, l ≠ []) (he : a.flatten.length = b.flatten.length) :
    a = b := by
  obtain ⟨u, rfl⟩ := h
  cases u with
  | nil => rfl
  | cons l u =>
    have := List.length_pos_iff.mpr (hb l (by simp))
    simp only [List.cons_append, List.flatten_cons, List.flatten_append, List.length_append] at he
    omega

theorem division_unique {R : Bytes → TraceField → Prop} {ls rest rest' : List Bytes} {fs fs' : List Field}
    (h : DivisionBy c R ls fs rest) (h' : DivisionBy c R ls fs' rest') (hls : ∀ l ∈ ls, TraceWithin c l)
    (hR : ∀ l ∈ ls, ReadsLine R (fun i => matchParsers i (traceFieldParsers c)) l) : fs = fs' ∧ rest = rest' := by
  have hq : Quiet c [] := Ended.quiet .nil
  obtain ⟨h1, s1⟩ := division_many h hls hR hq
  obtain ⟨h2, s2⟩ := division_many h' hls hR hq
  rw [h1] at h2
  simp only [Outcome.ok.injEq, Prod.mk.injEq, List.append_nil] at h2
  refine ⟨h2.2, ?_⟩
  have he := congrArg List.length h2.1
  rcases List.suffix_or_suffix_of_suffix s1 s2 with h | h
  · exact flatten_suffix h (fun l hl => text_ne_nil (hls l (s2.mem hl))) he
  · exact (flatten_suffix h (fun l hl => text_ne_nil (hls l (s1.mem hl))) he.symm).symm

end EmailParser
