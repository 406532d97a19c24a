import Verif.Proofs.Local.Basic
/-
Locality of the parsers of white space, comments, strings and text.
-/
namespace EmailParser
open Spec (Gram)

variable {α β : Type} {t t' : Bytes} {c : Cfg}

theorem fwsOrEmpty_local : Local fwsOrEmpty := by
  intro t t' w ht
  unfold fwsOrEmpty
  rcases fws_local.cases (w := w) ht with ⟨u, s, v, e, h1, h2⟩ | ⟨e, e', h1, h2⟩ | ⟨k, h1, h2⟩ <;> rw [h1, h2]
  · exact .ok u s v e
  · exact .same
  · exact .abort k

theorem optFws_local : Local fun i => optional i fws := optional_local fws_local

theorem quotedPair_local : Local quotedPair := by
  intro t t' w ht
  unfold quotedPair
  refine .bind (tag_local (by decide) t t' w ht) fun s v => ?_
  cases s with
  | nil => exact .err _ _
  | cons b s =>
    dsimp only [List.cons_append]
    split
    · have e1 := getUncheckedFrom_append [b] (s ++ 13 :: 10 :: t)
      have e2 := getUncheckedTo_append [b] (s ++ 13 :: 10 :: t)
      have e3 := getUncheckedFrom_append [b] (s ++ 13 :: 10 :: t')
      have e4 := getUncheckedTo_append [b] (s ++ 13 :: 10 :: t')
      simp only [List.cons_append, List.nil_append, List.length_cons, List.length_nil, Nat.zero_add]
        at e1 e2 e3 e4
      simp only [e1, e2, e3, e4, ok_bind]
      exact .ok [b] s [b] rfl
    · exact .err _ _

theorem ccontent_local {p : Bytes → Res Bytes} (hp : Local p) : Local (ccontent p) := by
  refine matchParsers_local ?_
  intro q hq
  simp only [List.mem_cons, List.not_mem_nil, or_false] at hq
  rcases hq with rfl | rfl | rfl
  · exact fun t t' w ht => .bind (takeWhile1_local (by decide) t t' w ht) fun _ _ => .same
  · exact quotedPair_local
  · exact hp

theorem comment_local : ∀ n, Local (comment n)
  | 0 => fun t t' w ht => .bind (tag_local (by decide) t t' w ht) fun _ _ => .abort _
  | n + 1 => by
    intro t t' w ht
    refine .bind (tag_local (by decide) t t' w ht) fun s _ => ?_
    refine .bind (ignoreMany_local (pair_local optFws_local (ccontent_local (comment_local n)))
      (shrinks_of (A := stackAborts n)
        (progress_bind_right fun _ => progress_bind_left
          (progress_anyVal (ccontent_progress (commentN_progress n))))
        (pair_parses (optional_parses fws_parses) (ccontent_parses (comment_parses n)))) t t' s ht) fun s _ => ?_
    refine .bind (optFws_local t t' s ht) fun s _ => ?_
    exact .bind (tag_local (by decide) t t' s ht) fun s _ => .same

theorem comment_shrinks : Shrinks (comment c.stack) :=
  shrinks_of (progress_anyVal comment_progress) (comment_parses' (c := c))

theorem optFws_length {i r : Bytes} {o : Option Bytes} (h : optional i fws = .ok (r, o)) :
    r.length ≤ i.length := by
  have := optFws_psat (A := .none) i
  rw [h] at this
  obtain ⟨w, rfl, -⟩ := this
  simp

theorem realCfwsLoop_local (ht : Tails t t') :
    ∀ n n' (w : Bytes), (w ++ 13 :: 10 :: t).length < n → (w ++ 13 :: 10 :: t').length < n' →
      Same t t' w (realCfwsLoop c n (w ++ 13 :: 10 :: t)) (realCfwsLoop c n' (w ++ 13 :: 10 :: t'))
  | 0, _, _, h, _ => by omega
  | _, 0, _, _, h => by omega
  | n + 1, n' + 1, w, hn, hn' => by
    unfold realCfwsLoop
    rcases optFws_local.cases (w := w) ht with ⟨u, s, v, e, h1, h2⟩ | ⟨e, e', h1, h2⟩ | ⟨k, h1, h2⟩ <;>
      rw [h1, h2]
    · have := optFws_length h1
      have := optFws_length h2
      simp only [ok_bind]
      rcases (comment_local c.stack).cases (w := s) ht with
        ⟨u', s', v', e', h1', h2'⟩ | ⟨_, _, h1', h2'⟩ | ⟨k, h1', h2'⟩ <;> rw [h1', h2']
      · have := comment_shrinks _ _ _ h1'
        have := comment_shrinks _ _ _ h2'
        subst e; subst e'
        exact .mono (.mono (.bind (realCfwsLoop_local ht n n' s' (by omega) (by omega)) fun _ _ => .same))
      · exact .same
      · exact .abort k
    · exact .err _ _
    · exact .abort k

theorem realCfws_local : Local (realCfws c) := by
  intro t t' w ht
  unfold realCfws
  refine .bind (optFws_local t t' w ht) fun s o => ?_
  rcases (comment_local c.stack).cases (w := s) ht with
    ⟨u', s', v', e', h1', h2'⟩ | ⟨_, _, h1', h2'⟩ | ⟨k, h1', h2'⟩ <;> dsimp only <;> rw [h1', h2']
  · subst e'
    refine .mono (.bind (realCfwsLoop_local ht _ _ s' (by simp) (by simp)) fun s _ => ?_)
    exact .bind (optFws_local t t' s ht) fun _ _ => .same
  · exact .err _ _
  · exact .abort k

theorem cfws_local : Local (cfws c) := by
  refine matchParsers_local ?_
  intro q hq
  simp only [List.mem_cons, List.not_mem_nil, or_false] at hq
  rcases hq with rfl | rfl
  · exact realCfws_local
  · exact fws_local

/-- Comments and white space are skipped, then comes something else. -/
theorem Same.skip {w : Bytes} {f g : Bytes → Res β} (ht : Tails t t')
    (hf : ∀ s, Same t t' s (f (s ++ 13 :: 10 :: t)) (g (s ++ 13 :: 10 :: t'))) :
    Same t t' w (skipCfws c (w ++ 13 :: 10 :: t) >>= f) (skipCfws c (w ++ 13 :: 10 :: t') >>= g) := by
  unfold skipCfws
  rcases cfws_local.cases (w := w) ht with ⟨u, s, v, e, h1, h2⟩ | ⟨e, e', h1, h2⟩ | ⟨k, h1, h2⟩ <;>
    rw [h1, h2]
  · subst e
    exact .mono (hf s)
  · exact hf w
  · exact .abort k

/-! ### Strings and atoms -/

theorem fwsOrEmpty_length {i r : Bytes} {v : Bytes} (h : fwsOrEmpty i = .ok (r, v)) : r.length ≤ i.length := by
  have := fwsOrEmpty_parses (A := .none) i
  rw [h] at this
  obtain ⟨w, rfl, -⟩ := this
  simp

theorem takeWhile1_shrinks {p : UInt8 → Bool} : Shrinks fun i => takeWhile1 i p :=
  shrinks_of (A := .none) progress_chars1 (takeWhile1_parses p)

theorem quotedPair_shrinks : Shrinks quotedPair := shrinks_of (A := .none) quotedPair_progress quotedPair_parses

theorem quotedStringLoop_local (ht : Tails t t') :
    ∀ n n' (w : Bytes), (w ++ 13 :: 10 :: t).length < n → (w ++ 13 :: 10 :: t').length < n' →
      Same t t' w (quotedStringLoop n (w ++ 13 :: 10 :: t)) (quotedStringLoop n' (w ++ 13 :: 10 :: t'))
  | 0, _, _, h, _ => by omega
  | _, 0, _, _, h => by omega
  | n + 1, n' + 1, w, hn, hn' => by
    unfold quotedStringLoop
    rcases fwsOrEmpty_local.cases (w := w) ht with ⟨u, s, v, e, h1, h2⟩ | ⟨e, e', h1, h2⟩ | ⟨k, h1, h2⟩ <;>
      rw [h1, h2]
    · have := fwsOrEmpty_length h1
      have := fwsOrEmpty_length h2
      simp only [ok_bind]
      rcases (takeWhile1_local (p := isQtext) (by decide)).cases (w := s) ht with
        ⟨u', s', v', e', h1', h2'⟩ | ⟨_, _, h1', h2'⟩ | ⟨k, h1', h2'⟩ <;> rw [h1', h2']
      · have := takeWhile1_shrinks _ _ _ h1'
        have := takeWhile1_shrinks _ _ _ h2'
        subst e; subst e'
        exact .mono (.mono (.bind (quotedStringLoop_local ht n n' s' (by omega) (by omega)) fun _ _ => .same))
      · dsimp only
        rcases quotedPair_local.cases (w := s) ht with
          ⟨u', s', v', e', h1', h2'⟩ | ⟨_, _, h1', h2'⟩ | ⟨k, h1', h2'⟩ <;> rw [h1', h2']
        · have := quotedPair_shrinks _ _ _ h1'
          have := quotedPair_shrinks _ _ _ h2'
          subst e; subst e'
          exact .mono (.mono (.bind (quotedStringLoop_local ht n n' s' (by omega) (by omega)) fun _ _ => .same))
        · exact .same
        · exact .abort k
      · exact .abort k
    · exact .err _ _
    · exact .abort k

/-- The test for a quotation mark, a dot or a colon, and the step over it. -/
theorem Same.byte {w : Bytes} {b : UInt8} {f g : Bytes → Res β} {x y : Res β} (hb : b ≠ 13)
    (hf : ∀ s, w = b :: s → Same t t' s (f (s ++ 13 :: 10 :: t)) (g (s ++ 13 :: 10 :: t')))
    (hx : Same t t' w x y) :
    Same t t' w (if startsWith (w ++ 13 :: 10 :: t) [b] then sliceFrom (w ++ 13 :: 10 :: t) 1 >>= f else x)
      (if startsWith (w ++ 13 :: 10 :: t') [b] then sliceFrom (w ++ 13 :: 10 :: t') 1 >>= g else y) := by
  rw [startsWith_end (by simpa using Ne.symm hb), startsWith_end (by simpa using Ne.symm hb)]
  split
  · rename_i h
    obtain ⟨s, rfl⟩ := startsWith_iff.mp h
    have := hf s (by simp)
    simp only [sliceFrom, List.cons_append, List.nil_append, List.length_cons,
      List.drop_succ_cons, List.drop_zero]
    rw [if_pos (by omega), if_pos (by omega)]
    exact .mono (u := [b]) this
  · exact hx

theorem quotedString_local : Local (quotedString c) := by
  intro t t' w ht
  unfold quotedString
  refine .skip ht fun s => ?_
  refine .byte (by decide) (fun s _ => ?_) (.err _ _)
  refine .bind (quotedStringLoop_local ht _ _ s (by simp) (by simp)) fun s v => ?_
  refine .bind (fwsOrEmpty_local t t' s ht) fun s v => ?_
  refine .byte (by decide) (fun s _ => ?_) (.err _ _)
  exact .skip ht fun s => .same

theorem atom_local : Local (atom c) := by
  intro t t' w ht
  refine .skip ht fun s => ?_
  refine .bind (.mapErr (takeWhile1_local (by decide) t t' s ht)) fun s v => ?_
  exact .skip ht fun s => .same

theorem takeWhile_length {i r v : Bytes} {p : UInt8 → Bool} (h : takeWhile i p = .ok (r, v)) :
    r.length ≤ i.length := by
  have := takeWhile_parses (A := .none) p i
  dsimp only at this
  rw [h] at this
  obtain ⟨w, rfl, -⟩ := this
  simp

theorem dotAtomTextLoop_local (ht : Tails t t') :
    ∀ n n' (w : Bytes), (w ++ 13 :: 10 :: t).length < n → (w ++ 13 :: 10 :: t').length < n' →
      Same t t' w (dotAtomTextLoop c n (w ++ 13 :: 10 :: t)) (dotAtomTextLoop c n' (w ++ 13 :: 10 :: t'))
  | 0, _, _, h, _ => by omega
  | _, 0, _, _, h => by omega
  | n + 1, n' + 1, w, hn, hn' => by
    unfold dotAtomTextLoop
    by_cases hd : startsWith w (b! ".") = true
    · rw [if_pos (by rwa [startsWith_end (by decide)]), if_pos (by rwa [startsWith_end (by decide)])]
      obtain ⟨s, rfl⟩ := startsWith_iff.mp hd
      have e1 : ∀ x, sliceFrom (b! "." ++ s ++ 13 :: 10 :: x) 1 = .ok (s ++ 13 :: 10 :: x) := by
        intro x; simp [sliceFrom]
      have e2 : ∀ x, sliceTo (b! "." ++ s ++ 13 :: 10 :: x) 1 = .ok (b! ".") := by
        intro x; simp [sliceTo]
      have key : ∀ p : Bytes → Res Bytes, Local p → (∀ i r v, p i = .ok (r, v) → r.length ≤ i.length) →
          Same t t' (b! "." ++ s)
          (match p (s ++ 13 :: 10 :: t) with
          | .ok (newInput, atom) => do
            let (input, output) ← dotAtomTextLoop c n newInput
            .ok (input, b! "." ++ atom ++ output)
          | .err _ => .ok (b! "." ++ s ++ 13 :: 10 :: t, [])
          | .abort k => .abort k)
          (match p (s ++ 13 :: 10 :: t') with
          | .ok (newInput, atom) => do
            let (input, output) ← dotAtomTextLoop c n' newInput
            .ok (input, b! "." ++ atom ++ output)
          | .err _ => .ok (b! "." ++ s ++ 13 :: 10 :: t', [])
          | .abort k => .abort k) := by
        intro p hp hl
        rcases hp.cases (w := s) ht with ⟨u, s', v, e, h1, h2⟩ | ⟨e, e', h1, h2⟩ | ⟨k, h1, h2⟩ <;> rw [h1, h2]
        · have := hl _ _ _ h1
          have := hl _ _ _ h2
          simp only [List.length_append, List.length_cons] at *
          subst e
          exact .mono (.mono (.bind (dotAtomTextLoop_local ht n n' s' (by simp; omega) (by simp; omega))
            fun _ _ => .same))
        · exact .same
        · exact .abort k
      simp only [e1, e2, ok_bind]
      cases c.feat.compatibilityFixes
      · exact key _ (takeWhile1_local (by decide)) fun i r v h => Nat.le_of_lt (takeWhile1_shrinks i r v h)
      · exact key _ (takeWhile_local (by decide)) fun i r v h => takeWhile_length h
    · rw [if_neg (by rwa [startsWith_end (by decide)]), if_neg (by rwa [startsWith_end (by decide)])]
      exact .same

theorem dotAtomText_local : Local (dotAtomText c) := by
  intro t t' w ht
  refine .bind (takeWhile1_local (by decide) t t' w ht) fun s v => ?_
  exact .bind (dotAtomTextLoop_local ht _ _ s (by simp) (by simp)) fun _ _ => .same

theorem dotAtom_local : Local (dotAtom c) := by
  intro t t' w ht
  refine .skip ht fun s => ?_
  refine .bind (dotAtomText_local t t' s ht) fun s v => ?_
  exact .skip ht fun s => .same

theorem two_local {p q : Bytes → Res α} (hp : Local p) (hq : Local q) :
    Local fun i => matchParsers i [p, q] := by
  refine matchParsers_local ?_
  intro x hx
  simp only [List.mem_cons, List.not_mem_nil, or_false] at hx
  rcases hx with rfl | rfl
  · exact hp
  · exact hq

theorem word_local : Local (word c) := two_local atom_local quotedString_local

/-! ### Encoded words and text -/

theorem charset_local : Local charset :=
  fun t t' w ht => .bind (takeWhile1_local (by decide) t t' w ht) fun _ _ => .same

theorem encoding_local : Local encoding :=
  fun t t' w ht => .bind (takeWhile1_local (by decide) t t' w ht) fun _ _ => .same

theorem encodedWord_local : Local (encodedWord c) := by
  intro t t' w ht
  refine .bind (tag_local (by decide) t t' w ht) fun s _ => ?_
  refine .bind (charset_local t t' s ht) fun s _ => ?_
  refine .bind (optional_local (pair_local (tag_local (by decide)) encoding_local) t t' s ht) fun s _ => ?_
  refine .bind (tag_local (by decide) t t' s ht) fun s _ => ?_
  refine .bind (encoding_local t t' s ht) fun s _ => ?_
  refine .bind (tag_local (by decide) t t' s ht) fun s _ => ?_
  refine .bind (takeWhile1_local (by decide) t t' s ht) fun s _ => ?_
  refine .bind (tag_local (by decide) t t' s ht) fun s _ => ?_
  exact .bindPure fun _ => .same

theorem encodedWord_shrinks : Shrinks (encodedWord c) :=
  shrinks_of (A := .none) encodedWord_progress encodedWord_parses

theorem phraseWord_local : Local (phraseWord c) := by
  intro t t' w ht
  unfold phraseWord
  refine .ite (fun _ => ?_) (fun _ => word_local t t' w ht)
  refine two_local ?_ word_local t t' w ht
  exact fun t t' w ht => .bind (optFws_local t t' w ht) fun s _ => encodedWord_local t t' s ht

theorem phraseWord_shrinks : Shrinks (phraseWord c) := shrinks_of phraseWord_progress phraseWord_parses

theorem phrase_local : Local (phrase c) := many1_local phraseWord_local phraseWord_shrinks

theorem dropWsp_local : Local dropWsp := ignoreMany_local (takeWhile1_local (by decide)) takeWhile1_shrinks

theorem textPiece_shrinks : Shrinks fun i => collectPair i fwsOrEmpty fun i => (do
    let (input, value) ← takeWhile1 i isVchar
    .ok (input, value) : Res Bytes) :=
  shrinks_of (A := .none) (progress_bind_right fun _ => progress_bind_left progress_chars1)
    (collectPair_parses fwsOrEmpty_parses (G := Spec.OptFws) (H := Gram.chars1 isVchar) fun i => by
      dsimp only
      have := takeWhile1_parses (A := .none) isVchar i
      dsimp only at this
      cases h : takeWhile1 i isVchar <;> rw [h] at this <;> exact this)

theorem unstructured_local : Local unstructured := by
  intro t t' w ht
  refine .bind (collectMany_local (collectPair_local fwsOrEmpty_local ?_) textPiece_shrinks t t' w ht) fun s _ => ?_
  · exact fun t t' w ht => .bind (takeWhile1_local (by decide) t t' w ht) fun _ _ => .same
  · exact .bind (dropWsp_local t t' s ht) fun _ _ => .same

theorem mimeUnstructuredLoop_local (ht : Tails t t') :
    ∀ n n' b (w : Bytes), (w ++ 13 :: 10 :: t).length < n → (w ++ 13 :: 10 :: t').length < n' →
      Same t t' w (mimeUnstructuredLoop c n b (w ++ 13 :: 10 :: t))
        (mimeUnstructuredLoop c n' b (w ++ 13 :: 10 :: t'))
  | 0, _, _, _, h, _ => by omega
  | _, 0, _, _, _, h => by omega
  | n + 1, n' + 1, b, w, hn, hn' => by
    unfold mimeUnstructuredLoop
    rcases fwsOrEmpty_local.cases (w := w) ht with ⟨u, s, v, e, h1, h2⟩ | ⟨e, e', h1, h2⟩ | ⟨k, h1, h2⟩ <;>
      rw [h1, h2]
    · have := fwsOrEmpty_length h1
      have := fwsOrEmpty_length h2
      simp only [ok_bind]
      rcases (encodedWord_local (c := c)).cases (w := s) ht with
        ⟨u', s', v', e', h1', h2'⟩ | ⟨_, _, h1', h2'⟩ | ⟨k, h1', h2'⟩ <;> rw [h1', h2']
      · have := encodedWord_shrinks _ _ _ h1'
        have := encodedWord_shrinks _ _ _ h2'
        subst e; subst e'
        exact .mono (.mono (.bind (mimeUnstructuredLoop_local ht n n' true s' (by omega) (by omega))
          fun _ _ => .same))
      · dsimp only
        rcases (takeWhile1_local (p := isVchar) (by decide)).cases (w := s) ht with
          ⟨u', s', v', e', h1', h2'⟩ | ⟨_, _, h1', h2'⟩ | ⟨k, h1', h2'⟩ <;> rw [h1', h2']
        · have := takeWhile1_shrinks _ _ _ h1'
          have := takeWhile1_shrinks _ _ _ h2'
          subst e; subst e'
          exact .mono (.mono (.bind (mimeUnstructuredLoop_local ht n n' false s' (by omega) (by omega))
            fun _ _ => .same))
        · exact .same
        · exact .abort k
      · exact .abort k
    · exact .err _ _
    · exact .abort k

theorem mimeUnstructured_local : Local (mimeUnstructured c) := by
  intro t t' w ht
  refine .bind (mimeUnstructuredLoop_local ht _ _ false w (by simp) (by simp)) fun s _ => ?_
  exact .bind (dropWsp_local t t' s ht) fun _ _ => .same

end EmailParser
