import Verif.Proofs.Timed.Words
/-
The cost of encoded words, of phrases and of unstructured text.

What looks like an encoded word and is not one may have been read up to its fourth question mark.
The next attempt is made after at least one of these question marks, so that every byte is read by
at most four of these attempts: `marks` is what remains to be paid for them.
-/
namespace EmailParser.Timed
open Spec (Folded)

variable {α β γ : Type} {c : Cfg}

/-! ### Question marks -/

/-- Number of bytes up to and including the `k`-th question mark. -/
def pos : Nat → Bytes → Nat
  | 0, _ => 0
  | _ + 1, [] => 0
  | k + 1, b :: t => 1 + if b = 63 then pos k t else pos (k + 1) t

theorem pos_mono (l : Bytes) : ∀ k, pos k l ≤ pos (k + 1) l := by
  induction l with
  | nil => intro k; cases k <;> simp [pos]
  | cons b t ih =>
    intro k
    cases k with
    | zero => simp [pos]
    | succ k =>
      have h1 := ih k
      have h2 := ih (k + 1)
      simp only [pos]
      split <;> omega

theorem pos_append (w r : Bytes) : ∀ k, pos k (w ++ r) ≤ w.length + pos k r := by
  induction w with
  | nil => intro k; simp
  | cons b t ih =>
    intro k
    cases k with
    | zero => simp [pos]
    | succ k =>
      have h1 := ih k
      have h2 := ih (k + 1)
      have h3 := pos_mono r k
      simp only [List.cons_append, List.length_cons, pos]
      split <;> omega

theorem pos_mark {w : Bytes} (h : 63 ∈ w) (r : Bytes) (k : Nat) :
    pos (k + 1) (w ++ r) ≤ w.length + pos k r := by
  induction w with
  | nil => simp at h
  | cons b t ih =>
    have h1 := pos_append t r k
    simp only [List.cons_append, List.length_cons, pos]
    split
    · omega
    · rename_i hb
      have := ih (by simpa [Ne.symm hb] using h)
      omega

theorem pos_ge {w : Bytes} (r : Bytes) : ∀ k, w.count 63 < k → w.length ≤ pos k (w ++ r) := by
  induction w with
  | nil => simp
  | cons b t ih =>
    intro k hk
    cases k with
    | zero => omega
    | succ k =>
      simp only [List.cons_append, List.length_cons, pos]
      split
      · rename_i hb
        subst hb
        rw [List.count_cons_self] at hk
        have := ih k (by omega)
        omega
      · rename_i hb
        rw [List.count_cons_of_ne hb] at hk
        have := ih (k + 1) (by omega)
        omega

/-- The same, within the line. -/
def nth (k : Nat) (i : Bytes) : Nat := min (pos k i) (reach i)

/-- What remains to be paid for failed attempts to read an encoded word. -/
def marks (i : Bytes) : Nat := nth 1 i + nth 2 i + nth 3 i + nth 4 i

theorem marks_le (i : Bytes) : marks i ≤ 4 * reach i := by
  unfold marks nth; omega

theorem marks_adv {i r : Bytes} (h : Adv i r) : marks i + 4 * reach r ≤ 4 * reach i + marks r := by
  obtain ⟨w, rfl, hw⟩ := h
  have h0 := reach_append hw r
  have h1 := pos_append w r 1
  have h2 := pos_append w r 2
  have h3 := pos_append w r 3
  have h4 := pos_append w r 4
  unfold marks nth
  omega

theorem marks_mark {i r w : Bytes} (h : i = w ++ r) (hw : Folded w) (hm : 63 ∈ w) :
    marks i + nth 4 i + 5 * reach r ≤ 5 * reach i + marks r := by
  subst h
  have h0 := reach_append hw r
  have h1 : pos 1 (w ++ r) ≤ w.length + pos 0 r := pos_mark hm r 0
  have h2 : pos 2 (w ++ r) ≤ w.length + pos 1 r := pos_mark hm r 1
  have h3 : pos 3 (w ++ r) ≤ w.length + pos 2 r := pos_mark hm r 2
  have h4 : pos 4 (w ++ r) ≤ w.length + pos 3 r := pos_mark hm r 3
  have h5 := pos_append w r 4
  have : pos 0 r = 0 := by cases r <;> rfl
  unfold marks nth
  omega

/-! ### Encoded words -/

/-- The input has been read up to `r`, over at most `m` question marks. -/
def Scan (i r : Bytes) (m : Nat) : Prop := ∃ w, i = w ++ r ∧ Folded w ∧ w.count 63 ≤ m

theorem Scan.trans {i j r : Bytes} {m n : Nat} (h : Scan i j m) (h' : Scan j r n) : Scan i r (m + n) := by
  obtain ⟨w, rfl, hw, hm⟩ := h
  obtain ⟨v, rfl, hv, hn⟩ := h'
  exact ⟨w ++ v, by simp, hw.append hv, by rw [List.count_append]; omega⟩

theorem Scan.mono {i r : Bytes} {m n : Nat} (h : Scan i r m) (hmn : m ≤ n) : Scan i r n := by
  obtain ⟨w, e, hw, hm⟩ := h
  exact ⟨w, e, hw, by omega⟩

theorem Scan.adv {i r : Bytes} {m : Nat} (h : Scan i r m) : Adv i r := by
  obtain ⟨w, e, hw, _⟩ := h
  exact ⟨w, e, hw⟩

theorem Scan.nth {i r : Bytes} {m : Nat} (h : Scan i r m) (hm : m ≤ 3) : reach i ≤ reach r + nth 4 i := by
  obtain ⟨w, rfl, hw, h⟩ := h
  have h0 := reach_append hw r
  have := pos_ge r 4 (w := w) (by omega)
  unfold Timed.nth
  omega

theorem scan_run {p : UInt8 → Bool} (hp : ∀ x, p x = true → lineChar x = true ∧ x ≠ 63) {i w r : Bytes}
    (e : i = w ++ r) (h : ∀ x ∈ w, p x = true) : Scan i r 0 :=
  ⟨w, e, folded_of fun x hx => by simpa [lineChar] using (hp x (h x hx)).1, by
    rw [List.count_eq_zero_of_not_mem (fun hx => (hp _ (h _ hx)).2 rfl)]
    omega⟩

theorem scan_tag {t : Bytes} (ht : ∀ x ∈ t, lineChar x = true) {i r : Bytes} (e : i = t ++ r) :
    Scan i r (t.count 63) :=
  ⟨t, e, folded_of fun x hx => by simpa [lineChar] using ht x hx, Nat.le_refl _⟩

def charsetChar (c : UInt8) : Bool := c > 0x20 && c < 0x7F && !especials c && c != 42
def encodingChar (c : UInt8) : Bool := c > 0x20 && c < 0x7F && !especials c
def encodedChar (c : UInt8) : Bool := c > 0x20 && c ≤ 0x7E && c != 63

theorem charsetChar_line : ∀ x, charsetChar x = true → lineChar x = true ∧ x ≠ 63 := by decide +kernel
theorem encodingChar_line : ∀ x, encodingChar x = true → lineChar x = true ∧ x ≠ 63 := by decide +kernel
theorem encodedChar_line : ∀ x, encodedChar x = true → lineChar x = true ∧ x ≠ 63 := by decide +kernel

/-- A run of characters other than question marks. -/
theorem run_within {p : UInt8 → Bool} (hp : ∀ x, p x = true → lineChar x = true ∧ x ≠ 63) (i : Bytes) :
    Within (takeWhile1 i p) 0 (fun a k => Scan i a.1 0 ∧ reach a.1 + k ≤ reach i + 2) fun k => k ≤ 2 :=
  (takeWhile1_within (fun x h => (hp x h).1) i).mono
    (fun a k h => ⟨scan_run hp h.2.2.1 h.2.2.2.1, by omega⟩) (fun k h => h.2)

theorem charset_within (i : Bytes) :
    Within (charset i) 0 (fun a k => Scan i a.1 0 ∧ reach a.1 + k ≤ reach i + 2) fun k => k ≤ 2 := by
  unfold charset
  refine Within.bind (run_within charsetChar_line i) ?_ (fun k _ h => by omega)
  rintro ⟨r, v⟩ k _ ⟨h1, h2⟩
  exact within_ok.mpr ⟨h1, by count⟩

theorem encoding_within (i : Bytes) :
    Within (encoding i) 0 (fun a k => Scan i a.1 0 ∧ reach a.1 + k ≤ reach i + 2) fun k => k ≤ 2 := by
  unfold encoding
  refine Within.bind (run_within encodingChar_line i) ?_ (fun k _ h => by omega)
  rintro ⟨r, v⟩ k _ ⟨h1, h2⟩
  exact within_ok.mpr ⟨h1, by count⟩

theorem encodedWord_within (i : Bytes) :
    Within (encodedWord c i) 0 (fun a k => Adv i a.1 ∧ reach a.1 + 1 ≤ reach i ∧
        (∃ t, i = 61 :: 63 :: t) ∧ reach a.1 + k ≤ reach i + 25)
      fun k => k ≤ 3 ∨ ((∃ t, i = 61 :: 63 :: t) ∧ k ≤ nth 4 i + 25) := by
  unfold encodedWord
  refine Within.bind (tag_within (by decide +kernel) _ _) ?_ ?_
  rotate_left
  · rintro k _ ⟨_, h⟩
    exact .inl (by simp at h; omega)
  rintro ⟨i₁, u⟩ k₁ _ ⟨-, e₁, hr₁, hk₁⟩
  have s₁ := scan_tag (by decide +kernel) e₁
  have hst : ∃ t, i = 61 :: 63 :: t := ⟨_, e₁⟩
  simp only [List.length_cons, List.length_nil] at hr₁ hk₁
  dsimp only at *
  have fin : ∀ {r m} k, Scan i r m → m ≤ 3 → k + reach r ≤ reach i + 25 →
      (k ≤ 3 ∨ ((∃ t, i = 61 :: 63 :: t) ∧ k ≤ nth 4 i + 25)) := by
    intro r m k h hm hk
    have := h.nth hm
    exact .inr ⟨hst, by omega⟩
  refine Within.bind (charset_within i₁) ?_ (fun k _ h => fin _ s₁ (by decide) (by omega))
  rintro ⟨i₂, v⟩ k₂ _ ⟨s₂, h₂⟩
  have s₂ := s₁.trans s₂
  dsimp only at *
  refine Within.bind (S := fun a k => Scan i₂ a.1 0 ∧ reach a.1 + k ≤ reach i₂ + 4) (F := fun k => k ≤ 4) ?_ ?_
    (fun k _ h => fin _ s₂ (by decide) (by omega))
  · unfold optional pair
    refine Within.on (S := fun a k => Scan i₂ a.1 0 ∧ reach a.1 + k ≤ reach i₂ + 4) (F := fun k => k ≤ 4) ?_ ?_ ?_ ?_
    · refine Within.bind (tag_within (by decide +kernel) _ _) ?_ ?_
      · rintro ⟨r, u⟩ k _ ⟨-, e, hr, hk⟩
        have s := scan_tag (by decide +kernel) e
        simp only [List.length_cons, List.length_nil] at hr hk
        dsimp only at *
        refine Within.bind (encoding_within r) ?_ (fun k' _ h => by omega)
        rintro ⟨r', v⟩ k' _ ⟨s', h'⟩
        exact within_ok.mpr ⟨s.trans s', by count⟩
      · rintro k _ ⟨_, h⟩
        simp only [List.length_cons, List.length_nil] at h
        omega
    · rintro ⟨r, v⟩ k _ ⟨h1, h2⟩
      exact within_ok.mpr ⟨h1, by count⟩
    · rintro e k _ h
      exact within_ok.mpr ⟨⟨[], rfl, .nil, by simp⟩, by count⟩
    · rintro e k _ h
      exact within_abort.mpr (by omega)
  rintro ⟨i₃, v⟩ k₃ _ ⟨s₃, h₃⟩
  have s₃ := s₂.trans s₃
  dsimp only at *
  refine Within.bind (tag_within (by decide +kernel) _ _) ?_
    (fun k _ h => fin _ s₃ (by decide) (by have := h.2; simp only [List.length_cons, List.length_nil] at this; omega))
  rintro ⟨i₄, u⟩ k₄ _ ⟨-, e₄, hr₄, hk₄⟩
  have s₄ := s₃.trans (scan_tag (by decide +kernel) e₄)
  simp only [List.length_cons, List.length_nil] at hr₄ hk₄
  dsimp only at *
  refine Within.bind (encoding_within i₄) ?_ (fun k _ h => fin _ s₄ (by decide) (by omega))
  rintro ⟨i₅, v⟩ k₅ _ ⟨s₅, h₅⟩
  have s₅ := s₄.trans s₅
  dsimp only at *
  refine Within.bind (tag_within (by decide +kernel) _ _) ?_
    (fun k _ h => fin _ s₅ (by decide) (by have := h.2; simp only [List.length_cons, List.length_nil] at this; omega))
  rintro ⟨i₆, u⟩ k₆ _ ⟨-, e₆, hr₆, hk₆⟩
  have s₆ := s₅.trans (scan_tag (by decide +kernel) e₆)
  simp only [List.length_cons, List.length_nil] at hr₆ hk₆
  dsimp only at *
  unfold encodedText
  refine Within.bind (run_within encodedChar_line i₆) ?_ (fun k _ h => fin _ s₆ (by decide) (by omega))
  rintro ⟨i₇, v⟩ k₇ _ ⟨s₇, h₇⟩
  have s₇ := s₆.trans s₇
  dsimp only at *
  refine Within.bind (tag_within (by decide +kernel) _ _) ?_
    (fun k _ h => fin _ s₇ (by decide) (by have := h.2; simp only [List.length_cons, List.length_nil] at this; omega))
  rintro ⟨i₈, u⟩ k₈ _ ⟨ha, e₈, hr₈, hk₈⟩
  simp only [List.length_cons, List.length_nil] at hr₈ hk₈
  dsimp only at *
  have hle := s₇.adv.le
  refine within_bind.mpr (within_lift ?_ (fin _ s₇ (by decide) (by omega)))
  intro v _
  exact within_ok.mpr ⟨s₇.adv.trans ha, by count, hst, by count⟩

/-! ### Phrases -/

theorem Within.fail {x : Timed α} {S : α → Nat → Prop} {F : Nat → Prop} (h : Within x 0 S F)
    (hn : ∀ a, x.out ≠ .ok a) : F x.cost := by
  unfold Within at h
  split at h
  · rename_i a e; exact absurd e (hn a)
  · simpa using h
  · simpa using h

theorem skipCfws_afterFws {i : Bytes} (h : ¬ Starts isOpen (afterFws i)) :
    EmailParser.skipCfws c i = .ok (afterFws i) := by
  obtain ⟨e, he⟩ := realCfws_err_of (c := c) (i := i) rfl (comment_err_of h)
  unfold EmailParser.skipCfws EmailParser.cfws EmailParser.matchParsers EmailParser.matchParsers
  rw [he]
  dsimp only
  unfold afterFws
  cases hf : EmailParser.fws i with
  | ok a => rfl
  | err a => rfl
  | abort a => exact absurd hf (fws_no_abort _ _)

theorem Blocked.fws_err {i : Bytes} (h : Blocked c i) : ∃ e, EmailParser.fws i = .err e :=
  cfws_err_fws h.1

theorem mark_mem {v s t : Bytes} {p : UInt8 → Bool} (hp : p 63 = true) (e : 61 :: 63 :: t = v ++ s)
    (hv : 1 ≤ v.length) (hs : Stops p s) : 63 ∈ v := by
  match v, hv with
  | [a], _ =>
    simp only [List.cons_append, List.nil_append, List.cons.injEq] at e
    rw [← e.2, stops_cons, hp] at hs
    cases hs
  | a :: b :: v, _ =>
    simp only [List.cons_append, List.cons.injEq] at e
    simp [← e.2.1]

/-- The cost of a word of a phrase. -/
def PhraseWordCost (c : Cfg) (i r : Bytes) (k : Nat) : Prop :=
  k + marks i + 130 * reach r ≤ 130 * reach i + marks r + 140 ∨
  (Blocked c r ∧ k ≤ 130 * reach i + 140)

theorem word_phraseWord {i : Bytes} {n : Nat} (hn : n ≤ 4 * reach i + 40)
    (hw : ∀ r, Adv i r → (LeadAtom c i r ∨ Lead isDquote c i r) →
      n + marks i + 10 * reach r ≤ 10 * reach i + marks r + 40) :
    Within (word c i) n (fun a k => Adv i a.1 ∧ reach a.1 + 1 ≤ reach i ∧ ¬ Blocked c i ∧
        PhraseWordCost c i a.1 k)
      fun k => k ≤ 250 * reach i + 250 := by
  refine (word_within i).use ?_ ?_
  · rintro ⟨r, v⟩ k _ ⟨h1, h2, h3, h4⟩
    refine ⟨h1, h2, ?_, ?_⟩
    · rcases h3 with h3 | h3
      · exact h3.not_blocked
      · exact h3.not_blocked (by decide +kernel)
    · have := hw r h1 h3
      dsimp only at *
      rcases h4 with h4 | ⟨h4, h5⟩
      · exact .inl (by omega)
      · exact .inr ⟨h4, by omega⟩
  · intro k _ h
    omega

theorem phraseWord_within (i : Bytes) :
    Within (phraseWord c i) 0 (fun a k => Adv i a.1 ∧ reach a.1 + 1 ≤ reach i ∧ ¬ Blocked c i ∧
        PhraseWordCost c i a.1 k)
      fun k => k ≤ 250 * reach i + 250 := by
  unfold phraseWord
  split
  · unfold matchParsers
    refine Within.on (S := fun a k => Adv i a.1 ∧ reach a.1 + 1 ≤ reach i ∧ ¬ Blocked c i ∧
        k + 10 * reach a.1 ≤ 10 * reach i + 40)
      (F := fun k => k ≤ 4 * reach i + 40 ∧ ∀ r, Adv i r → (LeadAtom c i r ∨ Lead isDquote c i r) →
        k + marks i + 10 * reach r ≤ 10 * reach i + marks r + 40) ?_ ?_ ?_ ?_
    · refine Within.bind (optFws_within i) ?_ (fun _ _ h => h.elim)
      rintro ⟨j, v⟩ k _ ⟨e, ha, hk⟩
      dsimp only at *
      have hle := ha.le
      refine (encodedWord_within j).use ?_ ?_
      · rintro ⟨r, v⟩ k' _ ⟨h1, h2, ⟨t, ht⟩, h3⟩
        dsimp only at *
        have hst : Starts (· == 61) j := ⟨61, _, ht, rfl⟩
        refine ⟨ha.trans h1, by omega, ?_, ?_⟩
        · intro hb
          obtain ⟨er, hf⟩ := hb.fws_err
          rw [afterFws_err hf] at e
          subst e
          exact not_blocked_of (by decide +kernel) hst hb
        · rcases hk with hk | ⟨h, hw, _⟩
          · omega
          · rw [← h] at hw
            exact absurd hw (hst.not (by decide +kernel))
      · intro k' _ h
        have h4 : nth 4 j ≤ reach j := by unfold nth; omega
        refine ⟨by rcases hk with hk | ⟨_, _, _, hk⟩ <;> rcases h with h | ⟨_, h⟩ <;> omega, ?_⟩
        intro r hr hl
        have hk' : k + 2 * reach j ≤ 2 * reach i + 7 := by
          rcases hk with hk | ⟨h, hw, hf, _⟩
          · exact hk
          · have hb : Blocked c i := blocked_wsp hw hf
            rcases hl with hl | hl
            · exact absurd hb hl.not_blocked
            · exact absurd hb (hl.not_blocked (by decide +kernel))
        have hm := marks_adv hr
        have hler : reach r ≤ reach j := by
          rcases hl with ⟨j', v, s, h1, h2, h3, h5, h6, h7⟩ | ⟨j', h1, h2, h3⟩
          · have h8 := (skipCfws_after h1).le
            have h9 : Adv j' s := h2 ▸ adv_run atext_line h3
            have := h9.le
            have := h7.le
            rw [e]; omega
          · have := (skipCfws_after h1).le
            rw [e]; omega
        rcases h with h | ⟨⟨t, ht⟩, h⟩
        · omega
        · have hst : Starts (· == 61) j := ⟨61, _, ht, rfl⟩
          have hsk : EmailParser.skipCfws c i = .ok j := by
            have := skipCfws_afterFws (c := c) (i := i) (by rw [← e]; exact hst.not (by decide +kernel))
            rw [this, e]
          have hmj := marks_adv ha
          rcases hl with ⟨j', v, s, h1, h2, h3, h5, h6, h7⟩ | ⟨j', h1, h2, _⟩
          · rw [hsk] at h1
            cases h1
            have hmem := mark_mem (by decide +kernel) (ht.symm.trans h2) h5 h6
            obtain ⟨u, rfl, hu⟩ := h7
            have hv : Folded v := folded_of fun x hx => by simpa [lineChar] using atext_line x (h3 x hx)
            have := marks_mark (i := j) (w := v ++ u) (r := r) (by rw [h2]; simp) (hv.append hu)
              (by simp [hmem])
            have hlj : reach r ≤ reach j := by
              rw [h2]
              exact (Adv.trans ⟨v, rfl, hv⟩ ⟨u, rfl, hu⟩ : Adv (v ++ (u ++ r)) r).le
            omega
          · rw [hsk] at h1
            cases h1
            exact absurd h2 (hst.not (by decide +kernel))
    · rintro ⟨r, v⟩ k _ ⟨h1, h2, h3, h4⟩
      have := marks_adv h1
      exact within_ok.mpr ⟨h1, h2, h3, .inl (by count)⟩
    · rintro e k _ ⟨h1, h2⟩
      dsimp only
      unfold matchParsers
      have := word_phraseWord (c := c) h1 h2
      refine Within.on (n := 0 + k) (x := word c i)
        (S := fun a m => Adv i a.1 ∧ reach a.1 + 1 ≤ reach i ∧ ¬ Blocked c i ∧
          PhraseWordCost c i a.1 (k + m)) (F := fun m => k + m ≤ 250 * reach i + 250) ?_ ?_ ?_ ?_
      · unfold Within at this ⊢
        split <;> rename_i he <;> rw [he] at this <;> simpa using this
      · rintro ⟨r, v⟩ m _ h
        refine within_ok.mpr ?_
        rwa [Nat.zero_add]
      · rintro e m _ h
        exact within_err.mpr (by omega)
      · rintro e m _ h
        exact within_abort.mpr (by omega)
    · rintro e k _ ⟨h1, h2⟩
      exact within_abort.mpr (by omega)
  · refine word_phraseWord (by omega) ?_
    intro r hr _
    have := marks_adv hr
    have := hr.le
    omega

theorem phraseLoop_within : ∀ n i,
    Within (manyLoop (phraseWord c) n i) 0
      (fun a k => Adv i a.1 ∧ k + marks i ≤ 600 * reach i + 600 ∧
        (Blocked c i → k ≤ 251 * reach i + 251))
      fun k => k + marks i ≤ 600 * reach i + 600 ∧ (Blocked c i → k ≤ 251 * reach i + 251)
  | 0, i => within_abort.mpr (by have := marks_le i; exact ⟨by omega, fun _ => by omega⟩)
  | n + 1, i => by
    have hm := marks_le i
    unfold manyLoop
    refine within_tick.mpr ?_
    refine Within.on (phraseWord_within i) ?_ ?_ ?_
    · rintro ⟨r, v⟩ k _ ⟨h1, h2, h3, h4⟩
      dsimp only at *
      refine Within.bind (phraseLoop_within n r) ?_ ?_
      · rintro ⟨s, v⟩ m _ ⟨h5, h6, h7⟩
        refine within_ok.mpr ⟨h1.trans h5, ?_, fun h => absurd h h3⟩
        rcases h4 with h4 | ⟨h4, h4'⟩
        · omega
        · have := h7 h4
          omega
      · rintro m _ ⟨h6, h7⟩
        refine ⟨?_, fun h => absurd h h3⟩
        rcases h4 with h4 | ⟨h4, h4'⟩
        · omega
        · have := h7 h4
          omega
    · rintro e k _ h
      exact within_ok.mpr ⟨.refl _, by omega, fun _ => by omega⟩
    · rintro e k _ h
      exact within_abort.mpr ⟨by omega, fun _ => by omega⟩

theorem phrase_within (i : Bytes) :
    Within (phrase c i) 0 (fun a k => Adv i a.1 ∧ reach a.1 + 1 ≤ reach i ∧ k ≤ 800 * (reach i + 1))
      fun k => k ≤ 800 * (reach i + 1) := by
  unfold phrase many1
  refine Within.bind (phraseWord_within i) ?_ (fun k _ h => by omega)
  rintro ⟨r, v⟩ k _ ⟨h1, h2, h3, h4⟩
  dsimp only at *
  have := marks_le i
  refine Within.bind (phraseLoop_within _ r) ?_ ?_
  · rintro ⟨s, v⟩ m _ ⟨h5, h6, h7⟩
    have := h5.le
    refine within_ok.mpr ⟨h1.trans h5, by count, ?_⟩
    rcases h4 with h4 | ⟨h4, h4'⟩ <;> count
  · rintro m _ ⟨h6, h7⟩
    rcases h4 with h4 | ⟨h4, h4'⟩ <;> omega

/-! ### Unstructured text -/

theorem dropWsp_within (i : Bytes) :
    Within (dropWsp i) 0 (fun a k => Adv i a.1 ∧ k ≤ 60 * (reach i + 1)) fun k => k ≤ 60 * (reach i + 1) := by
  have hp := takeWhile1_within wsp_line
  unfold dropWsp ignoreMany
  refine (ignoreManyLoop_within (A := 60) (p := fun i => takeWhile1 i isWsp) (fun i => (hp i).mono
    (fun _ _ h => ⟨h.1, by omega⟩) fun _ _ => trivial) _ i).use ?_ ?_
  · rintro ⟨r, v⟩ k _ ⟨h1, h2, h3⟩
    have := ((hp r).fail h2).2
    have := h1.le
    exact ⟨h1, by count⟩
  · rintro k _ ⟨r, ⟨h1, h2, h3⟩ | ⟨h1, h2⟩⟩
    · have := ((hp r).fail h2).2
      have := h1.le
      count
    · omega

theorem unstructured_within (i : Bytes) :
    Within (unstructured i) 0 (fun a k => Adv i a.1 ∧ k ≤ 200 * (reach i + 1))
      fun k => k ≤ 200 * (reach i + 1) := by
  have hp : ∀ i, Within (collectPair i fwsOrEmpty fun i => do
      let (input, value) ← takeWhile1 i isVchar
      .ok (input, value)) 0 (fun a k => Adv i a.1 ∧ k + 60 * reach a.1 + 1 ≤ 60 * reach i)
      fun k => k ≤ 2 * reach i + 9 := by
    intro i
    unfold collectPair
    refine Within.bind (fwsOrEmpty_within i) ?_ (fun _ _ h => h.elim)
    rintro ⟨j, v⟩ k _ ⟨e, ha, hk⟩
    dsimp only at *
    have hle := ha.le
    refine within_bind.mpr ?_
    refine Within.bind (takeWhile1_within vchar_line j) ?_ ?_
    · rintro ⟨r, v⟩ k' _ ⟨h1, hs, e', hv, h2, h3, h4⟩
      refine within_ok.mpr (within_ok.mpr ?_)
      dsimp only at *
      refine ⟨ha.trans h1, ?_⟩
      rcases hk with hk | ⟨h, hw, _⟩
      · omega
      · have hst := starts_run (r := r) h2 hv
        rw [← e', h] at hst
        exact absurd hw (hst.not (by decide +kernel))
    · rintro k' _ ⟨_, h⟩
      rcases hk with hk | ⟨h, hw, _, hk⟩ <;> omega
  unfold unstructured collectMany
  refine Within.bind (collectManyLoop_within (A := 60) (fun i => (hp i).mono (fun _ _ h => h)
    fun _ _ => trivial) _ i) ?_ ?_
  · rintro ⟨r, v⟩ k _ ⟨h1, h2, h3⟩
    have := (hp r).fail h2
    have := h1.le
    dsimp only at *
    refine Within.bind (dropWsp_within r) ?_ (fun k _ h => by omega)
    rintro ⟨s, u⟩ k' _ ⟨h4, h5⟩
    have := h4.le
    exact within_ok.mpr ⟨h1.trans h4, by count⟩
  · rintro k _ ⟨r, ⟨h1, h2, h3⟩ | ⟨h1, h2⟩⟩
    · have := (hp r).fail h2
      have := h1.le
      count
    · omega

theorem mimeUnstructuredLoop_within : ∀ n b i,
    Within (mimeUnstructuredLoop c n b i) 0
      (fun a k => Adv i a.1 ∧ k + marks i ≤ 100 * reach i + 100)
      fun k => k + marks i ≤ 100 * reach i + 100
  | 0, b, i => within_abort.mpr (by have := marks_le i; omega)
  | n + 1, b, i => by
    have hm := marks_le i
    unfold mimeUnstructuredLoop
    refine within_tick.mpr ?_
    refine Within.bind (fwsOrEmpty_within i) ?_ (fun _ _ h => h.elim)
    rintro ⟨j, v⟩ k _ ⟨e, ha, hk⟩
    dsimp only at *
    have hle := ha.le
    have hmj := marks_adv ha
    have h4 : nth 4 j ≤ reach j := by unfold nth; omega
    refine Within.on (encodedWord_within j) ?_ ?_ ?_
    · rintro ⟨r, v⟩ k' _ ⟨h1, h2, ⟨t, ht⟩, h3⟩
      have hst : Starts (· == 61) j := ⟨61, _, ht, rfl⟩
      have hmr := marks_adv h1
      dsimp only at *
      have hk' : k + 2 * reach j ≤ 2 * reach i + 7 := by
        rcases hk with hk | ⟨h, hw, hf, _⟩
        · exact hk
        · rw [h] at hst
          exact absurd hw (hst.not (by decide +kernel))
      refine Within.bind (mimeUnstructuredLoop_within n true r) ?_ (fun m _ h => by omega)
      rintro ⟨s, v⟩ m _ ⟨h5, h6⟩
      exact within_ok.mpr ⟨(ha.trans h1).trans h5, by omega⟩
    · rintro er k' _ h
      dsimp only
      refine Within.on (takeWhile1_within vchar_line j) ?_ ?_ ?_
      · rintro ⟨r, v⟩ k₂ _ ⟨h1, hs, e', hv, h2, h3, h5⟩
        have hst := starts_run (r := r) h2 hv
        have hmr := marks_adv h1
        dsimp only at *
        rw [← e'] at hst
        have hk' : k + 2 * reach j ≤ 2 * reach i + 7 := by
          rcases hk with hk | ⟨h, hw, hf, _⟩
          · exact hk
          · rw [h] at hst
            exact absurd hw (hst.not (by decide +kernel))
        have hc : k' + marks j + 5 * reach r ≤ 5 * reach j + marks r + 25 := by
          rcases h with h | ⟨⟨t, ht⟩, h⟩
          · omega
          · have hmem := mark_mem (by decide +kernel) (ht.symm.trans e') h2 hs
            have := marks_mark e' (folded_of fun x hx => by simpa [lineChar] using vchar_line x (hv x hx)) hmem
            omega
        refine Within.bind (mimeUnstructuredLoop_within n false r) ?_ (fun m _ h => by omega)
        rintro ⟨s, v⟩ m _ ⟨h5, h6⟩
        exact within_ok.mpr ⟨(ha.trans h1).trans h5, by omega⟩
      · rintro er k₂ _ ⟨_, h'⟩
        refine within_ok.mpr ⟨.refl _, ?_⟩
        rcases hk with hk | ⟨_, hw, hf, hk⟩ <;> rcases h with h | ⟨_, h⟩ <;> omega
      · rintro er k₂ _ ⟨_, h'⟩
        refine within_abort.mpr ?_
        rcases hk with hk | ⟨_, hw, hf, hk⟩ <;> rcases h with h | ⟨_, h⟩ <;> omega
    · rintro er k' _ h
      refine within_abort.mpr ?_
      rcases hk with hk | ⟨_, hw, hf, hk⟩ <;> rcases h with h | ⟨_, h⟩ <;> omega

theorem mimeUnstructured_within (i : Bytes) :
    Within (mimeUnstructured c i) 0 (fun a k => Adv i a.1 ∧ k ≤ 200 * (reach i + 1))
      fun k => k ≤ 200 * (reach i + 1) := by
  unfold mimeUnstructured
  refine Within.bind (mimeUnstructuredLoop_within _ _ i) ?_ (fun k _ h => by omega)
  rintro ⟨r, v⟩ k _ ⟨h1, h2⟩
  have := h1.le
  dsimp only at *
  refine Within.bind (dropWsp_within r) ?_ (fun k _ h => by omega)
  rintro ⟨s, u⟩ k' _ ⟨h4, h5⟩
  have := h4.le
  exact within_ok.mpr ⟨h1.trans h4, by count⟩

end EmailParser.Timed
