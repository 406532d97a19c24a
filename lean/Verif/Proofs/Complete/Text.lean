import Verif.Proofs.Complete.Words
import Verif.Proofs.Params
import Verif.Spec.Layout
/-
Encoded words and unstructured text of the grammar are accepted.
-/
namespace EmailParser
open Spec (Gram)

variable {α β : Type} {c : Cfg}

/-! ### Encoded words -/

theorem decodeWord_ok {cs enc text bytes v : Bytes}
    (h : (enc = b! "b" ∧ Spec.b64Decode .start (Spec.b64Tokens text) = .ok bytes) ∨
      (enc = b! "q" ∧ Spec.qDecode text = bytes)) (hv : Spec.CharsetText c cs bytes v) :
    decodeWord c cs enc text = .ok v := by
  have h1 : decodeWord.decodeTransfer enc text = .ok bytes := by
    unfold decodeWord.decodeTransfer
    rw [decodeBase64_eq, decodeHeaderQp_eq]
    rcases h with ⟨rfl, h⟩ | ⟨rfl, h⟩
    · rw [if_pos (by decide), h]
    · rw [if_neg (by decide), if_pos (by decide), h]
  unfold decodeWord
  simp only [h1, ok_bind, decodeCharset_of_text hv]

theorem encodingName_chars {enc : Bytes} (h : enc.map asciiLower = b! "b" ∨ enc.map asciiLower = b! "q") :
    enc ≠ [] ∧ ∀ x ∈ enc, Spec.encodingChar x = true := by
  have key : ∀ x : UInt8, asciiLower x = 98 ∨ asciiLower x = 113 → Spec.encodingChar x = true := by
    decide +kernel
  have : ∃ x, enc = [x] ∧ (asciiLower x = 98 ∨ asciiLower x = 113) := by
    rcases h with h | h <;> rcases List.map_eq_cons_iff.mp h with ⟨x, t, rfl, hx, ht⟩ <;>
    · rw [List.map_eq_nil_iff] at ht
      subst ht
      exact ⟨x, rfl, by simp [hx]⟩
  obtain ⟨x, rfl, hx⟩ := this
  exact ⟨by simp, by simpa using key x hx⟩

/-- A text of the form of an encoded word. -/
theorem encodedWord_eq {cs lang enc text r : Bytes} (hc1 : cs ≠ [])
    (hc2 : ∀ b ∈ cs, Spec.charsetChar b = true)
    (hl : lang = [] ∨ ∃ l, lang = 42 :: l ∧ l ≠ [] ∧ ∀ c ∈ l, Spec.encodingChar c = true)
    (he1 : enc ≠ []) (he2 : ∀ b ∈ enc, Spec.encodingChar b = true)
    (ht1 : text ≠ []) (ht2 : ∀ b ∈ text, Spec.encodedTextChar b = true) :
    encodedWord c (b! "=?" ++ cs ++ lang ++ b! "?" ++ enc ++ b! "?" ++ text ++ b! "?=" ++ r) =
      (decodeWord c (lowercase cs) (lowercase enc) text).bind fun v => .ok (r, v) := by
  have t1 := tag_append (b! "=?") (cs ++ (lang ++ (63 :: (enc ++ (63 :: (text ++ (63 :: 61 :: r)))))))
    "TAG ERROR: An encoded word must start with `=?`."
  have t2 := tag_append (b! "?") (enc ++ (63 :: (text ++ (63 :: 61 :: r))))
    "TAG ERROR: In an encoded word, a language must be followed by a `?`."
  have t3 := tag_append (b! "?") (text ++ (63 :: 61 :: r))
    "TAG ERROR: In an encoded word, a encoding must be followed by a `?`."
  have t4 := tag_append (b! "?=") r "TAG ERROR: An encoded word must end with `?=`."
  simp only [List.cons_append, List.nil_append] at t1 t2 t3 t4
  have e1 : charset (cs ++ (lang ++ (63 :: (enc ++ (63 :: (text ++ (63 :: 61 :: r))))))) =
      .ok (lang ++ (63 :: (enc ++ (63 :: (text ++ (63 :: 61 :: r))))), lowercase cs) := by
    unfold charset
    rw [charsetChar_eq, takeWhile1_ok hc1 hc2]
    · rfl
    · rcases hl with rfl | ⟨l, rfl, _⟩
      · exact stops_cons.mpr (by decide)
      · exact stops_cons.mpr (by decide)
  have henc : ∀ (x s : Bytes), x ≠ [] → (∀ b ∈ x, Spec.encodingChar b = true) →
      encoding (x ++ (63 :: s)) = .ok (63 :: s, lowercase x) := by
    intro x s h1 h2
    unfold encoding
    rw [encodingChar_eq, takeWhile1_ok h1 h2 (stops_cons.mpr (by decide))]
    rfl
  have e2 : ∃ o, optional (lang ++ (63 :: (enc ++ (63 :: (text ++ (63 :: 61 :: r)))))) (fun input =>
      pair input
        (fun input => tag input (b! "*")
          "TAG ERROR: In an encoded word with encoding, a charset must be followed by a `*`.")
        encoding) = .ok (63 :: (enc ++ (63 :: (text ++ (63 :: 61 :: r)))), o) := by
    rcases hl with rfl | ⟨l, rfl, hl1, hl2⟩
    · refine ⟨none, optional_err ?_⟩
      simp only [pair, List.nil_append, tag_cons_err (show (63 : UInt8) ≠ 42 by decide), err_bind]
      exact ⟨_, rfl⟩
    · refine ⟨some ((), lowercase l), optional_ok ?_⟩
      have t := tag_append (b! "*") (l ++ (63 :: (enc ++ (63 :: (text ++ (63 :: 61 :: r))))))
        "TAG ERROR: In an encoded word with encoding, a charset must be followed by a `*`."
      simp only [List.cons_append, List.nil_append] at t ⊢
      unfold pair
      simp only [t, ok_bind, henc l _ hl1 hl2]
  obtain ⟨o, e2⟩ := e2
  have e5 : encodedText (text ++ (63 :: 61 :: r)) = .ok (63 :: 61 :: r, text) := by
    unfold encodedText
    rw [encodedTextChar_eq]
    exact takeWhile1_ok ht1 ht2 (stops_cons.mpr (by decide))
  unfold encodedWord
  simp only [List.append_assoc, List.cons_append, List.nil_append]
  simp only [t1, ok_bind, e1, e2, t2, henc enc _ he1 he2, t3, e5, t4]
  rfl

/-- An encoded word is recognised whatever follows. -/
theorem encodedWord_append {w v r : Bytes} (h : Spec.EncodedWord c w v) :
    encodedWord c (w ++ r) = .ok (r, v) := by
  obtain ⟨cs, lang, enc, text, bytes, rfl, ⟨hc1, hc2⟩, hl, ⟨ht1, ht2⟩, hb, hv⟩ := h
  obtain ⟨he1, he2⟩ := encodingName_chars (enc := enc) (hb.imp And.left And.left)
  have e8 := decodeWord_ok (text := text) hb hv
  rw [encodedWord_eq hc1 hc2 hl he1 he2 ht1 ht2, lowercase, lowercase, e8]
  rfl

/-- Encoded words consist of visible characters. -/
theorem encodedWord_vchar {w v : Bytes} (h : Spec.EncodedWord c w v) :
    ∀ b ∈ w, Spec.vchar b = true := by
  obtain ⟨cs, lang, enc, text, bytes, rfl, ⟨hc1, hc2⟩, hl, ⟨ht1, ht2⟩, hb, hv⟩ := h
  obtain ⟨he1, he2⟩ := encodingName_chars (enc := enc) (hb.imp And.left And.left)
  have k1 : ∀ b, Spec.charsetChar b = true → Spec.vchar b = true := by decide +kernel
  have k2 : ∀ b, Spec.encodingChar b = true → Spec.vchar b = true := by decide +kernel
  have k3 : ∀ b, Spec.encodedTextChar b = true → Spec.vchar b = true := by decide +kernel
  intro b hb
  simp only [List.mem_append] at hb
  rcases hb with ((((((hb | hb) | hb) | hb) | hb) | hb) | hb) | hb
  · revert hb b; decide +kernel
  · exact k1 b (hc2 b hb)
  · rcases hl with rfl | ⟨l, rfl, hl1, hl2⟩
    · cases hb
    · rcases List.mem_cons.mp hb with rfl | hb
      · decide
      · exact k2 b (hl2 b hb)
  · revert hb b; decide +kernel
  · exact k2 b (he2 b hb)
  · revert hb b; decide +kernel
  · exact k3 b (ht2 b hb)
  · revert hb b; decide +kernel

theorem encodedWord_head {w v : Bytes} (h : Spec.EncodedWord c w v) : ∃ t, w = 61 :: 63 :: t := by
  obtain ⟨cs, lang, enc, text, bytes, rfl, _⟩ := h
  exact ⟨_, by simp; rfl⟩

/-- What is not an encoded word is rejected. -/
theorem encodedWord_err {i : Bytes} (h : ∀ p v, p <+: i → ¬ Spec.EncodedWord c p v) :
    ∃ e, encodedWord c i = .err e := by
  have := encodedWord_parses (c := c) (A := Aborts.none) i
  cases hx : encodedWord c i with
  | ok x =>
    obtain ⟨r, v⟩ := x
    rw [hx] at this
    obtain ⟨w, hw, hg⟩ := this
    exact (h w v ⟨r, hw.symm⟩ hg).elim
  | err e => exact ⟨e, rfl⟩
  | abort k => rw [hx] at this; exact this.elim

/-- No encoded word starts with this text, if the text is followed by something else than a visible
character. -/
theorem encodedWord_err_run {x r : Bytes} (h : ∀ p v, p <+: x → ¬ Spec.EncodedWord c p v)
    (hr : Stops Spec.vchar r) : ∃ e, encodedWord c (x ++ r) = .err e := by
  refine encodedWord_err fun p v hp hg => ?_
  obtain ⟨s, hs⟩ := hp
  rcases List.append_eq_append_iff.mp hs with ⟨t, rfl, -⟩ | ⟨t, rfl, rfl⟩
  · exact h p v (List.prefix_append _ _) hg
  · cases t with
    | nil => exact h _ v (by simp) hg
    | cons b t =>
      have := encodedWord_vchar hg b (by simp)
      rw [stops_cons.mp hr] at this
      cases this

/-! ### Unstructured text -/

/-- One element of unstructured text. -/
def TextPart : Gram Bytes := do
  let white ← Spec.OptFws
  let v ← Gram.chars1 Spec.vchar
  pure (white ++ v)

theorem vchar_noSpace : ∀ b : UInt8, Spec.vchar b = true → Spec.wsp b = false ∧ b ≠ 13 := by
  decide +kernel

theorem space_not_vchar : ∀ b : UInt8, Spec.wsp b = true ∨ b = 13 → Spec.vchar b = false := by
  decide +kernel

theorem vchar_run_noSpace {x r : Bytes} (hne : x ≠ []) (hx : ∀ b ∈ x, Spec.vchar b = true) :
    NoSpace (x ++ r) := by
  cases x with
  | nil => exact absurd rfl hne
  | cons b t =>
    obtain ⟨h1, h2⟩ := vchar_noSpace b (hx b (by simp))
    exact noSpace_cons h1 h2

theorem textParts_residual {r : Bytes} (hr : Stops Spec.vchar r) {s : Bytes} {vs : List Bytes}
    (h : Gram.star TextPart s vs) :
    ∃ y s' vs', s = y ++ s' ∧ (∀ x ∈ y, Spec.vchar x = true) ∧ vs.flatten = y ++ vs'.flatten ∧
      Gram.star TextPart s' vs' ∧ Stops Spec.vchar (s' ++ r) := by
  induction h with
  | nil => exact ⟨[], [], [], rfl, by simp, rfl, .nil, hr⟩
  | cons hp hs ih =>
    rename_i w₁ w₂ a as
    have hp' := hp
    obtain ⟨f, x, o, rfl, hf, x', _, v, rfl, ⟨rfl, hne, hv⟩, rfl, rfl⟩ := hp
    obtain ⟨o', rfl, ⟨rfl, rfl⟩ | ⟨v', rfl, hf⟩⟩ := hf
    · obtain ⟨y, s', vs', rfl, hy, hfl, hs', hstop⟩ := ih
      refine ⟨v ++ y, s', vs', by simp, ?_, by simp [hfl], hs', hstop⟩
      intro x hx
      rcases List.mem_append.mp hx with hx | hx
      · exact hv x hx
      · exact hy x hx
    · obtain ⟨b, t, rfl, hb⟩ := fws_head hf
      exact ⟨[], _, _, rfl, by simp, rfl, .cons hp' hs, stops_cons.mpr (space_not_vchar b hb)⟩

theorem wsp_stops_vchar {t r : Bytes} (ht : ∀ b ∈ t, Spec.wsp b = true) (hr : Stops Spec.vchar r) :
    Stops Spec.vchar (t ++ r) := by
  cases t with
  | nil => exact hr
  | cons b t => exact stops_cons.mpr (space_not_vchar b (.inl (ht b (by simp))))

/-- What remains after the last word: no further word is found. -/
theorem fwsOrEmpty_end {t r : Bytes} (ht : ∀ b ∈ t, Spec.wsp b = true) (hf : NoFws r)
    (hr : Stops Spec.vchar r) :
    ∃ r' v, fwsOrEmpty (t ++ r) = .ok (r', v) ∧ (r' = r ∨ r' = t ++ r) ∧ Stops Spec.vchar r' := by
  have hend := wsp_stops_vchar ht hr
  by_cases hc : Spec.CRLF <+: r
  · obtain ⟨s, rfl⟩ := hc
    obtain ⟨e, he⟩ := fws_err_at_end ht (hf.2 s rfl)
    rw [List.append_assoc] at he
    exact ⟨_, [], by simp only [fwsOrEmpty, he], .inr rfl, hend⟩
  · by_cases hne : t = []
    · subst hne
      obtain ⟨e, he⟩ := hf.err
      exact ⟨_, [], by simp only [fwsOrEmpty, List.nil_append, he], .inl rfl, hr⟩
    · have := fws_append (w := t) (v := t) (r := r) (.inr ⟨rfl, hne, ht⟩) hf.1 hc
      exact ⟨r, t, by simp only [fwsOrEmpty, this], .inl rfl, hr⟩

theorem dropWsp_append {t r : Bytes} (ht : ∀ b ∈ t, Spec.wsp b = true) (hr : Stops Spec.wsp r) :
    dropWsp (t ++ r) = .ok (r, ()) := by
  have hlast : ∀ n, ignoreManyLoop (fun i => takeWhile1 i isWsp) (n + 1) r = .ok (r, ()) := by
    intro n
    obtain ⟨e, he⟩ := takeWhile1_err hr
    simp only [ignoreManyLoop, isWsp_eq, he]
  unfold dropWsp ignoreMany
  by_cases hne : t = []
  · subst hne
    exact hlast _
  · have : (t ++ r).length + 1 = ((t ++ r).length - 1 + 1) + 1 := by
      have := List.length_pos_iff.mpr hne
      simp only [List.length_append]
      omega
    rw [this]
    unfold ignoreManyLoop
    have h2 := takeWhile1_ok hne ht hr
    rw [← isWsp_eq] at h2
    simp only [h2]
    exact hlast _

theorem collectTextLoop_append {t r : Bytes} (ht : ∀ b ∈ t, Spec.wsp b = true) (hf : NoFws r)
    (hr : Stops Spec.vchar r) :
    ∀ (fuel : Nat) (s : Bytes) (vs : List Bytes), s.length < fuel → Gram.star TextPart s vs →
      collectManyLoop (fun i => collectPair i fwsOrEmpty fun i => do
        let (input, value) ← takeWhile1 i isVchar
        .ok (input, value)) fuel (s ++ (t ++ r)) = .ok (t ++ r, vs.flatten)
  | 0, _, _, h, _ => by omega
  | fuel + 1, s, vs, h, hs => by
    unfold collectManyLoop
    simp only [collectPair, isVchar_eq]
    cases hs with
    | nil =>
      obtain ⟨r', v, h1, -, h2⟩ := fwsOrEmpty_end ht hf hr
      obtain ⟨e, he⟩ := takeWhile1_err h2
      simp only [List.nil_append, h1, ok_bind, he, err_bind, List.flatten_nil]
    | cons hp hs =>
      rename_i w₁ w₂ a as
      obtain ⟨g, _, gv, rfl, hg, x, _, v, rfl, ⟨rfl, hne, hv⟩, rfl, rfl⟩ := hp
      obtain ⟨y, s', vs', rfl, hy, hfl, hs', hst⟩ :=
        textParts_residual (wsp_stops_vchar ht hr) hs
      have h1 := fwsOrEmpty_append (r := v ++ (y ++ (s' ++ (t ++ r)))) hg (vchar_run_noSpace hne hv)
      have h2 := takeWhile1_ok (p := Spec.vchar) (w := v ++ y) (r := s' ++ (t ++ r)) (by simp [hne])
        (by
          intro x hx
          rcases List.mem_append.mp hx with hx | hx
          · exact hv x hx
          · exact hy x hx) hst
      simp only [List.append_assoc] at h2
      simp only [List.length_append, List.length_nil] at h
      have hpos := List.length_pos_iff.mpr hne
      have ih := collectTextLoop_append (r := r) ht hf hr fuel s' vs' (by omega) hs'
      simp only [collectPair, isVchar_eq] at ih
      simp only [List.append_nil, List.append_assoc, h1, ok_bind, h2, ih, List.flatten_cons, hfl]

/-- Unstructured text of the grammar, when what follows can neither continue it nor fold. -/
theorem unstructured_append {w v r : Bytes} (h : Spec.Unstructured w v) (hf : NoFws r)
    (hr : Stops Spec.vchar r) : unstructured (w ++ r) = .ok (r, v) := by
  obtain ⟨s, _, vs, rfl, hs, _, _, t, rfl, ⟨rfl, ht⟩, rfl, rfl⟩ := h
  have h1 := collectTextLoop_append ht hf hr ((s ++ (t ++ r)).length + 1) s vs (by simp; omega) hs
  have h2 := dropWsp_append ht hf.1
  unfold unstructured collectMany
  simp only [List.append_nil, List.append_assoc, h1, ok_bind, h2]

/-! ### Unstructured text with encoded words -/

open Spec (Layout)

theorem encodedWord_noSpace {w v r : Bytes} (h : Spec.EncodedWord c w v) : NoSpace (w ++ r) := by
  obtain ⟨t, rfl⟩ := encodedWord_head h
  exact noSpace_cons (by decide) (by decide)

theorem stops_append {p : UInt8 → Bool} {s r : Bytes} (hs : Stops p s) (hr : Stops p r) :
    Stops p (s ++ r) := by
  cases s with
  | nil => exact hr
  | cons b t => exact stops_cons.mpr (stops_cons.mp hs)

theorem mimeUnstructuredLoop_append {t r : Bytes} (ht : ∀ b ∈ t, Spec.wsp b = true) (hf : NoFws r)
    (hr : Stops Spec.vchar r) :
    ∀ (fuel : Nat) (previous : Bool) (s : Bytes) (ps : List Spec.Piece), s.length < fuel →
      Layout c s ps →
      mimeUnstructuredLoop c fuel previous (s ++ (t ++ r)) = .ok (t ++ r, Spec.joinPieces previous ps)
  | 0, _, _, _, h, _ => by omega
  | fuel + 1, previous, s, ps, h, hs => by
    unfold mimeUnstructuredLoop
    cases hs with
    | nil =>
      obtain ⟨r', v, h1, -, h2⟩ := fwsOrEmpty_end ht hf hr
      obtain ⟨e, he⟩ := takeWhile1_err h2
      obtain ⟨e', he'⟩ := encodedWord_err_run (c := c) (x := []) (r := r') (by
        intro p v hp hg
        rw [List.prefix_nil] at hp
        subst hp
        obtain ⟨t, ht⟩ := encodedWord_head hg
        cases ht) h2
      simp only [List.nil_append] at he'
      simp only [List.nil_append, h1, ok_bind, he', isVchar_eq, he, Spec.joinPieces]
    | encoded hg hw hs =>
      rename_i f white w text s ps
      have hpos : 0 < w.length := by
        obtain ⟨t, rfl⟩ := encodedWord_head hw
        simp
      have h1 := fwsOrEmpty_append (r := w ++ (s ++ (t ++ r))) hg (encodedWord_noSpace hw)
      have h2 := encodedWord_append (r := s ++ (t ++ r)) hw
      have ih := mimeUnstructuredLoop_append (r := r) ht hf hr fuel true s ps (by simp at h; omega) hs
      simp only [List.append_assoc, h1, ok_bind, h2, ih, Spec.joinPieces, Bool.and_true]
      cases previous <;> simp
    | plain hg hne hx hno hst hs =>
      rename_i f white x s ps
      have hpos := List.length_pos_iff.mpr hne
      have hst' := stops_append hst (wsp_stops_vchar ht hr)
      have h1 := fwsOrEmpty_append (r := x ++ (s ++ (t ++ r))) hg (vchar_run_noSpace hne hx)
      obtain ⟨e, he⟩ := encodedWord_err_run (c := c) hno hst'
      have h2 := takeWhile1_ok hne hx hst'
      have ih := mimeUnstructuredLoop_append (r := r) ht hf hr fuel false s ps (by simp at h; omega) hs
      simp only [List.append_assoc, h1, ok_bind, he, isVchar_eq, h2, ih, Spec.joinPieces,
        Bool.and_false, Bool.false_eq_true, if_false]

theorem mimeUnstructured_append {s t r : Bytes} {ps : List Spec.Piece} (hs : Layout c s ps)
    (ht : ∀ b ∈ t, Spec.wsp b = true) (hf : NoFws r) (hr : Stops Spec.vchar r) :
    mimeUnstructured c (s ++ (t ++ r)) = .ok (r, Spec.joinPieces false ps) := by
  have h1 := mimeUnstructuredLoop_append (c := c) ht hf hr ((s ++ (t ++ r)).length + 1) false s ps
    (by simp; omega) hs
  have h2 := dropWsp_append ht hf.1
  unfold mimeUnstructured
  simp only [h1, ok_bind, h2]

/-- Every unstructured text can be read so. -/
theorem layout_exists : ∀ (n : Nat) (s : Bytes) (vs : List Bytes), s.length ≤ n →
    Gram.star TextPart s vs → ∃ ps, Layout c s ps
  | 0, s, vs, h, _ => by
    rw [List.length_eq_zero_iff.mp (by omega : s.length = 0)]
    exact ⟨[], .nil⟩
  | n + 1, s, vs, h, hs => by
    cases hs with
    | nil => exact ⟨[], .nil⟩
    | cons hp hs =>
      rename_i w₁ w₂ a as
      obtain ⟨g, _, gv, rfl, hg, x, _, v, rfl, ⟨rfl, hne, hv⟩, rfl, rfl⟩ := hp
      obtain ⟨y, s', vs', rfl, hy, hfl, hs', hst⟩ := textParts_residual (stops_nil) hs
      have hall : ∀ b ∈ v ++ y, Spec.vchar b = true := by
        intro x hx
        rcases List.mem_append.mp hx with hx | hx
        · exact hv x hx
        · exact hy x hx
      have hne' : v ++ y ≠ [] := by simp [hne]
      rw [List.append_nil] at hst
      rw [show g ++ (v ++ []) ++ (y ++ s') = g ++ ((v ++ y) ++ s') by simp] at h ⊢
      generalize v ++ y = x at *
      have hlen := List.length_pos_iff.mpr hne'
      simp only [List.length_append] at h
      by_cases hex : ∃ p v, p <+: x ∧ Spec.EncodedWord c p v
      · obtain ⟨p, t, ⟨x', rfl⟩, hpw⟩ := hex
        have hpos : 0 < p.length := by
          obtain ⟨t, rfl⟩ := encodedWord_head hpw
          simp
        have : ∃ vs, Gram.star TextPart (x' ++ s') vs := by
          by_cases hx' : x' = []
          · subst hx'
            exact ⟨vs', hs'⟩
          · refine ⟨([] ++ x') :: vs', .cons ?_ hs'⟩
            exact ⟨[], x', [], rfl, ⟨none, rfl, .inl ⟨rfl, rfl⟩⟩, x', [], x', by simp,
              ⟨rfl, hx', fun b hb => hall b (by simp [hb])⟩, rfl, rfl⟩
        obtain ⟨vs, hvs⟩ := this
        obtain ⟨ps, hps⟩ := layout_exists n _ vs (by simp only [List.length_append] at *; omega) hvs
        exact ⟨_, by rw [List.append_assoc]; exact .encoded hg hpw hps⟩
      · obtain ⟨ps, hps⟩ := layout_exists n s' vs' (by omega) hs'
        exact ⟨_, .plain hg hne' hall (fun p v hp hg => hex ⟨p, v, hp, hg⟩) hst hps⟩

/-- Every unstructured text is consumed. -/
theorem mimeUnstructured_total {w v r : Bytes} (h : Spec.Unstructured w v) (hf : NoFws r)
    (hr : Stops Spec.vchar r) : ∃ v', mimeUnstructured c (w ++ r) = .ok (r, v') := by
  obtain ⟨s, _, vs, rfl, hs, _, _, t, rfl, ⟨rfl, ht⟩, rfl, rfl⟩ := h
  obtain ⟨ps, hps⟩ := layout_exists (c := c) _ s vs (Nat.le_refl _) hs
  exact ⟨_, by
    simp only [List.append_nil, List.append_assoc]
    exact mimeUnstructured_append hps ht hf hr⟩

/-- A text without `=?` is read as plain text. -/
theorem layout_plain : ∀ (n : Nat) (s : Bytes) (vs : List Bytes), s.length ≤ n →
    Gram.star TextPart s vs → ¬ [61, 63] <:+: vs.flatten →
    ∃ ps, Layout c s ps ∧ Spec.joinPieces false ps = vs.flatten
  | 0, s, vs, h, hs, _ => by
    have : vs = [] := by
      cases hs with
      | nil => rfl
      | cons hp hs =>
        obtain ⟨g, _, gv, rfl, hg, x, _, v, rfl, ⟨rfl, hne, hv⟩, rfl, rfl⟩ := hp
        have := List.length_pos_iff.mpr hne
        simp only [List.length_append] at h
        omega
    subst this
    cases hs
    exact ⟨[], .nil, rfl⟩
  | n + 1, s, vs, h, hs, hno => by
    cases hs with
    | nil => exact ⟨[], .nil, rfl⟩
    | cons hp hs =>
      rename_i w₁ w₂ a as
      obtain ⟨g, _, gv, rfl, hg, x, _, v, rfl, ⟨rfl, hne, hv⟩, rfl, rfl⟩ := hp
      obtain ⟨y, s', vs', rfl, hy, hfl, hs', hst⟩ := textParts_residual (stops_nil) hs
      have hall : ∀ b ∈ v ++ y, Spec.vchar b = true := by
        intro x hx
        rcases List.mem_append.mp hx with hx | hx
        · exact hv x hx
        · exact hy x hx
      have hne' : v ++ y ≠ [] := by simp [hne]
      have hfl' : ((gv ++ v) :: as).flatten = gv ++ ((v ++ y) ++ vs'.flatten) := by simp [hfl]
      rw [hfl'] at hno ⊢
      rw [List.append_nil] at hst
      rw [show g ++ (v ++ []) ++ (y ++ s') = g ++ ((v ++ y) ++ s') by simp] at h ⊢
      generalize v ++ y = x at *
      have hlen := List.length_pos_iff.mpr hne'
      simp only [List.length_append] at h
      obtain ⟨ps, hps, hj⟩ := layout_plain n s' vs' (by omega) hs' fun hi =>
        hno (hi.trans ((List.suffix_append _ _).isInfix.trans (List.suffix_append _ _).isInfix))
      refine ⟨_, .plain hg hne' hall (fun p v hp hg => hno ?_) hst hps, ?_⟩
      · obtain ⟨t, rfl⟩ := encodedWord_head hg
        obtain ⟨z, rfl⟩ := hp
        exact ⟨gv, t ++ z ++ vs'.flatten, by simp⟩
      · simp [Spec.joinPieces, hj]

/-! ### Folded text -/

theorem trimEnd_append {x t : Bytes} (ht : ∀ b ∈ t, Spec.wsp b = true)
    (hx : ∀ u b, x = u ++ [b] → Spec.wsp b = false) : Spec.trimEnd (x ++ t) = x := by
  unfold Spec.trimEnd
  have h1 : ∀ (t r : Bytes), (∀ b ∈ t, Spec.wsp b = true) → (t ++ r).dropWhile Spec.wsp = r.dropWhile Spec.wsp := by
    intro t r ht
    induction t with
    | nil => rfl
    | cons b t ih =>
      rw [List.cons_append, List.dropWhile_cons, if_pos (ht b (by simp))]
      exact ih fun b hb => ht b (by simp [hb])
  rw [List.reverse_append, h1 _ _ (by simpa using ht)]
  rcases List.eq_nil_or_concat x with rfl | ⟨u, b, rfl⟩
  · rfl
  · rw [List.concat_eq_append] at *
    simp [hx u b rfl]

theorem textParts_last {s : Bytes} {vs : List Bytes} (h : Gram.star TextPart s vs) :
    ∀ u b, vs.flatten = u ++ [b] → Spec.wsp b = false := by
  induction h with
  | nil => intro u b e; simp at e
  | cons hp hs ih =>
    rename_i w₁ w₂ a as
    intro u b e
    obtain ⟨g, _, gv, rfl, hg, x, _, v, rfl, ⟨rfl, hne, hv⟩, rfl, rfl⟩ := hp
    rcases List.eq_nil_or_concat as.flatten with h | ⟨u', b', h⟩
    · rcases List.eq_nil_or_concat v with rfl | ⟨u'', b'', rfl⟩
      · exact absurd rfl hne
      · simp only [List.concat_eq_append] at *
        simp only [List.flatten_cons, h, List.append_nil, ← List.append_assoc] at e
        have := (List.append_inj' e rfl).2
        simp only [List.cons.injEq, and_true] at this
        exact (vchar_noSpace b (by rw [← this]; exact hv b'' (by simp))).1
    · rw [List.concat_eq_append] at h
      simp only [List.flatten_cons, h, ← List.append_assoc] at e
      have := (List.append_inj' e rfl).2
      simp only [List.cons.injEq, and_true] at this
      rw [← this]
      exact ih u' b' h

/-- The first word of a text that does not begin with white space. -/
theorem textParts_first {s t : Bytes} {v : Bytes} {vs : List Bytes} (h : Gram.star TextPart s (v :: vs))
    (hx : Stops Spec.wsp ((v :: vs).flatten ++ t)) {f fv : Bytes} (hf : Spec.OptFws f fv) :
    Gram.star TextPart (f ++ s) ((fv ++ v) :: vs) := by
  cases h with
  | cons hp hs =>
    rename_i w₁ w₂
    obtain ⟨g, _, gv, rfl, hg, x, _, y, rfl, hy, rfl, rfl⟩ := hp
    have : g = [] ∧ gv = [] := by
      obtain ⟨o, rfl, ⟨rfl, rfl⟩ | ⟨a, rfl, hg⟩⟩ := hg
      · exact ⟨rfl, rfl⟩
      · exfalso
        have : ∃ b z, a = b :: z ∧ Spec.wsp b = true := by
          rcases hg with ⟨_, _, a, rfl, ⟨rfl, ha⟩, _, _, ⟨⟩, rfl, rfl, _, _, b, rfl, ⟨rfl, hne, hb⟩, rfl, rfl⟩ |
            ⟨rfl, hne, h⟩
          · cases a with
            | cons x z => exact ⟨x, _, rfl, ha x (by simp)⟩
            | nil => cases b with
              | nil => exact absurd rfl hne
              | cons x z => exact ⟨x, _, rfl, hb x (by simp)⟩
          · cases a with
            | nil => exact absurd rfl hne
            | cons x z => exact ⟨x, z, rfl, h x (by simp)⟩
        obtain ⟨b, z, rfl, hb⟩ := this
        have := hx b _ rfl
        rw [hb] at this
        cases this
    obtain ⟨rfl, rfl⟩ := this
    rw [show f ++ ([] ++ (x ++ []) ++ w₂) = (f ++ (x ++ [])) ++ w₂ by simp]
    exact .cons ⟨f, x ++ [], fv, rfl, hf, x, [], y, rfl, hy, rfl, by simp⟩ hs

theorem folding_parts {x w : Bytes} (h : Spec.Folding x w) :
    ∃ s vs t, w = s ++ t ∧ Gram.star TextPart s vs ∧ (∀ b ∈ t, Spec.wsp b = true) ∧
      x = vs.flatten ++ t := by
  induction h with
  | nil => exact ⟨[], [], [], rfl, .nil, by simp, rfl⟩
  | char hb h ih =>
    rename_i b x w
    obtain ⟨s, vs, t, rfl, hs, ht, rfl⟩ := ih
    refine ⟨[] ++ ([b] ++ []) ++ s, ([] ++ [b]) :: vs, t, by simp, .cons ⟨[], _, [], rfl,
      ⟨none, rfl, .inl ⟨rfl, rfl⟩⟩, [b], [], [b], rfl, ⟨rfl, by simp, by simpa using hb⟩, rfl, rfl⟩ hs, ht,
      by simp⟩
  | space hs0 hx h ih =>
    rename_i s0 x w
    obtain ⟨s, vs, t, rfl, hs, ht, rfl⟩ := ih
    cases vs with
    | nil =>
      cases hs
      exact ⟨[], [], s0 ++ t, by simp, .nil, by
        intro b hb
        rcases List.mem_append.mp hb with hb | hb
        · exact hs0 b hb
        · exact ht b hb, by simp⟩
    | cons v vs =>
      have hf : Spec.OptFws s0 s0 := by
        by_cases hne : s0 = []
        · subst hne
          exact ⟨none, rfl, .inl ⟨rfl, rfl⟩⟩
        · exact ⟨some s0, rfl, .inr ⟨s0, rfl, .inr ⟨rfl, hne, hs0⟩⟩⟩
      exact ⟨s0 ++ s, (s0 ++ v) :: vs, t, by simp, textParts_first hs hx hf, ht, by simp⟩
  | fold hs1 hs2 hne2 hxne hx h ih =>
    rename_i s1 s2 x w
    obtain ⟨s, vs, t, rfl, hs, ht, rfl⟩ := ih
    cases vs with
    | nil =>
      cases t with
      | nil => exact absurd rfl hxne
      | cons b t =>
        have := hx b t rfl
        rw [ht b (by simp)] at this
        cases this
    | cons v vs =>
      have hf : Spec.OptFws (s1 ++ (Spec.CRLF ++ (s2 ++ []))) (s1 ++ s2) :=
        ⟨some _, rfl, .inr ⟨_, rfl, .inl ⟨s1, _, s1, rfl, ⟨rfl, hs1⟩, Spec.CRLF, _, (), rfl, rfl, s2, [], s2, rfl,
          ⟨rfl, hne2, hs2⟩, rfl, rfl⟩⟩⟩
      exact ⟨_, _, t, by simp, textParts_first hs hx hf, ht, by simp⟩

end EmailParser
