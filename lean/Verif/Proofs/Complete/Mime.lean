import Verif.Proofs.Complete.Cfws
import Verif.Proofs.Sound.Mime
import Verif.Proofs.MimeProps
import Verif.Proofs.Overflow
/-
Header lines and MIME header fields of the grammar are accepted.
-/
namespace EmailParser
open Spec (Gram)

variable {α β : Type} {c : Cfg}

/-- A header line is read if its value is. -/
theorem headerLine_append {name name2 n w r : Bytes} {m m' : String} {p : Bytes → Res α} {v : α}
    (h2 : name2 = name.map swapCase) (hn : n.map asciiLower = name.map asciiLower)
    (hp : p (w ++ (Spec.CRLF ++ r)) = .ok (Spec.CRLF ++ r, v)) :
    headerLine name name2 m m' p (n ++ (w ++ (Spec.CRLF ++ r))) = .ok (r, v) := by
  subst h2
  unfold headerLine
  simp only [tagNoCase_append _ m hn, ok_bind, hp]
  rw [show (b! "\r\n") = Spec.CRLF from rfl, tag_append]
  rfl

theorem headerLine_err {name name2 n t : Bytes} {m m' : String} {p : Bytes → Res α}
    (h2 : name2 = name.map swapCase) (hn : n.map asciiLower = name.map asciiLower)
    (hp : ∃ e, p t = .err e) :
    ∃ e, headerLine name name2 m m' p (n ++ t) = .err e := by
  subst h2
  obtain ⟨e, hp⟩ := hp
  unfold headerLine
  simp only [tagNoCase_append _ m hn, ok_bind, hp]
  exact ⟨_, rfl⟩

theorem ignoreInlineCfws_append {w r : Bytes} (h : Spec.InlineCfws w ()) (hn : w.count 40 ≤ c.stack)
    (hr : Stops (fun b => Spec.wsp b || b == 40) r) : ignoreInlineCfws c (w ++ r) = .ok (r, ()) := by
  have hw : Stops Spec.wsp r := fun b t e => by
    have := hr b t e
    simp only [Bool.or_eq_false_iff] at this
    exact this.1
  have hp : Stops (· == 40) r := fun b t e => by
    have := hr b t e
    simp only [Bool.or_eq_false_iff] at this
    exact this.2
  obtain ⟨a, _, va, rfl, ⟨rfl, ha⟩, x, _, o, rfl, hx, b, _, vb, rfl, ⟨rfl, hb⟩, rfl, _⟩ := h
  unfold ignoreInlineCfws triplet
  rw [isWsp_eq]
  simp only [List.append_nil, List.append_assoc]
  rcases hx with ⟨rfl, rfl⟩ | ⟨⟨⟩, rfl, hx⟩
  · have h1 := takeWhile_ok (p := Spec.wsp) (w := va ++ vb) (r := r) (by
      intro y hy
      rcases List.mem_append.mp hy with hy | hy
      · exact ha y hy
      · exact hb y hy) hw
    simp only [List.append_assoc] at h1
    simp only [List.nil_append, h1, ok_bind, optional_err (comment_err (n := c.stack) hp)]
    have h2 := takeWhile_ok (p := Spec.wsp) (w := []) (r := r) (by simp) hw
    simp only [List.nil_append] at h2
    rw [h2]
    rfl
  · obtain ⟨t, e⟩ : ∃ t, x = 40 :: t := by
      obtain ⟨n, hx⟩ := hx
      exact commentN_head n _ _ hx
    have h1 := takeWhile_ok (p := Spec.wsp) (w := va) (r := x ++ (vb ++ r)) ha (by
      rw [e]; exact stops_cons.mpr (by decide))
    have h2 := comment_append' (n := c.stack) (r := vb ++ r) hx
      (by simp only [List.count_append] at hn; omega)
    simp only [h1, ok_bind, optional_ok h2]
    rw [takeWhile_ok (p := Spec.wsp) (w := vb) (r := r) hb hw]
    rfl

theorem crlf_cfwsStop {r : Bytes} : Stops (fun b => Spec.wsp b || b == 40) (Spec.CRLF ++ r) :=
  stops_cons.mpr (by decide)

theorem digit_cfwsEnd {w ds r : Bytes} (hne : ds ≠ []) (hd : ∀ d ∈ ds, Spec.digit d = true) :
    CfwsEnd w (ds ++ r) := by
  cases ds with
  | nil => exact absurd rfl hne
  | cons d ds =>
    have key : ∀ d : UInt8, Spec.digit d = true → Spec.wsp d = false ∧ d ≠ 40 ∧ d ≠ 13 := by
      decide +kernel
    obtain ⟨h1, h2, h3⟩ := key d (hd d (by simp))
    exact cfwsEnd_cons h1 h2 h3

/-! ### Loops -/

/-- More fuel does not change a result. -/
theorem manyLoop_fuel {p : Bytes → Res α} : ∀ {n m : Nat} {i : Bytes} {x : Bytes × List α},
    manyLoop p n i = .ok x → n ≤ m → manyLoop p m i = .ok x
  | 0, _, _, _, h, _ => by cases h
  | n + 1, 0, _, _, _, hm => by omega
  | n + 1, m + 1, i, x, h, hm => by
    unfold manyLoop at h ⊢
    cases hp : p i with
    | abort k => rw [hp] at h; cases h
    | err e => rw [hp] at h; exact h
    | ok y =>
      obtain ⟨r, v⟩ := y
      rw [hp] at h
      dsimp only at h ⊢
      cases hl : manyLoop p n r with
      | abort k => rw [hl] at h; cases h
      | err e => rw [hl] at h; cases h
      | ok z =>
        rw [hl] at h
        rw [manyLoop_fuel hl (by omega)]
        exact h

theorem many_cons {p : Bytes → Res α} {i r r' : Bytes} {v : α} {vs : List α}
    (h : p i = .ok (r, v)) (hl : r.length < i.length) (h' : many r p = .ok (r', vs)) :
    many i p = .ok (r', v :: vs) := by
  unfold many at h' ⊢
  unfold manyLoop
  rw [h]
  dsimp only
  rw [manyLoop_fuel h' (by omega)]
  rfl

/-! ### Keywords -/

/-- A list of keywords before other alternatives: the first keyword that is a prefix is taken. -/
theorem keywords_miss {ps : List (Bytes → Res α)} {qs : List (Bytes → Res α)} {i : Bytes}
    (h : ∀ p ∈ ps, ∃ e, p i = .err e) : matchParsers i (ps ++ qs) = matchParsers i qs := by
  induction ps with
  | nil => rfl
  | cons p ps ih =>
    obtain ⟨e, he⟩ := h p (by simp)
    rw [List.cons_append, matchParsers, he]
    exact ih fun q hq => h q (by simp [hq])

theorem keyword_hit {e e2 n r : Bytes} {m : String} {v : α} (he : e2 = e.map swapCase)
    (h : n.map asciiLower = e.map asciiLower) : keyword e e2 m v (n ++ r) = .ok (r, v) := by
  subst he
  unfold keyword
  rw [tagNoCase_append r m h]
  rfl

theorem keyword_miss {e e2 i : Bytes} {m : String} {v : α} (he : e2 = e.map swapCase)
    (h : ¬ (e.map asciiLower <+: i.map asciiLower)) : ∃ x, keyword e e2 m v i = .err x := by
  obtain ⟨x, hx⟩ := tagNoCase_err (m := m) he h
  exact ⟨x, by simp [keyword, hx]⟩

theorem asciiLower_ne {x : UInt8} {s : Bytes} (h : ∀ b ∈ s, Spec.tokenChar b = true)
    (hx : Spec.tokenChar x = false) : asciiLower x ∉ s := by
  intro hm
  have key : ∀ x : UInt8, Spec.tokenChar (asciiLower x) = Spec.tokenChar x := by decide +kernel
  have := h _ hm
  rw [key, hx] at this
  cases this

/-- A keyword is a prefix of a token with what follows only if it is one of the token. -/
theorem prefix_token {e t r : Bytes} (he : ∀ b ∈ e, Spec.tokenChar b = true)
    (hr : Stops Spec.tokenChar r) (h : e <+: (t ++ r).map asciiLower) : e <+: t.map asciiLower := by
  rw [List.map_append] at h
  induction t generalizing e with
  | nil =>
    cases e with
    | nil => exact List.nil_prefix
    | cons b e =>
      cases r with
      | nil => simp at h
      | cons x r =>
        simp only [List.map_nil, List.nil_append, List.map_cons, List.cons_prefix_cons] at h
        exact absurd (by simp [h.1] : asciiLower x ∈ b :: e)
          (asciiLower_ne he (stops_cons.mp hr))
  | cons y t ih =>
    cases e with
    | nil => exact List.nil_prefix
    | cons b e =>
      simp only [List.map_cons, List.cons_append, List.cons_prefix_cons] at h ⊢
      exact ⟨h.1, ih (fun b hb => he b (by simp [hb])) h.2⟩

theorem token_append {t r : Bytes} (hne : t ≠ []) (ht : ∀ b ∈ t, Spec.tokenChar b = true)
    (hr : Stops Spec.tokenChar r) : token (t ++ r) = .ok (r, t) := by
  unfold token
  rw [isTokenChar_eq]
  exact takeWhile1_ok hne ht hr

theorem transferEncoding_named {n name r : Bytes} {e : ContentTransferEncoding}
    (h : (name, e) ∈ Spec.encodingNames) (hn : n.map asciiLower = name) :
    transferEncoding (n ++ r) = .ok (r, e) := by
  have hlow : (n ++ r).map asciiLower = name ++ r.map asciiLower := by rw [List.map_append, hn]
  have miss : ∀ e e2 m (v : ContentTransferEncoding), e2 = e.map swapCase →
      ¬ (e.map asciiLower <+: name ++ r.map asciiLower) →
      ∃ x, keyword e e2 m v (n ++ r) = .err x := by
    intro e e2 m v h1 h2
    exact keyword_miss h1 (by rw [hlow]; exact h2)
  have hit : ∀ e e2 m (v : ContentTransferEncoding), e2 = e.map swapCase →
      name = e.map asciiLower → keyword e e2 m v (n ++ r) = .ok (r, v) := by
    intro e e2 m v h1 h2
    exact keyword_hit h1 (by rw [hn, h2])
  unfold transferEncoding
  simp only [Spec.encodingNames, List.mem_cons, List.not_mem_nil, or_false, Prod.mk.injEq] at h
  have m1 := miss (b! "7bit") (b! "7BIT")
    "TAG NO CASE ERROR: In a content transfer encoding header, `7bit` encoding does not match."
    .sevenBit (by decide +kernel)
  have m2 := miss (b! "quoted-printable") (b! "QUOTED-PRINTABLE")
    "TAG NO CASE ERROR: In a content transfer encoding header, `quoted-printable` encoding does not match."
    .quotedPrintable (by decide +kernel)
  have m3 := miss (b! "base64") (b! "BASE64")
    "TAG NO CASE ERROR: In a content transfer encoding header, `base64` encoding does not match."
    .base64 (by decide +kernel)
  have m4 := miss (b! "8bit") (b! "8BIT")
    "TAG NO CASE ERROR: In a content transfer encoding header, `8bit` encoding does not match."
    .heightBit (by decide +kernel)
  rcases h with ⟨rfl, rfl⟩ | ⟨rfl, rfl⟩ | ⟨rfl, rfl⟩ | ⟨rfl, rfl⟩ | ⟨rfl, rfl⟩
  · rw [matchParsers, hit _ _ _ _ (by decide +kernel) (by decide +kernel)]
  · obtain ⟨x1, h1⟩ := m1 (not_prefix_cons (by decide))
    obtain ⟨x2, h2⟩ := m2 (not_prefix_cons (by decide))
    obtain ⟨x3, h3⟩ := m3 (not_prefix_cons (by decide))
    simp only [matchParsers, h1, h2, h3]
    rw [hit _ _ _ _ (by decide +kernel) (by decide +kernel)]
  · obtain ⟨x1, h1⟩ := m1 (not_prefix_cons (by decide))
    obtain ⟨x2, h2⟩ := m2 (not_prefix_cons (by decide))
    obtain ⟨x3, h3⟩ := m3 (not_prefix_of_ne (by decide +kernel) (by decide +kernel))
    obtain ⟨x4, h4⟩ := m4 (not_prefix_cons (by decide))
    simp only [matchParsers, h1, h2, h3, h4]
    rw [hit _ _ _ _ (by decide +kernel) (by decide +kernel)]
  · obtain ⟨x1, h1⟩ := m1 (not_prefix_cons (by decide))
    simp only [matchParsers, h1]
    rw [hit _ _ _ _ (by decide +kernel) (by decide +kernel)]
  · obtain ⟨x1, h1⟩ := m1 (not_prefix_cons (by decide))
    obtain ⟨x2, h2⟩ := m2 (not_prefix_cons (by decide))
    simp only [matchParsers, h1, h2]
    rw [hit _ _ _ _ (by decide +kernel) (by decide +kernel)]

theorem transferEncoding_other {t r : Bytes} (hne : t ≠ [])
    (ht : ∀ b ∈ t, Spec.tokenChar b = true) (hr : Stops Spec.tokenChar r)
    (h : ∀ x ∈ Spec.encodingNames, ¬ (x.1 <+: t.map asciiLower)) :
    transferEncoding (t ++ r) = .ok (r, .unknown (t.map asciiLower)) := by
  unfold transferEncoding
  have miss : ∀ e e2 m (v : ContentTransferEncoding), e2 = e.map swapCase →
      (∀ b ∈ e.map asciiLower, Spec.tokenChar b = true) →
      (e.map asciiLower, v) ∈ Spec.encodingNames → ∃ x, keyword e e2 m v (t ++ r) = .err x := by
    intro e e2 m v h1 h2 h3
    exact keyword_miss h1 fun h' => h _ h3 (prefix_token h2 hr h')
  rw [show ∀ a b c d e f : Bytes → Res ContentTransferEncoding,
    [a, b, c, d, e, f] = [a, b, c, d, e] ++ [f] from fun _ _ _ _ _ _ => rfl]
  rw [keywords_miss]
  · simp only [matchParsers, otherToken, token_append hne ht hr, ok_bind, lowercase]
  · intro p hp
    simp only [List.mem_cons, List.not_mem_nil, or_false] at hp
    rcases hp with rfl | rfl | rfl | rfl | rfl <;>
      exact miss _ _ _ _ (by decide +kernel) (by decide +kernel) (by decide +kernel)

/-- White space and comments, then something that is neither: at the end of a token. -/
theorem inlineCfws_stops {w r : Bytes} (h : Spec.InlineCfws w ()) {p : UInt8 → Bool}
    (hw : ∀ x, Spec.wsp x = true → p x = false) (hp : p 40 = false) (hr : Stops p r) :
    Stops p (w ++ r) := by
  obtain ⟨a, _, va, rfl, ⟨rfl, ha⟩, x, _, o, rfl, hx, b, _, vb, rfl, ⟨rfl, hb⟩, rfl, _⟩ := h
  cases va with
  | cons y va => exact stops_cons.mpr (hw y (ha y (by simp)))
  | nil =>
    rcases hx with ⟨rfl, rfl⟩ | ⟨⟨⟩, rfl, n, hx⟩
    · cases vb with
      | cons y vb => exact stops_cons.mpr (hw y (hb y (by simp)))
      | nil => exact hr
    · obtain ⟨t, rfl⟩ := commentN_head n _ _ hx
      exact stops_cons.mpr hp

theorem tokenChar_cfwsEnd {w t r : Bytes} (hne : t ≠ []) (ht : ∀ b ∈ t, Spec.tokenChar b = true) :
    CfwsEnd w (t ++ r) := by
  cases t with
  | nil => exact absurd rfl hne
  | cons d ds =>
    have key : ∀ d : UInt8, Spec.tokenChar d = true → Spec.wsp d = false ∧ d ≠ 40 ∧ d ≠ 13 := by
      decide +kernel
    obtain ⟨h1, h2, h3⟩ := key d (ht d (by simp))
    exact cfwsEnd_cons h1 h2 h3

/-- The header field of the transfer encoding, for a token that is not the beginning of another
keyword. -/
theorem contentTransferEncoding_append {name w t w' r : Bytes} {e : ContentTransferEncoding}
    (hn : name.map asciiLower = b! "content-transfer-encoding:") (hw : Spec.OptCfws w ())
    (hw' : Spec.InlineCfws w' ()) (hs : w.count 40 ≤ c.stack) (hs' : w'.count 40 ≤ c.stack)
    (hne : t ≠ []) (ht : ∀ b ∈ t, Spec.tokenChar b = true)
    (he : ∀ r, Stops Spec.tokenChar r → transferEncoding (t ++ r) = .ok (r, e)) :
    contentTransferEncoding c (name ++ (w ++ t ++ w' ++ (Spec.CRLF ++ r))) = .ok (r, e) := by
  unfold contentTransferEncoding
  refine headerLine_append (by decide +kernel) hn ?_
  unfold transferEncodingValue
  have h1 := skipCfws_append (c := c) (r := t ++ (w' ++ (Spec.CRLF ++ r))) (gap_of_count hw hs)
    (tokenChar_cfwsEnd hne ht)
  have h2 := he (w' ++ (Spec.CRLF ++ r)) (inlineCfws_stops hw' (by decide +kernel) (by decide)
    (stops_cons.mpr (by decide)))
  have h3 := ignoreInlineCfws_append (c := c) hw' hs' (crlf_cfwsStop (r := r))
  simp only [List.append_assoc, h1, ok_bind, h2, h3]

end EmailParser
