import Verif.Proofs.Complete.Print
import Verif.Proofs.Complete.Mime
import Verif.Spec.PrintMime
/-
Written MIME headers with parameters are read.
-/
namespace EmailParser
open Spec

variable {α β ι : Type} {c : Cfg}

/-! ### Names of types -/

theorem not_prefix_second {a a' b b' : UInt8} {s t : Bytes} (h : a' ≠ b') :
    ¬ (a :: a' :: s <+: b :: b' :: t) := by
  intro hp
  exact h (List.cons_prefix_cons.mp (List.cons_prefix_cons.mp hp).2).1

theorem mimeType_named {n name r : Bytes} {e : ContentType}
    (h : (name, e) ∈ Spec.typeNames) (hn : n.map asciiLower = name) :
    mimeType (n ++ r) = .ok (r, e) := by
  have hlow : (n ++ r).map asciiLower = name ++ r.map asciiLower := by rw [List.map_append, hn]
  have miss : ∀ e e2 m (v : ContentType), e2 = e.map swapCase →
      ¬ (e.map asciiLower <+: name ++ r.map asciiLower) →
      ∃ x, keyword e e2 m v (n ++ r) = .err x := by
    intro e e2 m v h1 h2
    exact keyword_miss h1 (by rw [hlow]; exact h2)
  have hit : ∀ e e2 m (v : ContentType), e2 = e.map swapCase →
      name = e.map asciiLower → keyword e e2 m v (n ++ r) = .ok (r, v) := by
    intro e e2 m v h1 h2
    exact keyword_hit h1 (by rw [hn, h2])
  unfold mimeType
  have m1 := miss (b! "text") (b! "TEXT")
    "TAG NO CASE ERROR: In a content type header, `text` type does not match." .text
    (by decide +kernel)
  have m2 := miss (b! "multipart") (b! "MULTIPART")
    "TAG NO CASE ERROR: In a content type header, `multipart` type does not match." .multipart
    (by decide +kernel)
  have m3 := miss (b! "application") (b! "APPLICATION")
    "TAG NO CASE ERROR: In a content type header, `application` type does not match." .application
    (by decide +kernel)
  have m4 := miss (b! "image") (b! "IMAGE")
    "TAG NO CASE ERROR: In a content type header, `image` type does not match." .image
    (by decide +kernel)
  have m5 := miss (b! "video") (b! "VIDEO")
    "TAG NO CASE ERROR: In a content type header, `video` type does not match." .video
    (by decide +kernel)
  have m6 := miss (b! "audio") (b! "AUDIO")
    "TAG NO CASE ERROR: In a content type header, `audio` type does not match." .audio
    (by decide +kernel)
  simp only [Spec.typeNames, List.mem_cons, List.not_mem_nil, or_false, Prod.mk.injEq] at h
  rcases h with ⟨rfl, rfl⟩ | ⟨rfl, rfl⟩ | ⟨rfl, rfl⟩ | ⟨rfl, rfl⟩ | ⟨rfl, rfl⟩ | ⟨rfl, rfl⟩ |
    ⟨rfl, rfl⟩
  · rw [matchParsers, hit _ _ _ _ (by decide +kernel) (by decide +kernel)]
  · obtain ⟨x1, h1⟩ := m1 (not_prefix_cons (by decide))
    simp only [matchParsers, h1]
    rw [hit _ _ _ _ (by decide +kernel) (by decide +kernel)]
  · obtain ⟨x1, h1⟩ := m1 (not_prefix_cons (by decide))
    obtain ⟨x2, h2⟩ := m2 (not_prefix_cons (by decide))
    simp only [matchParsers, h1, h2]
    rw [hit _ _ _ _ (by decide +kernel) (by decide +kernel)]
  · obtain ⟨x1, h1⟩ := m1 (not_prefix_cons (by decide))
    obtain ⟨x2, h2⟩ := m2 (not_prefix_cons (by decide))
    obtain ⟨x3, h3⟩ := m3 (not_prefix_cons (by decide))
    simp only [matchParsers, h1, h2, h3]
    rw [hit _ _ _ _ (by decide +kernel) (by decide +kernel)]
  · obtain ⟨x1, h1⟩ := m1 (not_prefix_cons (by decide))
    obtain ⟨x2, h2⟩ := m2 (not_prefix_cons (by decide))
    obtain ⟨x3, h3⟩ := m3 (not_prefix_cons (by decide))
    obtain ⟨x4, h4⟩ := m4 (not_prefix_cons (by decide))
    simp only [matchParsers, h1, h2, h3, h4]
    rw [hit _ _ _ _ (by decide +kernel) (by decide +kernel)]
  · obtain ⟨x1, h1⟩ := m1 (not_prefix_cons (by decide))
    obtain ⟨x2, h2⟩ := m2 (not_prefix_cons (by decide))
    obtain ⟨x3, h3⟩ := m3 (not_prefix_second (by decide))
    obtain ⟨x4, h4⟩ := m4 (not_prefix_cons (by decide))
    obtain ⟨x5, h5⟩ := m5 (not_prefix_cons (by decide))
    simp only [matchParsers, h1, h2, h3, h4, h5]
    rw [hit _ _ _ _ (by decide +kernel) (by decide +kernel)]
  · obtain ⟨x1, h1⟩ := m1 (not_prefix_cons (by decide))
    obtain ⟨x2, h2⟩ := m2 (not_prefix_second (by decide))
    obtain ⟨x3, h3⟩ := m3 (not_prefix_cons (by decide))
    obtain ⟨x4, h4⟩ := m4 (not_prefix_cons (by decide))
    obtain ⟨x5, h5⟩ := m5 (not_prefix_cons (by decide))
    obtain ⟨x6, h6⟩ := m6 (not_prefix_cons (by decide))
    simp only [matchParsers, h1, h2, h3, h4, h5, h6]
    rw [hit _ _ _ _ (by decide +kernel) (by decide +kernel)]

theorem mimeType_other {t r : Bytes} (hne : t ≠ [])
    (ht : ∀ b ∈ t, Spec.tokenChar b = true) (hr : Stops Spec.tokenChar r)
    (h : ∀ x ∈ Spec.typeNames, ¬ (x.1 <+: t.map asciiLower)) :
    mimeType (t ++ r) = .ok (r, .unknown (t.map asciiLower)) := by
  unfold mimeType
  have miss : ∀ e e2 m (v : ContentType), e2 = e.map swapCase →
      (∀ b ∈ e.map asciiLower, Spec.tokenChar b = true) →
      (e.map asciiLower, v) ∈ Spec.typeNames → ∃ x, keyword e e2 m v (t ++ r) = .err x := by
    intro e e2 m v h1 h2 h3
    exact keyword_miss h1 fun h' => h _ h3 (prefix_token h2 hr h')
  rw [show ∀ a b c d e f g h : Bytes → Res ContentType,
    [a, b, c, d, e, f, g, h] = [a, b, c, d, e, f, g] ++ [h] from fun _ _ _ _ _ _ _ _ => rfl]
  rw [keywords_miss]
  · simp only [matchParsers, otherToken, token_append hne ht hr, ok_bind, lowercase]
  · intro p hp
    simp only [List.mem_cons, List.not_mem_nil, or_false] at hp
    rcases hp with rfl | rfl | rfl | rfl | rfl | rfl | rfl <;>
      exact miss _ _ _ _ (by decide +kernel) (by decide +kernel) (by decide +kernel)

theorem dispositionType_named {n name r : Bytes} {e : DispositionType}
    (h : (name, e) ∈ Spec.dispositionNames) (hn : n.map asciiLower = name) :
    dispositionType (n ++ r) = .ok (r, e) := by
  have hlow : (n ++ r).map asciiLower = name ++ r.map asciiLower := by rw [List.map_append, hn]
  unfold dispositionType
  simp only [Spec.dispositionNames, List.mem_cons, List.not_mem_nil, or_false, Prod.mk.injEq] at h
  rcases h with ⟨rfl, rfl⟩ | ⟨rfl, rfl⟩
  · rw [matchParsers, keyword_hit (by decide +kernel) (by rw [hn]; decide +kernel)]
  · obtain ⟨x1, h1⟩ := keyword_miss (e := b! "inline") (e2 := b! "INLINE")
      (m := "TAG NO CASE ERROR: In a content disposition header, `inline` disposition does not match.")
      (v := DispositionType.inline) (i := n ++ r) (by decide +kernel)
      (by rw [hlow]; exact not_prefix_cons (by decide))
    simp only [matchParsers, h1]
    rw [keyword_hit (by decide +kernel) (by rw [hn]; decide +kernel)]

theorem dispositionType_other {t r : Bytes} (hne : t ≠ [])
    (ht : ∀ b ∈ t, Spec.tokenChar b = true) (hr : Stops Spec.tokenChar r)
    (h : ∀ x ∈ Spec.dispositionNames, ¬ (x.1 <+: t.map asciiLower)) :
    dispositionType (t ++ r) = .ok (r, .unknown (t.map asciiLower)) := by
  unfold dispositionType
  have miss : ∀ e e2 m (v : DispositionType), e2 = e.map swapCase →
      (∀ b ∈ e.map asciiLower, Spec.tokenChar b = true) →
      (e.map asciiLower, v) ∈ Spec.dispositionNames → ∃ x, keyword e e2 m v (t ++ r) = .err x := by
    intro e e2 m v h1 h2 h3
    exact keyword_miss h1 fun h' => h _ h3 (prefix_token h2 hr h')
  rw [show ∀ a b c : Bytes → Res DispositionType, [a, b, c] = [a, b] ++ [c] from fun _ _ _ => rfl]
  rw [keywords_miss]
  · simp only [matchParsers, otherToken, token_append hne ht hr, ok_bind, lowercase]
  · intro p hp
    simp only [List.mem_cons, List.not_mem_nil, or_false] at hp
    rcases hp with rfl | rfl <;>
      exact miss _ _ _ _ (by decide +kernel) (by decide +kernel) (by decide +kernel)

theorem mimeType_append {w r : Bytes} {v : ContentType} (h : WrittenName typeNames .unknown w v)
    (hr : Stops Spec.tokenChar r) : mimeType (w ++ r) = .ok (r, v) := by
  rcases h with ⟨s, hs, hw⟩ | ⟨h1, h2, h3, rfl⟩
  · exact mimeType_named hs hw
  · exact mimeType_other h1 h2 hr h3

theorem dispositionType_append {w r : Bytes} {v : DispositionType}
    (h : WrittenName dispositionNames .unknown w v) (hr : Stops Spec.tokenChar r) :
    dispositionType (w ++ r) = .ok (r, v) := by
  rcases h with ⟨s, hs, hw⟩ | ⟨h1, h2, h3, rfl⟩
  · exact dispositionType_named hs hw
  · exact dispositionType_other h1 h2 hr h3

/-- Written names are not empty and consist of characters of tokens. -/
theorem writtenName_token {table : List (Bytes × α)} {other : Bytes → α} {w : Bytes} {v : α}
    (ht : ∀ e ∈ table, e.1 ≠ [] ∧ ∀ b ∈ e.1, Spec.tokenChar b = true)
    (h : WrittenName table other w v) : w ≠ [] ∧ ∀ b ∈ w, Spec.tokenChar b = true := by
  rcases h with ⟨s, hs, rfl⟩ | ⟨h1, h2, -, -⟩
  · obtain ⟨h1, h2⟩ := ht _ hs
    refine ⟨fun e => h1 (by simp [e]), fun b hb => ?_⟩
    have key : ∀ x : UInt8, Spec.tokenChar (asciiLower x) = Spec.tokenChar x := by decide +kernel
    rw [← key]
    exact h2 _ (List.mem_map_of_mem hb)
  · exact ⟨h1, h2⟩

/-! ### Parameters -/

theorem space_not_token : ∀ b : UInt8, Spec.wsp b = true ∨ b = 13 ∨ b = 40 →
    Spec.tokenChar b = false := by decide +kernel

theorem gap_token {g r : Bytes} (hg : Gap c g ()) (hr : Stops Spec.tokenChar r) :
    Stops Spec.tokenChar (g ++ r) := optCfws_stops hg space_not_token hr

/-- A token or a text between quotation marks; the latter takes what can be skipped after it. -/
theorem parameterValue_append {quoted : Bool} {x g r : Bytes} (hx : ValidValue quoted x)
    (hg : Gap c g ()) (hr : CfwsEnd g r) (ht : Stops Spec.tokenChar r) :
    parameterValue c (printValue quoted x ++ (g ++ r)) =
      .ok (if quoted then r else g ++ r, x) := by
  unfold parameterValue
  cases quoted with
  | false =>
    obtain ⟨hne, hx⟩ := hx
    have := token_append (r := g ++ r) hne hx (gap_token hg ht)
    simp [printValue, matchParsers, this]
  | true =>
    obtain ⟨e, h1⟩ : ∃ e, token (quote x ++ (g ++ r)) = .err e := by
      unfold token
      exact takeWhile1_err (stops_cons.mpr (by decide))
    have h2 := quote_append (c := c) (g₁ := []) optCfws_nil hg hx hr
    simp only [List.nil_append] at h2
    simp [printValue, matchParsers, h1, h2]

theorem printNat_ne (n : Nat) : printNat n ≠ [] := by
  rw [printNat]
  split <;> simp

theorem starDigits_err {r : Bytes} (hr : Stops Spec.digit r) :
    ∃ e, pair (b! "*" ++ r)
      (fun input => tag input (b! "*")
        "TAG ERROR: An indexed MIME parameter name must contain a `*`.")
      (fun input => takeWhile1 input isDigit) = .err e := by
  unfold pair
  simp only [tag_append, ok_bind]
  obtain ⟨e, he⟩ := takeWhile1_err hr
  rw [isDigit_eq, he]
  exact ⟨_, rfl⟩

theorem starDigits_ok {ds r : Bytes} (hne : ds ≠ []) (hd : ∀ d ∈ ds, Spec.digit d = true)
    (hr : Stops Spec.digit r) :
    pair (b! "*" ++ (ds ++ r))
      (fun input => tag input (b! "*")
        "TAG ERROR: An indexed MIME parameter name must contain a `*`.")
      (fun input => takeWhile1 input isDigit) = .ok (r, ((), ds)) := by
  unfold pair
  simp only [tag_append, ok_bind]
  rw [isDigit_eq, takeWhile1_ok hne hd hr]
  rfl

theorem encodedMark_append (encoded : Bool) (r : Bytes) :
    encodedMark ((if encoded then b! "*" else []) ++ (b! "=" ++ r)) = .ok (b! "=" ++ r, encoded) := by
  cases encoded
  · rfl
  · unfold encodedMark sliceFrom
    rfl

theorem extendedName_append {name r : Bytes} {index : Option Nat} {encoded : Bool} (hne : name ≠ [])
    (hn : ∀ b ∈ name, tokenChar b = true ∧ b ≠ 42) (hi : ∀ k, index = some k → k < 256) :
    extendedName (name ++ (printSection index encoded ++ (b! "=" ++ r))) =
      .ok (b! "=" ++ r, (name, index, encoded)) := by
  unfold extendedName
  have h1 : ∀ t, Stops (fun b => tokenChar b && b != 42) t →
      takeWhile1 (name ++ t) (fun b => isTokenChar b && b != 42) = .ok (t, name) := by
    intro t ht
    rw [isTokenChar_eq]
    exact takeWhile1_ok hne (fun b hb => by simp [hn b hb]) ht
  have hs : Stops (fun b => tokenChar b && b != 42) (printSection index encoded ++ (b! "=" ++ r)) := by
    unfold printSection
    cases index <;> cases encoded <;> exact stops_cons.mpr (by decide)
  have h2 : ∃ o, optional (printSection index encoded ++ (b! "=" ++ r)) (fun input =>
      pair input
        (fun input => tag input (b! "*")
          "TAG ERROR: An indexed MIME parameter name must contain a `*`.")
        (fun input => takeWhile1 input isDigit)) =
      .ok ((if encoded then b! "*" else []) ++ (b! "=" ++ r), o) ∧ parameterIndex o = .ok index := by
    unfold printSection
    cases index with
    | some k =>
      refine ⟨some ((), printNat k), ?_, ?_⟩
      · have := starDigits_ok (r := (if encoded then b! "*" else []) ++ (b! "=" ++ r)) (printNat_ne k)
          (printNat_digits k) (by cases encoded <;> exact stops_cons.mpr (by decide))
        simp only [List.append_assoc]
        exact optional_ok (p := fun input => pair input _ _) this
      · unfold parameterIndex
        dsimp only
        rw [parseUnsigned_eq (by rw [decimal_printNat]; exact hi k rfl), decimal_printNat]
    | none =>
      refine ⟨none, ?_, rfl⟩
      cases encoded with
      | false =>
        exact optional_err (p := fun input => pair input _ _) (by
          unfold pair
          have he := tag_err (m := "TAG ERROR: An indexed MIME parameter name must contain a `*`.")
            (s := b! "*") (i := b! "=" ++ r) (not_prefix_cons (by decide))
          simp only [Bool.false_eq_true, if_false, List.nil_append, he, err_bind]
          exact ⟨_, rfl⟩)
      | true =>
        exact optional_err (p := fun input => pair input _ _)
          (starDigits_err (r := b! "=" ++ r) (stops_cons.mpr (by decide)))
  obtain ⟨o, h2, h3⟩ := h2
  simp only [h1 _ hs, ok_bind, h2, h3, encodedMark_append]
  rfl

theorem extendedName_token {w : Bytes} {v : Bytes × Option Nat × Bool} (h : ExtendedName w v) :
    ∀ b ∈ w, Spec.tokenChar b = true := by
  obtain ⟨w₁, _, name, rfl, ⟨rfl, -, hn⟩, w₂, w₃, index, rfl, h₂, h₃'⟩ := h
  obtain ⟨e, ⟨o, rfl, h₃⟩, rfl⟩ := gram_bind_pure.mp h₃'
  have h42 : Spec.tokenChar 42 = true := by decide
  have hd : ∀ b : UInt8, Spec.digit b = true → Spec.tokenChar b = true := by decide +kernel
  intro b hb
  rcases List.mem_append.1 hb with hb | hb
  · have := hn b hb
    simp only [Bool.and_eq_true] at this
    exact this.1
  · rcases List.mem_append.1 hb with hb | hb
    · rcases h₂ with ⟨rfl, -⟩ | ⟨n, rfl, u₁, u₂, _, rfl, rfl, ⟨u, hu, hu1, hu2, hu3⟩, hlt⟩
      · cases hb
      · rcases List.mem_cons.1 hb with rfl | hb
        · exact h42
        · exact hd b (hu3 b hb)
    · rcases h₃ with ⟨rfl, -⟩ | ⟨a, -, rfl⟩
      · cases hb
      · rw [List.mem_singleton.1 hb]; exact h42

/-- A name in which the `*` is neither a mark nor followed by a number. -/
theorem extendedName_miss {name r : Bytes} (hn : ∀ b ∈ name, Spec.tokenChar b = true)
    (hx : ∀ v, ¬ ExtendedName name v) : ∃ x, extendedName (name ++ (b! "=" ++ r)) = .err x := by
  have hE := extendedName_parses (A := Aborts.none) (name ++ (b! "=" ++ r))
  cases h : extendedName (name ++ (b! "=" ++ r)) with
  | err e => exact ⟨e, rfl⟩
  | abort k => rw [h] at hE; exact hE.elim
  | ok s =>
    exfalso
    obtain ⟨t, v⟩ := s
    rw [h] at hE
    obtain ⟨w, hw, hv⟩ := hE
    -- the rest begins with an equals sign
    have ht : t[0]? = some 61 := by
      unfold extendedName at h
      obtain ⟨⟨i1, a⟩, -, h⟩ := bind_eq_ok.1 h
      obtain ⟨⟨i2, o⟩, -, h⟩ := bind_eq_ok.1 h
      obtain ⟨index, -, h⟩ := bind_eq_ok.1 h
      obtain ⟨⟨i3, e⟩, -, h⟩ := bind_eq_ok.1 h
      dsimp only at h
      split at h
      · rename_i h'
        cases h
        simpa using h'
      · cases h
    obtain ⟨t, rfl⟩ : ∃ t', t = 61 :: t' := by
      cases t with
      | nil => cases ht
      | cons b t => cases ht; exact ⟨t, rfl⟩
    have key := takeWhile_stop (p := Spec.tokenChar) (w := w) (b := 61) (r := t) (extendedName_token hv) (by decide)
    have key' := takeWhile_stop (p := Spec.tokenChar) (w := name) (b := 61) (r := r) hn (by decide)
    dsimp only at hw
    rw [← hw] at key
    have := key.1.symm.trans key'.1
    subst this
    exact hx v hv

theorem tokenName_append {name r : Bytes} (hne : name ≠ []) (hn : ∀ b ∈ name, Spec.tokenChar b = true) :
    token (name ++ (b! "=" ++ r)) = .ok (b! "=" ++ r, name) :=
  token_append hne hn (stops_cons.mpr (by decide))

theorem paramName_append {p : WrittenParam} {r : Bytes} (hp : p.Valid c) :
    matchParsers (p.name ++ (printSection p.index p.encoded ++ (b! "=" ++ r)))
      [ extendedName,
        fun input => do
          let (input, name) ← token input
          .ok (input, (name, none, false)) ] = .ok (b! "=" ++ r, (p.name, p.index, p.encoded)) := by
  rcases hp.stars with h | ⟨h1, h2, h3⟩
  · simp only [matchParsers, extendedName_append hp.nonempty
      (fun b hb => ⟨hp.token b hb, fun e => h (e ▸ hb)⟩) hp.index]
  · obtain ⟨x, hx⟩ := extendedName_miss (r := r) hp.token h3
    rw [h1, h2]
    simp only [printSection, List.append_nil, List.nil_append, Bool.false_eq_true, if_false, matchParsers, hx,
      tokenName_append hp.nonempty hp.token, ok_bind]

theorem parameter_append {p : WrittenParam} {g₀ g r : Bytes} (hp : p.Valid c) (hg₀ : Gap c g₀ ())
    (hg : Gap c g ()) (hr : CfwsEnd g r) (ht : Stops Spec.tokenChar r) :
    parameter c (g₀ ++ (p.tail ++ (g ++ r))) = .ok (if p.quoted then r else g ++ r, p.raw) := by
  unfold parameter WrittenParam.tail
  have hname : ∀ w t, CfwsEnd w (p.name ++ t) := fun w t =>
    tokenChar_cfwsEnd hp.nonempty hp.token
  simp only [List.append_assoc]
  have hsemi : ∀ t, CfwsEnd g₀ (b! ";" ++ t) := fun t =>
    cfwsEnd_cons (b := 59) (by decide) (by decide) (by decide)
  rw [skipCfws_append hg₀ (hsemi _)]
  simp only [ok_bind, tag_append]
  rw [skipCfws_append hp.after (hname _ _)]
  simp only [ok_bind, paramName_append hp, tag_append, parameterValue_append hp.value hg hr ht]
  rfl

/-! ### Lists of parameters -/

/-- Written items one after the other: some parsers take what can be skipped after the item, the
others leave it. -/
theorem many_items {p : Bytes → Res α} {before tail : ι → Bytes} {val : ι → α} {swallow : ι → Bool}
    {e : Bytes} (ok : ι → Prop)
    (hb : ∀ x, ok x → Gap c (before x) ()) (ht : ∀ x, ok x → ∃ t, tail x = 59 :: t)
    (hp : ∀ x g₀ g r, ok x → Gap c g₀ () → Gap c g () → CfwsEnd g r → Stops Spec.tokenChar r →
      p (g₀ ++ (tail x ++ (g ++ r))) = .ok (if swallow x then r else g ++ r, val x))
    (he : CfwsEnd [] e) (het : Stops Spec.tokenChar e) (hend : ∃ x, p e = .err x) :
    ∀ (xs : List ι) (g₀ : Bytes), (∀ x ∈ xs, ok x) → Gap c g₀ () → (xs = [] → g₀ = []) →
      many (g₀ ++ ((match xs with
        | [] => []
        | x :: xs => tail x ++ xs.flatMap fun x => before x ++ tail x) ++ e)) p =
        .ok (e, xs.map val)
  | [], g₀, _, _, h => by
    rw [h rfl]
    obtain ⟨x, hx⟩ := hend
    exact many_err ⟨x, hx⟩
  | [x], g₀, hok, hg₀, _ => by
    have h := hp x g₀ [] e (hok x (by simp)) hg₀ optCfws_nil he het
    obtain ⟨t, ht⟩ := ht x (hok x (by simp))
    refine many_cons (r := e) ?_ ?_ (many_err hend)
    · simpa using h
    · simp only [ht, List.length_append, List.length_cons, List.flatMap_nil, List.length_nil]
      omega
  | x :: y :: ys, g₀, hok, hg₀, _ => by
    have hx := hok x (by simp)
    have hy := hok y (by simp)
    obtain ⟨t', ht'⟩ := ht y hy
    have h := hp x g₀ (before y) ((tail y ++ ys.flatMap fun x => before x ++ tail x) ++ e) hx hg₀ (hb y hy)
      (by rw [ht']; exact cfwsEnd_cons (by decide) (by decide) (by decide))
      (by rw [ht']; exact stops_cons.mpr (by decide))
    have hok' : ∀ z ∈ y :: ys, ok z := fun z hz => hok z (by simp only [List.mem_cons] at hz ⊢; exact .inr hz)
    have ih := many_items ok hb ht hp he het hend (y :: ys)
      (if swallow x then [] else before y) hok'
      (by split
          · exact optCfws_nil
          · exact hb y hy) (by simp)
    obtain ⟨t, ht⟩ := ht x hx
    refine many_cons (r := (if swallow x then [] else before y) ++
      ((tail y ++ ys.flatMap fun x => before x ++ tail x) ++ e)) ?_ ?_ ih
    · rw [show g₀ ++ ((tail x ++ (y :: ys).flatMap fun x => before x ++ tail x) ++ e) =
          g₀ ++ (tail x ++ (before y ++ ((tail y ++ ys.flatMap fun x => before x ++ tail x) ++ e))) by
        simp, h]
      split <;> rfl
    · simp only [ht, List.length_append, List.length_cons, List.flatMap_cons]
      split <;> simp <;> omega


/-- What ends a list of parameters. -/
theorem semicolon_missing {e : Bytes} {m : String} (hs : Stops (· == 59) e) :
    tag e (b! ";") m = .err (.explicit m) := by
  refine tag_err fun ⟨t, h⟩ => ?_
  have := hs 59 t h.symm
  simp at this

theorem parameter_end {e : Bytes} (he : CfwsEnd [] e) (hs : Stops (· == 59) e) :
    ∃ x, parameter c e = .err x := by
  unfold parameter
  have h := skipCfws_append (c := c) (w := []) optCfws_nil he
  simp only [List.nil_append] at h
  simp only [h, ok_bind, semicolon_missing hs, err_bind]
  exact ⟨_, rfl⟩

/-- The texts of parameters, with any white space and comments between them. -/
theorem parameters_append {ps : List WrittenParam} {e : Bytes} (hp : ∀ p ∈ ps, p.Valid c)
    (he : CfwsEnd [] e) (het : Stops Spec.tokenChar e) (hs : Stops (· == 59) e) :
    many (ps.flatMap WrittenParam.text ++ e) (parameter c) = .ok (e, ps.map WrittenParam.raw) := by
  have h := many_items (c := c) (p := parameter c) (before := WrittenParam.before)
    (tail := WrittenParam.tail) (val := WrittenParam.raw) (swallow := WrittenParam.quoted) (e := e)
    (fun p => p.Valid c) (fun x hx => hx.before) (fun x _ => ⟨_, rfl⟩)
    (fun x g₀ g r hx h1 h2 h3 h4 => parameter_append hx h1 h2 h3 h4) he het (parameter_end he hs) ps
  cases ps with
  | nil => exact h [] hp optCfws_nil (by simp)
  | cons p ps =>
    have := h p.before hp (hp p (by simp)).before (by simp)
    rw [show WrittenParam.text = fun x : WrittenParam => x.before ++ x.tail from rfl]
    simpa [List.flatMap_cons] using this

/-- What follows the parameters of a header: the end of the line, not a fold. -/
theorem crlf_end {r : Bytes} (hr : Stops Spec.wsp r) : CfwsEnd [] (Spec.CRLF ++ r) :=
  cfwsEnd_nil ⟨stops_cons.mpr (by decide), fun t e => by
    cases e
    exact hr⟩ (stops_cons.mpr (by decide))

theorem inlineCfws_none {r : Bytes} : ignoreInlineCfws c (Spec.CRLF ++ r) = .ok (Spec.CRLF ++ r, ()) :=
  ignoreInlineCfws_append (c := c) (w := []) (r := Spec.CRLF ++ r)
    ⟨[], [], [], rfl, ⟨rfl, by simp⟩, [], [], none, rfl, .inl ⟨rfl, rfl⟩, [], [], [], rfl, ⟨rfl, by simp⟩, rfl, rfl⟩
    (by simp) crlf_cfwsStop

theorem contentTypeValue_append {g type subtype r : Bytes} {t : ContentType} {ps : List WrittenParam}
    {q : Params} (hg : Gap c g ()) (ht : WrittenName typeNames .unknown type t)
    (hne : subtype ≠ []) (hs : ∀ b ∈ subtype, Spec.tokenChar b = true) (hp : ∀ p ∈ ps, p.Valid c)
    (hq : collectParameters c (ps.map WrittenParam.raw) = .ok q) (hr : Stops Spec.wsp r) :
    contentTypeValue c (g ++ (type ++ (b! "/" ++ (subtype ++ (ps.flatMap WrittenParam.text ++
      (Spec.CRLF ++ r)))))) = .ok (Spec.CRLF ++ r, (t, subtype.map asciiLower, q)) := by
  obtain ⟨htn, htt⟩ := writtenName_token (by decide +kernel) ht
  have hps : Stops Spec.tokenChar (ps.flatMap WrittenParam.text ++ (Spec.CRLF ++ r)) := by
    cases ps with
    | nil => exact stops_cons.mpr (by decide)
    | cons p ps =>
      rw [List.flatMap_cons, WrittenParam.text]
      simp only [List.append_assoc]
      exact gap_token (hp p (by simp)).before (stops_cons.mpr (by decide))
  unfold contentTypeValue
  rw [skipCfws_append hg (tokenChar_cfwsEnd htn htt)]
  simp only [ok_bind]
  have hslash : ∀ t, Stops Spec.tokenChar (b! "/" ++ t) := fun t => stops_cons.mpr (by decide)
  rw [mimeType_append ht (hslash _)]
  simp only [ok_bind, tag_append]
  rw [token_append hne hs hps]
  simp only [ok_bind]
  rw [parameters_append hp (crlf_end hr) (stops_cons.mpr (by decide)) (stops_cons.mpr (by decide))]
  simp only [ok_bind, hq, inlineCfws_none, lowercase]

theorem contentType_append {n g type subtype r : Bytes} {t : ContentType} {ps : List WrittenParam}
    {q : Params} (hn : n.map asciiLower = b! "content-type:")
    (hg : Gap c g ()) (ht : WrittenName typeNames .unknown type t)
    (hne : subtype ≠ []) (hs : ∀ b ∈ subtype, Spec.tokenChar b = true) (hp : ∀ p ∈ ps, p.Valid c)
    (hq : collectParameters c (ps.map WrittenParam.raw) = .ok q) (hr : Stops Spec.wsp r) :
    contentType c (n ++ ((g ++ (type ++ (b! "/" ++ (subtype ++ ps.flatMap WrittenParam.text)))) ++
      (Spec.CRLF ++ r))) = .ok (r, (t, subtype.map asciiLower, q)) := by
  unfold contentType
  refine headerLine_append (by decide +kernel) (by rw [hn]; decide +kernel) ?_
  have := contentTypeValue_append hg ht hne hs hp hq hr
  simpa only [List.append_assoc] using this

/-! ### Parameters of a disposition -/

theorem prefix_class {p : UInt8 → Bool} (hp : ∀ x, p (asciiLower x) = p x) {e t r : Bytes}
    (he : ∀ b ∈ e, p b = true) (hr : Stops p r) (h : e <+: (t ++ r).map asciiLower) :
    e <+: t.map asciiLower := by
  rw [List.map_append] at h
  induction t generalizing e with
  | nil =>
    cases e with
    | nil => exact List.nil_prefix
    | cons b e =>
      cases r with
      | nil => simp at h
      | cons x r =>
        simp only [List.map_nil, List.nil_append, List.map_cons, List.cons_prefix_cons] at h
        have h1 := he b (by simp)
        rw [h.1, hp, stops_cons.mp hr] at h1
        cases h1
  | cons y t ih =>
    cases e with
    | nil => exact List.nil_prefix
    | cons b e =>
      simp only [List.map_cons, List.cons_append, List.cons_prefix_cons] at h ⊢
      exact ⟨h.1, ih (fun b hb => he b (by simp [hb])) h.2⟩

/-- The characters of a parameter name. -/
def nameChar (b : UInt8) : Bool := Spec.tokenChar b && b != 42

theorem section_stops {index : Option Nat} {encoded : Bool} {r : Bytes} :
    Stops nameChar (printSection index encoded ++ (b! "=" ++ r)) := by
  unfold printSection
  cases index <;> cases encoded <;> exact stops_cons.mpr (by decide)

/-- A parameter with another name, or in several segments, or encoded, is not the parameter `key`. -/
theorem tagNoCase_param {key key2 name r : Bytes} {index : Option Nat} {encoded : Bool} {m : String}
    (h2 : key2 = key.map swapCase) (hk : ∀ b ∈ key.map asciiLower, nameChar b = true)
    (hn : ∀ b ∈ name, tokenChar b = true)
    (hne : index = none → encoded = false → name.map asciiLower ≠ key.map asciiLower) :
    (∃ x, tagNoCase (name ++ (printSection index encoded ++ (b! "=" ++ r))) key key2 m = .err x) ∨
    ∃ t, tagNoCase (name ++ (printSection index encoded ++ (b! "=" ++ r))) key key2 m = .ok (t, ()) ∧
      Stops (· == 61) t := by
  by_cases hp : key.map asciiLower <+: (name ++ (printSection index encoded ++ (b! "=" ++ r))).map asciiLower
  · have hp := prefix_class (p := nameChar) (by decide +kernel) hk section_stops hp
    obtain ⟨v', hv⟩ := hp
    obtain ⟨u, v, rfl, hu, -⟩ := List.map_eq_append_iff.mp hv.symm
    right
    refine ⟨v ++ (printSection index encoded ++ (b! "=" ++ r)), ?_, ?_⟩
    · rw [List.append_assoc]
      subst h2
      exact tagNoCase_append _ m hu
    · cases v with
      | cons b v =>
        have hb := hn b (by simp)
        refine stops_cons.mpr ?_
        by_cases h61 : b = 61
        · rw [h61] at hb
          exact absurd hb (by decide)
        · simpa using h61
      | nil =>
        unfold printSection
        cases index with
        | some k => exact stops_cons.mpr (by decide)
        | none =>
          cases encoded with
          | true => exact stops_cons.mpr (by decide)
          | false => exact absurd (by simpa using hu) (hne rfl rfl)
  · exact .inl (tagNoCase_err h2 hp)

theorem equals_missing {t s : Bytes} {m : String} (h : Stops (· == 61) t) :
    tag t (61 :: s) m = .err (.explicit m) := by
  refine tag_err fun ⟨u, hu⟩ => ?_
  have := h 61 (s ++ u) hu.symm
  simp at this

theorem semicolon_cfwsEnd {g t : Bytes} : CfwsEnd g (b! ";" ++ t) :=
  cfwsEnd_cons (b := 59) (by decide) (by decide) (by decide)

theorem filenameParameter_miss {p : WrittenParam} {g₀ r : Bytes} (hp : p.Valid c) (hg₀ : Gap c g₀ ())
    (hne : p.index = none → p.encoded = false → p.name.map asciiLower ≠ b! "filename") :
    ∃ x, filenameParameter c (g₀ ++ (p.tail ++ r)) = .err x := by
  unfold filenameParameter WrittenParam.tail
  simp only [List.append_assoc]
  rw [skipCfws_append hg₀ semicolon_cfwsEnd]
  simp only [ok_bind, tag_append]
  rw [skipCfws_append hp.after (tokenChar_cfwsEnd hp.nonempty hp.token)]
  simp only [ok_bind]
  rcases tagNoCase_param (key := b! "filename") (key2 := b! "FILENAME")
    (m := "TAG NO CASE ERROR: In a Content-Disposition header, the name of the parameter does not match a filename parameter.")
    (r := printValue p.quoted p.value ++ r) (by decide +kernel) (by decide +kernel)
    hp.token hne with ⟨x, h⟩ | ⟨t, h, ht⟩
  · rw [h]
    exact ⟨_, rfl⟩
  · rw [h]
    simp only [ok_bind, equals_missing ht, err_bind]
    exact ⟨_, rfl⟩

theorem dateParameter_miss {p : WrittenParam} {key key2 g₀ r : Bytes} (hp : p.Valid c)
    (hg₀ : Gap c g₀ ()) (h2 : key2 = key.map swapCase)
    (hk : ∀ b ∈ key.map asciiLower, nameChar b = true)
    (hne : p.index = none → p.encoded = false → p.name.map asciiLower ≠ key.map asciiLower) :
    ∃ x, dateParameter c (g₀ ++ (p.tail ++ r)) key key2 = .err x := by
  unfold dateParameter WrittenParam.tail
  simp only [List.append_assoc]
  rw [skipCfws_append hg₀ semicolon_cfwsEnd]
  simp only [ok_bind, tag_append]
  rw [skipCfws_append hp.after (tokenChar_cfwsEnd hp.nonempty hp.token)]
  simp only [ok_bind]
  rcases tagNoCase_param (key := key) (key2 := key2)
    (m := "TAG NO CASE ERROR: In a Content-Disposition header, the name of the parameter does not match a date parameter.")
    (r := printValue p.quoted p.value ++ r) h2 hk
    hp.token hne with ⟨x, h⟩ | ⟨t, h, ht⟩
  · rw [h]
    exact ⟨_, rfl⟩
  · rw [h]
    simp only [ok_bind, equals_missing ht, err_bind]
    exact ⟨_, rfl⟩

/-- A name in any case is not empty and consists of characters of tokens. -/
theorem name_cfwsEnd {name key g t : Bytes} (h : name.map asciiLower = key) (hne : key ≠ [])
    (hk : ∀ b ∈ key, Spec.tokenChar b = true) : CfwsEnd g (name ++ t) := by
  refine tokenChar_cfwsEnd (fun e => hne (by rw [← h, e]; rfl)) fun b hb => ?_
  have key' : ∀ x : UInt8, Spec.tokenChar (asciiLower x) = Spec.tokenChar x := by decide +kernel
  rw [← key']
  exact hk _ (h ▸ List.mem_map_of_mem hb)

theorem filenameParameter_append {g₀ after name x g r : Bytes} {quoted : Bool} (hg₀ : Gap c g₀ ())
    (ha : Gap c after ()) (hn : name.map asciiLower = b! "filename") (hx : ValidValue quoted x)
    (hg : Gap c g ()) (hr : CfwsEnd g r) (ht : Stops Spec.tokenChar r) :
    filenameParameter c (g₀ ++ (b! ";" ++ (after ++ (name ++ (b! "=" ++ (printValue quoted x ++
      (g ++ r))))))) = .ok (if quoted then r else g ++ r, x) := by
  unfold filenameParameter
  rw [skipCfws_append hg₀ semicolon_cfwsEnd]
  simp only [ok_bind, tag_append]
  rw [skipCfws_append ha (name_cfwsEnd hn (by decide) (by decide +kernel))]
  simp only [ok_bind]
  rw [show (b! "FILENAME") = (b! "filename").map swapCase by decide +kernel,
    tagNoCase_append _ _ (by rw [hn]; decide +kernel)]
  simp only [ok_bind, tag_append, parameterValue_append hx hg hr ht]

theorem dateParameter_append {g₀ after name key r : Bytes} {seconds : Bool} {d : DateTime}
    (hg₀ : Gap c g₀ ()) (ha : Gap c after ()) (hn : name.map asciiLower = key.map asciiLower)
    (hne : key.map asciiLower ≠ []) (hk : ∀ b ∈ key.map asciiLower, Spec.tokenChar b = true)
    (hd : InRange d) (hs : seconds = true ∨ d.time.time.second = 0) :
    dateParameter c (g₀ ++ (b! ";" ++ (after ++ (name ++ (b! "=\"" ++ (printDate seconds d ++
      (b! "\"" ++ r))))))) key (key.map swapCase) = .ok (r, d) := by
  unfold dateParameter
  rw [skipCfws_append hg₀ semicolon_cfwsEnd]
  simp only [ok_bind, tag_append]
  rw [skipCfws_append ha (name_cfwsEnd hn hne hk)]
  simp only [ok_bind]
  rw [tagNoCase_append _ _ hn]
  simp only [ok_bind, tag_append]
  have hq : ∀ t, CfwsEnd (printDate seconds d) (b! "\"" ++ t) := fun t =>
    cfwsEnd_cons (b := 34) (by decide) (by decide) (by decide)
  rw [dateTime_append (printDate_grammar hd hs) (hq r)]
  simp only [ok_bind, tag_append]

theorem filenameParameter_other {g₀ after name t : Bytes} (hg₀ : Gap c g₀ ()) (ha : Gap c after ())
    (hc : CfwsEnd after (name ++ t)) (hn : ¬ (b! "filename" <+: (name ++ t).map asciiLower)) :
    ∃ x, filenameParameter c (g₀ ++ (b! ";" ++ (after ++ (name ++ t)))) = .err x := by
  unfold filenameParameter
  rw [skipCfws_append hg₀ semicolon_cfwsEnd]
  simp only [ok_bind, tag_append]
  rw [skipCfws_append ha hc]
  simp only [ok_bind]
  obtain ⟨x, h⟩ := tagNoCase_err (i := name ++ t) (e := b! "filename") (e2 := b! "FILENAME")
    (m := "TAG NO CASE ERROR: In a Content-Disposition header, the name of the parameter does not match a filename parameter.")
    (by decide +kernel) hn
  rw [h]
  exact ⟨_, rfl⟩

theorem dateParameter_other {g₀ after name key key2 t : Bytes} (hg₀ : Gap c g₀ ()) (ha : Gap c after ())
    (hc : CfwsEnd after (name ++ t)) (h2 : key2 = key.map swapCase)
    (hn : ¬ (key.map asciiLower <+: (name ++ t).map asciiLower)) :
    ∃ x, dateParameter c (g₀ ++ (b! ";" ++ (after ++ (name ++ t)))) key key2 = .err x := by
  unfold dateParameter
  rw [skipCfws_append hg₀ semicolon_cfwsEnd]
  simp only [ok_bind, tag_append]
  rw [skipCfws_append ha hc]
  simp only [ok_bind]
  obtain ⟨x, h⟩ := tagNoCase_err (i := name ++ t) (e := key) (e2 := key2)
    (m := "TAG NO CASE ERROR: In a Content-Disposition header, the name of the parameter does not match a date parameter.")
    h2 hn
  rw [h]
  exact ⟨_, rfl⟩

/-- Whether the parser of an item takes what can be skipped after it. -/
def WrittenItem.swallow : WrittenItem → Bool
  | .filename _ _ _ quoted _ => quoted
  | .date .. => false
  | .other p => p.quoted

theorem dispositionItem_append {x : WrittenItem} {g₀ g r : Bytes} (hx : x.Valid c) (hg₀ : Gap c g₀ ())
    (hg : Gap c g ()) (hr : CfwsEnd g r) (ht : Stops Spec.tokenChar r) :
    dispositionItem c (g₀ ++ (x.tail ++ (g ++ r))) =
      .ok (if WrittenItem.swallow x then r else g ++ r, x.item) := by
  unfold dispositionItem
  cases x with
  | filename before after name quoted value =>
    obtain ⟨h1, h2, h3, h4⟩ := hx
    have := filenameParameter_append hg₀ h2 h3 h4 hg hr ht
    simp only [WrittenItem.tail, List.append_assoc, matchParsers, this, ok_bind, WrittenItem.swallow,
      WrittenItem.item]
    rfl
  | other p =>
    obtain ⟨h1, h2⟩ := hx
    obtain ⟨x1, e1⟩ := filenameParameter_miss (r := g ++ r) h1 hg₀ fun a b => (h2 a b).1
    obtain ⟨x2, e2⟩ := dateParameter_miss (key := b! "creation-date") (key2 := b! "CREATION-DATE")
      (r := g ++ r) h1 hg₀ (by decide +kernel) (by decide +kernel) fun a b => (h2 a b).2 .creation
    obtain ⟨x3, e3⟩ := dateParameter_miss (key := b! "modification-date")
      (key2 := b! "MODIFICATION-DATE")
      (r := g ++ r) h1 hg₀ (by decide +kernel) (by decide +kernel) fun a b => (h2 a b).2 .modification
    obtain ⟨x4, e4⟩ := dateParameter_miss (key := b! "read-date") (key2 := b! "READ-DATE")
      (r := g ++ r) h1 hg₀ (by decide +kernel) (by decide +kernel) fun a b => (h2 a b).2 .read
    have := parameter_append h1 hg₀ hg hr ht
    simp only [WrittenItem.tail, matchParsers, e1, e2, e3, e4, err_bind, this, ok_bind,
      WrittenItem.swallow, WrittenItem.item]
    rfl
  | date kind before after name seconds value =>
    obtain ⟨h1, h2, h3, h4, h5⟩ := hx
    have hc : ∀ t, CfwsEnd after (name ++ t) := fun t =>
      name_cfwsEnd h3 (by cases kind <;> decide) (by cases kind <;> decide +kernel)
    have hlow : ∀ t, (name ++ t).map asciiLower = kind.name ++ t.map asciiLower := fun t => by
      rw [List.map_append, h3]
    simp only [WrittenItem.tail, List.append_assoc, WrittenItem.swallow, WrittenItem.item]
    obtain ⟨x1, e1⟩ := filenameParameter_other hg₀ h2 (hc (b! "=\"" ++ (printDate seconds value ++
      (b! "\"" ++ (g ++ r))))) (by
        rw [hlow]
        cases kind <;> exact not_prefix_cons (by decide))
    have miss := fun key key2 => dateParameter_other (key := key) (key2 := key2) hg₀ h2
      (hc (b! "=\"" ++ (printDate seconds value ++ (b! "\"" ++ (g ++ r)))))
    have hit := fun key => dateParameter_append (key := key) (name := name) (r := g ++ r)
      (seconds := seconds) (d := value) hg₀ h2
    cases kind with
    | creation =>
      have e2 := hit (b! "creation-date") (by rw [h3]; decide +kernel) (by decide) (by decide +kernel) h4 h5
      rw [show (b! "creation-date").map swapCase = b! "CREATION-DATE" by decide +kernel] at e2
      simp only [matchParsers, e1, err_bind, e2, ok_bind]
      rfl
    | modification =>
      obtain ⟨x2, e2⟩ := miss (b! "creation-date") (b! "CREATION-DATE") (by decide +kernel) (by
        rw [hlow]
        exact not_prefix_cons (by decide))
      have e3 := hit (b! "modification-date") (by rw [h3]; decide +kernel) (by decide) (by decide +kernel) h4 h5
      rw [show (b! "modification-date").map swapCase = b! "MODIFICATION-DATE" by decide +kernel] at e3
      simp only [matchParsers, e1, err_bind, e2, e3, ok_bind]
      rfl
    | read =>
      obtain ⟨x2, e2⟩ := miss (b! "creation-date") (b! "CREATION-DATE") (by decide +kernel) (by
        rw [hlow]
        exact not_prefix_cons (by decide))
      obtain ⟨x3, e3⟩ := miss (b! "modification-date") (b! "MODIFICATION-DATE") (by decide +kernel) (by
        rw [hlow]
        exact not_prefix_cons (by decide))
      have e4 := hit (b! "read-date") (by rw [h3]; decide +kernel) (by decide) (by decide +kernel) h4 h5
      rw [show (b! "read-date").map swapCase = b! "READ-DATE" by decide +kernel] at e4
      simp only [matchParsers, e1, err_bind, e2, e3, e4, ok_bind]
      rfl

theorem dispositionItem_end {e : Bytes} (he : CfwsEnd [] e) (hs : Stops (· == 59) e) :
    ∃ x, dispositionItem c e = .err x := by
  unfold dispositionItem
  obtain ⟨x, hx⟩ := parameter_end (c := c) he hs
  have h := skipCfws_append (c := c) (w := []) optCfws_nil he
  simp only [List.nil_append] at h
  simp only [matchParsers, filenameParameter, dateParameter, h, ok_bind, semicolon_missing hs, err_bind, hx]
  exact ⟨_, rfl⟩

theorem dispositionItems_append {xs : List WrittenItem} {e : Bytes} (hx : ∀ x ∈ xs, x.Valid c)
    (he : CfwsEnd [] e) (het : Stops Spec.tokenChar e) (hs : Stops (· == 59) e) :
    many (xs.flatMap WrittenItem.text ++ e) (dispositionItem c) =
      .ok (e, xs.map WrittenItem.item) := by
  have hb : ∀ x : WrittenItem, x.Valid c → Gap c x.before () := fun x hx => by
    cases x with
    | filename => exact hx.1
    | date => exact hx.1
    | other p => exact hx.1.before
  have h := many_items (c := c) (p := dispositionItem c) (before := WrittenItem.before)
    (tail := WrittenItem.tail) (val := WrittenItem.item) (swallow := WrittenItem.swallow) (e := e)
    (fun x => x.Valid c) hb (fun x _ => by cases x <;> exact ⟨_, rfl⟩)
    (fun x g₀ g r hx h1 h2 h3 h4 => dispositionItem_append hx h1 h2 h3 h4) he het
    (dispositionItem_end he hs) xs
  cases xs with
  | nil => exact h [] hx optCfws_nil (by simp)
  | cons x xs =>
    have := h x.before hx (hb x (hx x (by simp))) (by simp)
    rw [show WrittenItem.text = fun x : WrittenItem => x.before ++ x.tail from rfl]
    simpa [List.flatMap_cons] using this

theorem otherParams_eq (xs : List WrittenItem) :
    (xs.map WrittenItem.item).filterMap DispositionItem.rawParam? = otherParams xs := by
  unfold otherParams
  rw [List.filterMap_map]
  congr 1
  funext x
  rcases x with _ | ⟨⟨⟩, _⟩ | _ <;> rfl

theorem dispositionValue_append {g type r : Bytes} {t : DispositionType} {xs : List WrittenItem}
    {q : Params} (hg : Gap c g ()) (ht : WrittenName dispositionNames .unknown type t)
    (hx : ∀ x ∈ xs, x.Valid c)
    (hq : collectParameters c (otherParams xs) = .ok q)
    (hr : Stops Spec.wsp r) :
    contentDispositionValue c (g ++ (type ++ (xs.flatMap WrittenItem.text ++ (Spec.CRLF ++ r)))) =
      .ok (Spec.CRLF ++ r, dispositionOf t (xs.map WrittenItem.item) q) := by
  obtain ⟨htn, htt⟩ := writtenName_token (by decide +kernel) ht
  have hxs : Stops Spec.tokenChar (xs.flatMap WrittenItem.text ++ (Spec.CRLF ++ r)) := by
    cases xs with
    | nil => exact stops_cons.mpr (by decide)
    | cons x xs =>
      rw [List.flatMap_cons, WrittenItem.text]
      simp only [List.append_assoc]
      have hx := hx x (by simp)
      cases x with
      | filename => exact gap_token hx.1 (stops_cons.mpr (by decide))
      | date => exact gap_token hx.1 (stops_cons.mpr (by decide))
      | other p => exact gap_token hx.1.before (stops_cons.mpr (by decide))
  unfold contentDispositionValue
  rw [skipCfws_append hg (tokenChar_cfwsEnd htn htt)]
  simp only [ok_bind]
  rw [dispositionType_append ht hxs]
  simp only [ok_bind]
  rw [dispositionItems_append hx (crlf_end hr) (stops_cons.mpr (by decide)) (stops_cons.mpr (by decide))]
  simp only [ok_bind]
  rw [otherParams_eq, hq]
  simp only [ok_bind, inlineCfws_none, foldl_add, Option.or_none]
  rfl

theorem contentDisposition_append {n g type r : Bytes} {t : DispositionType} {xs : List WrittenItem}
    {q : Params} (hn : n.map asciiLower = b! "content-disposition:") (hg : Gap c g ())
    (ht : WrittenName dispositionNames .unknown type t) (hx : ∀ x ∈ xs, x.Valid c)
    (hq : collectParameters c (otherParams xs) = .ok q)
    (hr : Stops Spec.wsp r) :
    contentDisposition c (n ++ ((g ++ (type ++ xs.flatMap WrittenItem.text)) ++ (Spec.CRLF ++ r))) =
      .ok (r, dispositionOf t (xs.map WrittenItem.item) q) := by
  unfold contentDisposition
  refine headerLine_append (by decide +kernel) (by rw [hn]; decide +kernel) ?_
  have := dispositionValue_append hg ht hx hq hr
  simpa only [List.append_assoc] using this

end EmailParser
