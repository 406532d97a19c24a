import Verif.Proofs.Sound.Lexical
/-
Soundness of the parsers of src/parsing/common.rs and src/parsing/mime/encoded_headers.rs.
-/
namespace EmailParser
open Spec (Gram)

variable {A : Aborts} {α β : Type} {c : Cfg}

/-- What may go wrong when parsing: the stack overflows if there are more opening parentheses than
it has room for; with overflow checks and the feature `mime`, 256 continuation marks. -/
def aborts (c : Cfg) : Aborts where
  P i k := (k = .stackOverflow ∧ c.stack < i.count 40) ∨
    (k = .panic ∧ c.overflowChecks = true ∧ c.feat.mime = true ∧ 256 ≤ i.count 42)
  mono u v k h := by
    simp only [List.count_append]
    rcases h with h | h
    · exact .inl ⟨h.1, by omega⟩
    · exact .inr ⟨h.1, h.2.1, h.2.2.1, by omega⟩

theorem comment_parses' : Parses (aborts c) (anyVal Spec.Comment) (comment c.stack) := by
  intro i
  refine PSat.mapAborts (A := stackAborts c.stack) ((comment_parses c.stack i).imp ?_) ?_
  · rintro w v ⟨u, h⟩; exact ⟨u, _, h⟩
  · intro k h; exact .inl h

theorem comment_progress : Progress Spec.Comment := fun w v ⟨n, h⟩ => commentN_progress n w v h

/-! ### CFWS -/

/-- `[FWS] comment`. -/
def FwsComment : Gram Unit := do
  let _ ← Gram.opt Spec.Fws
  Spec.Comment

theorem fwsComment_progress : Progress FwsComment := progress_bind_right fun _ => comment_progress

theorem fwsComment_intro {w₁ w₂ : Bytes} {o : Option Bytes} {b : Bytes} (h₁ : Gram.opt Spec.Fws w₁ o)
    (h₂ : anyVal Spec.Comment w₂ b) : FwsComment (w₁ ++ w₂) () := by
  obtain ⟨⟨⟩, h⟩ := h₂
  exact ⟨w₁, w₂, o, rfl, h₁, h⟩

theorem realCfwsLoop_psat : ∀ fuel i, i.length < fuel →
    PSat (aborts c) (anyVal (Gram.star FwsComment)) i (realCfwsLoop c fuel i)
  | 0, _, h => by omega
  | fuel + 1, i, h => by
    unfold realCfwsLoop
    have h1 := optFws_psat (A := aborts c) i
    cases hx : optional i fws with
    | err e => exact .err
    | abort k => rw [hx] at h1; exact h1
    | ok r =>
      rw [hx] at h1
      obtain ⟨j, o⟩ := r
      obtain ⟨w, hi, hw⟩ := h1
      dsimp only at hi hw
      subst hi
      simp only [ok_bind]
      have h2 := comment_parses' (c := c) j
      cases hy : comment c.stack j with
      | err e => exact .ok [] rfl ⟨_, .nil⟩
      | abort k => rw [hy] at h2; exact (aborts c).mono w j k h2
      | ok r =>
        rw [hy] at h2
        obtain ⟨r, b⟩ := r
        obtain ⟨w', hj, hw'⟩ := h2
        dsimp only at hj hw'
        subst hj
        dsimp only
        have hc := fwsComment_intro hw hw'
        have hlen : r.length < fuel := by
          have := List.length_pos_iff.mpr (fwsComment_progress _ _ hc)
          simp at h this; omega
        have ih := realCfwsLoop_psat fuel r hlen
        cases hz : realCfwsLoop c fuel r with
        | err e => exact .err
        | abort k =>
          rw [hz] at ih
          exact (aborts c).mono w _ k ((aborts c).mono w' _ k ih)
        | ok s =>
          rw [hz] at ih
          obtain ⟨w'', hr, vs, hvs⟩ := ih
          exact .ok ((w ++ w') ++ w'') (by simp_all) ⟨_, .cons hc hvs⟩

theorem cfws_parses : Parses (aborts c) (anyVal Spec.Cfws) (cfws c) := by
  intro i
  unfold cfws
  refine matchParsers_psat ?_
  intro p hp
  simp only [List.mem_cons, List.not_mem_nil, or_false] at hp
  rcases hp with rfl | rfl
  · unfold realCfws
    have h1 := optFws_psat (A := aborts c) i
    cases hx : optional i fws with
    | err e => exact .err
    | abort k => rw [hx] at h1; exact h1
    | ok r =>
      rw [hx] at h1
      obtain ⟨j, o⟩ := r
      obtain ⟨w, hi, hw⟩ := h1
      dsimp only at hi hw
      subst hi
      simp only [ok_bind]
      have h2 := comment_parses' (c := c) j
      cases hy : comment c.stack j with
      | err e => exact .err
      | abort k => rw [hy] at h2; exact (aborts c).mono w j k h2
      | ok r =>
        rw [hy] at h2
        obtain ⟨r, b⟩ := r
        obtain ⟨w', hj, hw'⟩ := h2
        dsimp only at hj hw'
        subst hj
        dsimp only
        have hc := fwsComment_intro hw hw'
        have key : PSat (aborts c) (do
            let _ ← (anyVal (Gram.star FwsComment) : Gram Bytes)
            let _ ← Gram.opt Spec.Fws
            fun w _ => w = []) r (do
              let (input, output) ← realCfwsLoop c (r.length + 1) r
              let (input, last) ← optional input fws
              .ok (input, o.getD [] ++ output ++ last.getD [])) := by
          refine .bind (realCfwsLoop_psat _ r (by omega)) fun r v w _ _ => ?_
          refine .bind (optFws_psat r) fun r v w _ _ => ?_
          exact .ok [] rfl rfl
        refine Outcome.Sat.mono key ?_ (fun k h => (aborts c).mono w _ k ((aborts c).mono w' _ k h))
        rintro ⟨r', v⟩ ⟨u, hr, u₁, u₂, _, rfl, ⟨vs, h₁⟩, u₃, u₄, _, rfl, h₃, rfl⟩
        dsimp only at hr
        subst hr
        refine ⟨(w ++ w') ++ (u₁ ++ u₃), by simp, (), .inl ?_⟩
        refine ⟨(w ++ w') ++ u₁, u₃, () :: vs, by simp, ?_, u₃, [], _, by simp, h₃, rfl, rfl⟩
        exact ⟨w ++ w', u₁, (), rfl, hc, u₁, [], vs, by simp, h₁, rfl, rfl⟩
  · exact (fws_parses i).imp fun w v h => ⟨(), .inr ⟨_, h⟩⟩

theorem skipCfws_sat (i : Bytes) :
    (skipCfws c i).Sat (fun r => ∃ w, i = w ++ r ∧ Spec.OptCfws w ()) ((aborts c).P i) := by
  unfold skipCfws
  have h := cfws_parses (c := c) i
  cases hx : cfws c i with
  | err e => exact ⟨[], rfl, none, .inl ⟨rfl, rfl⟩⟩
  | abort k => rw [hx] at h; exact h
  | ok r =>
    rw [hx] at h
    obtain ⟨w, hi, ⟨⟩, hw⟩ := h
    exact ⟨w, hi, some (), .inr ⟨_, rfl, hw⟩⟩

/-! ### Quoted strings -/

theorem qpart_intro {w₁ w₂ : Bytes} {a b : Bytes} (h₁ : Spec.OptFws w₁ a)
    (h₂ : Gram.or (Gram.chars1 Spec.qtext) Spec.QuotedPair w₂ b) :
    (do let white ← Spec.OptFws
        let v ← Gram.or (Gram.chars1 Spec.qtext) Spec.QuotedPair
        pure (white ++ v) : Gram Bytes) (w₁ ++ w₂) (a ++ b) :=
  ⟨w₁, w₂, a, rfl, h₁, w₂, [], b, by simp, h₂, rfl, rfl⟩

/-- Grammar of the contents of a quoted string. -/
def QParts : Gram Bytes := Gram.map List.flatten (Gram.star do
  let white ← Spec.OptFws
  let v ← Gram.or (Gram.chars1 Spec.qtext) Spec.QuotedPair
  pure (white ++ v))

theorem qcontent_progress : Progress (Gram.or (Gram.chars1 Spec.qtext) Spec.QuotedPair) :=
  progress_or progress_chars1 quotedPair_progress

theorem quotedStringLoop_psat : ∀ fuel i, i.length < fuel →
    PSat A QParts i (quotedStringLoop fuel i)
  | 0, _, h => by omega
  | fuel + 1, i, h => by
    unfold quotedStringLoop
    have h1 := fwsOrEmpty_parses (A := A) i
    cases hx : fwsOrEmpty i with
    | err e => exact .err
    | abort k => rw [hx] at h1; exact h1
    | ok r =>
      rw [hx] at h1
      obtain ⟨j, white⟩ := r
      obtain ⟨w, hi, hw⟩ := h1
      dsimp only at hi hw
      subst hi
      simp only [ok_bind]
      -- whatever the content is, the loop goes on
      have next : ∀ r str w', j = w' ++ r →
          Gram.or (Gram.chars1 Spec.qtext) Spec.QuotedPair w' str →
          PSat A QParts (w ++ j) (do
            let (input, output) ← quotedStringLoop fuel r
            .ok (input, white ++ str ++ output)) := by
        intro r str w' hj hw'
        subst hj
        have hlen : r.length < fuel := by
          have := List.length_pos_iff.mpr (qcontent_progress _ _ hw')
          simp at h; omega
        have ih := quotedStringLoop_psat fuel r hlen
        cases hz : quotedStringLoop fuel r with
        | err e => exact .err
        | abort k =>
          rw [hz] at ih
          exact A.mono w _ k (A.mono w' _ k ih)
        | ok s =>
          rw [hz] at ih
          obtain ⟨w'', hr, vs, hvs, hstar⟩ := ih
          refine .ok ((w ++ w') ++ w'') (by simp_all) ⟨(white ++ str) :: vs, ?_, ?_⟩
          · simp [hvs]
          · exact .cons (qpart_intro hw hw') hstar
      have h2 := takeWhile1_parses (A := A) isQtext j
      dsimp only at h2
      cases hy : takeWhile1 j isQtext with
      | abort k => rw [hy] at h2; exact A.mono w j k h2
      | ok r =>
        rw [hy] at h2
        obtain ⟨w', hj, hw'⟩ := h2
        rw [isQtext_eq] at hw'
        exact next r.1 r.2 w' hj (.inl hw')
      | err e =>
        dsimp only
        have h3 := quotedPair_parses (A := A) j
        cases hz : quotedPair j with
        | abort k => rw [hz] at h3; exact A.mono w j k h3
        | ok r =>
          rw [hz] at h3
          obtain ⟨w', hj, hw'⟩ := h3
          exact next r.1 r.2 w' hj (.inr hw')
        | err e => exact .ok [] rfl ⟨[], rfl, .nil⟩

/-- `if startsWith input s then sliceFrom input s.length …` -/
theorem PSat.ifStarts {G : Gram β} {i s : Bytes} {f : Bytes → Res β} {e : Error}
    (hf : ∀ r, i = s ++ r → PSat A G r (f r)) :
    PSat A (do Gram.lit s; G) i
      (if startsWith i s = true then (sliceFrom i s.length >>= f) else .err e) := by
  by_cases h : startsWith i s = true
  · obtain ⟨r, rfl⟩ := startsWith_iff.mp h
    rw [if_pos h]
    have : sliceFrom (s ++ r) s.length = .ok r := by simp [sliceFrom]
    rw [this, ok_bind]
    refine Outcome.Sat.mono (hf r rfl) ?_ (fun k => A.mono s r k)
    rintro ⟨r', v⟩ ⟨w, rfl, hw⟩
    exact ⟨s ++ w, by simp, s, w, (), rfl, rfl, hw⟩
  · rw [if_neg h]; exact .err

theorem quotedString_parses : Parses (aborts c) Spec.QuotedString (quotedString c) := by
  intro i
  unfold quotedString
  refine (PSat.bindRest (skipCfws_sat i) (F := do
    Gram.lit (b! "\"")
    let parts ← QParts
    let last ← Spec.OptFws
    Gram.lit (b! "\"")
    Spec.OptCfws
    pure (parts ++ last)) fun r w _ _ => ?_).imp ?_
  · refine .ifStarts (s := b! "\"") fun r _ => ?_
    refine .bind (quotedStringLoop_psat _ r (by omega)) fun r v w _ _ => ?_
    refine .bind (fwsOrEmpty_parses r) fun r v w _ _ => ?_
    refine .ifStarts (s := b! "\"") fun r _ => ?_
    refine .bindRest (skipCfws_sat r) fun r w _ _ => ?_
    exact .pure
  · rintro w v ⟨w₁, w₂, u, rfl, h₁, w₃, w₄, u', rfl, h₃, w₅, w₆, _, rfl, ⟨parts, rfl, h₅⟩, h₆⟩
    exact ⟨w₁, _, u, rfl, h₁, w₃, _, u', rfl, h₃, w₅, w₆, parts, rfl, h₅, h₆⟩

theorem quotedString_progress : Progress Spec.QuotedString :=
  progress_bind_right fun _ => progress_bind_left (progress_lit (by decide))

/-! ### Atoms -/

theorem PSat.mapErr {G : Gram α} {i : Bytes} {x : Res α} {e : Error} (h : PSat A G i x) :
    PSat A G i (x.mapErr e) := by
  cases x with
  | ok r => exact h
  | err e => exact .err
  | abort k => exact h

theorem atom_parses : Parses (aborts c) Spec.Atom (atom c) := by
  intro i
  unfold atom
  rw [isAtext_eq]
  refine .bindRest (skipCfws_sat i) fun r w _ _ => ?_
  refine .bind (takeWhile1_parses Spec.atext r).mapErr fun r v w _ _ => ?_
  refine .bindRest (skipCfws_sat r) fun r w _ _ => ?_
  exact .pure

theorem atom_progress : Progress Spec.Atom :=
  progress_bind_right fun _ => progress_bind_left progress_chars1

/-- Grammar of what follows the first atom of a dot-atom. -/
def DotParts (lax : Bool) : Gram Bytes := Gram.map List.flatten (Gram.star do
  Gram.lit (b! ".")
  let v ← Spec.DotPart lax
  pure (b! "." ++ v))

theorem dotAtomTextLoop_psat : ∀ fuel i, i.length < fuel →
    PSat A (DotParts c.feat.compatibilityFixes) i (dotAtomTextLoop c fuel i)
  | 0, _, h => by omega
  | fuel + 1, i, h => by
    unfold dotAtomTextLoop
    have stop : PSat A (DotParts c.feat.compatibilityFixes) i (.ok (i, [])) :=
      .ok [] rfl ⟨[], rfl, .nil⟩
    by_cases hs : startsWith i (b! ".") = true
    · rw [if_pos hs]
      obtain ⟨t, rfl⟩ := startsWith_iff.mp hs
      have e1 : sliceFrom (b! "." ++ t) 1 = .ok t := by simp [sliceFrom]
      have e2 : sliceTo (b! "." ++ t) 1 = .ok (b! ".") := by simp [sliceTo]
      rw [e1, e2]
      simp only [ok_bind, isAtext_eq]
      have hp : PSat A (Spec.DotPart c.feat.compatibilityFixes) t
          (if c.feat.compatibilityFixes then takeWhile t Spec.atext
            else takeWhile1 t Spec.atext) := by
        unfold Spec.DotPart
        split
        · exact takeWhile_parses _ t
        · exact takeWhile1_parses _ t
      generalize (if c.feat.compatibilityFixes then takeWhile t Spec.atext
            else takeWhile1 t Spec.atext) = x at hp
      cases x with
      | abort k => exact A.mono _ _ _ hp
      | err e => exact stop
      | ok r =>
        obtain ⟨r, v⟩ := r
        obtain ⟨w, ht, hw⟩ := hp
        dsimp only at ht hw ⊢
        subst ht
        have hlen : r.length < fuel := by simp at h; omega
        have ih := dotAtomTextLoop_psat fuel r hlen
        cases hz : dotAtomTextLoop c fuel r with
        | err e => exact .err
        | abort k =>
          rw [hz] at ih
          exact A.mono _ _ k (A.mono w _ k ih)
        | ok s =>
          rw [hz] at ih
          obtain ⟨w'', hr, vs, hvs, hstar⟩ := ih
          refine .ok ((b! "." ++ w) ++ w'') (by simp_all) ⟨(b! "." ++ v) :: vs, ?_, ?_⟩
          · simp [hvs]
          · exact .cons ⟨b! ".", w, (), rfl, rfl, w, [], v, by simp, hw, rfl, rfl⟩ hstar
    · rw [if_neg hs]
      exact stop

theorem dotAtomText_parses :
    Parses A (Spec.DotAtomText c.feat.compatibilityFixes) (dotAtomText c) := by
  intro i
  unfold dotAtomText
  rw [isAtext_eq]
  refine (PSat.bind (takeWhile1_parses Spec.atext i) (F := fun v => do
    let others ← DotParts c.feat.compatibilityFixes
    pure (v ++ others)) fun r v w _ _ => ?_).imp ?_
  · refine .bind (dotAtomTextLoop_psat _ r (by omega)) fun r v w _ _ => ?_
    exact .pure
  · rintro w v ⟨w₁, w₂, a, rfl, h₁, w₃, w₄, _, rfl, ⟨others, rfl, h₃⟩, h₄⟩
    exact ⟨w₁, _, a, rfl, h₁, w₃, w₄, others, rfl, h₃, h₄⟩

theorem dotAtomText_progress {lax : Bool} : Progress (Spec.DotAtomText lax) :=
  progress_bind_left progress_chars1

theorem dotAtom_parses : Parses (aborts c) (Spec.DotAtom c.feat.compatibilityFixes) (dotAtom c) := by
  intro i
  unfold dotAtom
  refine .bindRest (skipCfws_sat i) fun r w _ _ => ?_
  refine .bind (dotAtomText_parses r) fun r v w _ _ => ?_
  refine .bindRest (skipCfws_sat r) fun r w _ _ => ?_
  exact .pure

theorem dotAtom_progress {lax : Bool} : Progress (Spec.DotAtom lax) :=
  progress_bind_right fun _ => progress_bind_left dotAtomText_progress

theorem word_parses : Parses (aborts c) Spec.Word (word c) :=
  matchParsers_two atom_parses quotedString_parses

theorem word_progress : Progress Spec.Word := progress_or atom_progress quotedString_progress

/-! ### Encoded words -/

theorem charsetChar_eq :
    (fun c : UInt8 => decide (c > 0x20) && decide (c < 0x7F) && !especials c && c != 42) =
      Spec.charsetChar := funext (by decide +kernel)

theorem encodingChar_eq :
    (fun c : UInt8 => decide (c > 0x20) && decide (c < 0x7F) && !especials c) =
      Spec.encodingChar := funext (by decide +kernel)

theorem encodedTextChar_eq :
    (fun c : UInt8 => decide (c > 0x20) && decide (c ≤ 0x7E) && c != 63) =
      Spec.encodedTextChar := funext (by decide +kernel)

theorem b64Decode_no_abort : ∀ (ts : List Spec.B64Token) (st : Spec.B64State) (k : Abort),
    Spec.b64Decode st ts ≠ .abort k
  | [], st, k => by cases st <;> simp [Spec.b64Decode]
  | t :: ts, st, k => by
    have ih := b64Decode_no_abort ts
    cases st <;> cases t <;> simp [Spec.b64Decode, ih, bind_eq_abort]

theorem decodeCharset_spec {name bytes : Bytes} :
    match decodeCharset c name bytes with
    | some (.ok text) => Spec.CharsetText c name bytes text
    | some (.err _) => True
    | some (.abort _) => False
    | none => True := by
  unfold decodeCharset
  by_cases h : (name == b! "utf-8" || name == b! "us-ascii") = true
  · rw [if_pos h]
    by_cases hv : utf8Valid bytes = true
    · simp only [hv, if_true]
      left
      simp only [Bool.or_eq_true, beq_iff_eq] at h
      exact ⟨h, hv, rfl⟩
    · simp [hv]
  · rw [if_neg h]
    cases hl : textcodeTable.lookup name with
    | none => trivial
    | some t =>
      right
      refine ⟨t, ?_, rfl⟩
      revert hl
      unfold textcodeTable
      simp only [List.lookup]
      intro hl
      repeat' split at hl
      all_goals first
        | (simp at hl; done)
        | (rename_i hb; simp only [Option.some.injEq] at hl; subst hl; exact eq_of_beq hb)

/-- Grammar following the code of `encoded_word`. -/
def EncodedWordSeq (c : Cfg) : Gram Bytes := do
  Gram.lit (b! "=?")
  let charset ← Gram.chars1 Spec.charsetChar
  let _ ← Gram.opt do
    Gram.lit (b! "*")
    Gram.chars1 Spec.encodingChar
  Gram.lit (b! "?")
  let encoding ← Gram.chars1 Spec.encodingChar
  Gram.lit (b! "?")
  let text ← Gram.chars1 Spec.encodedTextChar
  Gram.lit (b! "?=")
  fun w v => w = [] ∧ ∃ bytes,
    ((encoding.map asciiLower = b! "b" ∧ Spec.b64Decode .start (Spec.b64Tokens text) = .ok bytes) ∨
      (encoding.map asciiLower = b! "q" ∧ Spec.qDecode text = bytes)) ∧
    Spec.CharsetText c (charset.map asciiLower) bytes v

theorem charset_parses : Parses A (Gram.map lowercase (Gram.chars1 Spec.charsetChar)) charset := by
  intro i
  unfold charset
  rw [charsetChar_eq]
  refine (PSat.bind (takeWhile1_parses Spec.charsetChar i) (F := fun v => pure (lowercase v))
    fun r v w _ _ => .pure).imp ?_
  intro w v h
  obtain ⟨a, h', rfl⟩ := gram_bind_pure.mp h
  exact ⟨a, rfl, h'⟩

theorem encoding_parses : Parses A (Gram.map lowercase (Gram.chars1 Spec.encodingChar)) encoding := by
  intro i
  unfold encoding
  rw [encodingChar_eq]
  refine (PSat.bind (takeWhile1_parses Spec.encodingChar i) (F := fun v => pure (lowercase v))
    fun r v w _ _ => .pure).imp ?_
  intro w v h
  obtain ⟨a, h', rfl⟩ := gram_bind_pure.mp h
  exact ⟨a, rfl, h'⟩

theorem decodeWord_sat (c : Cfg) (cs enc text : Bytes) (P : Abort → Prop) :
    (decodeWord c cs enc text).Sat (fun v => ∃ bytes,
      ((enc = b! "b" ∧ Spec.b64Decode .start (Spec.b64Tokens text) = .ok bytes) ∨
        (enc = b! "q" ∧ Spec.qDecode text = bytes)) ∧
      Spec.CharsetText c cs bytes v) P := by
  unfold decodeWord
  refine Outcome.Sat.bind (Q := fun bytes =>
      ((enc = b! "b" ∧ Spec.b64Decode .start (Spec.b64Tokens text) = .ok bytes) ∨
        (enc = b! "q" ∧ Spec.qDecode text = bytes))) ?_ fun bytes hb => ?_
  · unfold decodeWord.decodeTransfer
    rw [decodeBase64_eq, decodeHeaderQp_eq]
    split
    · rename_i he
      cases hd : Spec.b64Decode .start (Spec.b64Tokens text) with
      | ok b => exact .inl ⟨by simpa using he, rfl⟩
      | err e => trivial
      | abort k => exact (b64Decode_no_abort _ _ _ hd).elim
    · split
      · rename_i he
        exact .inr ⟨by simpa using he, rfl⟩
      · trivial
  · have hd := decodeCharset_spec (c := c) (name := cs) (bytes := bytes)
    revert hd
    cases decodeCharset c cs bytes with
    | none => intro; trivial
    | some x =>
      cases x with
      | ok t => exact fun h => ⟨bytes, hb, h⟩
      | err e => intro; trivial
      | abort k => exact fun h => h.elim

theorem encodedWord_parses : Parses A (Spec.EncodedWord c) (encodedWord c) := by
  intro i
  unfold encodedWord
  refine (PSat.bind (tag_parses _ _ i) (F := fun _ => do
    let charset ← Gram.map lowercase (Gram.chars1 Spec.charsetChar)
    let _ ← Gram.opt do
      let a ← Gram.lit (b! "*")
      let b ← Gram.map lowercase (Gram.chars1 Spec.encodingChar)
      pure (a, b)
    Gram.lit (b! "?")
    let encoding ← Gram.map lowercase (Gram.chars1 Spec.encodingChar)
    Gram.lit (b! "?")
    let text ← Gram.chars1 Spec.encodedTextChar
    Gram.lit (b! "?=")
    fun w v => w = [] ∧ ∃ bytes,
      ((encoding = b! "b" ∧ Spec.b64Decode .start (Spec.b64Tokens text) = .ok bytes) ∨
        (encoding = b! "q" ∧ Spec.qDecode text = bytes)) ∧
      Spec.CharsetText c charset bytes v) fun r v w _ _ => ?_).imp ?_
  · refine .bind (charset_parses r) fun r cs w _ _ => ?_
    refine .bind (optional_psat (pair_parses (tag_parses _ _) encoding_parses r)) fun r v w _ _ => ?_
    refine .bind (tag_parses _ _ r) fun r v w _ _ => ?_
    refine .bind (encoding_parses r) fun r enc w _ _ => ?_
    refine .bind (tag_parses _ _ r) fun r v w _ _ => ?_
    refine .bind (G := Gram.chars1 Spec.encodedTextChar) ?_ fun r text w _ _ => ?_
    · unfold encodedText
      rw [encodedTextChar_eq]
      exact takeWhile1_parses _ r
    refine .bind (tag_parses _ _ r) fun r v w _ _ => ?_
    refine .bindPure (decodeWord_sat c _ _ _ _) fun text ⟨bytes, hb, ht⟩ =>
      .ok [] rfl ⟨rfl, bytes, hb, ht⟩
  · rintro w v ⟨w₁, _, _, rfl, h₁, w₂, _, _, rfl, ⟨cs, rfl, rfl, hc1, hc2⟩, w₃, _, lang, rfl, h₃,
      w₄, _, _, rfl, h₄, w₅, _, _, rfl, ⟨enc, rfl, rfl, he1, he2⟩, w₆, _, _, rfl, h₆,
      w₇, _, text, rfl, ⟨rfl, ht1, ht2⟩, w₈, w₉, _, rfl, h₈, rfl, bytes, hb, hcs⟩
    rw [show w₁ = _ from h₁, show w₄ = _ from h₄, show w₆ = _ from h₆, show w₈ = _ from h₈]
    refine ⟨cs, w₃, enc, text, bytes, by simp, ⟨hc1, hc2⟩, ?_, ⟨ht1, ht2⟩, hb, hcs⟩
    rcases h₃ with ⟨rfl, -⟩ | ⟨_, -, u₁, u₂, _, rfl, h, u₃, u₄, _, rfl, ⟨_, _, rfl, h1, h2⟩, rfl, -⟩
    · exact .inl rfl
    · right
      rw [show u₁ = _ from h]
      exact ⟨_, by simp, h1, h2⟩

theorem encodedWord_progress : Progress (Spec.EncodedWord c) := by
  rintro w v ⟨_, _, _, _, _, rfl, -⟩
  simp

/-! ### Phrases and unstructured text -/

theorem phraseWord_parses : Parses (aborts c) (Spec.PhraseWord c) (phraseWord c) := by
  intro i
  unfold phraseWord Spec.PhraseWord
  split
  · refine matchParsers_two (A := aborts c) ?_ word_parses i
    intro i
    refine .bind (optFws_psat i) fun r v w _ _ => ?_
    exact encodedWord_parses r
  · exact word_parses i

theorem phraseWord_progress : Progress (Spec.PhraseWord c) := by
  unfold Spec.PhraseWord
  split
  · exact progress_or (progress_bind_right fun _ => encodedWord_progress) word_progress
  · exact word_progress

theorem phrase_parses : Parses (aborts c) (Spec.Phrase c) (phrase c) :=
  many1_parses phraseWord_progress phraseWord_parses

theorem phrase_progress : Progress (Spec.Phrase c) := progress_plus phraseWord_progress

theorem star_chars1 {p : UInt8 → Bool} {w vs} (h : Gram.star (Gram.chars1 p) w vs) :
    Gram.chars p w w := by
  induction h with
  | nil => exact ⟨rfl, by simp⟩
  | cons h₁ _ ih =>
    refine ⟨rfl, ?_⟩
    intro c hc
    rcases List.mem_append.mp hc with hc | hc
    · exact h₁.2.2 c hc
    · exact ih.2 c hc

theorem dropWsp_parses : Parses A (anyVal (Gram.chars Spec.wsp)) dropWsp := by
  intro i
  unfold dropWsp
  rw [isWsp_eq]
  refine (ignoreMany_parses progress_chars1 (takeWhile1_parses Spec.wsp) i).imp ?_
  rintro w v ⟨vs, h⟩
  exact ⟨w, star_chars1 h⟩

theorem unstructured_parses : Parses A Spec.Unstructured unstructured := by
  intro i
  unfold unstructured
  rw [isVchar_eq]
  refine (PSat.bind (collectMany_parses (G := do
      let white ← Spec.OptFws
      let v ← Gram.chars1 Spec.vchar
      pure (white ++ v)) ?_ ?_ i) (F := fun output => do
    let _ ← (anyVal (Gram.chars Spec.wsp) : Gram Unit)
    pure output) fun r v w _ _ => ?_).imp ?_
  · exact progress_bind_right fun _ => progress_bind_left progress_chars1
  · intro i
    refine collectPair_parses (A := A) fwsOrEmpty_parses (H := Gram.chars1 Spec.vchar) ?_ i
    intro i
    refine (PSat.bind (takeWhile1_parses Spec.vchar i) (F := fun v => pure v)
      fun r v w _ _ => .pure).imp ?_
    intro w v h
    obtain ⟨a, h', rfl⟩ := gram_bind_pure.mp h
    exact h'
  · refine .bind (dropWsp_parses r) fun r v w _ _ => ?_
    exact .pure
  · rintro w v ⟨w₁, w₂, _, rfl, ⟨parts, rfl, h₁⟩, w₃, w₄, _, rfl, ⟨x, h₃⟩, h₄⟩
    exact ⟨w₁, _, parts, rfl, h₁, w₃, w₄, x, rfl, h₃, h₄⟩

/-- Grammar of a piece of unstructured text. -/
def PieceG (c : Cfg) : Gram Spec.Piece := do
  let white ← Spec.OptFws
  Gram.or
    (do
      let text ← Spec.EncodedWord c
      pure (Spec.Piece.mk white true text))
    (do
      let text ← Gram.chars1 Spec.vchar
      pure (Spec.Piece.mk white false text))

theorem piece_progress : Progress (PieceG c) :=
  progress_bind_right fun _ => progress_or (progress_bind_left encodedWord_progress)
    (progress_bind_left progress_chars1)

theorem mimeUnstructuredLoop_psat : ∀ fuel i previous, i.length < fuel →
    PSat A (Gram.map (Spec.joinPieces previous) (Gram.star (PieceG c))) i
      (mimeUnstructuredLoop c fuel previous i)
  | 0, _, _, h => by omega
  | fuel + 1, i, previous, h => by
    unfold mimeUnstructuredLoop
    have h1 := fwsOrEmpty_parses (A := A) i
    cases hx : fwsOrEmpty i with
    | err e => exact .err
    | abort k => rw [hx] at h1; exact h1
    | ok r =>
      rw [hx] at h1
      obtain ⟨j, white⟩ := r
      obtain ⟨w, hi, hw⟩ := h1
      dsimp only at hi hw
      subst hi
      simp only [ok_bind]
      -- whatever the piece is, the loop goes on
      have next : ∀ r piece w', j = w' ++ r → PieceG c (w ++ w') piece → w ++ w' ≠ [] → ∀ x,
          x = (if previous && piece.encoded then [] else piece.white) ++ piece.text →
          PSat A (Gram.map (Spec.joinPieces previous) (Gram.star (PieceG c))) (w ++ j) (do
            let (input, output) ← mimeUnstructuredLoop c fuel piece.encoded r
            .ok (input, x ++ output)) := by
        intro r piece w' hj hw' hne x hx'
        subst hj
        have hlen : r.length < fuel := by
          have := List.length_pos_iff.mpr hne
          simp at h this; omega
        have ih := mimeUnstructuredLoop_psat fuel r piece.encoded hlen
        cases hz : mimeUnstructuredLoop c fuel piece.encoded r with
        | err e => exact .err
        | abort k =>
          rw [hz] at ih
          exact A.mono w _ k (A.mono w' _ k ih)
        | ok s =>
          rw [hz] at ih
          obtain ⟨w'', hr, vs, hvs, hstar⟩ := ih
          refine .ok ((w ++ w') ++ w'') (by simp_all) ⟨piece :: vs, ?_, .cons hw' hstar⟩
          rw [Spec.joinPieces, ← hvs, hx']
      have h2 := encodedWord_parses (A := A) (c := c) j
      cases hy : encodedWord c j with
      | abort k => rw [hy] at h2; exact A.mono w j k h2
      | ok r =>
        rw [hy] at h2
        obtain ⟨w', hj, hw'⟩ := h2
        have hp : PieceG c (w ++ w') ⟨white, true, r.2⟩ :=
          ⟨w, w', white, rfl, hw, .inl ⟨w', [], r.2, by simp, hw', rfl, rfl⟩⟩
        exact next r.1 ⟨white, true, r.2⟩ w' hj hp (piece_progress _ _ hp) _
          (by cases previous <;> simp)
      | err e =>
        dsimp only
        have h3 := takeWhile1_parses (A := A) isVchar j
        dsimp only at h3
        cases hz : takeWhile1 j isVchar with
        | abort k => rw [hz] at h3; exact A.mono w j k h3
        | ok r =>
          rw [hz] at h3
          obtain ⟨w', hj, hw'⟩ := h3
          rw [isVchar_eq] at hw'
          have hp : PieceG c (w ++ w') ⟨white, false, r.2⟩ :=
            ⟨w, w', white, rfl, hw, .inr ⟨w', [], r.2, by simp, hw', rfl, rfl⟩⟩
          exact next r.1 ⟨white, false, r.2⟩ w' hj hp (piece_progress _ _ hp) _ (by simp)
        | err e => exact .ok [] rfl ⟨[], rfl, .nil⟩

theorem mimeUnstructured_parses : Parses A (Spec.MimeUnstructured c) (mimeUnstructured c) := by
  intro i
  unfold mimeUnstructured
  refine (PSat.bind (mimeUnstructuredLoop_psat (c := c) _ i false (by omega)) (F := fun output => do
    let _ ← (anyVal (Gram.chars Spec.wsp) : Gram Unit)
    pure output) fun r v w _ _ => ?_).imp ?_
  · refine .bind (dropWsp_parses r) fun r v w _ _ => ?_
    exact .pure
  · rintro w v ⟨w₁, w₂, _, rfl, ⟨pieces, rfl, h₁⟩, w₃, w₄, _, rfl, ⟨x, h₃⟩, h₄⟩
    exact ⟨w₁, _, pieces, rfl, h₁, w₃, w₄, x, rfl, h₃, h₄⟩

end EmailParser
