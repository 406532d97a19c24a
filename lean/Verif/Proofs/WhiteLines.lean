import Verif.Props.ExactAnyPart
import Verif.Spec.WhiteLines
/-
How many line breaks the texts of the grammars have in one run of white space.
-/
namespace EmailParser
open Spec Gram

variable {α β : Type} {c : Cfg} {M k m j : Nat}

/-! ### Counting line breaks -/

/-- Reading the text after `k` line breaks in a run of white space leaves `m` of them in the last run; there are never more
than `M`. -/
inductive Counts (M : Nat) : Nat → Bytes → Nat → Prop
  | nil {k : Nat} : Counts M k [] k
  | brk {k m : Nat} {w : Bytes} : k < M → Counts M (k + 1) w m → Counts M k (13 :: 10 :: w) m
  | white {k m : Nat} {b : UInt8} {w : Bytes} : wsp b = true → Counts M k w m → Counts M k (b :: w) m
  | char {k m : Nat} {b : UInt8} {w : Bytes} : vchar b = true → Counts M 0 w m → Counts M k (b :: w) m

theorem Counts.append {u v : Bytes} (hu : Counts M k u j) (hv : Counts M j v m) : Counts M k (u ++ v) m := by
  induction hu with
  | nil => exact hv
  | brk h _ ih => exact .brk h (ih hv)
  | white h _ ih => exact .white h (ih hv)
  | char h _ ih => exact .char h (ih hv)

theorem Counts.mono {w : Bytes} (h : Counts M k w m) : ∀ {k'}, k' ≤ k → ∃ m', m' ≤ m ∧ Counts M k' w m' := by
  induction h with
  | nil => exact fun h => ⟨_, h, .nil⟩
  | brk h _ ih =>
    intro k' hk
    obtain ⟨m', h1, h2⟩ := ih (k' := k' + 1) (by omega)
    exact ⟨m', h1, .brk (by omega) h2⟩
  | white h _ ih =>
    intro k' hk
    obtain ⟨m', h1, h2⟩ := ih hk
    exact ⟨m', h1, .white h h2⟩
  | char h h' _ => exact fun _ => ⟨_, Nat.le_refl _, .char h h'⟩

/-- Text that is read from a line break on. -/
theorem Counts.from_break {w z : Bytes} (h : Counts M k w m) : ∀ {y}, w = y ++ 13 :: z → ∃ j, Counts M j (13 :: z) m := by
  induction h with
  | nil => intro y e; simp at e
  | @brk k m w h hw ih =>
    intro y e
    match y, e with
    | [], e => exact ⟨k, by rw [List.nil_append] at e; exact e ▸ .brk h hw⟩
    | [_], e =>
      simp only [List.cons_append, List.nil_append, List.cons.injEq] at e
      exact absurd e.2.1 (by decide)
    | _ :: _ :: y, e =>
      simp only [List.cons_append, List.cons.injEq] at e
      exact ih e.2.2
  | @white k m b w h hw ih =>
    intro y e
    match y, e with
    | [], e => exact ⟨k, by rw [List.nil_append] at e; exact e ▸ .white h hw⟩
    | _ :: y, e =>
      simp only [List.cons_append, List.cons.injEq] at e
      exact ih e.2
  | @char k m b w h hw ih =>
    intro y e
    match y, e with
    | [], e => exact ⟨k, by rw [List.nil_append] at e; exact e ▸ .char h hw⟩
    | _ :: y, e =>
      simp only [List.cons_append, List.cons.injEq] at e
      exact ih e.2

theorem Counts.after_white {s z : Bytes} (hs : ∀ b ∈ s, wsp b = true) (h : Counts M k (s ++ z) m) : Counts M k z m := by
  induction s with
  | nil => exact h
  | cons b s ih =>
    have hb := hs b (by simp)
    rw [List.cons_append] at h
    generalize e : s ++ z = q at h
    cases h with
    | brk => exact absurd hb (by decide)
    | white _ h => exact ih (fun b hb => hs b (by simp [hb])) (e ▸ h)
    | char h' => rw [vchar_noWsp b h'] at hb; cases hb

theorem Counts.breaks {ws : List Bytes} {z : Bytes} (hs : ∀ s ∈ ws, ∀ b ∈ s, wsp b = true)
    (h : Counts M k (CRLF ++ ((ws.map (· ++ CRLF)).flatten ++ z)) m) : k + 1 + ws.length ≤ M := by
  induction ws generalizing k with
  | nil =>
    cases h with
    | brk h => simp; omega
    | white h => exact absurd h (by decide)
    | char h => exact absurd h (by decide)
  | cons s ws ih =>
    cases h with
    | white h => exact absurd h (by decide)
    | char h => exact absurd h (by decide)
    | brk h h' =>
      have h' : Counts M (k + 1) (s ++ (CRLF ++ ((ws.map (· ++ CRLF)).flatten ++ z))) m := by simpa [CRLF] using h'
      have := ih (fun s hs' => hs s (by simp [hs'])) (h'.after_white (hs s (by simp)))
      simp only [List.length_cons]
      omega

theorem Counts.not_whiteLines {w : Bytes} (h : Counts M k w m) : ¬ WhiteLines M w := by
  rintro ⟨y, ws, z, rfl, hl, hs⟩
  obtain ⟨j, h'⟩ := h.from_break (y := y) (z := 10 :: ((ws.map (· ++ CRLF)).flatten ++ z)) rfl
  have := Counts.breaks (ws := ws) (z := z) hs h'
  omega

theorem whiteLine_iff {w : Bytes} : WhiteLine w ↔ WhiteLines 1 w := by
  constructor
  · rintro ⟨y, ws, z, rfl, h⟩
    exact ⟨y, [ws], z, by simp, rfl, by simpa using h⟩
  · rintro ⟨y, ws, z, rfl, h, hs⟩
    match ws, h with
    | [s], _ => exact ⟨y, s, z, by simp, hs s (by simp)⟩

/-! ### Texts of grammars -/

/-- The texts of `G`, read after `k` line breaks, leave at most `m`. -/
def Tri (M k m : Nat) (G : Gram α) : Prop := ∀ w v, G w v → ∃ m', m' ≤ m ∧ Counts M k w m'

theorem Tri.weaken {G : Gram α} {k' m' : Nat} (h : Tri M k m G) (hk : k' ≤ k) (hm : m ≤ m') : Tri M k' m' G := by
  intro w v hw
  obtain ⟨n, h1, h2⟩ := h w v hw
  obtain ⟨n', h3, h4⟩ := h2.mono hk
  exact ⟨n', by omega, h4⟩

theorem tri_pure {a : α} : Tri M k k (pure a : Gram α) := by
  rintro w v ⟨rfl, -⟩
  exact ⟨k, Nat.le_refl _, .nil⟩

theorem tri_bind {G : Gram α} {F : α → Gram β} (hG : Tri M k j G) (hF : ∀ a, Tri M j m (F a)) : Tri M k m (G >>= F) := by
  rintro w v ⟨w₁, w₂, a, rfl, h1, h2⟩
  obtain ⟨j', hj, h1⟩ := hG _ _ h1
  obtain ⟨m', hm, h2⟩ := (hF a).weaken hj (Nat.le_refl _) _ _ h2
  exact ⟨m', hm, h1.append h2⟩

theorem tri_or {G H : Gram α} (hG : Tri M k m G) (hH : Tri M k m H) : Tri M k m (Gram.or G H) := by
  rintro w v (h | h)
  · exact hG w v h
  · exact hH w v h

theorem tri_opt {G : Gram α} (hG : Tri M k m G) (h : k ≤ m) : Tri M k m (opt G) := by
  rintro w v (⟨rfl, -⟩ | ⟨a, -, h'⟩)
  · exact ⟨k, h, .nil⟩
  · exact hG _ _ h'

theorem tri_star {G : Gram α} (hG : Tri M k k G) : Tri M k k (star G) := by
  intro w v h
  induction h with
  | nil => exact ⟨k, Nat.le_refl _, .nil⟩
  | cons h1 _ ih =>
    obtain ⟨j, hj, h1⟩ := hG _ _ h1
    obtain ⟨m, hm, h2⟩ := ih
    obtain ⟨m', hm', h2⟩ := h2.mono hj
    exact ⟨m', by omega, h1.append h2⟩

theorem tri_plus {G : Gram α} (h1 : Tri M k j G) (h2 : Tri M j j G) : Tri M k j (plus G) :=
  tri_bind h1 fun _ => tri_bind (tri_star h2) fun _ => tri_pure

theorem tri_skip {G : Gram α} (hG : Tri M k m G) : Tri M k m (skip G) := fun w _ ⟨v, h⟩ => hG w v h
theorem tri_filter {G : Gram α} {p : α → Prop} (hG : Tri M k m G) : Tri M k m (filter p G) := fun w v h => hG w v h.1
theorem tri_map {G : Gram α} {f : α → β} (hG : Tri M k m G) : Tri M k m (Gram.map f G) := fun w _ ⟨a, _, h⟩ => hG w a h

/-! ### Characters -/

theorem counts_chars {w : Bytes} (h : ∀ b ∈ w, vchar b = true ∨ wsp b = true) : ∃ m, m ≤ k ∧ Counts M k w m := by
  induction w generalizing k with
  | nil => exact ⟨k, Nat.le_refl _, .nil⟩
  | cons b w ih =>
    have ih := fun k => ih (k := k) fun b hb => h b (by simp [hb])
    rcases h b (by simp) with hb | hb
    · obtain ⟨m, h1, h2⟩ := ih 0
      exact ⟨m, by omega, .char hb h2⟩
    · obtain ⟨m, h1, h2⟩ := ih k
      exact ⟨m, h1, .white hb h2⟩

/-- Text that begins with a printable character. -/
theorem counts_solid {w : Bytes} (hw : w ≠ []) (h : ∀ b ∈ w, vchar b = true) : ∃ m, m ≤ 0 ∧ Counts M k w m := by
  obtain ⟨b, w, rfl⟩ := List.exists_cons_of_ne_nil hw
  obtain ⟨m, h1, h2⟩ := counts_chars (M := M) (k := 0) (w := w) fun b hb => .inl (h b (by simp [hb]))
  exact ⟨m, h1, .char (h b (by simp)) h2⟩

theorem tri_solid {G : Gram α} (h : ∀ w v, G w v → w ≠ [] ∧ ∀ b ∈ w, vchar b = true) : Tri M k 0 G := fun w v hw =>
  counts_solid (h w v hw).1 (h w v hw).2

theorem tri_printable {G : Gram α} (h : ∀ w v, G w v → ∀ b ∈ w, vchar b = true ∨ wsp b = true) : Tri M k k G := fun w v hw =>
  counts_chars (h w v hw)

theorem tri_lit {s : Bytes} (hs : s ≠ [] ∧ ∀ b ∈ s, vchar b = true) : Tri M k 0 (lit s) := tri_solid fun w _ h => by
  have : w = s := h
  rw [this]; exact hs

theorem lower_solid {s w : Bytes} (hs : s ≠ [] ∧ ∀ b ∈ s, vchar b = true) (h : w.map asciiLower = s.map asciiLower) :
    w ≠ [] ∧ ∀ b ∈ w, vchar b = true := by
  constructor
  · rintro rfl
    exact hs.1 (List.map_eq_nil_iff.mp h.symm)
  · intro b hb
    have : asciiLower b ∈ s.map asciiLower := h ▸ List.mem_map_of_mem hb
    obtain ⟨y, hy, e⟩ := List.mem_map.1 this
    rw [← vchar_lower, ← e, vchar_lower]
    exact hs.2 y hy

theorem tri_litNoCase {s : Bytes} (hs : s ≠ [] ∧ ∀ b ∈ s, vchar b = true) : Tri M k 0 (litNoCase s) :=
  tri_solid fun _ _ h => lower_solid hs h

theorem tri_chars1 {p : UInt8 → Bool} (h : ∀ b, p b = true → vchar b = true) : Tri M k 0 (chars1 p) :=
  tri_solid fun _ _ hw => ⟨hw.2.1, fun b hb => h b (hw.2.2 b hb)⟩

theorem tri_chars {p : UInt8 → Bool} (h : ∀ b, p b = true → vchar b = true ∨ wsp b = true) : Tri M k k (chars p) :=
  tri_printable fun _ _ hw b hb => h b (hw.2 b hb)

theorem tri_white1 : Tri M k k (chars1 wsp) := tri_printable fun _ _ hw b hb => .inr (hw.2.2 b hb)
theorem tri_white : Tri M k k (chars wsp) := tri_printable fun _ _ hw b hb => .inr (hw.2 b hb)

theorem tri_crlf (h : k < M) : Tri M k (k + 1) (lit CRLF) := by
  rintro w _ rfl
  exact ⟨k + 1, Nat.le_refl _, .brk h .nil⟩

theorem atext_v : ∀ b, atext b = true → vchar b = true := by decide +kernel
theorem ctext_v : ∀ b, ctext b = true → vchar b = true := by decide +kernel
theorem qtext_v : ∀ b, qtext b = true → vchar b = true := by decide +kernel
theorem dtext_v : ∀ b, dtext b = true → vchar b = true := by decide +kernel
theorem digit_v : ∀ b, Spec.digit b = true → vchar b = true := by decide +kernel
theorem token_v : ∀ b, tokenChar b = true → vchar b = true := by decide +kernel

/-! ### Comments and white space -/

theorem tri_fws (h : k < M) : Tri M k (k + 1) Fws :=
  tri_or (tri_bind tri_white fun _ => tri_bind (tri_crlf h) fun _ => tri_bind tri_white1 fun _ => tri_pure)
    (tri_white1.weaken (Nat.le_refl _) (by omega))

theorem tri_optFws (h : k < M) : Tri M k (k + 1) (opt Fws) := tri_opt (tri_fws h) (by omega)
theorem tri_optFws' (h : k < M) : Tri M k (k + 1) OptFws := tri_map (tri_optFws h)

theorem tri_quotedPair : Tri M k 0 QuotedPair :=
  tri_bind (tri_lit (by decide +kernel)) fun _ =>
    tri_bind (tri_printable (k := 0) fun w v hw b hb => by
      obtain ⟨rfl, h⟩ := hw
      rw [List.mem_singleton.1 hb]
      simpa using h) fun _ => tri_pure

theorem tri_commentN (h : 0 < M) : ∀ n, ∀ {k}, Tri M k 0 (CommentN n)
  | 0, _ => by rintro w v ⟨⟩
  | n + 1, _ =>
    tri_bind (tri_lit (by decide +kernel)) fun _ =>
      tri_bind (tri_star (k := 0) (tri_bind (tri_optFws h) fun _ =>
        tri_or (tri_skip (tri_chars1 ctext_v)) (tri_or (tri_skip tri_quotedPair) (tri_commentN h n)))) fun _ =>
        tri_bind (tri_optFws h) fun _ => tri_lit (by decide +kernel)

theorem tri_comment (h : 0 < M) : Tri M k 0 Comment := fun w v ⟨n, hn⟩ => tri_commentN h n w v hn

theorem tri_cfws (h : k < M) : Tri M k (k + 1) Cfws :=
  tri_or
    (tri_bind (tri_plus (tri_bind (tri_optFws h) fun _ => tri_comment (by omega))
      (tri_bind (tri_optFws (by omega)) fun _ => tri_comment (by omega))) fun _ =>
      tri_bind ((tri_optFws (by omega)).weaken (Nat.le_refl _) (by omega)) fun _ => tri_pure)
    (tri_skip (tri_fws h))

theorem tri_optCfws (h : k < M) : Tri M k (k + 1) OptCfws := tri_skip (tri_opt (tri_cfws h) (by omega))

/-- Comments and white space at the end. -/
theorem tri_gap (h : k < M) : Tri M 0 1 OptCfws := tri_optCfws (by omega)

/-! ### Words -/

theorem tri_atom (h : k < M) : Tri M k 1 Atom :=
  tri_bind (tri_optCfws h) fun _ => tri_bind (tri_chars1 atext_v) fun _ => tri_bind (tri_gap h) fun _ => tri_pure

theorem tri_dotAtomText {lax : Bool} : Tri M k 0 (DotAtomText lax) :=
  tri_bind (tri_chars1 atext_v) fun _ => tri_bind (tri_star (k := 0) (tri_bind (tri_lit (by decide +kernel)) fun _ =>
    tri_bind (j := 0) (by
      cases lax
      · exact tri_chars1 atext_v
      · exact tri_chars fun b hb => .inl (atext_v b hb)) fun _ => tri_pure)) fun _ => tri_pure

theorem tri_dotAtom {lax : Bool} (h : k < M) : Tri M k 1 (DotAtom lax) :=
  tri_bind (tri_optCfws h) fun _ => tri_bind tri_dotAtomText fun _ => tri_bind (tri_gap h) fun _ => tri_pure

theorem tri_quotedString (h : k < M) : Tri M k 1 QuotedString :=
  tri_bind (tri_optCfws h) fun _ => tri_bind (tri_lit (by decide +kernel)) fun _ =>
    tri_bind (tri_star (k := 0) (tri_bind (tri_optFws' (by omega)) fun _ =>
      tri_bind (tri_or (tri_chars1 qtext_v) tri_quotedPair) fun _ => tri_pure)) fun _ =>
      tri_bind (tri_optFws' (by omega)) fun _ => tri_bind (tri_lit (by decide +kernel)) fun _ =>
        tri_bind (tri_gap h) fun _ => tri_pure

theorem tri_word (h : k < M) : Tri M k 1 Word := tri_or (tri_atom h) (tri_quotedString h)

theorem encodedWord_solid {w v : Bytes} (h : EncodedWord c w v) : w ≠ [] ∧ ∀ b ∈ w, vchar b = true := by
  obtain ⟨charset, language, encoding, text, bytes, rfl, ⟨-, h1⟩, h2, ⟨-, h3⟩, h4, -⟩ := h
  refine ⟨by simp, ?_⟩
  have e1 : ∀ b, charsetChar b = true → vchar b = true := by decide +kernel
  have e2 : ∀ b, encodingChar b = true → vchar b = true := by decide +kernel
  have e3 : ∀ b, encodedTextChar b = true → vchar b = true := by decide +kernel
  have e4 : ∀ b ∈ encoding, vchar b = true := by
    rcases h4 with ⟨h, -⟩ | ⟨h, -⟩
    · exact (lower_solid (s := b! "b") (by decide +kernel) h).2
    · exact (lower_solid (s := b! "q") (by decide +kernel) h).2
  have e5 : ∀ b ∈ language, vchar b = true := by
    rcases h2 with rfl | ⟨l, rfl, -, h⟩
    · simp
    · exact List.forall_mem_cons.2 ⟨by decide +kernel, fun b hb => e2 b (h b hb)⟩
  intro b hb
  simp only [List.mem_append] at hb
  rcases hb with ((((((hb | hb) | hb) | hb) | hb) | hb) | hb) | hb
  · revert b; decide +kernel
  · exact e1 b (h1 b hb)
  · exact e5 b hb
  · revert b; decide +kernel
  · exact e4 b hb
  · revert b; decide +kernel
  · exact e3 b (h3 b hb)
  · revert b; decide +kernel

theorem tri_encodedWord : Tri M k 0 (EncodedWord c) := tri_solid fun _ _ => encodedWord_solid

theorem tri_phraseWord (h : k < M) : Tri M k 1 (PhraseWord c) := by
  unfold PhraseWord
  split
  · exact tri_or (tri_bind (tri_optFws h) fun _ => tri_encodedWord.weaken (Nat.le_refl _) (by omega)) (tri_word h)
  · exact tri_word h

/-- Two runs of white space meet between two words. -/
theorem tri_phrase : Tri 2 0 1 (Phrase c) := tri_plus (tri_phraseWord (by omega)) (tri_phraseWord (by omega))

theorem tri_unstructured (h : 0 < M) : Tri M 0 0 Unstructured :=
  tri_bind (tri_star (tri_bind (tri_optFws' h) fun _ => tri_bind (tri_chars1 fun _ => id) fun _ => tri_pure)) fun _ =>
    tri_bind tri_white fun _ => tri_pure

theorem tri_mimeUnstructured (h : 0 < M) : Tri M 0 0 (MimeUnstructured c) :=
  tri_bind (tri_star (tri_bind (tri_optFws' h) fun _ =>
    tri_or (tri_bind tri_encodedWord fun _ => tri_pure) (tri_bind (tri_chars1 fun _ => id) fun _ => tri_pure))) fun _ =>
    tri_bind tri_white fun _ => tri_pure

theorem tri_textValue {mime : Bool} (h : 0 < M) : Tri M 0 0 (TextValue mime c) := by
  unfold TextValue
  split
  · exact tri_mimeUnstructured h
  · exact tri_unstructured h

/-! ### Addresses, identifiers, dates -/

theorem tri_domainLiteral (h : k < M) : Tri M k 1 DomainLiteral :=
  tri_bind (tri_optCfws h) fun _ => tri_bind (tri_lit (by decide +kernel)) fun _ =>
    tri_bind (tri_star (k := 0) (tri_bind (tri_optFws (by omega)) fun _ => tri_chars1 dtext_v)) fun _ =>
      tri_bind (tri_optFws (by omega)) fun _ => tri_bind (tri_lit (by decide +kernel)) fun _ =>
        tri_bind (tri_gap h) fun _ => tri_pure

theorem tri_addrSpec {lax : Bool} (h : k < M) : Tri M k 1 (AddrSpec lax) :=
  tri_bind (tri_or (tri_dotAtom h) (tri_quotedString h)) fun _ => tri_bind (tri_lit (by decide +kernel)) fun _ =>
    tri_bind (tri_or (tri_dotAtom (k := 0) (by omega)) (tri_domainLiteral (by omega))) fun _ => tri_pure

theorem tri_angleAddr {lax : Bool} (h : k < M) : Tri M k 1 (AngleAddr lax) :=
  tri_bind (tri_optCfws h) fun _ => tri_bind (tri_lit (by decide +kernel)) fun _ =>
    tri_bind (tri_addrSpec (k := 0) (by omega)) fun _ => tri_bind (tri_lit (by decide +kernel)) fun _ =>
      tri_bind (tri_gap h) fun _ => tri_pure

theorem tri_mailbox : Tri 2 0 1 (MailboxG c) :=
  tri_or (tri_bind (tri_opt tri_phrase (by omega)) fun _ => tri_bind (tri_angleAddr (by omega)) fun _ => tri_pure)
    (tri_bind (tri_addrSpec (by omega)) fun _ => tri_pure)

theorem tri_commaList {G : Gram α} (h : Tri M 0 1 G) : Tri M 0 1 (CommaList G) :=
  tri_bind h fun _ => tri_bind (tri_star (tri_bind (tri_lit (by decide +kernel)) fun _ => h)) fun _ => tri_pure

theorem tri_address : Tri 2 0 1 (AddressG c) :=
  tri_or (tri_map tri_mailbox)
    (tri_map (tri_bind tri_phrase fun _ => tri_bind (tri_lit (by decide +kernel)) fun _ =>
      tri_bind (tri_or (tri_commaList tri_mailbox) (tri_bind (tri_optCfws (by omega)) fun _ => tri_pure)) fun _ =>
        tri_bind (tri_lit (by decide +kernel)) fun _ => tri_bind (tri_optCfws (by omega)) fun _ => tri_pure))

theorem tri_bcc : Tri 2 0 1 (Bcc c) :=
  tri_or (tri_commaList tri_address) (tri_bind (tri_cfws (by omega)) fun _ => tri_pure)

theorem tri_messageId {lax : Bool} (h : k < M) : Tri M k 1 (MessageId lax) :=
  tri_bind (tri_optCfws h) fun _ => tri_bind (tri_lit (by decide +kernel)) fun _ => tri_bind tri_dotAtomText fun _ =>
    tri_bind (tri_lit (by decide +kernel)) fun _ =>
      tri_bind (tri_or (tri_dotAtomText (k := 0)) (tri_bind (tri_lit (by decide +kernel)) fun _ =>
        tri_bind (tri_chars fun b hb => .inl (dtext_v b hb)) fun _ => tri_bind (tri_lit (by decide +kernel)) fun _ => tri_pure))
        fun _ => tri_bind (tri_lit (by decide +kernel)) fun _ => tri_bind (tri_gap h) fun _ => tri_pure

theorem tri_number {lo hi : Nat} (h : lo ≠ 0) : Tri M k 0 (Number lo hi) :=
  tri_bind (tri_solid (k := k) fun w v ⟨⟨e, hw⟩, hl, _⟩ => ⟨by rintro rfl; rw [e] at hl; simp at hl; omega,
    fun b hb => digit_v b (hw b hb)⟩) fun _ => tri_pure

theorem day_solid : ∀ d : Day, Spec.dayName d ≠ [] ∧ ∀ b ∈ Spec.dayName d, vchar b = true := by
  intro d; cases d <;> decide +kernel

theorem month_solid : ∀ d : Month, Spec.monthName d ≠ [] ∧ ∀ b ∈ Spec.monthName d, vchar b = true := by
  intro d; cases d <;> decide +kernel

theorem tri_dateTime (h : k < M) : Tri M k 1 DateTimeG := by
  have h0 : 0 < M := by omega
  have day : ∀ {k}, k < M → Tri M k (k + 1) DayG := fun h =>
    tri_bind (tri_optFws h) fun _ => tri_bind (tri_filter (tri_number (by omega))) fun _ =>
      tri_bind ((tri_fws h0).weaken (Nat.le_refl _) (by omega)) fun _ => tri_pure
  refine tri_bind (j := k) (tri_opt ?_ (Nat.le_refl _)) fun _ => tri_bind (day h) fun _ => tri_bind (j := 0) ?_ fun _ =>
    tri_bind (j := 1) ?_ fun _ => tri_bind (j := 0) ?_ fun _ => tri_bind (j := 0) ?_ fun _ => tri_bind (tri_gap h) fun _ => tri_pure
  · exact (tri_bind (tri_optFws h) fun _ =>
      tri_bind (j := 0) (tri_solid fun w v hw => lower_solid (day_solid v) hw) fun _ =>
        tri_bind (tri_lit (by decide +kernel)) fun _ => tri_pure : Tri M k 0 DayOfWeek).weaken (Nat.le_refl _) (by omega)
  · exact tri_solid fun w v hw => lower_solid (month_solid v) hw
  · exact tri_bind (tri_fws h0) fun _ => tri_bind (j := 0) (tri_solid fun w v ⟨⟨e, hw⟩, hl⟩ =>
      ⟨by rintro rfl; rw [e] at hl; simp at hl, fun b hb => digit_v b (hw b hb)⟩) fun _ =>
      tri_bind (tri_filter tri_pure) fun _ => tri_bind (tri_fws h0) fun _ => tri_pure
  · exact tri_bind (tri_filter (tri_number (by omega))) fun _ => tri_bind (tri_lit (by decide +kernel)) fun _ =>
      tri_bind (tri_filter (tri_number (by omega))) fun _ => tri_bind (tri_opt (k := 0) (m := 0)
        (tri_bind (tri_lit (by decide +kernel)) fun _ => tri_filter (tri_number (by omega))) (Nat.le_refl _)) fun _ => tri_pure
  · exact tri_bind (tri_fws h0) fun _ => tri_bind (tri_or (tri_map (tri_lit (by decide +kernel)))
      (tri_map (tri_lit (by decide +kernel)))) fun _ => tri_bind (tri_number (by omega)) fun _ =>
        tri_bind (tri_filter (tri_number (by omega))) fun _ => tri_pure

/-! ### MIME -/

theorem tri_inlineCfws (h : 0 < M) : Tri M 0 0 InlineCfws :=
  tri_bind tri_white fun _ => tri_bind (tri_opt (tri_comment h) (Nat.le_refl _)) fun _ => tri_bind tri_white fun _ => tri_pure

theorem tri_inlineCfws' (h : k < M) : Tri M k k InlineCfws :=
  tri_bind tri_white fun _ => tri_bind (tri_opt ((tri_comment (by omega)).weaken (Nat.le_refl _) (by omega)) (Nat.le_refl _))
    fun _ => tri_bind tri_white fun _ => tri_pure

theorem tri_u8Number : Tri M k 0 U8Number := tri_filter (tri_map (tri_chars1 digit_v))

theorem tri_mimeVersion (h : 0 < M) : Tri M 0 0 MimeVersion :=
  tri_bind (tri_optCfws h) fun _ => tri_bind tri_u8Number fun _ => tri_bind (tri_lit (by decide +kernel)) fun _ =>
    tri_bind tri_u8Number fun _ => tri_bind (tri_inlineCfws h) fun _ => tri_pure

theorem tri_namedOr {table : List (Bytes × α)} {other : Bytes → α}
    (ht : ∀ e ∈ table, (e.1 ≠ [] ∧ ∀ b ∈ e.1, vchar b = true) ∧ e.1.map asciiLower = e.1) : Tri M k 0 (NamedOr table other) := by
  refine tri_solid fun w v h => ?_
  rcases h with ⟨s, hs, e⟩ | ⟨⟨-, h1, h2⟩, -⟩
  · exact lower_solid (ht _ hs).1 (e.trans (ht _ hs).2.symm)
  · exact ⟨h1, fun b hb => token_v b (h2 b hb)⟩

theorem tri_transferEncoding (h : 0 < M) : Tri M 0 0 TransferEncodingG :=
  tri_bind (tri_optCfws h) fun _ => tri_bind (tri_namedOr (by decide +kernel)) fun _ =>
    tri_bind (tri_inlineCfws h) fun _ => tri_pure

theorem tri_paramName : Tri M k 0 ParamName := by
  have h0 : ∀ b : UInt8, (tokenChar b && b != 42) = true → vchar b = true := by decide +kernel
  have h1 : Tri M k 0 ExtendedName :=
    tri_bind (tri_chars1 h0) fun _ => tri_bind (tri_opt (tri_bind (tri_lit (by decide +kernel)) fun _ => tri_u8Number)
      (Nat.le_refl _)) fun _ => tri_bind (tri_map (tri_opt (tri_lit (by decide +kernel)) (Nat.le_refl _))) fun _ => tri_pure
  rintro w v (h | ⟨-, h, -⟩)
  · exact h1 w v h
  · exact (tri_chars1 token_v : Tri M k 0 Token) w w h

theorem tri_paramText (h : 0 < M) : Tri M 0 1 ParamText :=
  tri_or ((tri_chars1 token_v).weaken (Nat.le_refl _) (by omega)) (tri_quotedString h)

theorem tri_parameter : Tri 2 1 1 Parameter :=
  tri_bind (tri_optCfws (by omega)) fun _ => tri_bind (tri_lit (by decide +kernel)) fun _ =>
    tri_bind (tri_optCfws (by omega)) fun _ => tri_bind tri_paramName fun _ => tri_bind (tri_lit (by decide +kernel)) fun _ =>
      tri_bind (tri_paramText (by omega)) fun _ => tri_pure

theorem tri_collected {ps : List RawParam} : Tri M k k (Collected c ps) := by
  rintro w v ⟨rfl, -⟩
  exact ⟨k, Nat.le_refl _, .nil⟩

theorem tri_contentType : Tri 2 0 1 (ContentTypeG c) :=
  tri_bind (tri_optCfws (by omega)) fun _ => tri_bind (tri_namedOr (by decide +kernel)) fun _ =>
    tri_bind (tri_lit (by decide +kernel)) fun _ => tri_bind (j := 0) (tri_chars1 token_v) fun _ =>
      tri_bind ((tri_star tri_parameter).weaken (by omega) (Nat.le_refl _)) fun _ => tri_bind tri_collected fun _ =>
        tri_bind (tri_inlineCfws' (by omega)) fun _ => tri_pure

theorem tri_dateParam {name : Bytes} (hn : name ≠ [] ∧ ∀ b ∈ name, vchar b = true) : Tri 2 1 1 (DateParam name) :=
  tri_bind (tri_optCfws (by omega)) fun _ => tri_bind (tri_lit (by decide +kernel)) fun _ =>
    tri_bind (tri_optCfws (by omega)) fun _ => tri_bind (tri_litNoCase hn) fun _ => tri_bind (tri_lit (by decide +kernel)) fun _ =>
      tri_bind (tri_dateTime (by omega)) fun _ =>
        tri_bind ((tri_lit (by decide +kernel)).weaken (Nat.le_refl _) (by omega)) fun _ => tri_pure

theorem tri_dispositionParam : Tri 2 1 1 DispositionParam := by
  rintro w v (⟨x, -, h⟩ | ⟨d, -, h⟩ | ⟨d, -, h⟩ | ⟨d, -, h⟩ | ⟨p, -, h, -⟩)
  · exact (tri_bind (tri_optCfws (by omega)) fun _ => tri_bind (tri_lit (by decide +kernel)) fun _ =>
      tri_bind (tri_optCfws (by omega)) fun _ => tri_bind (tri_litNoCase (by decide +kernel)) fun _ =>
        tri_bind (tri_lit (by decide +kernel)) fun _ => tri_paramText (by omega) : Tri 2 1 1 _) w x h
  · exact tri_dateParam (by decide +kernel) w d h
  · exact tri_dateParam (by decide +kernel) w d h
  · exact tri_dateParam (by decide +kernel) w d h
  · exact tri_parameter w p h

theorem tri_disposition : Tri 2 0 1 (DispositionG c) :=
  tri_bind (tri_optCfws (by omega)) fun _ => tri_bind (tri_namedOr (by decide +kernel)) fun _ =>
    tri_bind ((tri_star tri_dispositionParam).weaken (by omega) (Nat.le_refl _)) fun _ => tri_bind tri_collected fun _ =>
      tri_bind (tri_inlineCfws' (by omega)) fun _ => tri_pure

/-! ### Trace headers -/

theorem tri_path {lax : Bool} : Tri 2 0 1 (Path lax) :=
  tri_or (tri_map (tri_angleAddr (by omega)))
    (tri_bind (tri_optCfws (by omega)) fun _ => tri_bind (tri_lit (by decide +kernel)) fun _ =>
      tri_bind (tri_optCfws (by omega)) fun _ => tri_bind (tri_lit (by decide +kernel)) fun _ =>
        tri_bind (tri_optCfws (by omega)) fun _ => tri_pure)

theorem tri_receivedToken {lax : Bool} : Tri 2 1 1 (ReceivedTokenG lax) := by
  intro w v h
  cases v with
  | word x => exact tri_word (by omega) w x h
  | addr a =>
    rcases h with h | h
    · exact tri_angleAddr (by omega) w a h
    · exact tri_addrSpec (by omega) w a h
  | domain d => exact tri_or (tri_dotAtom (by omega)) (tri_domainLiteral (by omega)) w d h

theorem tri_received {lax : Bool} : Tri 2 0 1 (ReceivedG lax) :=
  tri_bind ((tri_star tri_receivedToken).weaken (by omega) (Nat.le_refl _)) fun _ => tri_bind (tri_lit (by decide +kernel)) fun _ =>
    tri_bind (tri_dateTime (by omega)) fun _ => tri_pure

/-! ### Header lines -/

theorem Counts.more {w : Bytes} {M' : Nat} (h : Counts M k w m) (hM : M ≤ M') : Counts M' k w m := by
  induction h with
  | nil => exact .nil
  | brk h _ ih => exact .brk (by omega) ih
  | white h _ ih => exact .white h ih
  | char h _ ih => exact .char h ih

theorem Counts.line {w : Bytes} (h : Counts M 0 w m) (hm : m < M) : ¬ WhiteLines M (w ++ CRLF) :=
  (h.append (.brk hm .nil) : Counts M 0 (w ++ CRLF) (m + 1)).not_whiteLines

/-- White lines are only in headers that satisfy `P`, and there are never two in a row. -/
def FewWhite (P : Bytes → Prop) (w : Bytes) : Prop :=
  ∃ ls, HeadersAre w ls ∧ ∀ l ∈ ls, (WhiteLine (l.2 ++ CRLF) → P (l.1.map asciiLower)) ∧ ¬ WhiteLines 2 (l.2 ++ CRLF)

/-- The texts of `G` are header lines with few white lines. -/
def Few (P : Bytes → Prop) (G : Gram α) : Prop := ∀ w v, G w v → FewWhite P w

variable {P : Bytes → Prop}

theorem fewWhite_nil : FewWhite P [] := ⟨[], ⟨rfl, by simp⟩, by simp⟩

theorem FewWhite.append {u v : Bytes} (hu : FewWhite P u) (hv : FewWhite P v) : FewWhite P (u ++ v) := by
  obtain ⟨l₁, ⟨rfl, h1⟩, h2⟩ := hu
  obtain ⟨l₂, ⟨rfl, h3⟩, h4⟩ := hv
  refine ⟨l₁ ++ l₂, ⟨by simp, fun l hl => ?_⟩, fun l hl => ?_⟩
  · rcases List.mem_append.1 hl with hl | hl
    · exact h1 l hl
    · exact h3 l hl
  · rcases List.mem_append.1 hl with hl | hl
    · exact h2 l hl
    · exact h4 l hl

theorem few_pure {a : α} : Few P (pure a : Gram α) := by
  rintro w v ⟨rfl, -⟩
  exact fewWhite_nil

theorem few_bind {G : Gram α} {F : α → Gram β} (hG : Few P G) (hF : ∀ a, Few P (F a)) : Few P (G >>= F) := by
  rintro w v ⟨w₁, w₂, a, rfl, h1, h2⟩
  exact (hG _ _ h1).append (hF a _ _ h2)

theorem few_opt {G : Gram α} (hG : Few P G) : Few P (opt G) := by
  rintro w v (⟨rfl, -⟩ | ⟨a, -, h⟩)
  · exact fewWhite_nil
  · exact hG _ _ h

theorem few_star {G : Gram α} (hG : Few P G) : Few P (star G) := by
  intro w v h
  induction h with
  | nil => exact fewWhite_nil
  | cons h1 _ ih => exact (hG _ _ h1).append ih

theorem few_plus {G : Gram α} (hG : Few P G) : Few P (plus G) :=
  few_bind hG fun _ => few_bind (few_star hG) fun _ => few_pure

/-- One header line, its text having at most one white line at a time. -/
theorem few_one {name t : Bytes} (hn : name ≠ [] ∧ ∀ b ∈ name, ftext b = true) (ht : Folded t)
    (h : (∃ m, m ≤ 0 ∧ Counts 1 0 t m) ∨ (P (name.map asciiLower) ∧ ∃ m, m ≤ 1 ∧ Counts 2 0 t m)) :
    FewWhite P (name ++ 58 :: (t ++ CRLF)) := by
  refine ⟨[(name, t)], ⟨by simp, by simpa using ⟨hn, ht⟩⟩, fun l hl => ?_⟩
  rw [List.mem_singleton.1 hl]
  rcases h with ⟨m, hm, h⟩ | ⟨hp, m, hm, h⟩
  · refine ⟨fun hw => absurd (whiteLine_iff.1 hw) (h.line (by omega)), (h.more (by omega)).line (by omega)⟩
  · exact ⟨fun _ => hp, h.line (by omega)⟩

theorem few_line {w₁ w : Bytes} {s name : Bytes} (h1 : w₁.map asciiLower = s.map asciiLower)
    (hs : s.map asciiLower = name ++ [58]) (hn : name ≠ [] ∧ ∀ b ∈ name, ftext b = true) (ht : Folded w)
    (h : (∃ m, m ≤ 0 ∧ Counts 1 0 w m) ∨ (P name ∧ ∃ m, m ≤ 1 ∧ Counts 2 0 w m)) :
    FewWhite P (w₁ ++ (w ++ CRLF)) := by
  rw [hs] at h1
  obtain ⟨u, u', rfl, h3, h4⟩ := List.map_eq_append_iff.1 h1
  obtain ⟨y, rfl, hy⟩ : ∃ y, u' = [y] ∧ asciiLower y = 58 := by
    cases u' with
    | nil => simp at h4
    | cons y u' => cases u' <;> simp at h4; exact ⟨y, rfl, h4⟩
  obtain rfl : y = 58 := (by decide +kernel : ∀ y, asciiLower y = 58 → y = 58) y hy
  have := few_one (P := P) (name := u) (t := w) ⟨?_, ?_⟩ ht (by rw [h3]; exact h)
  · simpa using this
  · rintro rfl
    exact hn.1 h3.symm
  · intro b hb
    rw [← ftext_lower]
    exact hn.2 _ (h3 ▸ List.mem_map_of_mem hb)

/-- A header that may have white lines. -/
theorem few_header {s name : Bytes} {G : Gram α} {Q : α → Prop} (hG : Ens Q G) (hT : Tri 2 0 1 G)
    (hs : s.map asciiLower = name ++ [58]) (hn : name ≠ [] ∧ ∀ b ∈ name, ftext b = true) (hp : P name) :
    Few P (HeaderLine s G) := by
  rintro w v ⟨w₁, w₂, _, rfl, h1, w₃, w₄, a, rfl, h2, w₅, w₆, _, rfl, h3, h4, rfl⟩
  obtain rfl : w₅ = CRLF := h3
  subst h4
  rw [List.append_nil]
  exact few_line h1 hs hn (hG _ _ h2).1 (.inr ⟨hp, hT _ _ h2⟩)

/-- A header without white lines. -/
theorem few_text {s name : Bytes} {G : Gram α} {Q : α → Prop} (hG : Ens Q G) (hT : Tri 1 0 0 G)
    (hs : s.map asciiLower = name ++ [58]) (hn : name ≠ [] ∧ ∀ b ∈ name, ftext b = true) :
    Few P (HeaderLine s G) := by
  rintro w v ⟨w₁, w₂, _, rfl, h1, w₃, w₄, a, rfl, h2, w₅, w₆, _, rfl, h3, h4, rfl⟩
  obtain rfl : w₅ = CRLF := h3
  subst h4
  rw [List.append_nil]
  exact few_line h1 hs hn (hG _ _ h2).1 (.inl (hT _ _ h2))

theorem few_prefix {pre s name : Bytes} {G : Gram α} {Q : α → Prop} (hG : Ens Q G) (hT : Tri 2 0 1 G)
    (hs : (pre ++ s).map asciiLower = name ++ [58]) (hn : name ≠ [] ∧ ∀ b ∈ name, ftext b = true) (hp : P name)
    {w : Bytes} {v : α} (h : ∃ w₁ w₂, w = w₁ ++ w₂ ∧ litNoCase pre w₁ () ∧ HeaderLine s G w₂ v) : FewWhite P w := by
  refine few_header hG hT hs hn hp w v ?_
  obtain ⟨w₁, w₂, rfl, h1, w₃, w₄, ⟨⟩, rfl, h2, h3⟩ := h
  refine ⟨w₁ ++ w₃, w₄, (), by simp, ?_, h3⟩
  have h1 : w₁.map asciiLower = pre.map asciiLower := h1
  have h2 : w₃.map asciiLower = s.map asciiLower := h2
  show (w₁ ++ w₃).map asciiLower = (pre ++ s).map asciiLower
  simp [h1, h2]

theorem few_optionalField (hu : c.feat.unrecognizedHeaders = true → c.feat.mime = true) : Few P (OptionalField c) := by
  rintro w v ⟨w₁, w₂, name, rfl, ⟨rfl, hne, h1⟩, w₃, w₄, _, rfl, h2, w₅, w₆, a, rfl, h3, w₇, w₈, _, rfl, h4, h5, rfl⟩
  obtain rfl : w₃ = b! ":" := h2
  obtain rfl : w₇ = CRLF := h4
  subst h5
  have := few_one (P := P) ⟨hne, h1⟩ (ens_textValue (strOk_utf8 c) hu _ _ h3).1 (.inl (tri_textValue (by omega) _ _ h3))
  simpa using this

theorem few_resent (ht : c.feat.trace = true) : Few (MayBeWhite c) (ResentG c) := by
  have hV := strOk_utf8 c
  have hp : ∀ name, name ∈ traceNames → MayBeWhite c name := fun _ h => .inr ⟨ht, h⟩
  rintro w f ⟨w₁, w₂, ⟨⟩, rfl, h1, h2⟩
  cases f with
  | date v =>
    exact few_prefix (pre := b! "Resent-") (s := b! "Date:") (name := b! "resent-date") ens_dateTime (tri_dateTime (by omega)) (by decide +kernel)
      (by decide +kernel) (hp _ (by decide +kernel)) ⟨w₁, w₂, rfl, h1, h2⟩
  | «from» v =>
    exact few_prefix (pre := b! "Resent-") (s := b! "From:") (name := b! "resent-from") (ens_mailboxList hV) (tri_commaList tri_mailbox) (by decide +kernel)
      (by decide +kernel) (hp _ (by decide +kernel)) ⟨w₁, w₂, rfl, h1, h2⟩
  | sender v =>
    exact few_prefix (pre := b! "Resent-") (s := b! "Sender:") (name := b! "resent-sender") (ens_mailbox hV) tri_mailbox (by decide +kernel)
      (by decide +kernel) (hp _ (by decide +kernel)) ⟨w₁, w₂, rfl, h1, h2⟩
  | to v =>
    exact few_prefix (pre := b! "Resent-") (s := b! "To:") (name := b! "resent-to") (ens_addressList hV) (tri_commaList tri_address) (by decide +kernel)
      (by decide +kernel) (hp _ (by decide +kernel)) ⟨w₁, w₂, rfl, h1, h2⟩
  | cc v =>
    exact few_prefix (pre := b! "Resent-") (s := b! "Cc:") (name := b! "resent-cc") (ens_addressList hV) (tri_commaList tri_address) (by decide +kernel)
      (by decide +kernel) (hp _ (by decide +kernel)) ⟨w₁, w₂, rfl, h1, h2⟩
  | bcc v =>
    exact few_prefix (pre := b! "Resent-") (s := b! "Bcc:") (name := b! "resent-bcc") (ens_bcc hV) tri_bcc (by decide +kernel)
      (by decide +kernel) (hp _ (by decide +kernel)) ⟨w₁, w₂, rfl, h1, h2⟩
  | messageId v =>
    exact few_prefix (pre := b! "Resent-") (s := b! "Message-ID:") (name := b! "resent-message-id") (ens_messageId hV) (tri_messageId (by omega))
      (by decide +kernel) (by decide +kernel) (hp _ (by decide +kernel)) ⟨w₁, w₂, rfl, h1, h2⟩

theorem few_traceBlock (ht : c.feat.trace = true) : Few (MayBeWhite c) (TraceBlock c) := by
  have hV := strOk_utf8 c
  have hp : ∀ name, name ∈ traceNames → MayBeWhite c name := fun _ h => .inr ⟨ht, h⟩
  exact few_bind (few_opt (few_header (name := b! "return-path") (ens_path hV) tri_path (by decide +kernel) (by decide +kernel)
      (hp _ (by decide +kernel)))) fun _ =>
    few_bind (few_plus (few_header (name := b! "received") (ens_received hV) tri_received (by decide +kernel) (by decide +kernel)
      (hp _ (by decide +kernel)))) fun _ =>
    few_bind (few_star (few_resent ht)) fun _ => few_pure

theorem few_field (hu : c.feat.unrecognizedHeaders = true → c.feat.mime = true) : Few (MayBeWhite c) (FieldG c) := by
  have hV := strOk_utf8 c
  have hp : ∀ {name}, Recognized c.feat name → name ∈ commentNames → MayBeWhite c name := fun h h' => .inl ⟨h, h'⟩
  intro w f h
  cases f
  case date =>
    exact few_header (name := b! "date") ens_dateTime (tri_dateTime (by omega)) (by decide +kernel) (by decide +kernel)
      (hp (by simp [Recognized, h.1]) (by decide +kernel)) _ _ h.2
  case «from» =>
    exact few_header (name := b! "from") (ens_mailboxList hV) (tri_commaList tri_mailbox) (by decide +kernel) (by decide +kernel)
      (hp (by simp [Recognized, h.1]) (by decide +kernel)) _ _ h.2
  case sender =>
    exact few_header (name := b! "sender") (ens_mailbox hV) tri_mailbox (by decide +kernel) (by decide +kernel)
      (hp (by simp [Recognized, h.1]) (by decide +kernel)) _ _ h.2
  case replyTo =>
    exact few_header (name := b! "reply-to") (ens_addressList hV) (tri_commaList tri_address) (by decide +kernel)
      (by decide +kernel) (hp (by simp [Recognized, h.1]) (by decide +kernel)) _ _ h.2
  case to =>
    exact few_header (name := b! "to") (ens_addressList hV) (tri_commaList tri_address) (by decide +kernel)
      (by decide +kernel) (hp (by simp [Recognized, h.1]) (by decide +kernel)) _ _ h.2
  case cc =>
    exact few_header (name := b! "cc") (ens_addressList hV) (tri_commaList tri_address) (by decide +kernel)
      (by decide +kernel) (hp (by simp [Recognized, h.1]) (by decide +kernel)) _ _ h.2
  case bcc =>
    exact few_header (name := b! "bcc") (ens_bcc hV) tri_bcc (by decide +kernel) (by decide +kernel)
      (hp (by simp [Recognized, h.1]) (by decide +kernel)) _ _ h.2
  case messageId =>
    exact few_header (name := b! "message-id") (ens_messageId hV) (tri_messageId (by omega)) (by decide +kernel)
      (by decide +kernel) (hp (by simp [Recognized, h.1]) (by decide +kernel)) _ _ h.2
  case inReplyTo =>
    exact few_header (name := b! "in-reply-to") (ens_plus (ens_messageId hV))
      (tri_plus (tri_messageId (by omega)) (tri_messageId (by omega))) (by decide +kernel)
      (by decide +kernel) (hp (by simp [Recognized, h.1]) (by decide +kernel)) _ _ h.2
  case references =>
    exact few_header (name := b! "references") (ens_plus (ens_messageId hV))
      (tri_plus (tri_messageId (by omega)) (tri_messageId (by omega))) (by decide +kernel)
      (by decide +kernel) (hp (by simp [Recognized, h.1]) (by decide +kernel)) _ _ h.2
  case subject =>
    exact few_text (name := b! "subject") (ens_textValue hV id) (tri_textValue (by omega)) (by decide +kernel)
      (by decide +kernel) _ _ h.2
  case comments =>
    exact few_text (name := b! "comments") (ens_textValue hV id) (tri_textValue (by omega)) (by decide +kernel)
      (by decide +kernel) _ _ h.2
  case keywords =>
    exact few_header (name := b! "keywords") (ens_commaList (ens_phrase hV)) (tri_commaList tri_phrase) (by decide +kernel)
      (by decide +kernel) (hp (by simp [Recognized, h.1]) (by decide +kernel)) _ _ h.2
  case mimeVersion =>
    exact few_text (name := b! "mime-version") ens_mimeVersion (tri_mimeVersion (by omega)) (by decide +kernel)
      (by decide +kernel) _ _ h.2
  case contentType =>
    exact few_header (name := b! "content-type") (ens_contentType hV h.1) tri_contentType (by decide +kernel)
      (by decide +kernel) (hp (by simp [Recognized, h.1]) (by decide +kernel)) _ _ h.2
  case contentTransferEncoding =>
    exact few_text (name := b! "content-transfer-encoding") (ens_transferEncoding hV) (tri_transferEncoding (by omega))
      (by decide +kernel) (by decide +kernel) _ _ h.2
  case contentId =>
    exact few_header (name := b! "content-id") (ens_messageId hV) (tri_messageId (by omega)) (by decide +kernel)
      (by decide +kernel) (hp (by simp [Recognized, h.1]) (by decide +kernel)) _ _ h.2
  case contentDescription =>
    exact few_text (name := b! "content-description") (ens_mimeUnstructured hV h.1) (tri_mimeUnstructured (by omega))
      (by decide +kernel) (by decide +kernel) _ _ h.2
  case contentDisposition =>
    exact few_header (name := b! "content-disposition") (ens_disposition hV h.1) tri_disposition (by decide +kernel)
      (by decide +kernel) (hp (by simp [Recognized, h.1]) (by decide +kernel)) _ _ h.2
  case trace => exact h.elim
  case unknown => exact few_optionalField hu _ _ h

theorem few_headerBlock (hu : c.feat.unrecognizedHeaders = true → c.feat.mime = true) :
    Few (MayBeWhite c) (HeaderBlock c) :=
  few_bind (by
    unfold TraceBlocks
    split
    · exact few_star (few_traceBlock ‹_›)
    · exact few_pure) fun _ => few_bind (few_star (few_field hu)) fun _ => few_pure

theorem few_entityHeader (hm : c.feat.mime = true) : Few PartMayBeWhite (EntityHeaderG c) := by
  have hV := strOk_utf8 c
  intro w h hw
  cases h with
  | encoding v =>
    exact few_text (name := b! "content-transfer-encoding") (ens_transferEncoding hV) (tri_transferEncoding (by omega))
      (by decide +kernel) (by decide +kernel) _ _ hw
  | type v =>
    exact few_header (name := b! "content-type") (ens_contentType hV hm) tri_contentType (by decide +kernel)
      (by decide +kernel) (by unfold PartMayBeWhite; decide +kernel) _ _ hw
  | id v =>
    exact few_header (name := b! "content-id") (ens_messageId hV) (tri_messageId (by omega)) (by decide +kernel)
      (by decide +kernel) (by unfold PartMayBeWhite; decide +kernel) _ _ hw
  | description v =>
    exact few_text (name := b! "content-description") (ens_mimeUnstructured hV hm) (tri_mimeUnstructured (by omega))
      (by decide +kernel) (by decide +kernel) _ _ hw
  | disposition v =>
    exact few_header (name := b! "content-disposition") (ens_disposition hV hm) tri_disposition (by decide +kernel)
      (by decide +kernel) (by unfold PartMayBeWhite; decide +kernel) _ _ hw
  | other n v => exact few_optionalField (fun _ => hm) _ _ hw

/-- Few white lines, and not some: the header block is made of header lines. -/
theorem madeOf_few {w : Bytes} (h : FewWhite P w) (hn : ¬ SomeWhite P w) : ∃ ls, MadeOf w ls := by
  obtain ⟨ls, ⟨rfl, h1⟩, h2⟩ := h
  refine ⟨_, rfl, fun l hl => ?_⟩
  obtain ⟨l, hl', rfl⟩ := List.mem_map.1 hl
  obtain ⟨⟨hne, hname⟩, hf⟩ := h1 l hl'
  have hno : NoWhiteLine (l.2 ++ CRLF) := by
    intro y ws z e hws
    refine hn ⟨ls, ⟨rfl, h1⟩, ⟨l, hl', y, ws, z, by rw [e]; simp [CRLF], hws⟩, fun l hl hw => ⟨(h2 l hl).1 hw, (h2 l hl).2⟩⟩
  obtain ⟨x, hx⟩ := folding_of_folded _ l.2 (Nat.lt_succ_self _) hf hno
  exact ⟨l.1, x, l.2, by simp, hne, hname, hx⟩

end EmailParser
