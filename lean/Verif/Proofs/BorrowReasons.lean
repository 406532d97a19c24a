import Verif.Proofs.Borrow
import Verif.Spec.BorrowMessage
/-
The reasons to copy strings, for the parsers of Model/Borrow.lean.
-/
namespace EmailParser
open Spec HasStrings

variable {c : Cfg} {p : Place} {lo : Nat}

theorem Alike.and {α β : Type} {x : Res α} {y : Res β} {R R' : Bytes → β → α → Prop} (h : Alike x y R) (h' : Alike x y R') :
    Alike x y fun r v s => R r v s ∧ R' r v s := by
  unfold Alike at h h' ⊢
  split at h
  · rename_i e1 e2
    simp only at h' ⊢
    exact ⟨h.1, h.2, h'.2⟩
  · exact h
  · exact h
  · exact h.elim

/-- A fold. -/
def FoldedText (w : Bytes) : Prop := ∃ b, wsp b = true ∧ [13, 10, b] <:+: w

theorem FoldedText.mono {w w' : Bytes} (h : FoldedText w) (hw : w <:+: w') : FoldedText w' := by
  obtain ⟨b, hb, h⟩ := h
  exact ⟨b, hb, h.trans hw⟩

theorem Spec.CopyReason.mono {w w' v : Bytes} (h : CopyReason w v) (hw : w <:+: w') : CopyReason w' v := by
  rcases h with h | h | h | ⟨t, h, hb⟩ | ⟨u, h, hu⟩ | ⟨d, hd, h⟩
  · exact .inl (FoldedText.mono h hw)
  · exact .inr (.inl (hw.subset h))
  · exact .inr (.inr (.inl (h.trans hw)))
  · exact .inr (.inr (.inr (.inl ⟨t, h.trans hw, hb⟩)))
  · exact .inr (.inr (.inr (.inr (.inl ⟨u, h.trans hw, hu⟩))))
  · exact .inr (.inr (.inr (.inr (.inr ⟨d, hd, h.trans hw⟩))))

/-- The string is in the input after `lo`, and it is not copied without a reason in the text `w`. -/
def Kept (p : Place) (lo : Nat) (w : Bytes) (t : CowStr) : Prop := Within lo p.stop t ∧ ∀ x, t = .owned x → CopyReason w x

theorem Kept.mono {w w' : Bytes} {t : CowStr} (h : Kept p lo w t) (hw : w <:+: w') : Kept p lo w' t :=
  ⟨h.1, fun x hx => (h.2 x hx).mono hw⟩

/-- The text that was read, and what it has to do with the value. -/
def ReadsTo {α β : Type} (K : Bytes → β → α → Prop) (i r : Bytes) (v : β) (s : α) : Prop := ∃ w, i = w ++ r ∧ K w v s

/-- The content is `v`, and all strings are kept. -/
def Keeps {α β : Type} [HasStrings α β] (p : Place) (lo : Nat) (w : Bytes) (v : β) (s : α) : Prop :=
  content p.memory s = v ∧ ∀ t ∈ strings s, Kept p lo w t

theorem Keeps.mono {α β : Type} [HasStrings α β] {w w' : Bytes} {v : β} {s : α} (h : Keeps p lo w v s) (hw : w <:+: w') :
    Keeps p lo w' v s := ⟨h.1, fun t ht => (h.2 t ht).mono hw⟩

/-- What is left of the input, after the address `lo`. -/
def Here (p : Place) (lo : Nat) (i : Bytes) : Prop := At p i ∧ lo ≤ p.addr i

theorem Here.right {u v : Bytes} (h : Here p lo (u ++ v)) : Here p lo v := ⟨h.1.right, Nat.le_trans h.2 h.1.le⟩

theorem Keeps.str {w v : Bytes} {s : CowStr} (h : Inside p lo v s) (hr : ∀ x, s = .owned x → CopyReason w x) :
    Keeps p lo w v s := by
  refine ⟨h.1, fun t ht => ?_⟩
  rw [List.mem_singleton.mp ht]
  exact ⟨h.2, hr⟩

theorem keeps_slice {u v r : Bytes} (h : Here p lo (u ++ (v ++ r))) {w : Bytes} :
    Keeps p lo w v (p.slice (v ++ r) v) :=
  .str ((slice_inside h.1).le h.2) fun x hx => by cases hx

/-! ### Texts without reasons -/

theorem fws_plain {w v : Bytes} (h : Fws w v) : FoldedText w ∨ w = v := by
  rcases h with ⟨w1, w2, v1, rfl, h1, w3, w4, ⟨⟩, rfl, h3, w5, w6, v5, rfl, h5, h6⟩ | h
  · obtain rfl : w3 = CRLF := h3
    obtain ⟨rfl, hne, h5⟩ := h5
    obtain ⟨b, t, rfl⟩ := List.exists_cons_of_ne_nil hne
    exact .inl ⟨b, h5 b (by simp), w1, t ++ w6, by simp [CRLF]⟩
  · exact .inr h.1.symm

theorem optFws_plain {w v : Bytes} (h : OptFws w v) : FoldedText w ∨ w = v := by
  obtain ⟨o, rfl, ⟨rfl, rfl⟩ | ⟨v, rfl, h⟩⟩ := h
  · exact .inr rfl
  · exact fws_plain h

theorem plainText_plain {w v : Bytes} (h : PlainText w v) : FoldedText w ∨ w = v := by
  obtain ⟨w1, w2, vs, rfl, h1, rfl, rfl⟩ := h
  suffices FoldedText w1 ∨ w1 = vs.flatten by simpa using this
  induction h1 with
  | nil => exact .inr rfl
  | @cons w w' v vs h _ ih =>
    obtain ⟨w1, w2, v1, rfl, h1, w3, w4, v3, rfl, h3, rfl, rfl⟩ := h
    obtain ⟨rfl, -, -⟩ := h3
    rcases optFws_plain h1 with h | rfl
    · exact .inl (h.mono ⟨[], v3 ++ [] ++ w', by simp⟩)
    rcases ih with h | rfl
    · exact .inl (h.mono ⟨w1 ++ (v3 ++ []), [], by simp⟩)
    · exact .inr (by simp)

theorem quotedText_plain {w v : Bytes} (h : QuotedText w v) : FoldedText w ∨ 92 ∈ w ∨ w = v := by
  obtain ⟨w1, w2, vs, rfl, h1, w3, w4, last, rfl, h3, rfl, rfl⟩ := h
  have key : FoldedText w1 ∨ 92 ∈ w1 ∨ w1 = vs.flatten := by
    induction h1 with
    | nil => exact .inr (.inr rfl)
    | @cons w w' v vs h _ ih =>
      obtain ⟨w1, w2, v1, rfl, h1, w3, w4, v3, rfl, h3, rfl, rfl⟩ := h
      rcases optFws_plain h1 with h | rfl
      · exact .inl (h.mono ⟨[], w3 ++ [] ++ w', by simp⟩)
      rcases h3 with h3 | h3
      · obtain ⟨rfl, -, -⟩ := h3
        rcases ih with h | h | rfl
        · exact .inl (h.mono ⟨w1 ++ (v3 ++ []), [], by simp⟩)
        · exact .inr (.inl (by simp [h]))
        · exact .inr (.inr (by simp))
      · obtain ⟨x, y, ⟨⟩, rfl, hx, -⟩ := h3
        obtain rfl : x = b! "\\" := hx
        exact .inr (.inl (by simp))
  rcases key with h | h | rfl
  · exact .inl (h.mono ⟨[], w3 ++ [], by simp⟩)
  · exact .inr (.inl (by simp [h]))
  rcases optFws_plain h3 with h | rfl
  · exact .inl (h.mono ⟨vs.flatten, [], by simp⟩)
  · exact .inr (.inr (by simp))

theorem Built.reason {q : Bool} {pos : Nat} {raw v x : Bytes} {s : CowStr} (h : Built q p pos raw v s) (hs : s = .owned x)
    (hr : FoldedText raw ∨ 92 ∈ raw ∨ raw = v) : CopyReason raw x := by
  subst hs
  cases h with
  | owned h =>
    rcases hr with hr | hr | rfl
    · exact .inl hr
    · exact .inr (.inl hr)
    · omega

/-! ### The parsers -/

theorem SliceIn.reads {i r v : Bytes} {s : CowStr} (hi : Here p lo i) (h : SliceIn p i r v s) :
    ReadsTo (Keeps p lo) i r v s := by
  obtain ⟨pre, post, rfl, -, -, -, rfl⟩ := h
  exact ⟨pre ++ (v ++ post), by simp, keeps_slice hi⟩

theorem cowAtom_reads {i : Bytes} (hi : Here p lo i) : Alike (cowAtom c p i) (atom c i) (ReadsTo (Keeps p lo) i) :=
  (cowAtom_agree hi.1).mono fun _ _ _ _ h => h.reads hi

theorem cowDotAtom_reads {i : Bytes} (hi : Here p lo i) : Alike (cowDotAtom c p i) (dotAtom c i) (ReadsTo (Keeps p lo) i) :=
  (cowDotAtom_agree hi.1).mono fun _ _ _ _ h => h.reads hi

theorem cowQuotedString_reads {i : Bytes} (hi : Here p lo i) :
    Alike (cowQuotedString c p i) (quotedString c i) (ReadsTo (Keeps p lo) i) := by
  refine (cowQuotedString_agree hi.1).mono ?_
  rintro r v s - ⟨pre, raw, post, rfl, -, -, hq, h⟩
  refine ⟨pre ++ (b! "\"" ++ (raw ++ (b! "\"" ++ post))), by simp, .str ?_ fun x hx => ?_⟩
  · exact (h.inside hi.1.right.right).le hi.right.right.2
  · exact (h.reason hx (quotedText_plain hq)).mono ⟨pre ++ b! "\"", b! "\"" ++ post, by simp⟩

theorem cowWord_reads {i : Bytes} (hi : Here p lo i) : Alike (cowWord c p i) (word c i) (ReadsTo (Keeps p lo) i) :=
  .matchParsers (cowAtom_reads hi) (.matchParsers (cowQuotedString_reads hi) .matchNil)

theorem encodedWord_reads {i r v : Bytes} (h : encodedWord c i = .ok (r, v)) : ∃ w, i = w ++ r ∧ b! "=?" <:+: w := by
  have := encodedWord_parses (A := .none) (c := c) i
  rw [h] at this
  obtain ⟨w, rfl, hw⟩ := this
  refine ⟨w, rfl, ?_⟩
  obtain ⟨cs, lang, enc, text, bytes, rfl, -⟩ := hw
  exact ⟨[], cs ++ lang ++ b! "?" ++ enc ++ b! "?" ++ text ++ b! "?=", by simp⟩

theorem cowEncodedWord_reads {i : Bytes} : Alike (cowEncodedWord c i) (encodedWord c i) (ReadsTo (Keeps p lo) i) := by
  unfold cowEncodedWord
  cases h : encodedWord c i with
  | ok a =>
    obtain ⟨w, hw, he⟩ := encodedWord_reads h
    exact .ok ⟨w, hw, .str .owned fun _ _ => .inr (.inr (.inl he))⟩
  | err e => rfl
  | abort k => rfl

/-- The next parser reads the text after `w`. -/
theorem Alike.next {α β γ δ : Type} {i : Bytes} {x : Res α} {y : Res β} {K : Bytes → β → α → Prop} {K' : Bytes → δ → γ → Prop}
    {f : Bytes × α → Res γ} {g : Bytes × β → Res δ} (h : Alike x y (ReadsTo K i)) (hi : Here p lo i)
    (hf : ∀ w r v s, K w v s → Here p lo r → Alike (f (r, s)) (g (r, v)) (ReadsTo (fun w' => K' (w ++ w')) r)) :
    Alike (x >>= f) (y >>= g) (ReadsTo K' i) := by
  refine h.bind fun r v s _ hs => ?_
  obtain ⟨w, rfl, hs⟩ := hs
  refine (hf w r v s hs hi.right).mono ?_
  rintro r' v' s' - ⟨w', rfl, hk⟩
  exact ⟨w ++ w', by simp, hk⟩

/-- A parser without strings. -/
theorem Spec.Parses.reads {α : Type} {A : Aborts} {G : Gram α} {q : Bytes → Res α} (h : Parses A G q) {i : Bytes} :
    Alike (q i) (q i) (ReadsTo (fun _ v s => s = v) i) := by
  refine .same _ fun r v hv => ?_
  have := h i
  rw [hv] at this
  obtain ⟨w, hw, -⟩ := this
  exact ⟨w, hw, rfl⟩

theorem Alike.skipCfws {γ δ : Type} {i : Bytes} {K' : Bytes → δ → γ → Prop} {f : Bytes → Res γ} {g : Bytes → Res δ}
    (hi : Here p lo i) (hf : ∀ w r, Here p lo r → Alike (f r) (g r) (ReadsTo (fun w' => K' (w ++ w')) r)) :
    Alike (skipCfws c i >>= f) (skipCfws c i >>= g) (ReadsTo K' i) := by
  refine .bindRest fun r h1 => ?_
  have := skipCfws_sat (c := c) i
  rw [h1] at this
  obtain ⟨w, rfl, -⟩ := this
  refine (hf w r hi.right).mono ?_
  rintro r' v' s' - ⟨w', rfl, h⟩
  exact ⟨w ++ w', by simp, h⟩

theorem tag_reads {i e : Bytes} {m : String} : Alike (tag i e m) (tag i e m) (ReadsTo (fun w _ _ => w = e) i) :=
  .same _ fun _ _ h => ⟨e, tag_ok_iff.mp h, rfl⟩

theorem ReadsTo.here {α β : Type} {K : Bytes → β → α → Prop} {i : Bytes} {v : β} {s : α} (h : K [] v s) : ReadsTo K i i v s :=
  ⟨[], rfl, h⟩

theorem Alike.opt {α β : Type} {i : Bytes} {x : Bytes → Res α} {y : Bytes → Res β} {K : Bytes → β → α → Prop}
    (h : Alike (x i) (y i) (ReadsTo K i)) :
    Alike (optional i x) (optional i y) (ReadsTo (fun w v s => (s = none ∧ v = none ∧ w = []) ∨ ∃ a b, s = some a ∧ v = some b ∧ K w b a) i) := by
  unfold EmailParser.optional
  unfold Alike at h
  split at h
  · rename_i h1 h2
    rw [h1, h2]
    obtain ⟨rfl, w, hw, h⟩ := h
    exact .ok ⟨w, hw, .inr ⟨_, _, rfl, rfl, h⟩⟩
  · rename_i h1 h2
    rw [h1, h2]
    exact .ok (.here (.inl ⟨rfl, rfl, rfl⟩))
  · rename_i h1 h2
    rw [h1, h2]
    exact h
  · exact h.elim

theorem cowPhraseWord_reads {i : Bytes} (hi : Here p lo i) :
    Alike (cowPhraseWord c p i) (phraseWord c i) (ReadsTo (Keeps p lo) i) := by
  unfold cowPhraseWord phraseWord
  split
  · refine .matchParsers ?_ (.matchParsers (cowWord_reads hi) .matchNil)
    refine Alike.next (Alike.opt (Parses.reads (A := .none) fws_parses)) hi fun w r _ _ _ hr => ?_
    refine (cowEncodedWord_reads (p := p) (lo := lo)).mono ?_
    rintro r' v s - ⟨w', rfl, h⟩
    exact ⟨w', rfl, h.mono ⟨w, [], by simp⟩⟩
  · exact cowWord_reads hi

/-! ### Repetition -/

/-- All elements are related. -/
def All2 {α β : Type} (K : Bytes → β → α → Prop) (w : Bytes) : List β → List α → Prop
  | [], [] => True
  | v :: vs, s :: ss => K w v s ∧ All2 K w vs ss
  | _, _ => False

/-- Whatever holds of a text holds of a longer one. -/
def Grows {α β : Type} (K : Bytes → β → α → Prop) : Prop := ∀ w w' v s, K w v s → w <:+: w' → K w' v s

theorem All2.mono {α β : Type} {K : Bytes → β → α → Prop} (hK : Grows K) {w w' : Bytes} (hw : w <:+: w') :
    ∀ {vs : List β} {ss : List α}, All2 K w vs ss → All2 K w' vs ss
  | [], [], _ => trivial
  | _ :: _, _ :: _, h => ⟨hK _ _ _ _ h.1 hw, All2.mono hK hw h.2⟩
  | [], _ :: _, h => h.elim
  | _ :: _, [], h => h.elim

theorem keeps_grows {α β : Type} [HasStrings α β] : Grows (Keeps (α := α) (β := β) p lo) := fun _ _ _ _ h hw => h.mono hw

theorem Alike.manyLoop {α β : Type} {x : Bytes → Res α} {y : Bytes → Res β} {K : Bytes → β → α → Prop} (hK : Grows K)
    (h : ∀ i, Here p lo i → Alike (x i) (y i) (ReadsTo K i)) : ∀ fuel i, Here p lo i →
    Alike (manyLoop x fuel i) (manyLoop y fuel i) (ReadsTo (All2 K) i)
  | 0, _, _ => rfl
  | fuel + 1, i, hi => by
    unfold EmailParser.manyLoop
    have := h i hi
    unfold Alike at this
    split at this
    · rename_i h1 h2
      rw [h1, h2]
      obtain ⟨rfl, w, rfl, ht⟩ := this
      refine (Alike.manyLoop hK h fuel _ hi.right).bind fun r vs ss _ hss => ?_
      obtain ⟨w', rfl, hss⟩ := hss
      exact .ok ⟨w ++ w', by simp, hK _ _ _ _ ht ⟨[], w', by simp⟩, hss.mono hK ⟨w, [], by simp⟩⟩
    · rename_i h1 h2
      rw [h1, h2]
      exact .ok (.here trivial)
    · rename_i h1 h2
      rw [h1, h2]
      exact this
    · exact this.elim

theorem Alike.many {α β : Type} {x : Bytes → Res α} {y : Bytes → Res β} {K : Bytes → β → α → Prop} (hK : Grows K)
    (h : ∀ i, Here p lo i → Alike (x i) (y i) (ReadsTo K i)) {i : Bytes} (hi : Here p lo i) :
    Alike (many i x) (many i y) (ReadsTo (All2 K) i) := Alike.manyLoop hK h _ i hi

theorem All2.keeps {α β : Type} [HasStrings α β] {w : Bytes} : ∀ {vs : List β} {ss : List α},
    All2 (Keeps p lo) w vs ss → Keeps p lo w vs ss
  | [], [], _ => ⟨rfl, by intro t ht; cases ht⟩
  | v :: vs, s :: ss, h => by
    have ih := All2.keeps h.2
    refine ⟨?_, fun t ht => ?_⟩
    · show content p.memory s :: List.map (content p.memory) ss = v :: vs
      rw [h.1.1]
      exact congrArg _ ih.1
    · rcases List.mem_append.mp (show t ∈ strings s ++ ss.flatMap strings from ht) with ht | ht
      · exact h.1.2 t ht
      · exact ih.2 t ht
  | [], _ :: _, h => h.elim
  | _ :: _, [], h => h.elim

theorem Alike.manyKeeps {α β : Type} [HasStrings α β] {x : Bytes → Res α} {y : Bytes → Res β}
    (h : ∀ i, Here p lo i → Alike (x i) (y i) (ReadsTo (Keeps p lo) i)) {i : Bytes} (hi : Here p lo i) :
    Alike (EmailParser.many i x) (EmailParser.many i y) (ReadsTo (Keeps p lo) i) :=
  (Alike.many keeps_grows h hi).mono fun _ _ _ _ ⟨w, hw, h⟩ => ⟨w, hw, h.keeps⟩

theorem Keeps.cons {α β : Type} [HasStrings α β] {w : Bytes} {v : β} {s : α} {vs : List β} {ss : List α}
    (h : Keeps p lo w v s) (hs : Keeps p lo w vs ss) : Keeps p lo w (v :: vs) (s :: ss) := by
  refine ⟨?_, fun t ht => ?_⟩
  · show content p.memory s :: List.map (content p.memory) ss = v :: vs
    rw [h.1]
    exact congrArg _ hs.1
  · rcases List.mem_append.mp (show t ∈ strings s ++ ss.flatMap strings from ht) with ht | ht
    · exact h.2 t ht
    · exact hs.2 t ht

theorem Alike.many1 {α β : Type} [HasStrings α β] {x : Bytes → Res α} {y : Bytes → Res β}
    (h : ∀ i, Here p lo i → Alike (x i) (y i) (ReadsTo (Keeps p lo) i)) {i : Bytes} (hi : Here p lo i) :
    Alike (EmailParser.many1 i x) (EmailParser.many1 i y) (ReadsTo (Keeps p lo) i) := by
  unfold EmailParser.many1
  refine (h i hi).next hi fun w r v s hs hr => ?_
  refine (Alike.manyLoop keeps_grows h _ r hr).next hr fun w' r' vs ss hss _ => ?_
  exact .ok (.here ((hs.mono ⟨[], w' ++ [], by simp⟩).cons (hss.keeps.mono ⟨w, [], by simp⟩)))

theorem cowPhrase_reads {i : Bytes} (hi : Here p lo i) : Alike (cowPhrase c p i) (phrase c i) (ReadsTo (Keeps p lo) i) :=
  Alike.many1 (fun _ => cowPhraseWord_reads) hi

/-! ### Text -/

theorem cowUnstructured_reads {i : Bytes} (hi : Here p lo i) :
    Alike (cowUnstructured p i) (unstructured i) (ReadsTo (Keeps p lo) i) := by
  refine (cowUnstructured_agree hi.1).mono ?_
  rintro r v s - ⟨raw, white, rfl, hp, -, h⟩
  refine ⟨raw ++ white, by simp, .str ((h.inside hi.1).le hi.2) fun x hx => ?_⟩
  refine (h.reason hx ?_).mono ⟨[], white, by simp⟩
  exact (plainText_plain hp).imp id .inr

/-- What was built so far from the text `u`: as without encoded words, unless there was one. -/
def Mixed (p : Place) (pos : Nat) (u v : Bytes) (s : CowStr) : Prop :=
  (Built false p pos u v s ∧ (FoldedText u ∨ u = v)) ∨ b! "=?" <:+: u

theorem Mixed.add {i w r u v t : Bytes} {s s' : CowStr} (hi : At p i) (hw : i = w ++ r) (h : Mixed p (p.addr i) u v s)
    (h' : Built false p (p.addr r) w t s' ∧ (FoldedText w ∨ w = t)) :
    Mixed p (p.addr r) (u ++ w) (v ++ t) (addString p.memory s s') := by
  rcases h with ⟨h, hf⟩ | h
  · refine .inl ⟨h.add h'.1 ?_, ?_⟩
    · subst hw
      exact hi.addr
    · rcases hf with hf | rfl
      · exact .inl (hf.mono ⟨[], w, by simp⟩)
      rcases h'.2 with hf | rfl
      · exact .inl (hf.mono ⟨u, [], by simp⟩)
      · exact .inr rfl
  · exact .inr (h.trans ⟨[], w, by simp⟩)

theorem cowMimeUnstructuredLoop_mixed : ∀ fuel (prev : Bool) (i : Bytes) (out : CowStr) (u vout : Bytes), At p i →
    Mixed p (p.addr i) u vout out →
    Alike (cowMimeUnstructuredLoop c p fuel prev i out) (mimeUnstructuredLoop c fuel prev i)
      fun r v s => ∃ w, i = w ++ r ∧ Mixed p (p.addr r) (u ++ w) (vout ++ v) s
  | 0, _, _, _, _, _, _, _ => rfl
  | fuel + 1, prev, i, out, u, vout, hi, ho => by
    unfold cowMimeUnstructuredLoop mimeUnstructuredLoop
    refine (cowFwsOrEmpty_agree (q := false) hi).bind fun j white s h1 hs => ?_
    obtain ⟨w₁, rfl, hs⟩ := hs
    have := fwsOrEmpty_parses (A := .none) (w₁ ++ j)
    rw [h1] at this
    obtain ⟨w₁', e, hf⟩ := this
    obtain rfl := List.append_cancel_right e
    have hf := optFws_plain hf
    have hj := hi.right
    have next : ∀ b r w' str t, j = w' ++ r →
        Mixed p (p.addr r) (u ++ (w₁ ++ w')) (vout ++ str) (addString p.memory out t) → Alike
        (cowMimeUnstructuredLoop c p fuel b r (addString p.memory out t))
        (do
          let (input, output) ← mimeUnstructuredLoop c fuel b r
          .ok (input, str ++ output))
        fun r v s => ∃ w, w₁ ++ j = w ++ r ∧ Mixed p (p.addr r) (u ++ w) (vout ++ v) s := by
      rintro b r w' str t rfl ht
      have ih := cowMimeUnstructuredLoop_mixed fuel b r _ _ _ hj.right ht
      refine ih.mapRight (f := fun output => str ++ output) fun r' v' s h => ?_
      obtain ⟨w, rfl, h⟩ := h
      exact ⟨w₁ ++ (w' ++ w), by simp, by simpa using h⟩
    dsimp only
    unfold cowEncodedWord
    cases hx : encodedWord c j with
    | ok a =>
      obtain ⟨w', hw', he⟩ := encodedWord_reads hx
      simp only [ok_bind]
      have he : b! "=?" <:+: u ++ (w₁ ++ w') := he.trans ⟨u ++ w₁, [], by simp⟩
      cases prev with
      | true => exact next true _ w' _ _ hw' (.inr he)
      | false => exact next true _ w' _ _ hw' (.inr he)
    | err e =>
      simp only [err_bind]
      cases hy : takeWhile1 j isVchar with
      | ok a =>
        obtain ⟨hj', hne, hd⟩ := takeWhile1_split hy
        subst hj'
        dsimp only
        rw [C49_add_str]
        refine next false _ _ _ _ rfl ?_
        refine ho.add (w := w₁ ++ a.2) hi (by simp) ⟨hs.add (raw' := a.2) ?_ hj.addr, ?_⟩
        · refine built_slice hj (lead_class (P := isVchar) ?_ ?_ hd)
          · intro h; cases h
          · decide
        · rcases hf with hf | rfl
          · exact .inl (hf.mono ⟨[], a.2, by simp⟩)
          · exact .inr rfl
      | err e => exact .ok ⟨[], rfl, by simpa using ho⟩
      | abort k => rfl
    | abort k => rfl

theorem cowMimeUnstructured_reads {i : Bytes} (hi : Here p lo i) :
    Alike (cowMimeUnstructured c p i) (mimeUnstructured c i) (ReadsTo (Keeps p lo) i) := by
  have hm : Alike (cowMimeUnstructured c p i) (mimeUnstructured c i)
      (ReadsTo (fun w _ (s : CowStr) => ∀ x, s = .owned x → CopyReason w x) i) := by
    unfold cowMimeUnstructured mimeUnstructured
    refine (cowMimeUnstructuredLoop_mixed (u := []) (vout := []) _ false i _ hi.1 (.inl ⟨.none, .inr rfl⟩)).bind
      fun r v s _ hs => ?_
    obtain ⟨w, rfl, hs⟩ := hs
    have hr : ∀ x, s = .owned x → CopyReason w x := fun x hx => by
      rcases hs with ⟨hb, hf⟩ | hs
      · exact hb.reason hx (hf.imp id .inr)
      · exact .inr (.inr (.inl hs))
    have hn : Alike (dropWsp r >>= fun a => (.ok (a.1, s) : Res CowStr)) (dropWsp r >>= fun a => (.ok (a.1, v) : Res Bytes))
        (ReadsTo (fun _ _ s' => s' = s) r) :=
      Alike.next (Parses.reads (A := .none) dropWsp_parses) hi.right fun _ _ _ _ _ _ => .ok (.here rfl)
    refine hn.mono ?_
    rintro r' v' s' - ⟨w', rfl, rfl⟩
    exact ⟨w ++ w', by simp, fun x hx => (hr x hx).mono ⟨[], w', by simp⟩⟩
  refine ((cowMimeUnstructured_inside hi.1).and hm).mono ?_
  rintro r v s - ⟨h1, w, rfl, hw⟩
  exact ⟨w, rfl, .str (h1.le hi.2) hw⟩

/-! ### Addresses -/

theorem cowDomainLiteral_reads {i : Bytes} (hi : Here p lo i) :
    Alike (cowDomainLiteral c p i) (domainLiteral c i) (ReadsTo (Keeps p lo) i) := by
  refine (cowDomainLiteral_agree hi.1).mono ?_
  rintro r v s - ⟨pre, raw, gap, post, rfl, -, -, -, -, h⟩
  refine ⟨pre ++ (b! "[" ++ (raw ++ (gap ++ (b! "]" ++ post)))), by simp, .str ?_ fun x hx => ?_⟩
  · exact (h.inside hi.right.right.1).le hi.right.right.2
  · subst hx
    cases h with
    | @owned x e gap' z y hu _ _ hn hg =>
      obtain ⟨g, gs, rfl⟩ := List.exists_cons_of_ne_nil hn
      refine .inr (.inr (.inr (.inl ⟨raw ++ gap, ⟨pre, post, by simp⟩, g, ?_, hg g (by simp)⟩)))
      simp [hu]

theorem cowLocalPart_reads {i : Bytes} (hi : Here p lo i) :
    Alike (cowLocalPart c p i) (localPart c i) (ReadsTo (Keeps p lo) i) :=
  .matchParsers (cowDotAtom_reads hi) (.matchParsers (cowQuotedString_reads hi) .matchNil)

theorem cowDomain_reads {i : Bytes} (hi : Here p lo i) : Alike (cowDomain c p i) (domain c i) (ReadsTo (Keeps p lo) i) :=
  .matchParsers (cowDotAtom_reads hi) (.matchParsers (cowDomainLiteral_reads hi) .matchNil)

theorem Keeps.pair {α α' β β' : Type} [HasStrings α β] [HasStrings α' β'] {w : Bytes} {v : β} {s : α} {v' : β'} {s' : α'}
    (h : Keeps p lo w v s) (h' : Keeps p lo w v' s') : Keeps p lo w (v, v') (s, s') := by
  refine ⟨?_, fun t ht => ?_⟩
  · show (content p.memory s, content p.memory s') = _
    rw [h.1, h'.1]
  · exact (List.mem_append.mp ht).elim (h.2 t) (h'.2 t)

theorem cowMessageId_reads {i : Bytes} (hi : Here p lo i) :
    Alike (cowMessageId c p i) (messageId c i) (ReadsTo (Keeps p lo) i) := by
  refine (cowMessageId_agree hi.1).mono ?_
  rintro r ⟨v1, v2⟩ ⟨s1, s2⟩ - ⟨pre, mid, rfl, h1, pre', post, rfl, -, h2⟩
  subst h1 h2
  refine ⟨pre ++ (v1 ++ (b! "@" ++ (pre' ++ (v2 ++ post)))), by simp, (keeps_slice hi).pair ?_⟩
  exact keeps_slice (u := pre') (lo := lo) hi.right.right.right

end EmailParser
