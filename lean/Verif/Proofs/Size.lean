import Verif.Spec.Size
import Verif.Proofs.BorrowReasons
/-
The strings of the values that the parsers of Model/Borrow.lean build are not longer than what was read.
-/
namespace EmailParser
open Spec HasStrings

variable {α β γ δ : Type} {c : Cfg} {p : Place}

/-- What holds if the outcome is a value. -/
def Yields (x : Outcome α) (P : α → Prop) : Prop := ∀ a, x = .ok a → P a

theorem Yields.ok {a : α} {P : α → Prop} (h : P a) : Yields (.ok a) P := by
  intro b hb
  cases hb
  exact h

theorem Yields.err {e : Error} {P : α → Prop} : Yields (.err e) P := by intro b hb; cases hb

theorem Yields.abort {k : Abort} {P : α → Prop} : Yields (.abort k) P := by intro b hb; cases hb

theorem Yields.bind {x : Outcome α} {f : α → Outcome β} {P : α → Prop} {Q : β → Prop} (h : Yields x P)
    (hf : ∀ a, P a → Yields (f a) Q) : Yields (x >>= f) Q := by
  intro b hb
  cases x with
  | ok a => exact hf a (h a rfl) b hb
  | err e => cases hb
  | abort k => cases hb

theorem Yields.mono {x : Outcome α} {P Q : α → Prop} (h : Yields x P) (hq : ∀ a, P a → Q a) : Yields x Q :=
  fun a ha => hq a (h a ha)

theorem Yields.and {x : Outcome α} {P Q : α → Prop} (h : Yields x P) (h' : Yields x Q) : Yields x fun a => P a ∧ Q a :=
  fun a ha => ⟨h a ha, h' a ha⟩

theorem Yields.any {x : Outcome α} : Yields x fun _ => True := fun _ _ => trivial

/-- The three arms of a `match` on a result. -/
theorem Yields.cases {x : Outcome α} {P : α → Prop} {Q : Prop} (h : Yields x P) (h1 : ∀ a, x = .ok a → P a → Q)
    (h2 : ∀ e, x = .err e → Q) (h3 : ∀ k, x = .abort k → Q) : Q := by
  cases hx : x with
  | ok a => exact h1 a hx (h a hx)
  | err e => exact h2 e hx
  | abort k => exact h3 k hx

theorem Yields.mapErr {x : Outcome α} {P : α → Prop} {e : Error} (h : Yields x P) : Yields (x.mapErr e) P := by
  cases x with
  | ok a => exact h
  | err e => exact .err
  | abort k => exact .abort

/-! ### Lengths of what was read -/

theorem parses_gives {A : Aborts} {G : Gram α} {q : Bytes → Res α} (h : Parses A G q) (i : Bytes) :
    Yields (q i) fun a => a.1.length ≤ i.length := by
  rintro ⟨r, v⟩ hq
  have := h i
  rw [hq] at this
  obtain ⟨w, rfl, -⟩ := this
  simp

theorem takeWhile_gives (q : UInt8 → Bool) (i : Bytes) :
    Yields (takeWhile i q) fun a => a.2.length + a.1.length = i.length := by
  rintro ⟨r, v⟩ hq
  have := takeWhile_parses (A := .none) q i
  dsimp only at this
  rw [hq] at this
  obtain ⟨w, rfl, rfl, -⟩ := this
  simp

theorem takeWhile1_gives (q : UInt8 → Bool) (i : Bytes) :
    Yields (takeWhile1 i q) fun a => a.2.length + a.1.length = i.length ∧ 0 < a.2.length := by
  rintro ⟨r, v⟩ hq
  have := takeWhile1_parses (A := .none) q i
  dsimp only at this
  rw [hq] at this
  obtain ⟨w, rfl, rfl, hne, -⟩ := this
  exact ⟨by simp, List.length_pos_iff.mpr hne⟩

theorem tag_gives {e : Bytes} {m : String} (i : Bytes) :
    Yields (tag i e m) fun a => e.length + a.1.length = i.length := by
  rintro ⟨r, v⟩ hq
  have := tag_parses (A := .none) e m i
  dsimp only at this
  rw [hq] at this
  obtain ⟨w, rfl, h⟩ := this
  rw [show w = e from h]
  simp

/-- One byte at least. -/
theorem tag_gives' {e : Bytes} {m : String} (he : 0 < e.length) (i : Bytes) :
    Yields (tag i e m) fun a => 1 + a.1.length ≤ i.length :=
  (tag_gives i).mono fun _ h => by omega

theorem skipCfws_gives (i : Bytes) : Yields (skipCfws c i) fun r => r.length ≤ i.length := by
  intro r hq
  have := skipCfws_sat (c := c) i
  rw [hq] at this
  obtain ⟨w, rfl, -⟩ := this
  simp

theorem sliceFrom_gives (i : Bytes) (n : Nat) : Yields (sliceFrom i n) fun r => n + r.length = i.length := by
  intro r h
  unfold sliceFrom at h
  split at h
  · cases h
    rw [List.length_drop]
    omega
  · cases h

theorem getUncheckedFrom_gives (i : Bytes) (n : Nat) : Yields (getUncheckedFrom i n) fun r => n + r.length = i.length := by
  intro r h
  unfold getUncheckedFrom at h
  split at h
  · cases h
    rw [List.length_drop]
    omega
  · cases h

theorem sliceTo_gives (i : Bytes) (n : Nat) : Yields (sliceTo i n) fun r => r.length = n := by
  intro r h
  unfold sliceTo at h
  split at h
  · cases h
    rw [List.length_take]
    omega
  · cases h

theorem getUncheckedTo_gives (i : Bytes) (n : Nat) : Yields (getUncheckedTo i n) fun r => r.length = n := by
  intro r h
  unfold getUncheckedTo at h
  split at h
  · cases h
    rw [List.length_take]
    omega
  · cases h

/-! ### Combinators -/

theorem optional_gives {i : Bytes} {q : Bytes → Res α} {P : Bytes × α → Prop} {Q : Bytes × Option α → Prop} (h : Yields (q i) P)
    (h1 : ∀ r v, P (r, v) → Q (r, some v)) (h2 : Q (i, none)) : Yields (optional i q) Q := by
  unfold optional
  refine h.cases (fun a e ha => ?_) (fun _ e => ?_) fun _ e => ?_ <;> rw [e]
  · exact .ok (h1 _ _ ha)
  · exact .ok h2
  · exact .abort

theorem matchParsers_gives {i : Bytes} {Q : Bytes × α → Prop} : ∀ {qs : List (Bytes → Res α)},
    (∀ q ∈ qs, Yields (q i) Q) → Yields (matchParsers i qs) Q
  | [], _ => .err
  | q :: qs, h => by
    unfold matchParsers
    refine (h q (List.mem_cons_self ..)).cases (fun a e ha => ?_) (fun _ e => ?_) fun _ e => ?_ <;> rw [e]
    · exact .ok ha
    · exact matchParsers_gives fun q hq => h q (List.mem_cons_of_mem _ hq)
    · exact .abort

/-- A list of values: their sizes are added. -/
theorem manyLoop_gives {q : Bytes → Res α} {g : α → Nat} {K : Nat}
    (h : ∀ i, Yields (q i) fun a => g a.2 + K * a.1.length ≤ K * i.length) : ∀ (fuel : Nat) (i : Bytes),
    Yields (manyLoop q fuel i) fun a => (a.2.map g).sum + K * a.1.length ≤ K * i.length
  | 0, _ => .abort
  | fuel + 1, i => by
    unfold manyLoop
    refine (h i).cases (fun a e ha => ?_) (fun _ e => ?_) fun _ e => ?_ <;> rw [e]
    · refine (manyLoop_gives h fuel a.1).bind fun b hb => .ok ?_
      simp only [List.map_cons, List.sum_cons]
      omega
    · exact .ok (by simp)
    · exact .abort

theorem many_gives {q : Bytes → Res α} {g : α → Nat} {K : Nat}
    (h : ∀ i, Yields (q i) fun a => g a.2 + K * a.1.length ≤ K * i.length) (i : Bytes) :
    Yields (many i q) fun a => (a.2.map g).sum + K * a.1.length ≤ K * i.length := manyLoop_gives h _ i

theorem many1_gives {q : Bytes → Res α} {g : α → Nat} {K : Nat}
    (h : ∀ i, Yields (q i) fun a => g a.2 + K * a.1.length ≤ K * i.length) (i : Bytes) :
    Yields (many1 i q) fun a => (a.2.map g).sum + K * a.1.length ≤ K * i.length := by
  unfold many1
  refine (h i).bind fun a ha => (manyLoop_gives h _ _).bind fun b hb => .ok ?_
  simp only [List.map_cons, List.sum_cons]
  omega

theorem prefixed_gives {q : Bytes → Res α} {P : Nat → Bytes × α → Prop} (hP : ∀ a n m, P n a → n ≤ m → P m a)
    (h : ∀ i, Yields (q i) (P i.length)) (e i : Bytes) : Yields (prefixed i q e) (P i.length) := by
  unfold prefixed
  split
  · refine (getUncheckedFrom_gives _ _).bind fun r hr => (h r).mono fun a ha => hP _ _ _ ha (by omega)
  · exact .err

/-! ### Strings -/

theorem read_length (m : Memory) (a n : Nat) : (m.read a n).length = n := by simp [Memory.read]

theorem content_length (m : Memory) (s : CowStr) : (s.content m).length = bytesOf s := by
  cases s with
  | borrowed a n => exact read_length m a n
  | owned x => rfl

theorem bytesOf_addStr (m : Memory) (s : CowStr) (a n : Nat) : bytesOf (addStr m s a n) = bytesOf s + n := by
  cases s with
  | borrowed a' n' =>
    simp only [addStr]
    by_cases h1 : n = 0
    · rw [if_pos h1, h1]
      rfl
    rw [if_neg h1]
    by_cases h2 : n' = 0
    · rw [if_pos h2, h2]
      exact (Nat.zero_add _).symm
    rw [if_neg h2]
    by_cases h3 : a' + n' = a
    · rw [if_pos h3]
      rfl
    · rw [if_neg h3]
      simp [bytesOf, CowStr.content, read_length]
  | owned x => simp [addStr, bytesOf, read_length]

theorem bytesOf_addString (m : Memory) (s t : CowStr) : bytesOf (addString m s t) = bytesOf s + bytesOf t := by
  cases t with
  | borrowed a n => exact (show addString m s (.borrowed a n) = addStr m s a n by cases s <;> rfl) ▸ bytesOf_addStr m s a n
  | owned x =>
    cases s with
    | borrowed a n => simp [addString, bytesOf, CowStr.content, read_length]
    | owned y => simp [addString, bytesOf, CowStr.content]

theorem bytesOf_slice (i v : Bytes) : bytesOf (p.slice i v) = v.length := rfl

theorem bytesOf_empty (n : Nat) : bytesOf (emptyString n) = 0 := rfl

/-! ### The parsers: strings that are read as they are -/

/-- Not longer than the text, and something is read. -/
def Short (i : Bytes) (x : Res CowStr) : Prop := Yields x fun a => bytesOf a.2 + a.1.length ≤ i.length ∧ a.1.length < i.length

theorem cowFws_short (i : Bytes) : Short i (cowFws p i) := by
  unfold cowFws
  refine (optional_gives (P := fun a => a.2.1.length + a.1.length ≤ i.length)
    (Q := fun a => ((a.2.map fun v => v.1.length).getD 0) + a.1.length ≤ i.length) ?_ (fun r v h => h) (by simp)).bind ?_
  · unfold pair
    refine (takeWhile_gives _ _).bind fun a ha => (tag_gives _).bind fun b hb => .ok ?_
    dsimp only
    omega
  · rintro ⟨r, before⟩ h
    refine (takeWhile1_gives _ _).bind fun b hb => ?_
    cases before with
    | none =>
      refine .ok ?_
      simp only [Option.map_none, Option.getD_none] at h
      dsimp only
      rw [bytesOf_slice]
      omega
    | some v =>
      refine .ok ?_
      simp only [Option.map_some, Option.getD_some] at h
      dsimp only
      rw [bytesOf_addStr, bytesOf_slice]
      omega

theorem cowFwsOrEmpty_gives (i : Bytes) : Yields (cowFwsOrEmpty p i) fun a => bytesOf a.2 + a.1.length ≤ i.length := by
  unfold cowFwsOrEmpty
  refine (cowFws_short (p := p) i).cases (fun a e ha => ?_) (fun _ e => ?_) fun _ e => ?_ <;> rw [e]
  · exact .ok ha.1
  · exact .ok (by simp [bytesOf_empty])
  · exact .abort

theorem cowQuotedPair_short (i : Bytes) : Short i (cowQuotedPair p i) := by
  unfold cowQuotedPair
  refine (tag_gives' (by decide) i).bind ?_
  rintro ⟨r, ⟨⟩⟩ h
  cases r with
  | nil => exact .err
  | cons b r =>
    dsimp only
    split
    · refine (getUncheckedFrom_gives _ _).bind fun r' h1 => (getUncheckedTo_gives _ _).bind fun v h2 => .ok ?_
      dsimp only at h ⊢
      rw [bytesOf_slice]
      omega
    · exact .err

theorem cowAddFws_gives (i : Bytes) (out : CowStr) :
    Yields (cowAddFws p i out) fun a => bytesOf a.2 + a.1.length ≤ bytesOf out + i.length := by
  unfold cowAddFws
  refine (cowFws_short (p := p) i).cases (fun a e ha => ?_) (fun _ e => ?_) fun _ e => ?_ <;> rw [e]
  · refine .ok ?_
    dsimp only
    rw [bytesOf_addString]
    omega
  · exact .ok (Nat.le_refl _)
  · exact .abort

theorem cowQuotedStringLoop_gives : ∀ (fuel : Nat) (i : Bytes) (out : CowStr),
    Yields (cowQuotedStringLoop p fuel i out) fun a => bytesOf a.2 + a.1.length ≤ bytesOf out + i.length
  | 0, _, _ => .abort
  | fuel + 1, i, out => by
    unfold cowQuotedStringLoop
    refine (cowAddFws_gives i _).bind ?_
    rintro ⟨r, add⟩ h
    rw [bytesOf_empty] at h
    dsimp only at h ⊢
    refine (takeWhile1_gives isQtext r).cases (fun a e ha => ?_) (fun _ e => ?_) fun _ e => ?_ <;> rw [e]
    · refine (cowQuotedStringLoop_gives fuel _ _).mono fun b hb => ?_
      try dsimp only at hb
      rw [bytesOf_addString, bytesOf_addStr] at hb
      omega
    · refine (cowQuotedPair_short (p := p) r).cases (fun a e ha => ?_) (fun _ e => ?_) fun _ e => ?_ <;> dsimp only <;> rw [e]
      · refine (cowQuotedStringLoop_gives fuel _ _).mono fun b hb => ?_
        try dsimp only at hb
        rw [bytesOf_addString, bytesOf_addString] at hb
        omega
      · exact .ok (Nat.le_refl _)
      · exact .abort
    · exact .abort

theorem cowQuotedString_short (i : Bytes) : Short i (cowQuotedString c p i) := by
  unfold cowQuotedString
  refine (skipCfws_gives i).bind fun r1 h1 => ?_
  split
  · refine (sliceFrom_gives _ _).bind fun r2 h2 => (cowQuotedStringLoop_gives _ _ _).bind fun a3 h3 => ?_
    rw [bytesOf_empty] at h3
    refine (cowAddFws_gives _ _).bind fun a4 h4 => ?_
    dsimp only
    split
    · refine (sliceFrom_gives _ _).bind fun r5 h5 => (skipCfws_gives _).bind fun r6 h6 => .ok ?_
      dsimp only
      omega
    · exact .err
  · exact .err

theorem cowAtom_short (i : Bytes) : Short i (cowAtom c p i) := by
  unfold cowAtom
  refine (skipCfws_gives i).bind fun r1 h1 => (takeWhile1_gives _ _).mapErr.bind fun a h2 =>
    (skipCfws_gives _).bind fun r3 h3 => .ok ?_
  dsimp only
  rw [bytesOf_slice]
  omega

theorem cowDotAtomTextLoop_gives : ∀ (fuel : Nat) (i : Bytes) (out : CowStr),
    Yields (cowDotAtomTextLoop c p fuel i out) fun a => bytesOf a.2 + a.1.length ≤ bytesOf out + i.length ∧ a.1.length ≤ i.length
  | 0, _, _ => .abort
  | fuel + 1, i, out => by
    unfold cowDotAtomTextLoop
    split
    · refine (sliceFrom_gives _ _).bind fun r1 h1 => ?_
      have hw : Yields (if c.feat.compatibilityFixes then takeWhile r1 isAtext else takeWhile1 r1 isAtext)
          fun a => a.2.length + a.1.length = r1.length := by
        split
        · exact takeWhile_gives _ _
        · exact (takeWhile1_gives _ _).mono fun _ h => h.1
      refine hw.cases (fun a e ha => ?_) (fun _ e => ?_) fun _ e => ?_ <;> rw [e]
      · refine (sliceTo_gives _ _).bind fun dot hd => (cowDotAtomTextLoop_gives fuel _ _).mono fun b hb => ?_
        try dsimp only at hb
        rw [bytesOf_addStr, bytesOf_addString, bytesOf_slice] at hb
        omega
      · exact .ok ⟨Nat.le_refl _, Nat.le_refl _⟩
      · exact .abort
    · exact .ok ⟨Nat.le_refl _, Nat.le_refl _⟩

theorem cowDotAtomText_short (i : Bytes) : Short i (cowDotAtomText c p i) := by
  unfold cowDotAtomText
  refine (takeWhile1_gives _ _).bind fun a h1 => (cowDotAtomTextLoop_gives _ _ _).mono fun b h2 => ?_
  rw [bytesOf_slice] at h2
  omega

theorem cowDotAtom_short (i : Bytes) : Short i (cowDotAtom c p i) := by
  unfold cowDotAtom
  refine (skipCfws_gives i).bind fun r1 h1 => (cowDotAtomText_short _).bind fun a h2 =>
    (skipCfws_gives _).bind fun r3 h3 => .ok ?_
  dsimp only
  omega

theorem cowWord_short (i : Bytes) : Short i (cowWord c p i) := by
  refine matchParsers_gives ?_
  simp only [List.mem_cons, List.not_mem_nil, or_false]
  rintro q (rfl | rfl)
  · exact cowAtom_short i
  · exact cowQuotedString_short i

theorem cowDomainLiteralLoop_gives : ∀ (fuel : Nat) (i : Bytes) (out : CowStr),
    Yields (cowDomainLiteralLoop p fuel i out) fun a => bytesOf a.2 + a.1.length ≤ bytesOf out + i.length
  | 0, _, _ => .abort
  | fuel + 1, i, out => by
    unfold cowDomainLiteralLoop
    refine (parses_gives (optional_parses (fws_parses (A := .none))) i).bind ?_
    rintro ⟨r, o⟩ h
    dsimp only at h ⊢
    refine (takeWhile1_gives isDtext r).cases (fun a e ha => ?_) (fun _ e => ?_) fun _ e => ?_ <;> rw [e]
    · refine (cowDomainLiteralLoop_gives fuel _ _).mono fun b hb => ?_
      try dsimp only at hb
      rw [bytesOf_addStr] at hb
      omega
    · exact .ok (Nat.le_refl _)
    · exact .abort

theorem cowDomainLiteral_short (i : Bytes) : Short i (cowDomainLiteral c p i) := by
  unfold cowDomainLiteral
  refine (skipCfws_gives i).bind fun r1 h1 => (tag_gives' (by decide) _).bind fun a2 h2 =>
    (cowDomainLiteralLoop_gives _ _ _).bind fun a3 h3 => (parses_gives (optional_parses (fws_parses (A := .none))) _).bind
    fun a4 h4 => (tag_gives' (by decide) _).bind fun a5 h5 => (skipCfws_gives _).bind fun r6 h6 => .ok ?_
  rw [bytesOf_empty] at h3
  dsimp only at *
  omega

theorem cowLocalPart_short (i : Bytes) : Short i (cowLocalPart c p i) := by
  refine matchParsers_gives ?_
  simp only [List.mem_cons, List.not_mem_nil, or_false]
  rintro q (rfl | rfl)
  · exact cowDotAtom_short i
  · exact cowQuotedString_short i

theorem cowDomain_short (i : Bytes) : Short i (cowDomain c p i) := by
  refine matchParsers_gives ?_
  simp only [List.mem_cons, List.not_mem_nil, or_false]
  rintro q (rfl | rfl)
  · exact cowDotAtom_short i
  · exact cowDomainLiteral_short i

theorem cowNoFoldLitteral_short (i : Bytes) : Short i (cowNoFoldLitteral p i) := by
  unfold cowNoFoldLitteral
  refine (tag_gives' (by decide) _).bind fun a1 h1 => (takeWhile_gives _ _).bind fun a2 h2 =>
    (tag_gives' (by decide) _).bind fun a3 h3 => .ok ?_
  dsimp only at *
  rw [bytesOf_slice]
  omega

end EmailParser
