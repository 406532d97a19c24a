import Verif.Spec.Case
import Verif.Proofs.Local.Fields
/-
Without MIME every parser gives the same result, up to the case of letters, for the same text in lower case.
-/
namespace EmailParser
open Spec (Cased lower)

variable {α β γ : Type} [Cased α] [Cased β] [Cased γ] {c : Cfg}

/-! ### Values -/

theorem lower_list (l : List α) : lower l = l.map lower := rfl
theorem lower_byte (b : UInt8) : lower b = asciiLower b := rfl
theorem lower_bytes (l : Bytes) : lower l = l.map asciiLower := rfl
theorem lower_append (l l' : List α) : lower (l ++ l') = lower l ++ lower l' := List.map_append
theorem length_lower (l : List α) : (lower l).length = l.length := List.length_map _
theorem lower_drop (l : List α) (n : Nat) : lower (l.drop n) = (lower l).drop n := List.map_drop
theorem lower_take (l : List α) (n : Nat) : lower (l.take n) = (lower l).take n := List.map_take

/-- A parser whose result for a text in lower case is its result for the text, in lower case. -/
def Caseless (p : Bytes → Outcome α) : Prop := ∀ i, p (lower i) = lower (p i)

theorem low_bind {x x' : Outcome α} {f g : α → Outcome β} (h : x' = lower x) (hf : ∀ v, g (lower v) = lower (f v)) :
    (x' >>= g) = lower (x >>= f) := by
  subst h
  cases x with
  | ok v => exact hf v
  | err e => rfl
  | abort k => rfl

theorem low_pair {x x' : Res α} {f g : Bytes × α → Outcome β} (h : x' = lower x)
    (hf : ∀ r v, g (lower r, lower v) = lower (f (r, v))) : (x' >>= g) = lower (x >>= f) :=
  low_bind h fun v => hf v.1 v.2

theorem lower_err (e : Error) : lower (Outcome.err e : Outcome α) = .err e := rfl

theorem low_mapErr {x x' : Res α} {e : Error} (h : x' = lower x) : x'.mapErr e = lower (x.mapErr e) := by
  subst h
  cases x <;> rfl

/-- A byte without another case. -/
def plain (b : UInt8) : Bool := !(65 ≤ b && b ≤ 90) && !(97 ≤ b && b ≤ 122)

theorem lower_plain : ∀ x : UInt8, asciiLower x = x ∨ (plain x = false ∧ plain (asciiLower x) = false) := by decide +kernel

theorem plain_beq {b : UInt8} (h : plain b = true) (x : UInt8) : (b == asciiLower x) = (b == x) := by
  rcases lower_plain x with e | ⟨h1, h2⟩
  · rw [e]
  · rw [beq_eq_false_iff_ne.mpr, beq_eq_false_iff_ne.mpr]
    · rintro rfl; simp [h] at h1
    · rintro rfl; simp [h] at h2

theorem startsWith_low : ∀ {e : Bytes} (_ : e.all plain = true) (i : Bytes), startsWith (lower i) e = startsWith i e
  | [], _, _ => rfl
  | _ :: _, _, [] => rfl
  | b :: e, h, x :: i => by
    simp only [List.all_cons, Bool.and_eq_true] at h
    have ih := startsWith_low h.2 i
    unfold startsWith at ih ⊢
    simp only [lower_bytes, List.map_cons, List.isPrefixOf] at ih ⊢
    rw [plain_beq h.1, ih]

theorem getUncheckedFrom_low (n : Nat) : Caseless fun i => getUncheckedFrom i n := by
  intro i
  simp only [getUncheckedFrom, length_lower]
  split
  · rw [← lower_drop]; rfl
  · rfl

theorem getUncheckedTo_low (n : Nat) : Caseless fun i => getUncheckedTo i n := by
  intro i
  simp only [getUncheckedTo, length_lower]
  split
  · rw [← lower_take]; rfl
  · rfl

theorem sliceFrom_low (n : Nat) : Caseless fun i => sliceFrom i n := by
  intro i
  simp only [sliceFrom, length_lower]
  split
  · rw [← lower_drop]; rfl
  · rfl

theorem sliceTo_low (n : Nat) : Caseless fun i => sliceTo i n := by
  intro i
  simp only [sliceTo, length_lower]
  split
  · rw [← lower_take]; rfl
  · rfl

theorem isEmpty_low (i : Bytes) : (lower i).isEmpty = i.isEmpty := by cases i <;> rfl

/-! ### Combinators -/

theorem tag_low {e : Bytes} {m : String} (h : e.all plain = true) : Caseless fun i => tag i e m := by
  intro i
  simp only [tag, startsWith_low h]
  split
  · exact low_bind (getUncheckedFrom_low _ i) fun _ => rfl
  · rfl

theorem lower_idem : ∀ b : UInt8, asciiLower (asciiLower b) = asciiLower b := by decide +kernel

theorem tagNoCase_low {e e2 : Bytes} {m : String} (h : e2 = e.map swapCase) : Caseless fun i => tagNoCase i e e2 m := by
  subst h
  intro i
  simp only [tagNoCase_eq, length_lower, ← lower_take, ← lower_drop]
  have : (lower (i.take e.length)).map asciiLower = (i.take e.length).map asciiLower := by
    rw [lower_bytes, List.map_map, show asciiLower ∘ asciiLower = asciiLower from funext lower_idem]
  rw [this]
  split
  · rfl
  · split <;> rfl

theorem optional_low {p : Bytes → Res α} (hp : Caseless p) : Caseless fun i => optional i p := by
  intro i
  simp only [optional, hp i]
  cases p i <;> rfl

theorem matchParsers_low {ps : List (Bytes → Res α)} (h : ∀ p ∈ ps, Caseless p) : Caseless fun i => matchParsers i ps := by
  intro i
  induction ps with
  | nil => rfl
  | cons p ps ih =>
    simp only [matchParsers, h p (by simp) i]
    cases p i with
    | ok r => rfl
    | err e => exact ih fun q hq => h q (by simp [hq])
    | abort k => rfl

section
variable {p : UInt8 → Bool} (hp : ∀ b, p (asciiLower b) = p b)
include hp

theorem takeWhile_lower (i : Bytes) : (lower i).takeWhile p = lower (i.takeWhile p) := by
  induction i with
  | nil => rfl
  | cons b i ih =>
    simp only [lower_bytes, List.map_cons, List.takeWhile_cons, hp] at ih ⊢
    split
    · simp [ih]
    · rfl

theorem dropWhile_lower (i : Bytes) : (lower i).dropWhile p = lower (i.dropWhile p) := by
  induction i with
  | nil => rfl
  | cons b i ih =>
    simp only [lower_bytes, List.map_cons, List.dropWhile_cons, hp] at ih ⊢
    split
    · exact ih
    · simp

theorem takeWhile_low : Caseless fun i => takeWhile i p := by
  intro i
  simp only [takeWhile_eq, takeWhile_lower hp, dropWhile_lower hp]
  rfl

theorem takeWhile1_low : Caseless fun i => takeWhile1 i p := by
  intro i
  have h : ∀ l : Bytes, lower l = [] ↔ l = [] := fun l => by cases l <;> simp [lower_bytes]
  simp only [takeWhile1_eq, takeWhile_lower hp, dropWhile_lower hp, h]
  split <;> rfl

theorem firstFailing_low (i : Bytes) : ∀ n, firstFailing p n (lower i) = firstFailing p n i := by
  induction i with
  | nil => intro n; rfl
  | cons b i ih =>
    intro n
    simp only [lower_bytes, List.map_cons, firstFailing, hp] at ih ⊢
    rw [ih]

end

theorem ignoreMany_low {p : Bytes → Res α} (hp : Caseless p) : Caseless fun i => ignoreMany i p := by
  have : ∀ n, Caseless (ignoreManyLoop p n) := by
    intro n
    induction n with
    | zero => intro i; rfl
    | succ n ih =>
      intro i
      simp only [ignoreManyLoop, hp i]
      cases p i with
      | ok r => exact ih r.1
      | err e => rfl
      | abort k => rfl
  intro i
  simp only [ignoreMany, length_lower]
  exact this _ i

theorem manyLoop_low {p : Bytes → Res α} (hp : Caseless p) (n : Nat) : Caseless (manyLoop p n) := by
  induction n with
  | zero => intro i; rfl
  | succ n ih =>
    intro i
    simp only [manyLoop, hp i]
    cases p i with
    | ok r => exact low_pair (ih r.1) fun _ _ => rfl
    | err e => rfl
    | abort k => rfl

theorem many_low {p : Bytes → Res α} (hp : Caseless p) : Caseless fun i => many i p := by
  intro i
  simp only [many, length_lower]
  exact manyLoop_low hp _ i

theorem many1_low {p : Bytes → Res α} (hp : Caseless p) : Caseless fun i => many1 i p := by
  intro i
  refine low_pair (hp i) fun r v => ?_
  dsimp only
  rw [length_lower]
  exact low_pair (manyLoop_low hp _ r) fun _ _ => rfl

theorem collectMany_low {p : Bytes → Res Bytes} (hp : Caseless p) : Caseless fun i => collectMany i p := by
  have : ∀ n, Caseless (collectManyLoop p n) := by
    intro n
    induction n with
    | zero => intro i; rfl
    | succ n ih =>
      intro i
      simp only [collectManyLoop, hp i]
      cases p i with
      | ok r =>
        refine low_pair (ih r.1) fun r' v => ?_
        dsimp only
        rw [← lower_append]
        rfl
      | err e => rfl
      | abort k => rfl
  intro i
  simp only [collectMany, length_lower]
  exact this _ i

theorem pair_low {p : Bytes → Res α} {q : Bytes → Res β} (hp : Caseless p) (hq : Caseless q) :
    Caseless fun i => pair i p q := fun i =>
  low_pair (hp i) fun r _ => low_pair (hq r) fun _ _ => rfl

theorem collectPair_low {p q : Bytes → Res Bytes} (hp : Caseless p) (hq : Caseless q) :
    Caseless fun i => collectPair i p q := fun i =>
  low_pair (hp i) fun r v => low_pair (hq r) fun r' v' => by
    dsimp only
    rw [← lower_append]
    rfl

theorem prefixed_low {p : Bytes → Res α} {e : Bytes} (hp : Caseless p) (h : e.all plain = true) :
    Caseless fun i => prefixed i p e := by
  intro i
  simp only [prefixed, startsWith_low h]
  split
  · exact low_bind (getUncheckedFrom_low _ i) hp
  · rfl

/-! ### White space and words -/

theorem wsp_low : ∀ b, isWsp (asciiLower b) = isWsp b := by decide +kernel
theorem ctext_low : ∀ b, isCtext (asciiLower b) = isCtext b := by decide +kernel
theorem vchar_low : ∀ b, isVchar (asciiLower b) = isVchar b := by decide +kernel
theorem dtext_low : ∀ b, isDtext (asciiLower b) = isDtext b := by decide +kernel
theorem atext_low : ∀ b, isAtext (asciiLower b) = isAtext b := by decide +kernel
theorem qtext_low : ∀ b, isQtext (asciiLower b) = isQtext b := by decide +kernel
theorem ftext_low : ∀ b, isFtext (asciiLower b) = isFtext b := by decide +kernel
theorem text_low : ∀ b, isText (asciiLower b) = isText b := by decide +kernel
theorem digit_low' : ∀ b, isDigit (asciiLower b) = isDigit b := by decide +kernel

theorem fws_low : Caseless fws := by
  intro i
  refine low_pair (optional_low (pair_low (takeWhile_low wsp_low) (tag_low (by decide))) i) fun r v => ?_
  refine low_pair (takeWhile1_low wsp_low r) fun r' v' => ?_
  cases v with
  | none => rfl
  | some v =>
    show Outcome.ok (lower r', lower v.1 ++ lower v') = _
    rw [← lower_append]
    rfl

theorem fwsOrEmpty_low : Caseless fwsOrEmpty := by
  intro i
  simp only [fwsOrEmpty, fws_low i]
  cases fws i <;> rfl

theorem quotedPair_low : Caseless quotedPair := by
  intro i
  refine low_pair (tag_low (by decide) i) fun r v => ?_
  cases r with
  | nil => rfl
  | cons b r =>
    show (if isVchar (asciiLower b) || isWsp (asciiLower b) then _ else _) = lower (if isVchar b || isWsp b then _ else _)
    rw [vchar_low, wsp_low]
    split
    · exact low_bind (getUncheckedFrom_low 1 (b :: r)) fun r' => low_bind (getUncheckedTo_low 1 (b :: r)) fun v => rfl
    · rfl

theorem ccontent_low {p : Bytes → Res Bytes} (hp : Caseless p) : Caseless (ccontent p) := by
  refine matchParsers_low fun q hq => ?_
  simp only [List.mem_cons, List.not_mem_nil, or_false] at hq
  rcases hq with rfl | rfl | rfl
  · exact fun i => low_pair (takeWhile1_low ctext_low i) fun _ _ => rfl
  · exact quotedPair_low
  · exact hp

theorem comment_low : ∀ n, Caseless (comment n)
  | 0 => fun i => low_pair (tag_low (by decide) i) fun _ _ => rfl
  | n + 1 => fun i =>
    low_pair (tag_low (by decide) i) fun r _ =>
      low_pair (ignoreMany_low (pair_low (optional_low fws_low) (ccontent_low (comment_low n))) r) fun r _ =>
        low_pair (optional_low fws_low r) fun r _ => low_pair (tag_low (by decide) r) fun _ _ => rfl

theorem getD_low (v : Option Bytes) : (lower v).getD [] = lower (v.getD []) := by cases v <;> rfl

theorem realCfwsLoop_low (n : Nat) : Caseless (realCfwsLoop c n) := by
  induction n with
  | zero => intro i; rfl
  | succ n ih =>
    intro i
    refine low_pair (optional_low fws_low i) fun r v => ?_
    dsimp only
    rw [comment_low c.stack r]
    cases comment c.stack r with
    | ok r =>
      refine low_pair (ih r.1) fun r' v' => ?_
      dsimp only
      rw [getD_low, ← lower_append]
      rfl
    | err e => rfl
    | abort k => rfl

theorem realCfws_low : Caseless (realCfws c) := by
  intro i
  refine low_pair (optional_low fws_low i) fun r v => ?_
  dsimp only
  rw [comment_low c.stack r]
  cases comment c.stack r with
  | ok r =>
    show ((realCfwsLoop c ((lower r.1).length + 1) (lower r.1)) >>= _) = _
    rw [length_lower]
    refine low_pair (realCfwsLoop_low _ r.1) fun r' v' => low_pair (optional_low fws_low r') fun r'' v'' => ?_
    dsimp only
    rw [getD_low, getD_low, ← lower_append, ← lower_append]
    rfl
  | err e => rfl
  | abort k => rfl

theorem cfws_low : Caseless (cfws c) := by
  refine matchParsers_low fun q hq => ?_
  simp only [List.mem_cons, List.not_mem_nil, or_false] at hq
  rcases hq with rfl | rfl
  · exact realCfws_low
  · exact fws_low

theorem skipCfws_low : Caseless (skipCfws c) := by
  intro i
  simp only [skipCfws, cfws_low i]
  cases cfws c i <;> rfl

theorem quotedStringLoop_low (n : Nat) : Caseless (quotedStringLoop n) := by
  induction n with
  | zero => intro i; rfl
  | succ n ih =>
    intro i
    refine low_pair (fwsOrEmpty_low i) fun r v => ?_
    dsimp only
    rw [show takeWhile1 (lower r) isQtext = lower (takeWhile1 r isQtext) from takeWhile1_low qtext_low r]
    cases takeWhile1 r isQtext with
    | ok r =>
      refine low_pair (ih r.1) fun r' v' => ?_
      dsimp only
      rw [← lower_append, ← lower_append]
      rfl
    | err e =>
      simp only [lower_err, quotedPair_low r]
      cases quotedPair r with
      | ok r =>
        refine low_pair (ih r.1) fun r' v' => ?_
        dsimp only
        rw [← lower_append, ← lower_append]
        rfl
      | err e => rfl
      | abort k => rfl
    | abort k => rfl

theorem quotedString_low : Caseless (quotedString c) := by
  intro i
  refine low_bind (skipCfws_low i) fun i => ?_
  rw [startsWith_low (by decide)]
  split
  · refine low_bind (sliceFrom_low 1 i) fun i => ?_
    rw [length_lower]
    refine low_pair (quotedStringLoop_low _ i) fun r v => low_pair (fwsOrEmpty_low r) fun r' v' => ?_
    dsimp only
    rw [startsWith_low (by decide)]
    split
    · refine low_bind (sliceFrom_low 1 r') fun r => low_bind (skipCfws_low r) fun r => ?_
      rw [← lower_append]
      rfl
    · rfl
  · rfl

theorem atom_low : Caseless (atom c) := fun i =>
  low_bind (skipCfws_low i) fun i => low_pair (low_mapErr (takeWhile1_low atext_low i)) fun r _ =>
    low_bind (skipCfws_low r) fun _ => rfl

theorem dotAtomTextLoop_low (n : Nat) : Caseless (dotAtomTextLoop c n) := by
  induction n with
  | zero => intro i; rfl
  | succ n ih =>
    intro i
    unfold dotAtomTextLoop
    rw [startsWith_low (by decide)]
    split
    · refine low_bind (sliceFrom_low 1 i) fun t => ?_
      have : (if c.feat.compatibilityFixes then takeWhile (lower t) isAtext else takeWhile1 (lower t) isAtext) =
          lower (if c.feat.compatibilityFixes then takeWhile t isAtext else takeWhile1 t isAtext) := by
        split
        · exact takeWhile_low atext_low t
        · exact takeWhile1_low atext_low t
      rw [this]
      cases (if c.feat.compatibilityFixes then takeWhile t isAtext else takeWhile1 t isAtext) with
      | ok r =>
        refine low_bind (sliceTo_low 1 i) fun d => low_pair (ih r.1) fun r' v' => ?_
        dsimp only
        rw [← lower_append, ← lower_append]
        rfl
      | err e => rfl
      | abort k => rfl
    · rfl

theorem dotAtomText_low : Caseless (dotAtomText c) := by
  intro i
  refine low_pair (takeWhile1_low atext_low i) fun r v => ?_
  dsimp only
  rw [length_lower]
  refine low_pair (dotAtomTextLoop_low _ r) fun r' v' => ?_
  dsimp only
  rw [← lower_append]
  rfl

theorem dotAtom_low : Caseless (dotAtom c) := fun i =>
  low_bind (skipCfws_low i) fun i => low_pair (dotAtomText_low i) fun r _ => low_bind (skipCfws_low r) fun _ => rfl

theorem word_low : Caseless (word c) := by
  refine matchParsers_low fun q hq => ?_
  simp only [List.mem_cons, List.not_mem_nil, or_false] at hq
  rcases hq with rfl | rfl
  · exact atom_low
  · exact quotedString_low

theorem dropWsp_low : Caseless dropWsp := ignoreMany_low (takeWhile1_low wsp_low)

theorem unstructured_low : Caseless unstructured := fun i =>
  low_pair (collectMany_low (collectPair_low fwsOrEmpty_low fun i => low_pair (takeWhile1_low vchar_low i) fun _ _ => rfl) i)
    fun r _ => low_pair (dropWsp_low r) fun _ _ => rfl

theorem headerLine_low {n n2 : Bytes} {m m' : String} {p : Bytes → Res α} (h : n2 = n.map swapCase) (hp : Caseless p) :
    Caseless (headerLine n n2 m m' p) := fun i =>
  low_pair (tagNoCase_low h i) fun r _ => low_pair (hp r) fun r _ => low_pair (tag_low (by decide) r) fun _ _ => rfl

/-! ### Addresses -/

theorem noFoldLitteral_low : Caseless noFoldLitteral := fun i =>
  low_pair (tag_low (by decide) i) fun r _ => low_pair (takeWhile_low dtext_low r) fun r _ =>
    low_pair (tag_low (by decide) r) fun _ _ => rfl

theorem messageId_low : Caseless (messageId c) := by
  have h : Caseless fun i => matchParsers i [dotAtomText c, noFoldLitteral] := by
    refine matchParsers_low fun q hq => ?_
    simp only [List.mem_cons, List.not_mem_nil, or_false] at hq
    rcases hq with rfl | rfl
    · exact dotAtomText_low
    · exact noFoldLitteral_low
  exact fun i => low_bind (skipCfws_low i) fun i => low_pair (tag_low (by decide) i) fun r _ =>
    low_pair (dotAtomText_low r) fun r _ => low_pair (tag_low (by decide) r) fun r _ =>
      low_pair (h r) fun r _ => low_pair (tag_low (by decide) r) fun r _ => low_bind (skipCfws_low r) fun _ => rfl

theorem domainLiteralLoop_low (n : Nat) : Caseless (domainLiteralLoop n) := by
  induction n with
  | zero => intro i; rfl
  | succ n ih =>
    intro i
    refine low_pair (optional_low fws_low i) fun r v => ?_
    dsimp only
    rw [show takeWhile1 (lower r) isDtext = lower (takeWhile1 r isDtext) from takeWhile1_low dtext_low r]
    cases takeWhile1 r isDtext with
    | ok r =>
      refine low_pair (ih r.1) fun r' v' => ?_
      dsimp only
      rw [← lower_append]
      rfl
    | err e => rfl
    | abort k => rfl

theorem domainLiteral_low : Caseless (domainLiteral c) := by
  intro i
  refine low_bind (skipCfws_low i) fun i => low_pair (tag_low (by decide) i) fun r _ => ?_
  dsimp only
  rw [length_lower]
  exact low_pair (domainLiteralLoop_low _ r) fun r _ => low_pair (optional_low fws_low r) fun r _ =>
    low_pair (tag_low (by decide) r) fun r _ => low_bind (skipCfws_low r) fun _ => rfl

theorem localPart_low : Caseless (localPart c) := by
  refine matchParsers_low fun q hq => ?_
  simp only [List.mem_cons, List.not_mem_nil, or_false] at hq
  rcases hq with rfl | rfl
  · exact dotAtom_low
  · exact quotedString_low

theorem domain_low : Caseless (domain c) := by
  refine matchParsers_low fun q hq => ?_
  simp only [List.mem_cons, List.not_mem_nil, or_false] at hq
  rcases hq with rfl | rfl
  · exact dotAtom_low
  · exact domainLiteral_low

theorem addrSpec_low : Caseless (addrSpec c) := fun i =>
  low_pair (localPart_low i) fun r _ => low_pair (tag_low (by decide) r) fun r _ => low_pair (domain_low r) fun _ _ => rfl

theorem angleAddr_low : Caseless (angleAddr c) := fun i =>
  low_bind (skipCfws_low i) fun i => low_pair (tag_low (by decide) i) fun r _ => low_pair (addrSpec_low r) fun r _ =>
    low_pair (tag_low (by decide) r) fun r _ => low_bind (skipCfws_low r) fun _ => rfl

section
variable (hm : c.feat.mime = false)
include hm

theorem phrase_low : Caseless (phrase c) := by
  refine many1_low fun i => ?_
  simp only [phraseWord, hm, Bool.false_eq_true, if_false]
  exact word_low i

theorem nameAddr_low : Caseless (nameAddr c) := fun i =>
  low_pair (optional_low (phrase_low hm) i) fun r _ => low_pair (angleAddr_low r) fun _ _ => rfl

theorem mailbox_low : Caseless (mailbox c) := by
  refine matchParsers_low fun q hq => ?_
  simp only [List.mem_cons, List.not_mem_nil, or_false] at hq
  rcases hq with rfl | rfl
  · exact nameAddr_low hm
  · exact fun i => low_pair (addrSpec_low i) fun _ _ => rfl

theorem mailboxList_low : Caseless (mailboxList c) := fun i =>
  low_pair (mailbox_low hm i) fun r _ => low_pair (many_low (prefixed_low (mailbox_low hm) (by decide)) r) fun _ _ => rfl

theorem groupList_low : Caseless (groupList c) := by
  intro i
  simp only [groupList, mailboxList_low hm i]
  cases mailboxList c i with
  | ok r => rfl
  | err e =>
    simp only [cfws_low i]
    cases cfws c i <;> rfl
  | abort k => rfl

theorem group_low : Caseless (group c) := fun i =>
  low_pair (phrase_low hm i) fun r _ => low_pair (tag_low (by decide) r) fun r _ => low_pair (groupList_low hm r) fun r _ =>
    low_pair (tag_low (by decide) r) fun r _ => low_bind (skipCfws_low r) fun _ => rfl

theorem address_low : Caseless (address c) := by
  intro i
  simp only [address, mailbox_low hm i]
  cases mailbox c i with
  | ok r => rfl
  | err e =>
    simp only [group_low hm i]
    cases group c i <;> rfl
  | abort k => rfl

theorem addressList_low : Caseless (addressList c) := fun i =>
  low_pair (address_low hm i) fun r _ => low_pair (many_low (prefixed_low (address_low hm) (by decide)) r) fun _ _ => rfl

theorem bccValue_low : Caseless (bccValue c) := by
  intro i
  simp only [bccValue, addressList_low hm i]
  cases addressList c i with
  | ok r => rfl
  | err e =>
    simp only [cfws_low i]
    cases cfws c i <;> rfl
  | abort k => rfl

theorem textValue_low : Caseless (textValue c) := by
  intro i
  simp only [textValue, hm, Bool.false_eq_true, if_false]
  exact unstructured_low i

theorem keywordList_low : Caseless (keywordList c) := fun i =>
  low_pair (phrase_low hm i) fun r _ => low_pair (many_low (prefixed_low (phrase_low hm) (by decide)) r) fun _ _ => rfl

end

theorem messageIds_low : Caseless (messageIds c) := many1_low messageId_low

/-! ### Dates -/

instance : Cased Day := ⟨id⟩
instance : Cased Month := ⟨id⟩
instance : Cased Zone := ⟨id⟩
instance : Cased Time := ⟨id⟩
instance : Cased TimeWithZone := ⟨id⟩
instance : Cased Date := ⟨id⟩

theorem lower_map_lower (i : Bytes) : (lower i).map asciiLower = i.map asciiLower := by
  rw [lower_bytes, List.map_map, show asciiLower ∘ asciiLower = asciiLower from funext lower_idem]

theorem dayName_low : Caseless dayName := by
  intro i
  simp only [dayName, length_lower, ← lower_take, ← lower_drop, lower_map_lower]
  split
  · cases dayNames.lookup ((i.take 3).map asciiLower) <;> rfl
  · rfl

theorem month_low : Caseless month := by
  intro i
  simp only [month, length_lower, ← lower_take, ← lower_drop, lower_map_lower]
  split
  · cases monthNames.lookup ((i.take 3).map asciiLower) <;> rfl
  · rfl

theorem dayOfWeek_low : Caseless dayOfWeek := fun i =>
  low_pair (optional_low fws_low i) fun r _ => low_pair (dayName_low r) fun r _ => low_pair (tag_low (by decide) r) fun _ _ => rfl

theorem digits_lower {l : Bytes} (h : ∀ b ∈ l, isDigit b = true) : lower l = l := by
  have hd : ∀ b, isDigit b = true → asciiLower b = b := by decide +kernel
  rw [lower_bytes]
  conv => rhs; rw [← List.map_id l]
  exact List.map_congr_left fun b hb => hd b (h b hb)

theorem year_low : Caseless year := by
  intro i
  refine low_pair (fws_low i) fun r _ => ?_
  show ((takeWhile1 (lower r) isDigit).mapErr _ >>= _) = lower ((takeWhile1 r isDigit).mapErr _ >>= _)
  rw [show takeWhile1 (lower r) isDigit = lower (takeWhile1 r isDigit) from takeWhile1_low digit_low' r, takeWhile1_eq]
  split
  · rfl
  · have h : lower (r.takeWhile isDigit) = r.takeWhile isDigit := digits_lower fun _ => mem_takeWhile
    show (if (lower (r.takeWhile isDigit)).length < 4 then _ else _) = lower (if (r.takeWhile isDigit).length < 4 then _ else _)
    rw [h]
    split
    · rfl
    · cases parseUnsigned (2 ^ 64) (r.takeWhile isDigit) with
      | none => rfl
      | some y =>
        show (if y < 1990 then _ else _) = lower (if y < 1990 then _ else _)
        split
        · rfl
        · exact low_pair (fws_low _) fun _ _ => rfl

theorem digit_low : Caseless digit := by
  intro i
  cases i with
  | nil => rfl
  | cons b i =>
    have h : ∀ b : UInt8, (asciiLower b ≥ 48 && asciiLower b ≤ 57) = (b ≥ 48 && b ≤ 57) := by decide +kernel
    have h' : ∀ b : UInt8, (b ≥ 48 && b ≤ 57) = true → asciiLower b = b := by decide +kernel
    show (if (asciiLower b ≥ 48 && asciiLower b ≤ 57) = true then _ else _) = lower (if (b ≥ 48 && b ≤ 57) = true then _ else _)
    rw [h b]
    split
    · rename_i hb
      rw [lower_byte, h' b hb]
      rfl
    · rfl

theorem u8_low (n : Nat) : u8 n = lower (u8 n) := by
  unfold u8
  split <;> rfl

theorem twoDigits_low : Caseless twoDigits := fun i =>
  low_pair (digit_low i) fun r _ => low_pair (digit_low r) fun _ _ => low_bind (u8_low _) fun _ => low_bind (u8_low _) fun _ => rfl

theorem secondDigit_low (d : Nat) : Caseless (secondDigit d) := by
  intro i
  simp only [secondDigit, digit_low i]
  cases digit i with
  | ok r => exact low_bind (u8_low _) fun _ => low_bind (u8_low _) fun _ => rfl
  | err e => rfl
  | abort k => rfl

theorem day_low : Caseless day := by
  intro i
  refine low_pair (optional_low fws_low i) fun r _ => low_pair (digit_low r) fun r v => low_pair (secondDigit_low v r) fun r v => ?_
  show (if v > 31 then _ else _) = lower (if v > 31 then _ else _)
  split
  · rfl
  · exact low_pair (fws_low _) fun _ _ => rfl

theorem timeOfDay_low : Caseless timeOfDay := by
  intro i
  refine low_pair (twoDigits_low i) fun r h => ?_
  show (if h > 23 then _ else _) = lower (if h > 23 then _ else _)
  split
  · rfl
  · refine low_pair (tag_low (by decide) r) fun r _ => low_pair (twoDigits_low r) fun r m => ?_
    show (if m > 59 then _ else if startsWith (lower r) _ then _ else _) = lower (if m > 59 then _ else if startsWith r _ then _ else _)
    rw [startsWith_low (by decide)]
    split
    · rfl
    · split
      · refine low_bind (sliceFrom_low 1 r) fun t => ?_
        rw [twoDigits_low t]
        cases twoDigits t with
        | ok v =>
          show (if v.2 > 60 then _ else _) = lower (if v.2 > 60 then _ else _)
          split <;> rfl
        | err e => rfl
        | abort k => rfl
      · rfl

theorem zoneSign_low : Caseless zoneSign := by
  intro i
  cases i with
  | nil => rfl
  | cons b i =>
    have h : ∀ b : UInt8, (asciiLower b == 43) = (b == 43) ∧ (asciiLower b == 45) = (b == 45) := by decide +kernel
    show (if asciiLower b == 43 then _ else if asciiLower b == 45 then _ else _) = lower (if b == 43 then _ else if b == 45 then _ else _)
    rw [(h b).1, (h b).2]
    split
    · rfl
    · split <;> rfl

theorem zone_low : Caseless zone := by
  intro i
  refine low_pair (fws_low i) fun r _ => low_pair (zoneSign_low r) fun r s => low_pair (twoDigits_low r) fun r h =>
    low_pair (twoDigits_low r) fun r m => ?_
  show (if m > 59 then _ else _) = lower (if m > 59 then _ else _)
  split <;> rfl

theorem time_low : Caseless time := fun i => low_pair (timeOfDay_low i) fun r _ => low_pair (zone_low r) fun _ _ => rfl

theorem date_low : Caseless date := fun i =>
  low_pair (day_low i) fun r _ => low_pair (month_low r) fun r _ => low_pair (year_low r) fun _ _ => rfl

theorem lower_day (v : Option Day) : lower v = v := by cases v <;> rfl

theorem dateTime_low : Caseless (dateTime c) := by
  intro i
  refine low_pair (optional_low dayOfWeek_low i) fun r d => ?_
  rw [lower_day]
  exact low_pair (date_low r) fun r _ => low_pair (time_low r) fun r _ => low_bind (skipCfws_low r) fun _ => rfl

/-! ### Header lines -/

/-- The headers of MIME are left as they are. -/
instance : Cased Field := ⟨fun
  | .date v => .date v
  | .from v => .from (lower v)
  | .sender v => .sender (lower v)
  | .replyTo v => .replyTo (lower v)
  | .to v => .to (lower v)
  | .cc v => .cc (lower v)
  | .bcc v => .bcc (lower v)
  | .messageId v => .messageId (lower v)
  | .inReplyTo v => .inReplyTo (lower v)
  | .references v => .references (lower v)
  | .subject v => .subject (lower v)
  | .comments v => .comments (lower v)
  | .keywords v => .keywords (lower v)
  | .trace p r f => .trace (lower p) (lower r) (lower f)
  | .unknown n v => .unknown (lower n) (lower v)
  | f => f⟩

theorem emptyPath_low : Caseless (emptyPath c) := fun i =>
  low_bind (skipCfws_low i) fun i => low_pair (tag_low (by decide) i) fun r _ => low_bind (skipCfws_low r) fun r =>
    low_pair (tag_low (by decide) r) fun r _ => low_bind (skipCfws_low r) fun _ => rfl

theorem returnPathValue_low : Caseless (returnPathValue c) := by
  refine matchParsers_low fun q hq => ?_
  simp only [List.mem_cons, List.not_mem_nil, or_false] at hq
  rcases hq with rfl | rfl
  · exact fun i => low_pair (angleAddr_low i) fun _ _ => rfl
  · exact fun i => low_pair (emptyPath_low i) fun _ _ => rfl

theorem receivedToken_low : Caseless (receivedToken c) := by
  intro i
  unfold receivedToken
  rw [word_low i, domain_low i, angleAddr_low i, addrSpec_low i]
  cases word c i with
  | ok r =>
    cases domain c i with
    | ok s =>
      show (if (lower s.2).length > (lower r.2).length then _ else _) = lower (if s.2.length > r.2.length then _ else _)
      rw [length_lower, length_lower]
      split <;> rfl
    | err e => rfl
    | abort k => rfl
  | err e => cases angleAddr c i <;> cases addrSpec c i <;> cases domain c i <;> rfl
  | abort k => rfl

theorem receivedValue_low : Caseless (receivedValue c) := fun i =>
  low_pair (many_low receivedToken_low i) fun r _ => low_pair (tag_low (by decide) r) fun r _ =>
    low_pair (dateTime_low r) fun _ _ => rfl

theorem returnPath_low : Caseless (returnPath c) := headerLine_low rfl returnPathValue_low
theorem received_low : Caseless (received c) := headerLine_low rfl receivedValue_low

theorem trace_low : Caseless (trace c) := fun i =>
  low_pair (optional_low returnPath_low i) fun r _ => low_pair (many1_low received_low r) fun _ _ => rfl

theorem unknown_low (hu : c.feat.unrecognizedHeaders = false) : Caseless (unknown c) := by
  have h : Caseless (unknownValue c) := by
    intro i
    simp only [unknownValue, hu, Bool.false_eq_true, if_false]
    exact unstructured_low i
  exact fun i => low_pair (takeWhile1_low ftext_low i) fun r _ => low_pair (tag_low (by decide) r) fun r _ =>
    low_pair (h r) fun r _ => low_pair (tag_low (by decide) r) fun _ _ => rfl

theorem mapValue_low {f : α → β} {p : Bytes → Res α} (hp : Caseless p) (hf : ∀ v, f (lower v) = lower (f v)) :
    Caseless (mapValue f p) := fun i => low_pair (hp i) fun r v => by
  dsimp only
  rw [hf]
  rfl

theorem resent_low {m : String} {p : Bytes → Res α} (hp : Caseless p) : Caseless (resent m p) := fun i =>
  low_pair (tagNoCase_low rfl i) fun r _ => low_pair (hp r) fun _ _ => rfl

section
variable (hm : c.feat.mime = false)
include hm

theorem traceFields_low : Caseless fun i => matchParsers i (traceFieldParsers c) := by
  refine matchParsers_low fun p hp => ?_
  simp only [traceFieldParsers, List.mem_cons, List.not_mem_nil, or_false] at hp
  rcases hp with rfl | rfl | rfl | rfl | rfl | rfl | rfl
  · exact mapValue_low (resent_low (headerLine_low rfl dateTime_low)) fun _ => rfl
  · exact mapValue_low (resent_low (headerLine_low rfl (mailboxList_low hm))) fun _ => rfl
  · exact mapValue_low (resent_low (headerLine_low rfl (mailbox_low hm))) fun _ => rfl
  · exact mapValue_low (resent_low (headerLine_low rfl (addressList_low hm))) fun _ => rfl
  · exact mapValue_low (resent_low (headerLine_low rfl (addressList_low hm))) fun _ => rfl
  · exact mapValue_low (resent_low (headerLine_low rfl (bccValue_low hm))) fun _ => rfl
  · exact mapValue_low (resent_low (headerLine_low rfl messageId_low)) fun _ => rfl

theorem traceBlock_low : Caseless (traceBlock c) := fun i =>
  low_pair (trace_low i) fun r _ => low_pair (many_low (traceFields_low hm) r) fun _ _ => rfl

theorem fieldParsers_low (hu : c.feat.unrecognizedHeaders = false) : ∀ p ∈ fieldParsers c, Caseless p := by
  unfold fieldParsers
  refine append_forall ?_ (List.forall_mem_singleton.mpr (mapValue_low (unknown_low hu) fun _ => rfl))
  refine append_forall ?_ (enabled_forall fun _ => mapValue_low (headerLine_low rfl (keywordList_low hm)) fun _ => rfl)
  refine append_forall ?_ (enabled_forall fun h => absurd h (by simp [hm]))
  refine append_forall ?_ (enabled_forall fun h => absurd h (by simp [hm]))
  refine append_forall ?_ (enabled_forall fun h => absurd h (by simp [hm]))
  refine append_forall ?_ (enabled_forall fun h => absurd h (by simp [hm]))
  refine append_forall ?_ (enabled_forall fun h => absurd h (by simp [hm]))
  refine append_forall ?_ (enabled_forall fun h => absurd h (by simp [hm]))
  refine append_forall ?_ (enabled_forall fun _ => mapValue_low (headerLine_low rfl (textValue_low hm)) fun _ => rfl)
  refine append_forall ?_ (enabled_forall fun _ => mapValue_low (headerLine_low rfl (textValue_low hm)) fun _ => rfl)
  refine append_forall ?_ (enabled_forall fun _ => mapValue_low (headerLine_low rfl messageIds_low) fun _ => rfl)
  refine append_forall ?_ (enabled_forall fun _ => mapValue_low (headerLine_low rfl messageIds_low) fun _ => rfl)
  refine append_forall ?_ (enabled_forall fun _ => mapValue_low (headerLine_low rfl messageId_low) fun _ => rfl)
  refine append_forall ?_ (enabled_forall fun _ => mapValue_low (headerLine_low rfl (bccValue_low hm)) fun _ => rfl)
  refine append_forall ?_ (enabled_forall fun _ => mapValue_low (headerLine_low rfl (addressList_low hm)) fun _ => rfl)
  refine append_forall ?_ (enabled_forall fun _ => mapValue_low (headerLine_low rfl (addressList_low hm)) fun _ => rfl)
  refine append_forall ?_ (enabled_forall fun _ => mapValue_low (headerLine_low rfl (addressList_low hm)) fun _ => rfl)
  refine append_forall ?_ (enabled_forall fun _ => mapValue_low (headerLine_low rfl (mailbox_low hm)) fun _ => rfl)
  refine append_forall ?_ (enabled_forall fun _ => mapValue_low (headerLine_low rfl (mailboxList_low hm)) fun _ => rfl)
  exact enabled_forall fun _ => mapValue_low (headerLine_low rfl dateTime_low) fun _ => rfl

theorem traces_low : Caseless (traces c) := by
  intro i
  unfold traces
  split
  · exact many_low (traceBlock_low hm) i
  · rfl

theorem fields_low (hu : c.feat.unrecognizedHeaders = false) : Caseless (fields c) := fun i =>
  low_pair (traces_low hm i) fun r v => low_pair (many_low (matchParsers_low (fieldParsers_low hm hu)) r) fun r' v' => by
    dsimp only
    rw [← lower_append]
    rfl

end

/-! ### The body -/

theorem checkLine_low : Caseless checkLine := by
  intro i
  simp only [checkLine, length_lower, ← lower_take, firstFailing_low text_low]
  cases firstFailing isText 0 (i.take (min i.length 998)) with
  | none => exact low_bind (getUncheckedFrom_low _ i) fun _ => rfl
  | some j => exact low_bind (getUncheckedFrom_low _ i) fun _ => rfl

theorem bodyLoop_low (n : Nat) : Caseless (bodyLoop n) := by
  induction n with
  | zero => intro i; rfl
  | succ n ih =>
    intro i
    refine low_pair (checkLine_low i) fun r _ => ?_
    dsimp only
    have h := tag_low (e := b! "\r\n") (m := "TAG ERROR: In a body, a line must end with a CRLF sequence.") (by decide) r
    dsimp only at h
    rw [h]
    cases tag r (b! "\r\n") "TAG ERROR: In a body, a line must end with a CRLF sequence." with
    | ok s => exact ih s.1
    | err e =>
      show (if (lower r).isEmpty then _ else _) = lower (if r.isEmpty then _ else _)
      rw [isEmpty_low]
      split <;> rfl
    | abort k => rfl

theorem body_low : Caseless body := by
  intro i
  unfold body
  rw [isEmpty_low]
  split
  · rfl
  · refine low_pair (tag_low (by decide) i) fun r _ => ?_
    dsimp only
    rw [length_lower]
    exact low_bind (bodyLoop_low _ r) fun _ => low_bind (getUncheckedFrom_low 2 i) fun _ => rfl

section
variable (hm : c.feat.mime = false) (hu : c.feat.unrecognizedHeaders = false)
include hm

include hu in
theorem parseMessage_low : Caseless (parseMessage c) := by
  intro i
  refine low_pair (fields_low hm hu i) fun r v => ?_
  simp only [hm, Bool.false_eq_true, if_false]
  exact low_bind (body_low r) fun _ => rfl

/-! ### The e-mail -/

instance : Cased EmailAcc := ⟨fun a =>
  { a with
    «from» := lower a.from
    sender := lower a.sender
    subject := lower a.subject
    to := lower a.to
    cc := lower a.cc
    bcc := lower a.bcc
    messageId := lower a.messageId
    inReplyTo := lower a.inReplyTo
    references := lower a.references
    replyTo := lower a.replyTo
    comments := lower a.comments
    keywords := lower a.keywords
    trace := lower a.trace
    unknownFields := lower a.unknownFields }⟩

omit hm in
theorem add_low (a : EmailAcc) (f : Field) : (lower a).add (lower f) = lower (a.add f) := by
  cases f with
  | comments v =>
    show Outcome.ok _ = Outcome.ok _
    congr 1
    show ({ lower a with comments := lower a.comments ++ lower [v] } : EmailAcc) = _
    rw [← lower_append]
    rfl
  | keywords v =>
    show Outcome.ok ({ lower a with keywords := lower a.keywords ++ lower v } : EmailAcc) = _
    rw [← lower_append]
    rfl
  | trace p r f =>
    show Outcome.ok ({ lower a with trace := lower a.trace ++ lower [(p, r, f)] } : EmailAcc) = _
    rw [← lower_append]
    rfl
  | unknown n v =>
    show Outcome.ok ({ lower a with unknownFields := lower a.unknownFields ++ lower [(n, v)] } : EmailAcc) = _
    rw [← lower_append]
    rfl
  | date v =>
    rcases a with ⟨_, _, _, x, _, _, _, _, _, _, _, _, _, _, _, _, _, _, _, _, _⟩
    cases x <;> rfl
  | mimeVersion _ _ =>
    rcases a with ⟨_, _, _, _, _, _, _, _, _, _, _, _, _, _, x, _, _, _, _, _, _⟩
    cases x <;> rfl
  | contentType _ _ _ =>
    rcases a with ⟨_, _, _, _, _, _, _, _, _, _, _, _, _, _, _, x, _, _, _, _, _⟩
    cases x <;> rfl
  | contentTransferEncoding _ =>
    rcases a with ⟨_, _, _, _, _, _, _, _, _, _, _, _, _, _, _, _, x, _, _, _, _⟩
    cases x <;> rfl
  | contentId _ =>
    rcases a with ⟨_, _, _, _, _, _, _, _, _, _, _, _, _, _, _, _, _, x, _, _, _⟩
    cases x <;> rfl
  | contentDescription _ =>
    rcases a with ⟨_, _, _, _, _, _, _, _, _, _, _, _, _, _, _, _, _, _, x, _, _⟩
    cases x <;> rfl
  | contentDisposition _ =>
    rcases a with ⟨_, _, _, _, _, _, _, _, _, _, _, _, _, _, _, _, _, _, _, x, _⟩
    cases x <;> rfl
  | «from» v =>
    rcases a with ⟨x, _, _, _, _, _, _, _, _, _, _, _, _, _, _, _, _, _, _, _, _⟩
    cases x <;> rfl
  | sender v =>
    rcases a with ⟨_, x, _, _, _, _, _, _, _, _, _, _, _, _, _, _, _, _, _, _, _⟩
    cases x <;> rfl
  | replyTo v =>
    rcases a with ⟨_, _, _, _, _, _, _, _, _, _, x, _, _, _, _, _, _, _, _, _, _⟩
    cases x <;> rfl
  | to v =>
    rcases a with ⟨_, _, _, _, x, _, _, _, _, _, _, _, _, _, _, _, _, _, _, _, _⟩
    cases x <;> rfl
  | cc v =>
    rcases a with ⟨_, _, _, _, _, x, _, _, _, _, _, _, _, _, _, _, _, _, _, _, _⟩
    cases x <;> rfl
  | bcc v =>
    rcases a with ⟨_, _, _, _, _, _, x, _, _, _, _, _, _, _, _, _, _, _, _, _, _⟩
    cases x <;> rfl
  | messageId v =>
    rcases a with ⟨_, _, _, _, _, _, _, x, _, _, _, _, _, _, _, _, _, _, _, _, _⟩
    cases x <;> rfl
  | inReplyTo v =>
    rcases a with ⟨_, _, _, _, _, _, _, _, x, _, _, _, _, _, _, _, _, _, _, _, _⟩
    cases x <;> rfl
  | references v =>
    rcases a with ⟨_, _, _, _, _, _, _, _, _, x, _, _, _, _, _, _, _, _, _, _, _⟩
    cases x <;> rfl
  | subject v =>
    rcases a with ⟨_, _, x, _, _, _, _, _, _, _, _, _, _, _, _, _, _, _, _, _, _⟩
    cases x <;> rfl

omit hm in
theorem addAll_low (fs : List Field) : ∀ a : EmailAcc, (lower a).addAll (lower fs) = lower (a.addAll fs) := by
  induction fs with
  | nil => intro a; rfl
  | cons f fs ih => exact fun a => low_bind (add_low a f) ih

omit hm in
theorem required_low (b : Bool) (n : String) (x : Option α) : required b n (lower x) = lower (required b n x) := by
  unfold required
  split
  · cases x <;> rfl
  · rfl

omit hm in
theorem inferSender_low (b : Bool) (s : Option Mailbox) (f : Option (List Mailbox)) :
    inferSender b (lower s) (lower f) = lower (inferSender b s f) := by
  unfold inferSender
  split
  · cases s with
    | some s => rfl
    | none =>
      have h : (lower f).getD [] = lower (f.getD []) := by cases f <;> rfl
      show (if ((lower f).getD []).length = 1 then _ else _) = lower (if (f.getD []).length = 1 then _ else _)
      rw [h, length_lower]
      split
      · cases f.getD [] <;> rfl
      · rfl
  · rfl

theorem finish_low (a : EmailAcc) (b : Option Bytes) : (lower a).finish c (lower b) = lower (a.finish c b) := by
  refine low_bind (required_low _ _ a.from) fun f => ?_
  have h : ∀ x : Option DateTime, lower x = x := fun x => by cases x <;> rfl
  refine low_bind (x := required c.feat.date "Date" a.date) ?_ fun d => low_bind (inferSender_low _ a.sender f) fun s => ?_
  · have := required_low c.feat.date "Date" a.date
    rwa [h] at this
  · rw [h d]
    simp only [EmailAcc.entity, hm, Bool.false_eq_true, if_false]
    rfl

include hu in
theorem parse_low : Caseless (Email.parse c) := fun i =>
  low_bind (parseMessage_low hm hu i) fun v => low_bind (addAll_low v.1 {}) fun a => finish_low hm a v.2

end

end EmailParser
