import Verif.Proofs.Basic
import Verif.Spec.QuotedPrintable
/-
The in-place quoted-printable coders refine streaming functions.
-/
namespace EmailParser
open Spec

/-! ### Editing a vector at the end of a prefix -/

theorem getElem?_prefix (pre s : Bytes) : (pre ++ s)[pre.length]? = s.head? := by
  cases s <;> simp

theorem getElem?_prefix_add (pre s : Bytes) (n : Nat) : (pre ++ s)[pre.length + n]? = s[n]? := by
  rw [List.getElem?_append_right (by omega)]
  congr 1; omega

theorem vecInsert_prefix (pre s : Bytes) (v : UInt8) :
    vecInsert (pre ++ s) pre.length v = .ok (pre ++ v :: s) := by
  simp [vecInsert]

theorem vecSet_prefix (pre s : Bytes) (a v : UInt8) :
    vecSet (pre ++ a :: s) pre.length v = .ok (pre ++ v :: s) := by
  simp [vecSet]

theorem vecRemove_prefix (pre s : Bytes) (a : UInt8) :
    vecRemove (pre ++ a :: s) pre.length = .ok (a, pre ++ s) := by
  have : (pre ++ a :: s).drop (pre.length + 1) = s := by
    rw [List.drop_append]
    simp [List.drop_of_length_le]
  simp [vecRemove, this]

theorem vecRemove_prefix_succ (pre s : Bytes) (a b : UInt8) :
    vecRemove (pre ++ a :: b :: s) (pre.length + 1) = .ok (b, pre ++ a :: s) := by
  have := vecRemove_prefix (pre ++ [a]) s b
  simpa using this

theorem vecDrain_prefix (pre s : Bytes) (a b c : UInt8) :
    vecDrain (pre ++ a :: b :: c :: s) pre.length (pre.length + 3) = .ok (pre ++ s) := by
  have : (pre ++ a :: b :: c :: s).drop (pre.length + 3) = s := by
    rw [List.drop_append]
    simp [List.drop_of_length_le]
  simp [vecDrain, this]

theorem putReplacement_prefix (pre s : Bytes) (a : UInt8) :
    putReplacement (pre ++ a :: s) pre.length = .ok (pre ++ replacement ++ s) := by
  simp [putReplacement, vecSet_prefix, vecInsert_prefix, replacement]

/-! ### Hexadecimal digits -/

theorem hexValue?_eq : ∀ c : UInt8, hexValue? c = (fromHex c).map UInt8.toNat := by
  decide +kernel

theorem fromHex_lt {c v : UInt8} (h : fromHex c = some v) : v.toNat < 16 := by
  have : ∀ c : UInt8, (fromHex c).all (fun v => v.toNat < 16) = true := by decide +kernel
  have := this c
  simpa [h] using this

theorem hexByte?_some {a b x y : UInt8} (ha : fromHex a = some x) (hb : fromHex b = some y) :
    hexByte? a b = some (UInt8.ofNat (x.toNat * 16 + y.toNat)) ∧
      u8 (x.toNat * 16 + y.toNat) = .ok (x.toNat * 16 + y.toNat) := by
  have h1 := fromHex_lt ha
  have h2 := fromHex_lt hb
  constructor
  · simp [hexByte?, hexValue?_eq, ha, hb, Nat.mul_comm]
  · simp [u8]; omega

theorem hexByte?_none {a b : UInt8} (h : fromHex a = none ∨ fromHex b = none) :
    hexByte? a b = none := by
  rcases h with h | h <;> simp only [hexByte?, hexValue?_eq, h, Option.map_none]
  cases (fromHex a).map UInt8.toNat <;> rfl

/-! ### Decoding -/

theorem qpLiteral_eq : ∀ c : UInt8,
    qpLiteral c = (litteralReprPossible c || c == 32 || c == 9) := by
  decide +kernel

theorem qpDecode_literal {c : UInt8} (s : Bytes) (h : qpLiteral c = true) :
    qpDecode (c :: s) = c :: qpDecode s := by
  have h1 : c ≠ 61 := by rintro rfl; revert h; decide
  have h2 : c ≠ 13 := by rintro rfl; revert h; decide
  rw [qpDecode.eq_def]
  split <;> simp_all

theorem qpDecode_bad {c : UInt8} (s : Bytes) (h : qpLiteral c = false) (h1 : c ≠ 61)
    (h2 : ¬(c = 13 ∧ s.head? = some 10)) : qpDecode (c :: s) = replacement ++ qpDecode s := by
  rw [qpDecode.eq_def]
  split <;> simp_all

theorem qpDecode_escape {a b : UInt8} (s : Bytes) (h : ¬(a = 13 ∧ b = 10)) :
    qpDecode (61 :: a :: b :: s) =
      match hexByte? a b with
      | some v => v :: qpDecode s
      | none => replacement ++ qpDecode s := by
  rw [qpDecode.eq_def]
  split
  · simp_all
  · simp_all
  · rename_i heq; simp only [List.cons.injEq, true_and] at heq; obtain ⟨rfl, rfl, rfl⟩ := heq; rfl
  · rename_i hno heq
    simp only [List.cons.injEq, true_and] at heq
    exact (hno a b s heq.symm).elim
  · simp_all
  · simp_all

theorem decodeQpLoop_eq : ∀ (fuel : Nat) (pre s : Bytes), s.length < fuel →
    decodeQpLoop fuel (pre ++ s) pre.length = .ok (pre ++ qpDecode s)
  | 0, _, _, h => by omega
  | fuel + 1, pre, [], h => by simp [decodeQpLoop, qpDecode]
  | fuel + 1, pre, c :: s, h => by
    have hs : s.length < fuel := by simpa using h
    unfold decodeQpLoop
    rw [getElem?_prefix]
    simp only [List.head?_cons]
    by_cases hl : qpLiteral c = true
    · rw [qpDecode_literal s hl]
      rw [qpLiteral_eq] at hl
      simp only [hl, if_true]
      have := decodeQpLoop_eq fuel (pre ++ [c]) s hs
      simpa using this
    have hl' : qpLiteral c = false := by simpa using hl
    have hl2 : ¬(litteralReprPossible c || c == 32 || c == 9) = true := by
      rw [← qpLiteral_eq]; exact hl
    rw [if_neg hl2]
    by_cases h61 : c = 61
    · subst h61
      simp only [beq_self_eq_true, if_true, getElem?_prefix_add]
      match s, hs with
      | [], hs =>
        simp only [List.getElem?_cons_succ, List.getElem?_nil]
        have := decodeQpLoop_eq fuel (pre ++ [61]) [] hs
        simpa [qpDecode] using this
      | [a], hs =>
        simp only [List.getElem?_cons_succ, List.getElem?_nil]
        have := decodeQpLoop_eq fuel (pre ++ [61]) [a] hs
        simpa [qpDecode] using this
      | a :: b :: s, hs =>
        have hs' : s.length < fuel := by simp at hs; omega
        simp only [List.getElem?_cons_succ, List.getElem?_cons_zero]
        by_cases hsoft : a = 13 ∧ b = 10
        · obtain ⟨rfl, rfl⟩ := hsoft
          simp only [beq_self_eq_true, Bool.and_self, if_true, vecDrain_prefix, ok_bind]
          rw [decodeQpLoop_eq fuel pre s hs']
          simp [qpDecode]
        · rw [if_neg (by simpa using hsoft), if_pos (by simp)]
          simp only [vecRemove_prefix_succ, ok_bind]
          have eq := qpDecode_escape (a := a) (b := b) s hsoft
          cases ha : fromHex a with
          | none =>
            rw [eq, hexByte?_none (.inl ha)]
            simp only [putReplacement_prefix, ok_bind]
            have := decodeQpLoop_eq fuel (pre ++ replacement) s hs'
            simpa [replacement] using this
          | some x =>
            cases hb : fromHex b with
            | none =>
              rw [eq, hexByte?_none (.inr hb)]
              simp only [putReplacement_prefix, ok_bind]
              have := decodeQpLoop_eq fuel (pre ++ replacement) s hs'
              simpa [replacement] using this
            | some y =>
              obtain ⟨e1, e2⟩ := hexByte?_some ha hb
              rw [eq, e1]
              simp only [e2, ok_bind, vecSet_prefix]
              have := decodeQpLoop_eq fuel (pre ++ [UInt8.ofNat (x.toNat * 16 + y.toNat)]) s hs'
              simpa using this
    · rw [if_neg (by simpa using h61)]
      by_cases hcr : c = 13 ∧ s.head? = some 10
      · obtain ⟨rfl, hs10⟩ := hcr
        match s, hs10, hs with
        | b :: s, hs10, hs =>
          simp only [List.head?_cons, Option.some.injEq] at hs10
          subst hs10
          rw [if_pos (by rw [getElem?_prefix_add]; rfl)]
          have := decodeQpLoop_eq fuel (pre ++ [13, 10]) s (by simp at hs; omega)
          simpa [qpDecode] using this
      · rw [qpDecode_bad s hl' h61 hcr, if_neg]
        · simp only [putReplacement_prefix, ok_bind]
          have := decodeQpLoop_eq fuel (pre ++ replacement) s hs
          simpa [replacement] using this
        · rw [getElem?_prefix_add]
          cases s <;> simp_all

/-! ### Decoding of header text -/

theorem qDecode_escape {a b : UInt8} (s : Bytes) (h : ¬(a = 13 ∧ b = 10)) :
    qDecode (61 :: a :: b :: s) =
      match hexByte? a b with
      | some v => v :: qDecode s
      | none => replacement ++ qDecode s := by
  rw [qDecode.eq_def]
  split
  · simp_all
  · simp_all
  · simp_all
  · rename_i heq; simp only [List.cons.injEq, true_and] at heq; obtain ⟨rfl, rfl, rfl⟩ := heq; rfl
  · rename_i hno heq
    simp only [List.cons.injEq, true_and] at heq
    exact (hno a b s heq.symm).elim
  · simp_all

theorem qDecode_other {c : UInt8} (s : Bytes) (h1 : c ≠ 61) (h2 : c ≠ 95) :
    qDecode (c :: s) =
      if 32 ≤ c && c ≤ 126 then c :: qDecode s else replacement ++ qDecode s := by
  rw [qDecode.eq_def]
  split <;> simp_all

theorem decodeHeaderQpLoop_eq : ∀ (fuel : Nat) (pre s : Bytes), s.length < fuel →
    decodeHeaderQpLoop fuel (pre ++ s) pre.length = .ok (pre ++ qDecode s)
  | 0, _, _, h => by omega
  | fuel + 1, pre, [], h => by simp [decodeHeaderQpLoop, qDecode]
  | fuel + 1, pre, c :: s, h => by
    have hs : s.length < fuel := by simpa using h
    unfold decodeHeaderQpLoop
    rw [getElem?_prefix]
    simp only [List.head?_cons]
    by_cases h95 : c = 95
    · subst h95
      simp only [beq_self_eq_true, if_true, vecSet_prefix, ok_bind]
      have := decodeHeaderQpLoop_eq fuel (pre ++ [32]) s hs
      simpa [qDecode] using this
    rw [if_neg (by simpa using h95)]
    by_cases h61 : c = 61
    · subst h61
      simp only [beq_self_eq_true, if_true, getElem?_prefix_add]
      match s, hs with
      | [], hs =>
        simp only [List.getElem?_cons_succ, List.getElem?_nil]
        have := decodeHeaderQpLoop_eq fuel (pre ++ [61]) [] hs
        simpa [qDecode] using this
      | [a], hs =>
        simp only [List.getElem?_cons_succ, List.getElem?_nil]
        have := decodeHeaderQpLoop_eq fuel (pre ++ [61]) [a] hs
        simpa [qDecode] using this
      | a :: b :: s, hs =>
        have hs' : s.length < fuel := by simp at hs; omega
        simp only [List.getElem?_cons_succ, List.getElem?_cons_zero]
        by_cases hsoft : a = 13 ∧ b = 10
        · obtain ⟨rfl, rfl⟩ := hsoft
          simp only [beq_self_eq_true, Bool.and_self, if_true, vecDrain_prefix, ok_bind]
          rw [decodeHeaderQpLoop_eq fuel pre s hs']
          simp [qDecode]
        · rw [if_neg (by simpa using hsoft), if_pos (by simp)]
          simp only [vecRemove_prefix_succ, ok_bind]
          have eq := qDecode_escape (a := a) (b := b) s hsoft
          cases ha : fromHex a with
          | none =>
            rw [eq, hexByte?_none (.inl ha)]
            simp only [putReplacement_prefix, ok_bind]
            have := decodeHeaderQpLoop_eq fuel (pre ++ replacement) s hs'
            simpa [replacement] using this
          | some x =>
            cases hb : fromHex b with
            | none =>
              rw [eq, hexByte?_none (.inr hb)]
              simp only [putReplacement_prefix, ok_bind]
              have := decodeHeaderQpLoop_eq fuel (pre ++ replacement) s hs'
              simpa [replacement] using this
            | some y =>
              obtain ⟨e1, e2⟩ := hexByte?_some ha hb
              rw [eq, e1]
              simp only [e2, ok_bind, vecSet_prefix]
              have := decodeHeaderQpLoop_eq fuel (pre ++ [UInt8.ofNat (x.toNat * 16 + y.toNat)]) s hs'
              simpa using this
    · rw [if_neg (by simpa using h61), qDecode_other s h61 h95]
      by_cases hr : (decide (32 ≤ c) && decide (c ≤ 126)) = true
      · rw [if_pos hr, if_pos hr]
        have := decodeHeaderQpLoop_eq fuel (pre ++ [c]) s hs
        simpa using this
      · rw [if_neg hr, if_neg hr]
        simp only [putReplacement_prefix, ok_bind]
        have := decodeHeaderQpLoop_eq fuel (pre ++ replacement) s hs
        simpa [replacement] using this

theorem decodeHeaderQp_eq (data : Bytes) : decodeHeaderQp data = .ok (qDecode data) := by
  have := decodeHeaderQpLoop_eq (data.length + 1) [] data (by omega)
  simpa [decodeHeaderQp] using this

/-! ### Encoding -/

/-- The encoder as a streaming function; the first argument is the number of characters already in
the current line. -/
def qpEncode (l : Nat) : Bytes → Bytes
  | [] => []
  | c :: s =>
    let soft : Bytes := if l ≥ 72 then [61, 13, 10] else []
    let l := if l ≥ 72 then 0 else l
    if litteralReprPossible c then soft ++ c :: qpEncode (l + 1) s
    else if (c == 9 || c == 32) && (s.head?.map (fun d => d != 13)).getD false then
      soft ++ c :: qpEncode (l + 1) s
    else
      match c, s with
      | 13, 10 :: s => soft ++ 13 :: 10 :: qpEncode 0 s
      | c, s => soft ++ (escape c ++ qpEncode (l + 3) s)

theorem qpEncode_cons (l : Nat) (c : UInt8) (s : Bytes) : qpEncode l (c :: s) =
    if litteralReprPossible c then
      (if l ≥ 72 then [61, 13, 10] else []) ++ c :: qpEncode ((if l ≥ 72 then 0 else l) + 1) s
    else if (c == 9 || c == 32) && (s.head?.map (fun d => d != 13)).getD false then
      (if l ≥ 72 then [61, 13, 10] else []) ++ c :: qpEncode ((if l ≥ 72 then 0 else l) + 1) s
    else
      match c, s with
      | 13, 10 :: s => (if l ≥ 72 then [61, 13, 10] else []) ++ 13 :: 10 :: qpEncode 0 s
      | c, s => (if l ≥ 72 then [61, 13, 10] else []) ++
          (escape c ++ qpEncode ((if l ≥ 72 then 0 else l) + 3) s) := by
  rw [qpEncode.eq_def]; dsimp only; congr 2

theorem toHex_high : ∀ c : UInt8, toHex ((c - c % 16) / 16) = .ok (hexDigit (c.toNat / 16)) := by
  decide +kernel

theorem toHex_low : ∀ c : UInt8, toHex (c % 16) = .ok (hexDigit (c.toNat % 16)) := by
  decide +kernel

/-- The part of the loop body after the line break. -/
theorem encodeQpLoop_tail (fuel : Nat) (pre : Bytes) (l : Nat) (c : UInt8) (s : Bytes)
    (ih : ∀ pre l, s.length < fuel → encodeQpLoop fuel (pre ++ s) pre.length l = .ok (pre ++ qpEncode l s))
    (ih2 : ∀ pre l s', s'.length < fuel → s = 10 :: s' →
      encodeQpLoop fuel (pre ++ s') pre.length l = .ok (pre ++ qpEncode l s'))
    (hs : s.length < fuel) (hl : l < 72) :
    (if litteralReprPossible c then encodeQpLoop fuel (pre ++ c :: s) (pre.length + 1) (l + 1)
      else if (c == 9 || c == 32) &&
          ((pre ++ c :: s)[pre.length + 1]?.map (fun c => c != 13)).getD false then
        encodeQpLoop fuel (pre ++ c :: s) (pre.length + 1) (l + 1)
      else if c == 13 && (pre ++ c :: s)[pre.length + 1]? == some 10 then
        encodeQpLoop fuel (pre ++ c :: s) (pre.length + 2) 0
      else do
        let (_, data) ← vecRemove (pre ++ c :: s) pre.length
        let low ← toHex (c % 16)
        let data ← vecInsert data pre.length low
        let high ← toHex ((c - c % 16) / 16)
        let data ← vecInsert data pre.length high
        let data ← vecInsert data pre.length 61
        encodeQpLoop fuel data (pre.length + 3) (l + 3)) = .ok (pre ++ qpEncode l (c :: s)) := by
  have e1 : ∀ l', encodeQpLoop fuel (pre ++ c :: s) (pre.length + 1) l' =
      .ok (pre ++ c :: qpEncode l' s) := by
    intro l'
    have := ih (pre ++ [c]) l' hs
    simpa using this
  rw [getElem?_prefix_add]
  simp only [List.getElem?_cons_succ, ← List.head?_eq_getElem?]
  have hl' : ¬ l ≥ 72 := by omega
  by_cases h1 : litteralReprPossible c = true
  · rw [if_pos h1, e1]
    simp [qpEncode_cons, h1, hl']
  rw [if_neg h1]
  by_cases h2 : ((c == 9 || c == 32) && (s.head?.map (fun d => d != 13)).getD false) = true
  · rw [if_pos h2, e1]
    simp only [qpEncode_cons, if_neg h1, if_pos h2, if_neg hl', List.nil_append]
  rw [if_neg h2]
  by_cases h3 : c = 13 ∧ s.head? = some 10
  · obtain ⟨rfl, hs10⟩ := h3
    match s, hs10 with
    | b :: s', hs10 =>
      simp only [List.head?_cons, Option.some.injEq] at hs10
      subst hs10
      have := ih2 (pre ++ [13, 10]) 0 s' (by simp at hs; omega) rfl
      simp only [List.head?_cons, beq_self_eq_true, Bool.and_self, if_true]
      simp only [qpEncode_cons, if_neg h1, if_neg h2, if_neg hl', List.nil_append]
      simpa using this
  · rw [if_neg (by simpa using h3)]
    simp only [vecRemove_prefix, toHex_high, toHex_low, vecInsert_prefix, ok_bind]
    have := ih (pre ++ escape c) (l + 3) hs
    simp only [qpEncode_cons, if_neg h1, if_neg h2, if_neg hl', List.nil_append]
    split
    · simp_all
    · simpa [escape] using this

theorem encodeQpLoop_eq : ∀ (fuel : Nat) (pre s : Bytes) (l : Nat), s.length < fuel →
    encodeQpLoop fuel (pre ++ s) pre.length l = .ok (pre ++ qpEncode l s)
  | 0, _, _, _, h => by omega
  | fuel + 1, pre, [], l, h => by simp [encodeQpLoop, qpEncode]
  | fuel + 1, pre, c :: s, l, h => by
    have hs : s.length < fuel := by simpa using h
    have tail := fun pre l hl => encodeQpLoop_tail fuel pre l c s
      (fun pre l h => encodeQpLoop_eq fuel pre s l h)
      (fun pre l s' h _ => encodeQpLoop_eq fuel pre s' l h) hs hl
    unfold encodeQpLoop
    rw [getElem?_prefix]
    simp only [List.head?_cons]
    by_cases hl : l ≥ 72
    · simp only [if_pos hl, vecInsert_prefix, ok_bind]
      have := tail (pre ++ [61, 13, 10]) 0 (by omega)
      have e : qpEncode l (c :: s) = [61, 13, 10] ++ qpEncode 0 (c :: s) := by
        simp only [qpEncode_cons, if_pos hl, if_neg (show ¬ 0 ≥ 72 by omega), List.nil_append]
        split
        · rfl
        · split
          · rfl
          · split
            · simp_all
            · simp_all
      rw [e]
      simpa using this
    · simp only [if_neg hl, ok_bind]
      exact tail pre l (by omega)

theorem encodeQp_eq (data : Bytes) : encodeQp data = .ok (qpEncode 0 data) := by
  have := encodeQpLoop_eq (data.length + 1) [] data 0 (by omega)
  simpa [encodeQp] using this

theorem decodeQp_eq (data : Bytes) : decodeQp data = .ok (qpDecode data) := by
  have := decodeQpLoop_eq (data.length + 1) [] data (by omega)
  simpa [decodeQp] using this

end EmailParser
