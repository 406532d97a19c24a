import Verif.Proofs.Base64
/-
The base64 encoder refines the specification; round trip.
-/
namespace EmailParser
open Spec

theorem getUnchecked_base64Map {n : Nat} (h : n < 64) :
    getUnchecked base64Map n = .ok (b64Char n) := by
  have : ∀ n : Fin 64, getUnchecked base64Map n = .ok (b64Char n) := by decide +kernel
  exact this ⟨n, h⟩

theorem enc1 : ∀ x : UInt8, ((0b11111100 &&& x) >>> 2).toNat = x.toNat / 4 := by decide +kernel
theorem enc2a : ∀ x : UInt8, ((0b00000011 &&& x) <<< 4).toNat = x.toNat % 4 * 16 := by
  decide +kernel
theorem enc2b : ∀ x : UInt8, ((0b11110000 &&& x) >>> 4).toNat = x.toNat / 16 := by decide +kernel
theorem enc3a : ∀ x : UInt8, ((0b00001111 &&& x) <<< 2).toNat = x.toNat % 16 * 4 := by
  decide +kernel
theorem enc3b : ∀ x : UInt8, ((0b11000000 &&& x) >>> 6).toNat = x.toNat / 64 := by decide +kernel
theorem enc4 : ∀ x : UInt8, (0b00111111 &&& x).toNat = x.toNat % 64 := by decide +kernel

theorem addU8_eq {a b : UInt8} (h : a.toNat + b.toNat < 256) :
    ∃ c, addU8 a b = .ok c ∧ c.toNat = a.toNat + b.toNat :=
  ⟨a + b, by simp [addU8, h], by rw [UInt8.toNat_add]; omega⟩

/-- Line breaking when `l` characters of the current line have been written. -/
def breakFrom (l : Nat) (s : Bytes) : Bytes :=
  if s = [] then []
  else if 72 ≤ l then [13, 10] ++ breakLines 72 s
  else if s.length ≤ 72 - l then s
  else s.take (72 - l) ++ [13, 10] ++ breakLines 72 (s.drop (72 - l))

theorem breakFrom_zero (s : Bytes) : breakFrom 0 s = breakLines 72 s := by
  rw [breakLines]
  by_cases h : s = []
  · simp [breakFrom, h]
  · by_cases h2 : s.length ≤ 72 <;> simp [breakFrom, h, h2]

theorem breakFrom_72 {s : Bytes} (h : s ≠ []) {l : Nat} (hl : 72 ≤ l) :
    breakFrom l s = [13, 10] ++ breakFrom 0 s := by
  rw [breakFrom_zero]; simp [breakFrom, h, hl]

theorem breakFrom_append {l : Nat} (hl : l + 4 ≤ 72) {q s : Bytes} (hq : q.length = 4) :
    breakFrom l (q ++ s) = q ++ breakFrom (l + 4) s := by
  have hne : q ++ s ≠ [] := by
    intro h; simp at h; simp [h.1] at hq
  rw [breakFrom, if_neg hne, if_neg (by omega)]
  by_cases hs : s = []
  · subst hs
    simp [breakFrom, hq, show 4 ≤ 72 - l by omega]
  by_cases h72 : l + 4 = 72
  · have : l = 68 := by omega
    subst this
    have hpos : 0 < s.length := List.length_pos_iff.mpr hs
    rw [if_neg (by simp; omega), breakFrom, if_neg hs, if_pos (by omega)]
    rw [show 72 - 68 = q.length by omega]
    simp
  · have e : breakFrom (l + 4) s = if s.length ≤ 72 - (l + 4) then s
        else s.take (72 - (l + 4)) ++ [13, 10] ++ breakLines 72 (s.drop (72 - (l + 4))) := by
      rw [breakFrom, if_neg hs, if_neg (by omega)]
    rw [e]
    by_cases h : s.length ≤ 72 - (l + 4)
    · rw [if_pos (by simp; omega), if_pos h]
    · rw [if_neg (by simp; omega), if_neg h]
      rw [show 72 - l = q.length + (72 - (l + 4)) by omega]
      simp [List.take_append, List.drop_append, List.take_of_length_le, List.drop_of_length_le]

theorem b64Encode_ne_nil {s : Bytes} (h : s ≠ []) : b64Encode s ≠ [] := by
  match s with
  | [] => exact absurd rfl h
  | [x] => simp [b64Encode]
  | [x, y] => simp [b64Encode]
  | x :: y :: z :: r => simp [b64Encode]

theorem encodeBase64Loop_eq : ∀ (l : Nat) (data : Bytes), l % 4 = 0 → l ≤ 72 →
    encodeBase64Loop l data = .ok (breakFrom l (b64Encode data))
  | l, [], h4, hl => by simp [encodeBase64Loop, b64Encode, breakFrom]
  | l, x :: y :: z :: rest, h4, hl => by
    have hx := x.toNat_lt
    have hy := y.toNat_lt
    have hz := z.toNat_lt
    obtain ⟨c2, e2, v2⟩ := addU8_eq (a := (0b00000011 &&& x) <<< 4) (b := (0b11110000 &&& y) >>> 4)
      (by rw [enc2a, enc2b]; omega)
    obtain ⟨c3, e3, v3⟩ := addU8_eq (a := (0b00001111 &&& y) <<< 2) (b := (0b11000000 &&& z) >>> 6)
      (by rw [enc3a, enc3b]; omega)
    rw [enc2a, enc2b] at v2
    rw [enc3a, enc3b] at v3
    have g1 := getUnchecked_base64Map (n := ((0b11111100 &&& x) >>> 2).toNat)
      (by rw [enc1]; omega)
    have g2 := getUnchecked_base64Map (n := c2.toNat) (by omega)
    have g3 := getUnchecked_base64Map (n := c3.toNat) (by omega)
    have g4 := getUnchecked_base64Map (n := (0b00111111 &&& z).toNat) (by rw [enc4]; omega)
    rw [enc1] at g1
    rw [enc4] at g4
    have hq : b64Encode (x :: y :: z :: rest) =
        [b64Char (x.toNat / 4), b64Char c2.toNat, b64Char c3.toNat, b64Char (z.toNat % 64)]
          ++ b64Encode rest := by
      have i1 : ((x.toNat * 256 + y.toNat) * 256 + z.toNat) / 262144 = x.toNat / 4 := by omega
      have i2 : ((x.toNat * 256 + y.toNat) * 256 + z.toNat) / 4096 % 64 = c2.toNat := by omega
      have i3 : ((x.toNat * 256 + y.toNat) * 256 + z.toNat) / 64 % 64 = c3.toNat := by omega
      have i4 : ((x.toNat * 256 + y.toNat) * 256 + z.toNat) % 64 = z.toNat % 64 := by omega
      simp only [b64Encode, i1, i2, i3, i4]
    rw [hq]
    by_cases h : 72 ≤ l
    · rw [breakFrom_72 (by simp) h, breakFrom_append (by omega) rfl]
      simp only [encodeBase64Loop, e2, e3, ok_bind, h, if_true, enc1, enc4, g1, g2, g3, g4]
      rw [encodeBase64Loop_eq (0 + 4) rest (by omega) (by omega)]
      simp
    · rw [breakFrom_append (by omega) rfl]
      simp only [encodeBase64Loop, e2, e3, ok_bind, h, if_false, enc1, enc4, g1, g2, g3, g4]
      rw [encodeBase64Loop_eq (l + 4) rest (by omega) (by omega)]
      simp
  | l, [x, y], h4, hl => by
    have hx := x.toNat_lt
    have hy := y.toNat_lt
    obtain ⟨c2, e2, v2⟩ := addU8_eq (a := (0b00000011 &&& x) <<< 4) (b := (0b11110000 &&& y) >>> 4)
      (by rw [enc2a, enc2b]; omega)
    rw [enc2a, enc2b] at v2
    have g1 := getUnchecked_base64Map (n := ((0b11111100 &&& x) >>> 2).toNat)
      (by rw [enc1]; omega)
    have g2 := getUnchecked_base64Map (n := c2.toNat) (by omega)
    have g3 := getUnchecked_base64Map (n := ((0b00001111 &&& y) <<< 2).toNat) (by rw [enc3a]; omega)
    rw [enc1] at g1
    rw [enc3a] at g3
    have hq : b64Encode [x, y] =
        [b64Char (x.toNat / 4), b64Char c2.toNat, b64Char (y.toNat % 16 * 4), 61] ++ [] := by
      have i1 : (x.toNat * 256 + y.toNat) * 4 / 4096 = x.toNat / 4 := by omega
      have i2 : (x.toNat * 256 + y.toNat) * 4 / 64 % 64 = c2.toNat := by omega
      have i3 : (x.toNat * 256 + y.toNat) * 4 % 64 = y.toNat % 16 * 4 := by omega
      simp only [b64Encode, i1, i2, i3, List.append_nil]
    rw [hq]
    by_cases h : 72 ≤ l
    · rw [breakFrom_72 (by simp) h, breakFrom_append (by omega) rfl]
      simp only [encodeBase64Loop, e2, ok_bind, h, if_true, enc1, enc3a, g1, g2, g3]
      simp [breakFrom]
    · rw [breakFrom_append (by omega) rfl]
      simp only [encodeBase64Loop, e2, ok_bind, h, if_false, enc1, enc3a, g1, g2, g3]
      simp [breakFrom]
  | l, [x], h4, hl => by
    have hx := x.toNat_lt
    have g1 := getUnchecked_base64Map (n := ((0b11111100 &&& x) >>> 2).toNat)
      (by rw [enc1]; omega)
    have g2 := getUnchecked_base64Map (n := ((0b00000011 &&& x) <<< 4).toNat) (by rw [enc2a]; omega)
    rw [enc1] at g1
    rw [enc2a] at g2
    have hq : b64Encode [x] =
        [b64Char (x.toNat / 4), b64Char (x.toNat % 4 * 16), 61, 61] ++ [] := by
      have i1 : x.toNat * 16 / 64 = x.toNat / 4 := by omega
      have i2 : x.toNat * 16 % 64 = x.toNat % 4 * 16 := by omega
      simp only [b64Encode, i1, i2, List.append_nil]
    rw [hq]
    by_cases h : 72 ≤ l
    · rw [breakFrom_72 (by simp) h, breakFrom_append (by omega) rfl]
      simp only [encodeBase64Loop, ok_bind, h, if_true, enc1, enc2a, g1, g2]
      simp [breakFrom]
    · rw [breakFrom_append (by omega) rfl]
      simp only [encodeBase64Loop, ok_bind, h, if_false, enc1, enc2a, g1, g2]
      simp [breakFrom]

theorem encodeBase64_eq (data : Bytes) : encodeBase64 data = .ok (breakLines 72 (b64Encode data)) := by
  rw [encodeBase64, encodeBase64Loop_eq 0 data (by omega) (by omega), breakFrom_zero]

/-! ### Round trip -/

theorem b64Tokens_append (s t : Bytes) : b64Tokens (s ++ t) = b64Tokens s ++ b64Tokens t := by
  simp [b64Tokens]

theorem b64Tokens_char {n : Nat} (h : n < 64) : b64Tokens [b64Char n] = [.value n] := by
  have : ∀ n : Fin 64, b64Tokens [b64Char n] = [.value n] := by decide +kernel
  exact this ⟨n, h⟩

theorem b64Tokens_cons_char {n : Nat} (h : n < 64) (s : Bytes) :
    b64Tokens (b64Char n :: s) = .value n :: b64Tokens s := by
  rw [show b64Char n :: s = [b64Char n] ++ s from rfl, b64Tokens_append, b64Tokens_char h]; rfl

theorem b64Tokens_breakLines (n : Nat) (s : Bytes) : b64Tokens (breakLines n s) = b64Tokens s := by
  rw [breakLines]
  split
  · rfl
  · rename_i h
    rw [b64Tokens_append, b64Tokens_append, b64Tokens_breakLines n (s.drop n)]
    have : b64Tokens [13, 10] = [] := by decide +kernel
    rw [this, List.append_nil, ← b64Tokens_append, List.take_append_drop]
termination_by s.length
decreasing_by simp; omega

theorem ofNat_eq {n : Nat} {x : UInt8} (h : n = x.toNat) : UInt8.ofNat n = x := by
  subst h; simp

theorem b64Decode_encode : ∀ data : Bytes, b64Decode .start (b64Tokens (b64Encode data)) = .ok data
  | [] => rfl
  | [x] => by
    have hx := x.toNat_lt
    have h1 : x.toNat * 16 / 64 < 64 := by omega
    have h2 : x.toNat * 16 % 64 < 64 := by omega
    simp only [b64Encode, b64Tokens_cons_char h1, b64Tokens_cons_char h2, b64Tokens_cons_pad,
      b64Tokens_nil, b64Decode, ok_bind, bytesOf2]
    simp only [List.append_nil]
    congr 2
    apply ofNat_eq; omega
  | [x, y] => by
    have hx := x.toNat_lt
    have hy := y.toNat_lt
    have h1 : (x.toNat * 256 + y.toNat) * 4 / 4096 < 64 := by omega
    have h2 : (x.toNat * 256 + y.toNat) * 4 / 64 % 64 < 64 := by omega
    have h3 : (x.toNat * 256 + y.toNat) * 4 % 64 < 64 := by omega
    simp only [b64Encode, b64Tokens_cons_char h1, b64Tokens_cons_char h2, b64Tokens_cons_char h3,
      b64Tokens_cons_pad, b64Tokens_nil, b64Decode, ok_bind, bytesOf3]
    simp only [List.append_nil]
    congr 2
    · apply ofNat_eq; omega
    · congr 1; apply ofNat_eq; omega
  | x :: y :: z :: rest => by
    have hx := x.toNat_lt
    have hy := y.toNat_lt
    have hz := z.toNat_lt
    have h1 : ((x.toNat * 256 + y.toNat) * 256 + z.toNat) / 262144 < 64 := by omega
    have h2 : ((x.toNat * 256 + y.toNat) * 256 + z.toNat) / 4096 % 64 < 64 := by omega
    have h3 : ((x.toNat * 256 + y.toNat) * 256 + z.toNat) / 64 % 64 < 64 := by omega
    have h4 : ((x.toNat * 256 + y.toNat) * 256 + z.toNat) % 64 < 64 := by omega
    simp only [b64Encode, List.cons_append, List.nil_append, b64Tokens_cons_char h1,
      b64Tokens_cons_char h2, b64Tokens_cons_char h3, b64Tokens_cons_char h4, b64Decode,
      b64Decode_encode rest, ok_bind, bytesOf4]
    congr 2
    · apply ofNat_eq; omega
    · congr 1
      · apply ofNat_eq; omega
      · congr 1; apply ofNat_eq; omega

end EmailParser
