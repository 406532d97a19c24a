import Verif.Proofs.Base64Encode
/-
C30, C31, C32: base64.
-/
namespace EmailParser
open Spec

/-! ### C31: the in-place decoder is the streaming decoder -/

/-- `decode_base64`, which overwrites the buffer it is reading, computes for every input exactly what
the streaming specification computes, including which error. -/
theorem C31_base64_decoder_refines_spec (data : Bytes) :
    decodeBase64 data = b64Decode .start (b64Tokens data) :=
  decodeBase64_eq data

/-- The number of characters of the alphabet in a text. -/
def alphabetCount (s : Bytes) : Nat := s.countP (alphabet.contains ·)

/-- The number of values read of the current group. -/
def B64State.pending : B64State → Nat
  | .start => 0
  | .one _ => 1
  | .two _ _ => 2
  | .twoPad _ _ => 2
  | .three _ _ _ => 3

theorem b64Decode_length : ∀ (st : B64State) (ts : List B64Token) (out : Bytes),
    b64Decode st ts = .ok out →
    4 * out.length ≤ 3 * (B64State.pending st + ts.countP (· matches .value _)) := by
  intro st ts
  induction ts generalizing st with
  | nil =>
    intro out h
    cases st <;> simp [b64Decode] at h
    subst h; simp
  | cons t ts ih =>
    intro out h
    cases st <;> cases t <;> simp only [b64Decode, reduceCtorEq] at h
    all_goals first
      | (have := ih _ _ h; simp [B64State.pending] at this ⊢; omega)
      | (obtain ⟨rest, h1, h2⟩ := bind_eq_ok.mp h
         have := ih _ _ h1
         simp only [Outcome.ok.injEq] at h2
         subst h2
         simp [B64State.pending, bytesOf2, bytesOf3, bytesOf4] at this ⊢
         omega)

/-- The decoded text is at most three quarters of the encoded characters: decoding in place always
has room. -/
theorem C31_base64_decoded_length (data out : Bytes) (h : decodeBase64 data = .ok out) :
    4 * out.length ≤ 3 * alphabetCount data := by
  rw [decodeBase64_eq] at h
  have h1 := b64Decode_length _ _ _ h
  have h2 : (b64Tokens data).countP (· matches .value _) = alphabetCount data := by
    unfold b64Tokens alphabetCount
    rw [List.countP_filterMap]
    congr 1
    funext c
    revert c
    decide +kernel
  simp only [h2, B64State.pending] at h1
  omega

example : decodeBase64 (b! "VGhh dCdz\r\nIGE=") = .ok (b! "That's a") := by decide +kernel
example : decodeBase64 (b! "VGhhdCdzIGE") = .err (.unknown "Missing at least 1 byte") := by
  decide +kernel
example : alphabetCount (b! "VGhh\r\ndCdzIGE=") = 11 := by decide +kernel

/-! ### C30: round trip -/

/-- Decoding what the encoder returns gives the original data, for every data. -/
theorem C30_base64_round_trip (data : Bytes) :
    ∃ encoded, encodeBase64 data = .ok encoded ∧ decodeBase64 encoded = .ok data := by
  refine ⟨_, encodeBase64_eq data, ?_⟩
  rw [decodeBase64_eq, b64Tokens_breakLines, b64Decode_encode]

/-- The same with any other bytes inserted in the encoded text at any place: all that matters are the
characters of the alphabet and the padding characters. -/
theorem C30_base64_round_trip_noise (data noisy encoded : Bytes)
    (h : encodeBase64 data = .ok encoded)
    (hn : noisy.filter (fun c => c == 61 || alphabet.contains c) =
      encoded.filter (fun c => c == 61 || alphabet.contains c)) :
    decodeBase64 noisy = .ok data := by
  obtain ⟨encoded', h', hd⟩ := C30_base64_round_trip data
  rw [h] at h'
  cases h'
  have key : ∀ s : Bytes, b64Tokens s =
      b64Tokens (s.filter fun c => c == 61 || alphabet.contains c) := by
    have hc : ∀ c : UInt8, ¬(c == 61 || alphabet.contains c) = true →
        (if c = 61 then some .pad else (sextet? c).map B64Token.value) = none := by
      decide +kernel
    intro s
    induction s with
    | nil => rfl
    | cons c s ih =>
      by_cases hcond : (c == 61 || alphabet.contains c) = true
      · rw [List.filter_cons_of_pos (by exact hcond)]
        simp only [b64Tokens, List.filterMap_cons] at ih ⊢
        rw [ih]
      · rw [List.filter_cons_of_neg (by exact hcond), ← ih]
        simp only [b64Tokens, List.filterMap_cons, hc c hcond]
  rw [decodeBase64_eq] at hd ⊢
  rw [key, hn, ← key, hd]

example : encodeBase64 (b! "That's a") = .ok (b! "VGhhdCdzIGE=") := by decide +kernel
example : (b! "VGhh -- dC\r\ndzIGE=").filter (fun c => c == 61 || alphabet.contains c) =
    (b! "VGhhdCdzIGE=").filter (fun c => c == 61 || alphabet.contains c) := by decide +kernel

/-! ### C32: shape of the encoder's output -/

theorem breakLines_lines (s : Bytes) : ∃ lines, breakLines 72 s = [13, 10].intercalate lines ∧
    lines ≠ [] ∧ (∀ l ∈ lines, l.length ≤ 72) ∧ (∀ l ∈ lines.dropLast, l.length = 72) ∧
    lines.flatten = s := by
  rw [breakLines]
  split
  · rename_i h
    exact ⟨[s], by simp [List.intercalate, List.intersperse], by simp, by simpa using h,
      by simp, by simp⟩
  · rename_i h
    obtain ⟨lines, e, hne, h1, h2, h3⟩ := breakLines_lines (s.drop 72)
    refine ⟨s.take 72 :: lines, ?_, by simp, ?_, ?_, ?_⟩
    · obtain ⟨l, ls, rfl⟩ := List.exists_cons_of_ne_nil hne
      rw [e]
      simp [List.intercalate, List.intersperse]
    · intro l hl
      rcases List.mem_cons.mp hl with rfl | hl
      · simp; omega
      · exact h1 l hl
    · intro l hl
      rw [List.dropLast_cons_of_ne_nil hne] at hl
      rcases List.mem_cons.mp hl with rfl | hl
      · simp; omega
      · exact h2 l hl
    · simp [h3]
termination_by s.length
decreasing_by simp; omega

theorem b64Char_mem {n : Nat} (h : n < 64) : alphabet.contains (b64Char n) = true := by
  have : ∀ n : Fin 64, alphabet.contains (b64Char n) = true := by decide +kernel
  exact this ⟨n, h⟩

theorem b64Encode_shape : ∀ data : Bytes, (b64Encode data).length = 4 * ((data.length + 2) / 3) ∧
    ∃ body pad, b64Encode data = body ++ pad ∧ (∀ c ∈ body, alphabet.contains c = true) ∧
      pad = List.replicate ((3 - data.length % 3) % 3) 61
  | [] => ⟨rfl, [], [], rfl, by simp, rfl⟩
  | [x] => by
    have hx := x.toNat_lt
    refine ⟨by simp [b64Encode], [_, _], [61, 61], rfl, ?_, rfl⟩
    simp only [List.mem_cons, List.not_mem_nil, or_false]
    rintro c (rfl | rfl) <;> exact b64Char_mem (by omega)
  | [x, y] => by
    have hx := x.toNat_lt
    have hy := y.toNat_lt
    refine ⟨by simp [b64Encode], [_, _, _], [61], rfl, ?_, rfl⟩
    simp only [List.mem_cons, List.not_mem_nil, or_false]
    rintro c (rfl | rfl | rfl) <;> exact b64Char_mem (by omega)
  | x :: y :: z :: rest => by
    have hx := x.toNat_lt
    have hy := y.toNat_lt
    have hz := z.toNat_lt
    obtain ⟨hl, body, pad, e, hb, hp⟩ := b64Encode_shape rest
    generalize hn : (x.toNat * 256 + y.toNat) * 256 + z.toNat = n
    have e' : b64Encode (x :: y :: z :: rest) =
        [b64Char (n / 262144), b64Char (n / 4096 % 64), b64Char (n / 64 % 64), b64Char (n % 64)]
          ++ b64Encode rest := by rw [b64Encode, hn]
    refine ⟨?_, [b64Char (n / 262144), b64Char (n / 4096 % 64), b64Char (n / 64 % 64),
      b64Char (n % 64)] ++ body, pad, ?_, ?_, ?_⟩
    rotate_left
    · rw [e', e, List.append_assoc]
    · intro c hc
      rcases List.mem_append.mp hc with hc | hc
      · revert hc
        simp only [List.mem_cons, List.not_mem_nil, or_false]
        rintro (rfl | rfl | rfl | rfl) <;> exact b64Char_mem (by omega)
      · exact hb c hc
    · rw [hp]; congr 1; simp; omega
    · simp only [e', List.length_append, hl, List.length_cons, List.length_nil]
      omega

/-- The encoder returns lines of at most 72 characters (all but the last of exactly 72) separated by
CRLF; without the separators the text has `4 * ⌈n / 3⌉` characters, all of the base64 alphabet except
for the padding at the very end, of 0, 1 or 2 characters according to `n mod 3`. -/
theorem C32_base64_encoder_shape (data : Bytes) :
    ∃ lines, encodeBase64 data = .ok ([13, 10].intercalate lines) ∧
      (∀ l ∈ lines, l.length ≤ 72) ∧ (∀ l ∈ lines.dropLast, l.length = 72) ∧
      lines.flatten.length = 4 * ((data.length + 2) / 3) ∧
      ∃ body, lines.flatten = body ++ List.replicate ((3 - data.length % 3) % 3) 61 ∧
        ∀ c ∈ body, alphabet.contains c = true := by
  obtain ⟨lines, e, _, h1, h2, h3⟩ := breakLines_lines (b64Encode data)
  obtain ⟨hl, body, pad, e', hb, hp⟩ := b64Encode_shape data
  refine ⟨lines, by rw [encodeBase64_eq, e], h1, h2, by rw [h3, hl], body, by rw [h3, e', hp], hb⟩

/-- The encoder computes standard base64, broken into lines of 72 characters. -/
theorem C32_base64_encoder_refines_spec (data : Bytes) :
    encodeBase64 data = .ok (breakLines 72 (b64Encode data)) :=
  encodeBase64_eq data

example : (encodeBase64 (List.replicate 55 120)) =
    .ok (List.flatten (List.replicate 18 (b! "eHh4")) ++ [13, 10] ++ b! "eA==") := by
  decide +kernel

end EmailParser
