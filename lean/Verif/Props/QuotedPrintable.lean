import Verif.Proofs.QuotedPrintable
/-
C33, C34, C35, C36: quoted-printable.
-/
namespace EmailParser
open Spec

/-! ### C34: the in-place decoders are the streaming decoders -/

/-- `decode_qp` never fails and computes, for every input, what the left-to-right specification
computes. -/
theorem C34_qp_decoder_refines_spec (data : Bytes) : decodeQp data = .ok (qpDecode data) :=
  decodeQp_eq data

/-- Likewise for `decode_header_qp` and the "Q" encoding. -/
theorem C34_header_qp_decoder_refines_spec (data : Bytes) :
    decodeHeaderQp data = .ok (qDecode data) :=
  decodeHeaderQp_eq data

example : decodeQp (b! "a=3D41=\r\nb=ZZc \r\n=") = .ok (b! "a=41b�c \r\n=") := by decide +kernel
example : decodeHeaderQp (b! "a_=5Fb=") = .ok (b! "a _b=") := by decide +kernel

/-! ### C33: round trip -/

theorem hexByte?_hexDigits (c : UInt8) :
    hexByte? (hexDigit (c.toNat / 16)) (hexDigit (c.toNat % 16)) = some c := by
  revert c; decide +kernel

theorem hexDigit_ne_cr (c : UInt8) : hexDigit (c.toNat / 16) ≠ 13 := by
  revert c; decide +kernel

theorem qpDecode_escape_eq (c : UInt8) (s : Bytes) : qpDecode (escape c ++ s) = c :: qpDecode s := by
  simp only [escape, List.cons_append, List.nil_append]
  rw [qpDecode_escape s (fun h => hexDigit_ne_cr c h.1), hexByte?_hexDigits]

theorem qpDecode_soft (l : Nat) (s : Bytes) :
    qpDecode ((if l ≥ 72 then [61, 13, 10] else []) ++ s) = qpDecode s := by
  split
  · rw [show [61, 13, 10] ++ s = 61 :: 13 :: 10 :: s from rfl]
    simp [qpDecode]
  · rfl

theorem qpDecode_qpEncode (s : Bytes) : ∀ l, qpDecode (qpEncode l s) = s := by
  match s with
  | [] => intro l; rfl
  | c :: s =>
    intro l
    rw [qpEncode_cons]
    have lit : ∀ l', qpLiteral c = true →
        qpDecode ((if l ≥ 72 then [61, 13, 10] else []) ++ c :: qpEncode l' s) = c :: s := by
      intro l' h
      rw [qpDecode_soft, qpDecode_literal _ h, qpDecode_qpEncode s]
    split
    · exact lit _ (by rw [qpLiteral_eq]; simp_all)
    · split
      · rename_i h
        refine lit _ ?_
        rw [qpLiteral_eq]
        simp only [Bool.and_eq_true, Bool.or_eq_true] at h
        rcases h.1 with h | h <;> simp [h]
      · split
        · rw [qpDecode_soft, qpDecode, qpDecode_qpEncode]
        · rw [qpDecode_soft, qpDecode_escape_eq, qpDecode_qpEncode]
termination_by s.length

/-- Decoding what the encoder returns gives the original data, for every data. -/
theorem C33_qp_round_trip (data : Bytes) :
    ∃ encoded, encodeQp data = .ok encoded ∧ decodeQp encoded = .ok data :=
  ⟨_, encodeQp_eq data, by rw [decodeQp_eq, qpDecode_qpEncode]⟩

example : encodeQp (b! "é = \r\n \t") = .ok (b! "=C3=A9 =3D=20\r\n =09") := by decide +kernel

/-! ### C35: shape of the encoder's output -/

/-- A line of a quoted-printable text as RFC 2045 wants it: at most 76 characters, printable ASCII,
space and tab only, no white space at the end. -/
def QpLine (l : Bytes) : Prop :=
  l.length ≤ 76 ∧ (∀ c ∈ l, (33 ≤ c ∧ c ≤ 126) ∨ c = 32 ∨ c = 9) ∧
    l.getLast? ≠ some 32 ∧ l.getLast? ≠ some 9

/-- The invariant behind C35: `n` characters of the current line have been written. -/
def QpFirst (n : Nat) (s l : Bytes) : Prop :=
  n + l.length ≤ 75 ∧ (∀ c ∈ l, (33 ≤ c ∧ c ≤ 126) ∨ c = 32 ∨ c = 9) ∧
    l.getLast? ≠ some 32 ∧ l.getLast? ≠ some 9 ∧
    (∀ c, s.head? = some c → c ≠ 13 → l ≠ [])

theorem litteral_range {c : UInt8} (h : litteralReprPossible c = true) : 33 ≤ c ∧ c ≤ 126 := by
  have : ∀ c : UInt8, litteralReprPossible c = true → 33 ≤ c ∧ c ≤ 126 := by decide +kernel
  exact this c h

theorem escape_range (c : UInt8) : ∀ d ∈ escape c, 33 ≤ d ∧ d ≤ 126 := by
  have : ∀ c : UInt8, (escape c).all (fun d => 33 ≤ d && d ≤ 126) = true := by decide +kernel
  have := this c
  simpa using this

theorem intercalate_cons_cons (sep l m : Bytes) (ls : List Bytes) :
    sep.intercalate (l :: m :: ls) = l ++ sep ++ sep.intercalate (m :: ls) := by
  simp [List.intercalate, List.intersperse]

theorem intercalate_append_head (sep a l : Bytes) (ls : List Bytes) :
    sep.intercalate ((a ++ l) :: ls) = a ++ sep.intercalate (l :: ls) := by
  cases ls <;> simp [List.intercalate, List.intersperse]

theorem QpFirst.line {n : Nat} {s l : Bytes} (h : QpFirst n s l) : QpLine l :=
  ⟨by have := h.1; omega, h.2.1, h.2.2.1, h.2.2.2.1⟩

theorem qpEncode_lines (s : Bytes) : ∀ n, n ≤ 74 →
    ∃ l ls, qpEncode n s = [13, 10].intercalate (l :: ls) ∧ QpFirst n s l ∧ ∀ m ∈ ls, QpLine m := by
  match s with
  | [] =>
    intro n hn
    refine ⟨[], [], by simp [qpEncode, List.intercalate], ⟨by simp; omega, ?_⟩, ?_⟩ <;> simp
  | c :: s =>
    intro n hn
    -- it is enough to treat the case without a soft line break
    suffices key : ∀ n, n < 72 → ∃ l ls, qpEncode n (c :: s) = [13, 10].intercalate (l :: ls) ∧
        QpFirst n (c :: s) l ∧ ∀ m ∈ ls, QpLine m by
      by_cases h : n ≥ 72
      · obtain ⟨l, ls, e, h1, h2⟩ := key 0 (by omega)
        refine ⟨[61], l :: ls, ?_, ⟨by simp; omega, ?_⟩, ?_⟩
        · have e' : qpEncode n (c :: s) = [61, 13, 10] ++ qpEncode 0 (c :: s) := by
            simp only [qpEncode_cons, if_pos h, if_neg (show ¬ 0 ≥ 72 by omega), List.nil_append]
            split
            · rfl
            · split
              · rfl
              · split <;> simp_all
          rw [e', e, intercalate_cons_cons]
          rfl
        · simp
        · intro m hm
          rcases List.mem_cons.mp hm with rfl | hm
          · exact h1.line
          · exact h2 m hm
      · exact key n (by omega)
    intro n hn'
    have hn72 : ¬ n ≥ 72 := by omega
    simp only [qpEncode_cons, if_neg hn72, List.nil_append]
    split
    · rename_i hlit
      obtain ⟨l, ls, e, h1, h2⟩ := qpEncode_lines s (n + 1) (by omega)
      obtain ⟨p1, p2, p3, p4, p5⟩ := h1
      refine ⟨c :: l, ls, ?_, ⟨by simp; omega, ?_, ?_, ?_, by simp⟩, h2⟩
      · rw [e]; exact (intercalate_append_head _ [c] _ _).symm
      · intro d hd
        rcases List.mem_cons.mp hd with rfl | hd
        · exact .inl (litteral_range hlit)
        · exact p2 d hd
      · have := litteral_range hlit
        cases l with
        | nil => simp; rintro rfl; revert this; decide
        | cons x l => simpa using p3
      · have := litteral_range hlit
        cases l with
        | nil => simp; rintro rfl; revert this; decide
        | cons x l => simpa using p4
    · split
      · rename_i hsp
        obtain ⟨l, ls, e, h1, h2⟩ := qpEncode_lines s (n + 1) (by omega)
        obtain ⟨p1, p2, p3, p4, p5⟩ := h1
        simp only [Bool.and_eq_true, Bool.or_eq_true, beq_iff_eq] at hsp
        have hl : l ≠ [] := by
          cases hh : s.head? with
          | none => simp [hh] at hsp
          | some d => exact p5 d hh (by simpa [hh] using hsp.2)
        obtain ⟨x, l', rfl⟩ := List.exists_cons_of_ne_nil hl
        refine ⟨c :: x :: l', ls, ?_, ⟨by simp at p1 ⊢; omega, ?_, by simpa using p3,
          by simpa using p4, by simp⟩, h2⟩
        · rw [e]; exact (intercalate_append_head _ [c] _ _).symm
        · intro d hd
          rcases List.mem_cons.mp hd with rfl | hd
          · exact .inr hsp.1.symm
          · exact p2 d hd
      · split
        · rename_i s' _ _
          obtain ⟨l, ls, e, h1, h2⟩ := qpEncode_lines s' 0 (by omega)
          refine ⟨[], l :: ls, ?_, ⟨by simp; omega, by simp⟩, ?_⟩
          · rw [e, intercalate_cons_cons]; rfl
          · intro m hm
            rcases List.mem_cons.mp hm with rfl | hm
            · exact h1.line
            · exact h2 m hm
        · obtain ⟨l, ls, e, h1, h2⟩ := qpEncode_lines s (n + 3) (by omega)
          obtain ⟨p1, p2, p3, p4, p5⟩ := h1
          have last : ∀ x, x = 32 ∨ x = 9 → l.getLast? ≠ some x →
              (escape c ++ l).getLast? ≠ some x := by
            intro x hx hl
            rw [List.getLast?_append]
            cases hll : l.getLast? with
            | some y => rw [hll] at hl; simpa using hl
            | none =>
              simp only [Option.none_or]
              intro hlast
              have hm := List.mem_of_getLast? hlast
              have := escape_range c x hm
              rcases hx with rfl | rfl <;> revert this <;> decide
          refine ⟨escape c ++ l, ls, ?_, ⟨?_, ?_, last 32 (.inl rfl) p3, last 9 (.inr rfl) p4,
            by simp [escape]⟩, h2⟩
          · rw [e, intercalate_append_head]
          · simp [escape]; omega
          · intro d hd
            rcases List.mem_append.mp hd with hd | hd
            · exact .inl (escape_range c d hd)
            · exact p2 d hd
termination_by s.length

/-- The encoder returns lines separated by CRLF that all satisfy the rules of RFC 2045. -/
theorem C35_qp_encoder_shape (data : Bytes) :
    ∃ lines, encodeQp data = .ok ([13, 10].intercalate lines) ∧ ∀ l ∈ lines, QpLine l := by
  obtain ⟨l, ls, e, h1, h2⟩ := qpEncode_lines data 0 (by omega)
  refine ⟨l :: ls, by rw [encodeQp_eq, e], ?_⟩
  intro m hm
  rcases List.mem_cons.mp hm with rfl | hm
  · exact h1.line
  · exact h2 m hm

example : encodeQp (List.replicate 74 32) =
    .ok (List.replicate 72 32 ++ b! "=\r\n =20") := by decide +kernel

/-! ### C36: the "Q" encoding of header text -/

/-- The "Q" encoding of any byte string decodes to it. -/
theorem C36_q_round_trip (data : Bytes) : decodeHeaderQp (qEncode data) = .ok data := by
  rw [decodeHeaderQp_eq]
  congr 1
  induction data with
  | nil => rfl
  | cons c s ih =>
    have e : qEncode (c :: s) = (if c = 32 then [95]
        else if 33 ≤ c && c ≤ 126 && c != 61 && c != 63 && c != 95 then [c] else escape c)
          ++ qEncode s := by simp [qEncode]
    rw [e]
    split
    · rename_i h; subst h
      simp [qDecode, ih]
    · split
      · rename_i h
        simp only [Bool.and_eq_true, decide_eq_true_eq, bne_iff_ne] at h
        obtain ⟨⟨⟨⟨h1, h2⟩, h3⟩, h4⟩, h5⟩ := h
        have h32 : 32 ≤ c := UInt8.le_trans (by decide) h1
        rw [List.cons_append, List.nil_append, qDecode_other _ h3 h5, if_pos (by simp [h32, h2]), ih]
      · simp only [escape, List.cons_append, List.nil_append]
        rw [qDecode_escape _ (fun h => hexDigit_ne_cr c h.1), hexByte?_hexDigits, ih]

example : qEncode (b! "é a_b?") = b! "=C3=A9_a=5Fb=3F" := by decide +kernel

end EmailParser
