import Verif.Spec.Chars
import Verif.Model.MimeFields
import Verif.Proofs.Basic
/-
C75: the character classes of the code are those of the standards.
-/
namespace EmailParser

/-- C75.  For every byte, the tests of the code agree with the classes of RFC 5234, RFC 5322, RFC 2045
and RFC 2047 as these documents define them (`Spec/Chars.lean`), mostly by exclusion: "printable
characters not including …". -/
theorem C75_classes : ∀ c : UInt8,
    isWsp c = Spec.wsp c ∧ isVchar c = Spec.vchar c ∧ isDigit c = Spec.digit c ∧
    isCtext c = Spec.ctext c ∧ isDtext c = Spec.dtext c ∧ isAtext c = Spec.atext c ∧
    isQtext c = Spec.qtext c ∧ isFtext c = Spec.ftext c ∧ isText c = Spec.text c ∧
    special c = Spec.specials.contains c ∧ tspecial c = Spec.tspecials.contains c ∧
    especials c = Spec.especials.contains c ∧ isTokenChar c = Spec.tokenChar c := by
  decide +kernel

/-- C75.  Every visible character is either a character of atoms or one of the specials, never both, and
no other byte is one of them; the letters are the bytes on which the two cases differ. -/
theorem C75_partition : ∀ c : UInt8,
    (isVchar c = true ↔ (isAtext c = true ∧ special c = false) ∨ (isAtext c = false ∧ special c = true)) ∧
    (isVchar c = false → isAtext c = false ∧ special c = false) ∧
    (isAlpha c = true ↔ asciiLower c ≠ asciiUpper c) := by
  decide +kernel

/-- C75.  A digit is read exactly from the ten characters `0` to `9`, as its value, and nothing more. -/
theorem C75_digits (c : UInt8) (rest r : Bytes) (n : Nat) :
    digit (c :: rest) = .ok (r, n) ↔ r = rest ∧ n < 10 ∧ c = UInt8.ofNat (48 + n) := by
  have h : ∀ c : UInt8, (c ≥ 48 && c ≤ 57) = true →
      c.toNat - 48 < 10 ∧ c = UInt8.ofNat (48 + (c.toNat - 48)) := by decide +kernel
  have h' : ∀ k : Fin 10, (UInt8.ofNat (48 + k.1) ≥ 48 && UInt8.ofNat (48 + k.1) ≤ 57) = true ∧
      (UInt8.ofNat (48 + k.1)).toNat - 48 = k.1 := by decide +kernel
  rw [digit]
  constructor
  · intro e
    by_cases hc : (c ≥ 48 && c ≤ 57) = true
    · rw [if_pos hc] at e; cases e; exact ⟨rfl, h c hc⟩
    · rw [if_neg hc] at e; cases e
  · rintro ⟨rfl, hn, rfl⟩
    obtain ⟨h1, h2⟩ := h' ⟨n, hn⟩
    rw [if_pos h1, h2]

/-- C75.  Two digits are read as the number they write. -/
theorem C75_twoDigits (n : Nat) (h : n < 100) (rest : Bytes) :
    twoDigits (UInt8.ofNat (48 + n / 10) :: UInt8.ofNat (48 + n % 10) :: rest) = .ok (rest, n) := by
  have key : ∀ a : Fin 10, ∀ b : Fin 10,
      (UInt8.ofNat (48 + a.1) ≥ 48 && UInt8.ofNat (48 + a.1) ≤ 57) = true ∧
      (UInt8.ofNat (48 + a.1)).toNat - 48 = a.1 ∧
      u8 (a.1 * 10) = .ok (a.1 * 10) ∧ u8 (a.1 * 10 + b.1) = .ok (a.1 * 10 + b.1) := by decide +kernel
  obtain ⟨h1, h2, h3, h4⟩ := key ⟨n / 10, by omega⟩ ⟨n % 10, by omega⟩
  obtain ⟨h5, h6, _, _⟩ := key ⟨n % 10, by omega⟩ ⟨0, by omega⟩
  simp only [twoDigits, digit, h1, h2, h3, h4, h5, h6, if_true, ok_bind]
  have : n / 10 * 10 + n % 10 = n := by omega
  rw [this]

example : isAtext 46 = false ∧ special 46 = true ∧ isAtext 61 = true ∧ tspecial 61 = true ∧
    isFtext 58 = false ∧ isText 0 = false ∧ isText 9 = true := by decide +kernel

example : twoDigits (b! "59x") = .ok (b! "x", 59) ∧ ¬ ∃ n, digit (b! ":1") = .ok (b! "1", n) := by
  exact ⟨by decide +kernel, fun ⟨_, h⟩ => nomatch h⟩

end EmailParser
