import Verif.Model.Basic
/-
UTF-8 as defined by RFC 3629: encodings of Unicode scalar values.
-/
namespace EmailParser.Spec

/-- A Unicode scalar value: a code point that is not a surrogate. -/
def Scalar (n : Nat) : Prop := n < 0xD800 ∨ (0xE000 ≤ n ∧ n < 0x110000)

/-- RFC 3629 3: the encoding of one code point. -/
def utf8Encode (n : Nat) : Bytes :=
  if n < 0x80 then [UInt8.ofNat n]
  else if n < 0x800 then [UInt8.ofNat (0xC0 + n / 64), UInt8.ofNat (0x80 + n % 64)]
  else if n < 0x10000 then
    [UInt8.ofNat (0xE0 + n / 4096), UInt8.ofNat (0x80 + n / 64 % 64), UInt8.ofNat (0x80 + n % 64)]
  else
    [UInt8.ofNat (0xF0 + n / 262144), UInt8.ofNat (0x80 + n / 4096 % 64),
      UInt8.ofNat (0x80 + n / 64 % 64), UInt8.ofNat (0x80 + n % 64)]

/-- A sequence of encoded scalar values. -/
def Utf8 (s : Bytes) : Prop := ∃ cs : List Nat, (∀ n ∈ cs, Scalar n) ∧ s = cs.flatMap utf8Encode

end EmailParser.Spec
