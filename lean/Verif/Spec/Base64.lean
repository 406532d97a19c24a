import Verif.Model.Basic
/-
Specification of base64 (RFC 2045, section 6.8), independent of the in-place implementation.
-/
namespace EmailParser.Spec

/-- The base64 alphabet (RFC 2045, table 1). -/
def alphabet : Bytes := b! "ABCDEFGHIJKLMNOPQRSTUVWXYZabcdefghijklmnopqrstuvwxyz0123456789+/"

/-- The 6-bit value of a character of the alphabet. -/
def sextet? (c : UInt8) : Option Nat := alphabet.idxOf? c

/-- What a decoder sees: 6-bit values and padding characters; everything else is skipped. -/
inductive B64Token where
  | value (n : Nat)
  | pad
deriving DecidableEq, Repr

/-- Tokens of an encoded text. -/
def b64Tokens (s : Bytes) : List B64Token :=
  s.filterMap fun c => if c = 61 then some .pad else (sextet? c).map .value

/-- What has been read of the current group of four characters. -/
inductive B64State where
  | start
  | one (a : Nat)
  | two (a b : Nat)
  | three (a b c : Nat)
  | twoPad (a b : Nat)
deriving DecidableEq, Repr

/-- One byte from the first two values. -/
def bytesOf2 (a b : Nat) : Bytes := [UInt8.ofNat ((a * 64 + b) / 16)]

/-- Two bytes from the first three values. -/
def bytesOf3 (a b c : Nat) : Bytes :=
  let n := ((a * 64 + b) * 64 + c) / 4
  [UInt8.ofNat (n / 256), UInt8.ofNat (n % 256)]

/-- Three bytes from four values. -/
def bytesOf4 (a b c d : Nat) : Bytes :=
  let n := ((a * 64 + b) * 64 + c) * 64 + d
  [UInt8.ofNat (n / 65536), UInt8.ofNat (n / 256 % 256), UInt8.ofNat (n % 256)]

/-- Streaming decoder.  Padding characters that begin or directly follow the first character of a
group are skipped; a group cut short by the end of the text, or by padding followed by data, is an
error. -/
def b64Decode : B64State → List B64Token → Outcome Bytes
  | .start, [] => .ok []
  | .start, .pad :: ts => b64Decode .start ts
  | .start, .value a :: ts => b64Decode (.one a) ts
  | .one _, [] => .err (.unknown "Missing at least 3 bytes")
  | .one a, .pad :: ts => b64Decode (.one a) ts
  | .one a, .value b :: ts => b64Decode (.two a b) ts
  | .two _ _, [] => .err (.unknown "Missing at least 2 bytes")
  | .two a b, .pad :: ts => b64Decode (.twoPad a b) ts
  | .two a b, .value c :: ts => b64Decode (.three a b c) ts
  | .twoPad _ _, [] => .err (.unknown "Missing at least 1 byte")
  | .twoPad a b, .pad :: ts => do
    let rest ← b64Decode .start ts
    .ok (bytesOf2 a b ++ rest)
  | .twoPad _ _, .value _ :: _ => .err (.unknown "Data after end of data")
  | .three _ _ _, [] => .err (.unknown "Missing at least 1 byte")
  | .three a b c, .pad :: ts => do
    let rest ← b64Decode .start ts
    .ok (bytesOf3 a b c ++ rest)
  | .three a b c, .value d :: ts => do
    let rest ← b64Decode .start ts
    .ok (bytesOf4 a b c d ++ rest)

/-- The character for a 6-bit value. -/
def b64Char (n : Nat) : UInt8 := alphabet.getD n 0

/-- Encoding without line breaks. -/
def b64Encode : Bytes → Bytes
  | x :: y :: z :: rest =>
    let n := (x.toNat * 256 + y.toNat) * 256 + z.toNat
    [b64Char (n / 262144), b64Char (n / 4096 % 64), b64Char (n / 64 % 64), b64Char (n % 64)]
      ++ b64Encode rest
  | [x, y] =>
    let n := (x.toNat * 256 + y.toNat) * 4
    [b64Char (n / 4096), b64Char (n / 64 % 64), b64Char (n % 64), 61]
  | [x] =>
    let n := x.toNat * 16
    [b64Char (n / 64), b64Char (n % 64), 61, 61]
  | [] => []

/-- Breaking a text into lines of `n` characters separated by CRLF. -/
def breakLines (n : Nat) (s : Bytes) : Bytes :=
  if h : n = 0 ∨ s.length ≤ n then s
  else s.take n ++ [13, 10] ++ breakLines n (s.drop n)
termination_by s.length
decreasing_by simp; omega

end EmailParser.Spec
