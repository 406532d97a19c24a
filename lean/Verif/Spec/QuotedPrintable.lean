import Verif.Model.Basic
/-
Specifications of the quoted-printable encoding (RFC 2045, section 6.7) and of the "Q" encoding of
header text (RFC 2047, section 4.2), as streaming functions.
-/
namespace EmailParser.Spec

/-- The value of a hexadecimal digit. -/
def hexValue? (c : UInt8) : Option Nat :=
  ((b! "0123456789ABCDEF").idxOf? c).or ((b! "0123456789abcdef").idxOf? c)

/-- The byte denoted by two hexadecimal digits. -/
def hexByte? (a b : UInt8) : Option UInt8 :=
  match hexValue? a, hexValue? b with
  | some x, some y => some (UInt8.ofNat (16 * x + y))
  | _, _ => none

/-- U+FFFD REPLACEMENT CHARACTER. -/
def replacement : Bytes := [0xEF, 0xBF, 0xBD]

/-- Characters that stand for themselves in a quoted-printable text: printable ASCII except `=`,
space and tab. -/
def qpLiteral (c : UInt8) : Bool := (33 ≤ c && c ≤ 126 && c != 61) || c == 32 || c == 9

/-- Decoding, from left to right, never looking back.
* soft line breaks `=` CR LF disappear, `=XY` with hexadecimal digits is a byte;
* an `=` in one of the last two positions is kept;
* CR LF is kept;
* a wrong escape (three bytes) or a byte that must not occur becomes U+FFFD. -/
def qpDecode : Bytes → Bytes
  | [] => []
  | 61 :: 13 :: 10 :: s => qpDecode s
  | 61 :: a :: b :: s =>
    match hexByte? a b with
    | some v => v :: qpDecode s
    | none => replacement ++ qpDecode s
  | 61 :: s => 61 :: qpDecode s
  | 13 :: 10 :: s => 13 :: 10 :: qpDecode s
  | c :: s => if qpLiteral c then c :: qpDecode s else replacement ++ qpDecode s

/-- Decoding of the "Q" encoding: `_` is a space, printable ASCII and space stand for themselves, the
rest as above (there are no line breaks). -/
def qDecode : Bytes → Bytes
  | [] => []
  | 95 :: s => 32 :: qDecode s
  | 61 :: 13 :: 10 :: s => qDecode s
  | 61 :: a :: b :: s =>
    match hexByte? a b with
    | some v => v :: qDecode s
    | none => replacement ++ qDecode s
  | 61 :: s => 61 :: qDecode s
  | c :: s => if 32 ≤ c && c ≤ 126 then c :: qDecode s else replacement ++ qDecode s

/-- An upper case hexadecimal digit. -/
def hexDigit (n : Nat) : UInt8 := (b! "0123456789ABCDEF").getD n 0

/-- `=XY`. -/
def escape (c : UInt8) : Bytes := [61, hexDigit (c.toNat / 16), hexDigit (c.toNat % 16)]

/-- The "Q" encoding (RFC 2047, section 4.2): space as `_`; printable ASCII other than `=`, `?` and
`_` as itself; everything else as `=XY`. -/
def qEncode (s : Bytes) : Bytes :=
  s.flatMap fun c =>
    if c = 32 then [95]
    else if 33 ≤ c && c ≤ 126 && c != 61 && c != 63 && c != 95 then [c]
    else escape c

end EmailParser.Spec
