import Verif.Spec.Grammar
import Verif.Model.Percent
/-
MIME parameters (RFC 2231): which value a list of raw parameters gives to a name.  From the model it
uses only the type `RawParam` of a raw parameter.
-/
namespace EmailParser.Spec

/-- The value of a hexadecimal digit. -/
def hexValue (c : UInt8) : Option UInt8 :=
  if 48 ≤ c ∧ c ≤ 57 then some (c - 48)
  else if 65 ≤ c ∧ c ≤ 70 then some (c - 55)
  else if 97 ≤ c ∧ c ≤ 102 then some (c - 87)
  else none

/-- Standard percent-decoding, left to right: `%` and two hexadecimal digits are a byte, everything
else stands for itself. -/
def pctDecode : Bytes → Bytes
  | 37 :: a :: b :: bs =>
    match hexValue a, hexValue b with
    | some x, some y => (x * 16 + y) :: pctDecode bs
    | _, _ => 37 :: pctDecode (a :: b :: bs)
  | b :: bs => b :: pctDecode bs
  | [] => []

/-- Every `%` starts an escape. -/
def pctWellFormed : Bytes → Prop
  | 37 :: a :: b :: bs => (hexValue a).isSome ∧ (hexValue b).isSome ∧ pctWellFormed bs
  | b :: bs => b ≠ 37 ∧ pctWellFormed bs
  | [] => True

/-- Percent-encoding: the bytes of a class stay, the others become escapes. -/
def pctEncode (keep : UInt8 → Bool) (s : Bytes) : Bytes :=
  s.flatMap fun b => if keep b then [b] else [37, hexDigit (b.toNat / 16), hexDigit (b.toNat % 16)]

/-- Percent-decoding from right to left: an escape may use characters that were decoded before.
This is what the code does. -/
def pctDecodeRight : Bytes → Bytes
  | [] => []
  | b :: bs =>
    if b = 37 then
      match pctDecodeRight bs with
      | x :: y :: rest =>
        match hexValue x, hexValue y with
        | some x, some y => (x * 16 + y) :: rest
        | _, _ => b :: x :: y :: rest
      | rest => b :: rest
    else b :: pctDecodeRight bs

/-- The charsets the library knows. -/
def KnownCharset (name : Bytes) : Prop :=
  name = b! "utf-8" ∨ name = b! "us-ascii" ∨ ∃ t, name = charsetName t

/-- `text` is what the encoded segment `bytes` denotes; with a charset the library does not know it
denotes itself. -/
def SegmentText (c : Cfg) (charset bytes text : Bytes) : Prop :=
  (KnownCharset charset ∧ CharsetText c charset (pctDecodeRight bytes) text) ∨
  (¬ KnownCharset charset ∧ text = bytes)

/-- The last element satisfying a condition. -/
def lastWith {α : Type} (p : α → Bool) (l : List α) : Option α := (l.filter p).getLast?

/-- The last parameter with this name and without index. -/
def plainParam (ps : List RawParam) (name : Bytes) : Option RawParam :=
  lastWith (fun p => p.name == name && p.index == none) ps

/-- The last segment of a parameter with this index. -/
def segment (ps : List RawParam) (name : Bytes) (k : Nat) : Option RawParam :=
  lastWith (fun p => p.name == name && p.index == some k) ps

/-- The initial segment: its charset (if it is encoded) and its text.
An encoded one is `charset'language'text`. -/
def InitialText (c : Cfg) (p : RawParam) (charset : Option Bytes) (text : Bytes) : Prop :=
  (p.encoded = false ∧ charset = none ∧ text = p.value) ∨
  (p.encoded = true ∧ ∃ cs language bytes : Bytes,
    p.value = cs ++ b! "'" ++ language ++ b! "'" ++ bytes ∧ 39 ∉ cs ∧ 39 ∉ language ∧
    charset = some (cs.map asciiLower) ∧ SegmentText c (cs.map asciiLower) bytes text)

/-- A further segment: decoded if it is marked as encoded and the initial segment gave a charset. -/
def FurtherText (c : Cfg) (charset : Option Bytes) (p : RawParam) (text : Bytes) : Prop :=
  match p.encoded, charset with
  | true, some cs => SegmentText c cs p.value text
  | _, _ => text = p.value

/-- The value given to a name: that of the segments 0, 1, … up to the first gap if there is a
segment 0, otherwise that of the last parameter without index. -/
def ParamValue (c : Cfg) (ps : List RawParam) (name : Bytes) (v : Option Bytes) : Prop :=
  match segment ps name 0 with
  | none => v = (plainParam ps name).map (·.value)
  | some initial => ∃ charset first, InitialText c initial charset first ∧
    ∃ texts : List Bytes,
      (∀ k (h : k < texts.length), ∃ p, segment ps name (k + 1) = some p ∧
        FurtherText c charset p texts[k]) ∧
      segment ps name (texts.length + 1) = none ∧
      v = some (first ++ texts.flatten)

end EmailParser.Spec
