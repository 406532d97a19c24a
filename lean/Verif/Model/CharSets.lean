import Verif.Model.Basic
/-
Model of src/parsing/character_sets.rs.
-/
namespace EmailParser

/-- `src/parsing/character_sets.rs:3-6`. -/
def isWsp (c : UInt8) : Bool := c == 9 || c == 32

/-- `src/parsing/character_sets.rs:8-13`. -/
def isCtext (c : UInt8) : Bool :=
  (c ≥ 33 && c ≤ 39) || (c ≥ 42 && c ≤ 91) || (c ≥ 93 && c ≤ 126)

/-- `src/parsing/character_sets.rs:15-18`. -/
def isVchar (c : UInt8) : Bool := c ≥ 0x21 && c ≤ 0x7e

/-- `src/parsing/character_sets.rs:20-23`. -/
def isAlpha (c : UInt8) : Bool := (c ≥ 0x41 && c ≤ 0x5a) || (c ≥ 0x61 && c ≤ 0x7a)

/-- `src/parsing/character_sets.rs:25-28`. -/
def isDigit (c : UInt8) : Bool := c ≥ 0x30 && c ≤ 0x39

/-- `src/parsing/character_sets.rs:30-44`.  The ten arms are written as one range test;
the value is a `u8`, modelled as `Nat`. -/
def digit (input : Bytes) : Res Nat :=
  match input with
  | b :: rest =>
    if b ≥ 48 && b ≤ 57 then .ok (rest, b.toNat - 48) else .err (.unknown "Invalid digit")
  | [] => .err (.unknown "Invalid digit")

/-- `src/parsing/character_sets.rs:46-51`. -/
def twoDigits (input : Bytes) : Res Nat := do
  let (input, first) ← digit input
  let (input, second) ← digit input
  let tens ← u8 (first * 10)
  let value ← u8 (tens + second)
  .ok (input, value)

/-- `src/parsing/character_sets.rs:53-56`. -/
def isDtext (c : UInt8) : Bool := (c ≥ 33 && c ≤ 90) || (c ≥ 94 && c ≤ 126)

/-- `src/parsing/character_sets.rs:58-81`. -/
def isAtext (c : UInt8) : Bool :=
  isAlpha c || isDigit c
    || c == 33 /- ! -/ || c == 35 /- # -/ || c == 36 /- $ -/ || c == 37 /- % -/
    || c == 38 /- & -/ || c == 39 /- ' -/ || c == 42 /- * -/ || c == 43 /- + -/
    || c == 45 /- - -/ || c == 47 /- / -/ || c == 61 /- = -/ || c == 63 /- ? -/
    || c == 94 /- ^ -/ || c == 95 /- _ -/ || c == 96 /- ` -/ || c == 123 /- { -/
    || c == 124 /- | -/ || c == 125 /- } -/ || c == 126 /- ~ -/

/-- `src/parsing/character_sets.rs:83-98` (not called by the library). -/
def special (c : UInt8) : Bool :=
  c == 40 /- ( -/ || c == 41 /- ) -/ || c == 60 /- < -/ || c == 62 /- > -/
    || c == 91 /- [ -/ || c == 93 /- ] -/ || c == 58 /- : -/ || c == 59 /- ; -/
    || c == 64 /- @ -/ || c == 92 /- \ -/ || c == 44 /- , -/ || c == 46 /- . -/
    || c == 34 /- " -/

/-- `src/parsing/character_sets.rs:100-117`. -/
def tspecial (c : UInt8) : Bool :=
  c == 40 /- ( -/ || c == 41 /- ) -/ || c == 60 /- < -/ || c == 62 /- > -/
    || c == 91 /- [ -/ || c == 93 /- ] -/ || c == 58 /- : -/ || c == 59 /- ; -/
    || c == 64 /- @ -/ || c == 92 /- \ -/ || c == 44 /- , -/ || c == 47 /- / -/
    || c == 63 /- ? -/ || c == 61 /- = -/ || c == 34 /- " -/

/-- `src/parsing/character_sets.rs:119-122`. -/
def isQtext (c : UInt8) : Bool := (c ≥ 35 && c ≤ 126 && c != 92) || c == 33

/-- `src/parsing/character_sets.rs:124-127`. -/
def isFtext (c : UInt8) : Bool := (c ≥ 33 && c ≤ 57) || (c ≥ 59 && c ≤ 126)

/-- `src/parsing/character_sets.rs:129-132`. -/
def isText (c : UInt8) : Bool := c ≥ 1 && c ≤ 127 && c != 10 && c != 13

end EmailParser
