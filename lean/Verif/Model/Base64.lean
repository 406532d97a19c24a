import Verif.Model.Combinators
/-
Model of src/parsing/mime/base64.rs.
-/
namespace EmailParser

/-- `u8 + u8`; an overflow is a panic (see `u8`). -/
def addU8 (a b : UInt8) : Outcome UInt8 :=
  if a.toNat + b.toNat < 256 then .ok (a + b) else .abort .panic

/-- `src/parsing/mime/base64.rs:3-8`. -/
def base64Map : Bytes :=
  b! "ABCDEFGHIJKLMNOPQRSTUVWXYZabcdefghijklmnopqrstuvwxyz0123456789+/"

/-- `src/parsing/mime/base64.rs:10-65` (`encode_base64`): the `while let` loop.  The line length
is the loop variable `line_lenght`.  The iterator `bytes` is the remaining list; the arm
`unreachable!()` (second `next()` returns `None` and third `Some`) cannot be reached with a slice
iterator, which this list representation has built in. -/
def encodeBase64Loop (lineLength : Nat) : Bytes → Outcome Bytes
  | [] => .ok []
  | byte1 :: byte2 :: byte3 :: rest => do
    let (newline, lineLength) : Bytes × Nat :=
      if lineLength ≥ 72 then (b! "\r\n", 0) else ([], lineLength)
    let outputByte1 := (0b11111100 &&& byte1) >>> 2
    let outputByte2 ← addU8 ((0b00000011 &&& byte1) <<< 4) ((0b11110000 &&& byte2) >>> 4)
    let outputByte3 ← addU8 ((0b00001111 &&& byte2) <<< 2) ((0b11000000 &&& byte3) >>> 6)
    let outputByte4 := 0b00111111 &&& byte3
    let c1 ← getUnchecked base64Map outputByte1.toNat
    let c2 ← getUnchecked base64Map outputByte2.toNat
    let c3 ← getUnchecked base64Map outputByte3.toNat
    let c4 ← getUnchecked base64Map outputByte4.toNat
    let encoded ← encodeBase64Loop (lineLength + 4) rest
    .ok (newline ++ [c1, c2, c3, c4] ++ encoded)
  | [byte1, byte2] => do
    let newline : Bytes := if lineLength ≥ 72 then b! "\r\n" else []
    let outputByte1 := (0b11111100 &&& byte1) >>> 2
    let outputByte2 ← addU8 ((0b00000011 &&& byte1) <<< 4) ((0b11110000 &&& byte2) >>> 4)
    let outputByte3 := (0b00001111 &&& byte2) <<< 2
    let c1 ← getUnchecked base64Map outputByte1.toNat
    let c2 ← getUnchecked base64Map outputByte2.toNat
    let c3 ← getUnchecked base64Map outputByte3.toNat
    .ok (newline ++ [c1, c2, c3, 61])
  | [byte1] => do
    let newline : Bytes := if lineLength ≥ 72 then b! "\r\n" else []
    let outputByte1 := (0b11111100 &&& byte1) >>> 2
    let outputByte2 := (0b00000011 &&& byte1) <<< 4
    let c1 ← getUnchecked base64Map outputByte1.toNat
    let c2 ← getUnchecked base64Map outputByte2.toNat
    .ok (newline ++ [c1, c2, 61, 61])

/-- `src/parsing/mime/base64.rs:10-65` (`encode_base64`). -/
def encodeBase64 (data : Bytes) : Outcome Bytes := encodeBase64Loop 0 data

/-- `src/parsing/mime/base64.rs:67-76` (`get_value_encoded`). -/
def getValueEncoded (c : UInt8) : Option UInt8 :=
  if 65 ≤ c && c ≤ 90 then some (c - 65)
  else if 97 ≤ c && c ≤ 122 then some (26 + (c - 97))
  else if 48 ≤ c && c ≤ 57 then some (52 + (c - 48))
  else if c == 43 then some 62
  else if c == 47 then some 63
  else none

/-- `*data.get_unchecked_mut(i - offset) = v`: the subtraction must not underflow and the index
must be in range. -/
def setUnchecked (data : Bytes) (i offset : Nat) (v : UInt8) : Outcome Bytes :=
  if offset ≤ i then
    if i - offset < data.length then .ok (data.set (i - offset) v) else .abort .ub
  else .abort .panic

/-- `src/parsing/mime/base64.rs:83-95` (`'inner1`): `none` is `break 'main`. -/
def base64Inner1 (data : Bytes) : Nat → Nat → Nat → Outcome (Nat × Nat × Option UInt8)
  | 0, _, _ => .abort .hang
  | fuel + 1, i, offset =>
    match data[i]? with
    | some b =>
      match getValueEncoded b with
      | some v => .ok (i, offset, some v)
      | none => base64Inner1 data fuel (i + 1) (offset + 1)
    | none => .ok (i, offset, none)

/-- `src/parsing/mime/base64.rs:97-109` (`'inner2`). -/
def base64Inner2 (data : Bytes) : Nat → Nat → Nat → Outcome (Nat × Nat × UInt8)
  | 0, _, _ => .abort .hang
  | fuel + 1, i, offset =>
    match data[i + 1]? with
    | some b =>
      match getValueEncoded b with
      | some v => .ok (i, offset, v)
      | none => base64Inner2 data fuel (i + 1) (offset + 1)
    | none => .err (.unknown "Missing at least 3 bytes")

/-- `src/parsing/mime/base64.rs:111-124` (`'inner3`). -/
def base64Inner3 (data : Bytes) : Nat → Nat → Nat → Outcome (Nat × Nat × Option UInt8)
  | 0, _, _ => .abort .hang
  | fuel + 1, i, offset =>
    match data[i + 2]? with
    | some b =>
      if b == 61 then .ok (i, offset, none)
      else
        match getValueEncoded b with
        | some v => .ok (i, offset, some v)
        | none => base64Inner3 data fuel (i + 1) (offset + 1)
    | none => .err (.unknown "Missing at least 2 bytes")

/-- `src/parsing/mime/base64.rs:126-142` (`'inner4`). -/
def base64Inner4 (data : Bytes) (b3 : Option UInt8) :
    Nat → Nat → Nat → Outcome (Nat × Nat × Option UInt8)
  | 0, _, _ => .abort .hang
  | fuel + 1, i, offset =>
    match data[i + 3]? with
    | some b =>
      if b == 61 then .ok (i, offset, none)
      else if b3.isNone && (getValueEncoded b).isSome then
        .err (.unknown "Data after end of data")
      else
        match getValueEncoded b with
        | some v => .ok (i, offset, some v)
        | none => base64Inner4 data b3 fuel (i + 1) (offset + 1)
    | none => .err (.unknown "Missing at least 1 byte")

/-- `src/parsing/mime/base64.rs:82-169` (`'main`): the decoded prefix is written over the data it
was read from. -/
def base64Main : Nat → Bytes → Nat → Nat → Outcome Bytes
  | 0, _, _, _ => .abort .hang
  | fuel + 1, data, i, offset => do
    let (i, offset, b1) ← base64Inner1 data (data.length + 1) i offset
    match b1 with
    | none =>
      -- `data.truncate(i - offset)`
      if offset ≤ i then .ok (data.take (i - offset)) else .abort .panic
    | some b1 => do
      let (i, offset, b2) ← base64Inner2 data (data.length + 1) i offset
      let (i, offset, b3) ← base64Inner3 data (data.length + 1) i offset
      let (i, offset, b4) ← base64Inner4 data b3 (data.length + 1) i offset
      let v1 ← addU8 (b1 <<< 2) ((b2 &&& 0b00110000) >>> 4)
      let data ← setUnchecked data i offset v1
      match b3 with
      | some b3 => do
        let v2 ← addU8 ((b2 &&& 0b00001111) <<< 4) ((b3 &&& 0b00111100) >>> 2)
        let data ← setUnchecked data (i + 1) offset v2
        match b4 with
        | some b4 => do
          let v3 ← addU8 ((b3 &&& 0b00000011) <<< 6) b4
          let data ← setUnchecked data (i + 2) offset v3
          base64Main fuel data (i + 4) (offset + 1)
        | none => base64Main fuel data (i + 4) (offset + 1 + 1)
      | none => base64Main fuel data (i + 4) (offset + 2 + 1)

/-- `src/parsing/mime/base64.rs:78-172` (`decode_base64`). -/
def decodeBase64 (data : Bytes) : Outcome Bytes := base64Main (data.length + 1) data 0 0

end EmailParser
