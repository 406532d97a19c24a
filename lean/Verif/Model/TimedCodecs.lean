import Verif.Model.Timed
/-
The codecs of `Model/Base64.lean`, `Model/QuotedPrintable.lean` and `Model/Percent.lean` once more, with
a count of steps (`Model/Timed.lean`); that the outcomes are the same is proved in
`Proofs/Timed/Codecs.lean`.

What counts as a step:
* every iteration of every loop, and every byte overwritten;
* every byte that `Vec::insert`, `Vec::remove` or `Vec::drain` moves: the documentation of the standard
  library says that all elements after the place are shifted.

Not counted: allocating and growing the buffer, and the conversion from charsets.
-/
namespace EmailParser.Timed

/-- `Vec::insert`: the bytes from `idx` on are moved, and one is written. -/
def vecInsert (data : Bytes) (idx : Nat) (v : UInt8) : Timed Bytes := do
  tick (data.length - idx + 1)
  lift (EmailParser.vecInsert data idx v)

/-- `Vec::remove`: the bytes after `idx` are moved, and one is read. -/
def vecRemove (data : Bytes) (idx : Nat) : Timed (UInt8 × Bytes) := do
  tick (data.length - (idx + 1) + 1)
  lift (EmailParser.vecRemove data idx)

/-- `data[idx] = v`. -/
def vecSet (data : Bytes) (idx : Nat) (v : UInt8) : Timed Bytes := do
  tick 1
  lift (EmailParser.vecSet data idx v)

/-- `data.drain(a..b)`: the bytes from `b` on are moved. -/
def vecDrain (data : Bytes) (a b : Nat) : Timed Bytes := do
  tick (data.length - b + 1)
  lift (EmailParser.vecDrain data a b)

/-- `src/parsing/mime/quoted_printables.rs:12-56`: the loop of `encode_qp`. -/
def encodeQpLoop : Nat → Bytes → Nat → Nat → Timed Bytes
  | 0, _, _, _ => .abort .hang
  | fuel + 1, data, idx, lineLength => do
    tick 1
    match data[idx]? with
    | none => .ok data
    | some byte => do
      let (data, idx, lineLength) ←
        if lineLength ≥ 72 then do
          let data ← vecInsert data idx 10
          let data ← vecInsert data idx 13
          let data ← vecInsert data idx 61
          Timed.ok (data, idx + 3, 0)
        else .ok (data, idx, lineLength)
      if litteralReprPossible byte then
        encodeQpLoop fuel data (idx + 1) (lineLength + 1)
      else if (byte == 9 || byte == 32) && (data[idx + 1]?.map (fun c => c != 13)).getD false then
        encodeQpLoop fuel data (idx + 1) (lineLength + 1)
      else if byte == 13 && data[idx + 1]? == some 10 then
        encodeQpLoop fuel data (idx + 2) 0
      else do
        let (_, data) ← vecRemove data idx
        let low ← lift (toHex (byte % 16))
        let data ← vecInsert data idx low
        let high ← lift (toHex ((byte - byte % 16) / 16))
        let data ← vecInsert data idx high
        let data ← vecInsert data idx 61
        encodeQpLoop fuel data (idx + 3) (lineLength + 3)

/-- `src/parsing/mime/quoted_printables.rs:6-59` (`encode_qp`). -/
def encodeQp (data : Bytes) : Timed Bytes := encodeQpLoop (data.length + 1) data 0 0

/-- `data[idx] = 189; data.insert(idx, 191); data.insert(idx, 239)`
(`src/parsing/mime/quoted_printables.rs:87-89`, `:98-100`, `:135-137`, `:146-148`):
replaces the byte at `idx` by U+FFFD. -/
def putReplacement (data : Bytes) (idx : Nat) : Timed Bytes := do
  let data ← vecSet data idx 189
  let data ← vecInsert data idx 191
  vecInsert data idx 239

/-- `src/parsing/mime/quoted_printables.rs:64-103`: the loop of `decode_qp`. -/
def decodeQpLoop : Nat → Bytes → Nat → Timed Bytes
  | 0, _, _ => .abort .hang
  | fuel + 1, data, idx => do
    tick 1
    match data[idx]? with
    | none => .ok data
    | some byte =>
      if litteralReprPossible byte || byte == 32 || byte == 9 then
        decodeQpLoop fuel data (idx + 1)
      else if byte == 61 then
        if data[idx + 1]? == some 13 && data[idx + 2]? == some 10 then do
          let data ← vecDrain data idx (idx + 3)
          decodeQpLoop fuel data idx
        else if data.length > idx + 2 then do
          let (first, data) ← vecRemove data (idx + 1)
          let (second, data) ← vecRemove data (idx + 1)
          match fromHex first, fromHex second with
          | some first, some second => do
            let value ← lift (u8 (first.toNat * 16 + second.toNat))
            let data ← vecSet data idx (UInt8.ofNat value)
            decodeQpLoop fuel data (idx + 1)
          | _, _ => do
            let data ← putReplacement data idx
            decodeQpLoop fuel data (idx + 3)
        else decodeQpLoop fuel data (idx + 1)
      else if byte == 13 && data[idx + 1]? == some 10 then
        decodeQpLoop fuel data (idx + 2)
      else do
        let data ← putReplacement data idx
        decodeQpLoop fuel data (idx + 3)

/-- `src/parsing/mime/quoted_printables.rs:61-106` (`decode_qp`). -/
def decodeQp (data : Bytes) : Timed Bytes := decodeQpLoop (data.length + 1) data 0

/-- `src/parsing/mime/quoted_printables.rs:111-151`: the loop of `decode_header_qp`. -/
def decodeHeaderQpLoop : Nat → Bytes → Nat → Timed Bytes
  | 0, _, _ => .abort .hang
  | fuel + 1, data, idx => do
    tick 1
    match data[idx]? with
    | none => .ok data
    | some byte =>
      if byte == 95 then do
        let data ← vecSet data idx 0x20
        decodeHeaderQpLoop fuel data (idx + 1)
      else if byte == 61 then
        if data[idx + 1]? == some 13 && data[idx + 2]? == some 10 then do
          let data ← vecDrain data idx (idx + 3)
          decodeHeaderQpLoop fuel data idx
        else if data.length > idx + 2 then do
          let (first, data) ← vecRemove data (idx + 1)
          let (second, data) ← vecRemove data (idx + 1)
          match fromHex first, fromHex second with
          | some first, some second => do
            let value ← lift (u8 (first.toNat * 16 + second.toNat))
            let data ← vecSet data idx (UInt8.ofNat value)
            decodeHeaderQpLoop fuel data (idx + 1)
          | _, _ => do
            let data ← putReplacement data idx
            decodeHeaderQpLoop fuel data (idx + 3)
        else decodeHeaderQpLoop fuel data (idx + 1)
      else if byte ≥ 0x20 && byte ≤ 0x7E then
        decodeHeaderQpLoop fuel data (idx + 1)
      else do
        let data ← putReplacement data idx
        decodeHeaderQpLoop fuel data (idx + 3)

/-- `src/parsing/mime/quoted_printables.rs:108-154` (`decode_header_qp`). -/
def decodeHeaderQp (data : Bytes) : Timed Bytes := decodeHeaderQpLoop (data.length + 1) data 0

/-- `src/parsing/mime/base64.rs:10-65` (`encode_base64`): the `while let` loop.  The line length
is the loop variable `line_lenght`.  The iterator `bytes` is the remaining list; the arm
`unreachable!()` (second `next()` returns `None` and third `Some`) cannot be reached with a slice
iterator, which this list representation has built in.  An iteration writes at most six bytes; it is
one step. -/
def encodeBase64Loop (lineLength : Nat) : Bytes → Timed Bytes
  | [] => .ok []
  | byte1 :: byte2 :: byte3 :: rest => do
    tick 1
    let (newline, lineLength) : Bytes × Nat :=
      if lineLength ≥ 72 then (b! "\r\n", 0) else ([], lineLength)
    let outputByte1 := (0b11111100 &&& byte1) >>> 2
    let outputByte2 ← lift (addU8 ((0b00000011 &&& byte1) <<< 4) ((0b11110000 &&& byte2) >>> 4))
    let outputByte3 ← lift (addU8 ((0b00001111 &&& byte2) <<< 2) ((0b11000000 &&& byte3) >>> 6))
    let outputByte4 := 0b00111111 &&& byte3
    let c1 ← lift (getUnchecked base64Map outputByte1.toNat)
    let c2 ← lift (getUnchecked base64Map outputByte2.toNat)
    let c3 ← lift (getUnchecked base64Map outputByte3.toNat)
    let c4 ← lift (getUnchecked base64Map outputByte4.toNat)
    let encoded ← encodeBase64Loop (lineLength + 4) rest
    .ok (newline ++ [c1, c2, c3, c4] ++ encoded)
  | [byte1, byte2] => do
    tick 1
    let newline : Bytes := if lineLength ≥ 72 then b! "\r\n" else []
    let outputByte1 := (0b11111100 &&& byte1) >>> 2
    let outputByte2 ← lift (addU8 ((0b00000011 &&& byte1) <<< 4) ((0b11110000 &&& byte2) >>> 4))
    let outputByte3 := (0b00001111 &&& byte2) <<< 2
    let c1 ← lift (getUnchecked base64Map outputByte1.toNat)
    let c2 ← lift (getUnchecked base64Map outputByte2.toNat)
    let c3 ← lift (getUnchecked base64Map outputByte3.toNat)
    .ok (newline ++ [c1, c2, c3, 61])
  | [byte1] => do
    tick 1
    let newline : Bytes := if lineLength ≥ 72 then b! "\r\n" else []
    let outputByte1 := (0b11111100 &&& byte1) >>> 2
    let outputByte2 := (0b00000011 &&& byte1) <<< 4
    let c1 ← lift (getUnchecked base64Map outputByte1.toNat)
    let c2 ← lift (getUnchecked base64Map outputByte2.toNat)
    .ok (newline ++ [c1, c2, 61, 61])

/-- `src/parsing/mime/base64.rs:10-65` (`encode_base64`). -/
def encodeBase64 (data : Bytes) : Timed Bytes := encodeBase64Loop 0 data

/-- `*data.get_unchecked_mut(i - offset) = v`. -/
def setUnchecked (data : Bytes) (i offset : Nat) (v : UInt8) : Timed Bytes := do
  tick 1
  lift (EmailParser.setUnchecked data i offset v)

/-- `src/parsing/mime/base64.rs:83-95` (`'inner1`): `none` is `break 'main`. -/
def base64Inner1 (data : Bytes) : Nat → Nat → Nat → Timed (Nat × Nat × Option UInt8)
  | 0, _, _ => .abort .hang
  | fuel + 1, i, offset => do
    tick 1
    match data[i]? with
    | some b =>
      match getValueEncoded b with
      | some v => .ok (i, offset, some v)
      | none => base64Inner1 data fuel (i + 1) (offset + 1)
    | none => .ok (i, offset, none)

/-- `src/parsing/mime/base64.rs:97-109` (`'inner2`). -/
def base64Inner2 (data : Bytes) : Nat → Nat → Nat → Timed (Nat × Nat × UInt8)
  | 0, _, _ => .abort .hang
  | fuel + 1, i, offset => do
    tick 1
    match data[i + 1]? with
    | some b =>
      match getValueEncoded b with
      | some v => .ok (i, offset, v)
      | none => base64Inner2 data fuel (i + 1) (offset + 1)
    | none => .err (.unknown "Missing at least 3 bytes")

/-- `src/parsing/mime/base64.rs:111-124` (`'inner3`). -/
def base64Inner3 (data : Bytes) : Nat → Nat → Nat → Timed (Nat × Nat × Option UInt8)
  | 0, _, _ => .abort .hang
  | fuel + 1, i, offset => do
    tick 1
    match data[i + 2]? with
    | some b =>
      if b == 61 then .ok (i, offset, none)
      else
        match getValueEncoded b with
        | some v => .ok (i, offset, some v)
        | none => base64Inner3 data fuel (i + 1) (offset + 1)
    | none => .err (.unknown "Missing at least 2 bytes")

/-- `src/parsing/mime/base64.rs:126-142` (`'inner4`). -/
def base64Inner4 (data : Bytes) (b3 : Option UInt8) :
    Nat → Nat → Nat → Timed (Nat × Nat × Option UInt8)
  | 0, _, _ => .abort .hang
  | fuel + 1, i, offset => do
    tick 1
    match data[i + 3]? with
    | some b =>
      if b == 61 then .ok (i, offset, none)
      else if b3.isNone && (getValueEncoded b).isSome then
        .err (.unknown "Data after end of data")
      else
        match getValueEncoded b with
        | some v => .ok (i, offset, some v)
        | none => base64Inner4 data b3 fuel (i + 1) (offset + 1)
    | none => .err (.unknown "Missing at least 1 byte")

/-- `src/parsing/mime/base64.rs:82-169` (`'main`): the decoded prefix is written over the data it
was read from. -/
def base64Main : Nat → Bytes → Nat → Nat → Timed Bytes
  | 0, _, _, _ => .abort .hang
  | fuel + 1, data, i, offset => do
    tick 1
    let (i, offset, b1) ← base64Inner1 data (data.length + 1) i offset
    match b1 with
    | none =>
      -- `data.truncate(i - offset)`
      if offset ≤ i then .ok (data.take (i - offset)) else .abort .panic
    | some b1 => do
      let (i, offset, b2) ← base64Inner2 data (data.length + 1) i offset
      let (i, offset, b3) ← base64Inner3 data (data.length + 1) i offset
      let (i, offset, b4) ← base64Inner4 data b3 (data.length + 1) i offset
      let v1 ← lift (addU8 (b1 <<< 2) ((b2 &&& 0b00110000) >>> 4))
      let data ← setUnchecked data i offset v1
      match b3 with
      | some b3 => do
        let v2 ← lift (addU8 ((b2 &&& 0b00001111) <<< 4) ((b3 &&& 0b00111100) >>> 2))
        let data ← setUnchecked data (i + 1) offset v2
        match b4 with
        | some b4 => do
          let v3 ← lift (addU8 ((b3 &&& 0b00000011) <<< 6) b4)
          let data ← setUnchecked data (i + 2) offset v3
          base64Main fuel data (i + 4) (offset + 1)
        | none => base64Main fuel data (i + 4) (offset + 1 + 1)
      | none => base64Main fuel data (i + 4) (offset + 2 + 1)

/-- `src/parsing/mime/base64.rs:78-172` (`decode_base64`). -/
def decodeBase64 (data : Bytes) : Timed Bytes := base64Main (data.length + 1) data 0 0

/-- `Vec::remove` when the removed element is not used: the bytes after `idx` are moved. -/
def vecErase (data : Bytes) (idx : Nat) : Timed Bytes := do
  tick (data.length - (idx + 1) + 1)
  lift (EmailParser.vecErase data idx)

/-- `*input.get_unchecked_mut(idx) = b`. -/
def getUncheckedMutSet (input : Bytes) (idx : Nat) (b : UInt8) : Timed Bytes := do
  tick 1
  lift (EmailParser.getUncheckedMutSet input idx b)

/-- `src/parsing/mime/percent_encoding.rs:53-67`: the body of the loop. -/
def percentStep (input : Bytes) (percent : Nat) : Timed Bytes :=
  match input[percent + 1]?, input[percent + 2]? with
  | some first, some second =>
    match fromHex first, fromHex second with
    | some first, some second => do
      let n ← lift (u8 (first.toNat * 16 + second.toNat))
      let input ← getUncheckedMutSet input percent (UInt8.ofNat n)
      let input ← vecErase input (percent + 2)
      vecErase input (percent + 1)
    | _, _ => .ok input
  | _, _ => .ok input

/-- `src/parsing/mime/percent_encoding.rs:43-68`: the loop over the positions, last one first. -/
def percentLoop (input : Bytes) : List Nat → Timed Bytes
  | [] => .ok input
  | percent :: percents => do
    tick 1
    let input ← percentStep input percent
    percentLoop input percents

/-- `src/parsing/mime/percent_encoding.rs:4-96` (`decode_parameter`).  Each byte of the input is
copied (line 33) or compared with `%` (lines 36-41). -/
def decodeParameter (c : Cfg) (input charset : Bytes) : Timed Bytes := do
  tick (input.length + 1)
  if !knownCharset charset then .ok input
  else do
    let input ← percentLoop input (percentPositions 0 input).reverse
    match decodeCharset c charset input with
    | some text => lift text
    | none => .err (.unknown "Unknown charset")

end EmailParser.Timed
