import Verif.Model.Combinators
/-
Model of src/parsing/mime/quoted_printables.rs.  The `Vec<u8>` edited in place is a list; the
editing operations panic when the index is out of range, as in Rust.
-/
namespace EmailParser

/-- `Vec::insert`: panics if `idx > len`. -/
def vecInsert (data : Bytes) (idx : Nat) (v : UInt8) : Outcome Bytes :=
  if idx ≤ data.length then .ok (data.take idx ++ v :: data.drop idx) else .abort .panic

/-- `Vec::remove`: panics if `idx >= len`. -/
def vecRemove (data : Bytes) (idx : Nat) : Outcome (UInt8 × Bytes) :=
  match data[idx]? with
  | some v => .ok (v, data.take idx ++ data.drop (idx + 1))
  | none => .abort .panic

/-- `data[idx] = v`: panics if `idx >= len`. -/
def vecSet (data : Bytes) (idx : Nat) (v : UInt8) : Outcome Bytes :=
  if idx < data.length then .ok (data.set idx v) else .abort .panic

/-- `data.drain(a..b)`: panics if `b > len` (or `a > b`). -/
def vecDrain (data : Bytes) (a b : Nat) : Outcome Bytes :=
  if a ≤ b ∧ b ≤ data.length then .ok (data.take a ++ data.drop b) else .abort .panic

/-- `src/parsing/mime/quoted_printables.rs:1-4` (`litteral_repr_possible`). -/
def litteralReprPossible (c : UInt8) : Bool := (c ≥ 33 && c ≤ 60) || (c ≥ 62 && c ≤ 126)

/-- `src/parsing/mime/quoted_printables.rs:40-46` (`to_hex`); `unreachable!()` is a panic. -/
def toHex (n : UInt8) : Outcome UInt8 :=
  if n ≤ 9 then .ok (48 + n)
  else if n ≤ 15 then .ok (65 + n - 10)
  else .abort .panic

/-- `src/parsing/mime/quoted_printables.rs:74-81` and `:122-129` (`from_hex`), also
`src/parsing/mime/percent_encoding.rs:44-51`. -/
def fromHex (n : UInt8) : Option UInt8 :=
  if 48 ≤ n && n ≤ 57 then some (n - 48)
  else if 65 ≤ n && n ≤ 70 then some (10 + n - 65)
  else if 97 ≤ n && n ≤ 102 then some (10 + n - 97)
  else none

/-- `src/parsing/mime/quoted_printables.rs:12-56`: the loop of `encode_qp`. -/
def encodeQpLoop : Nat → Bytes → Nat → Nat → Outcome Bytes
  | 0, _, _, _ => .abort .hang
  | fuel + 1, data, idx, lineLength =>
    match data[idx]? with
    | none => .ok data
    | some byte => do
      let (data, idx, lineLength) ←
        if lineLength ≥ 72 then do
          let data ← vecInsert data idx 10
          let data ← vecInsert data idx 13
          let data ← vecInsert data idx 61
          Outcome.ok (data, idx + 3, 0)
        else .ok (data, idx, lineLength)
      if litteralReprPossible byte then
        encodeQpLoop fuel data (idx + 1) (lineLength + 1)
      else if (byte == 9 || byte == 32) && (data[idx + 1]?.map (fun c => c != 13)).getD false then
        encodeQpLoop fuel data (idx + 1) (lineLength + 1)
      else if byte == 13 && data[idx + 1]? == some 10 then
        encodeQpLoop fuel data (idx + 2) 0
      else do
        let (_, data) ← vecRemove data idx
        let low ← toHex (byte % 16)
        let data ← vecInsert data idx low
        let high ← toHex ((byte - byte % 16) / 16)
        let data ← vecInsert data idx high
        let data ← vecInsert data idx 61
        encodeQpLoop fuel data (idx + 3) (lineLength + 3)

/-- `src/parsing/mime/quoted_printables.rs:6-59` (`encode_qp`). -/
def encodeQp (data : Bytes) : Outcome Bytes := encodeQpLoop (data.length + 1) data 0 0

/-- `data[idx] = 189; data.insert(idx, 191); data.insert(idx, 239)`
(`src/parsing/mime/quoted_printables.rs:87-89`, `:98-100`, `:135-137`, `:146-148`):
replaces the byte at `idx` by U+FFFD. -/
def putReplacement (data : Bytes) (idx : Nat) : Outcome Bytes := do
  let data ← vecSet data idx 189
  let data ← vecInsert data idx 191
  vecInsert data idx 239

/-- `src/parsing/mime/quoted_printables.rs:64-103`: the loop of `decode_qp`. -/
def decodeQpLoop : Nat → Bytes → Nat → Outcome Bytes
  | 0, _, _ => .abort .hang
  | fuel + 1, data, idx =>
    match data[idx]? with
    | none => .ok data
    | some byte =>
      if litteralReprPossible byte || byte == 32 || byte == 9 then
        decodeQpLoop fuel data (idx + 1)
      else if byte == 61 then
        if data[idx + 1]? == some 13 && data[idx + 2]? == some 10 then do
          let data ← vecDrain data idx (idx + 3)
          decodeQpLoop fuel data idx
        else if data.length > idx + 2 then do
          let (first, data) ← vecRemove data (idx + 1)
          let (second, data) ← vecRemove data (idx + 1)
          match fromHex first, fromHex second with
          | some first, some second => do
            let value ← u8 (first.toNat * 16 + second.toNat)
            let data ← vecSet data idx (UInt8.ofNat value)
            decodeQpLoop fuel data (idx + 1)
          | _, _ => do
            let data ← putReplacement data idx
            decodeQpLoop fuel data (idx + 3)
        else decodeQpLoop fuel data (idx + 1)
      else if byte == 13 && data[idx + 1]? == some 10 then
        decodeQpLoop fuel data (idx + 2)
      else do
        let data ← putReplacement data idx
        decodeQpLoop fuel data (idx + 3)

/-- `src/parsing/mime/quoted_printables.rs:61-106` (`decode_qp`). -/
def decodeQp (data : Bytes) : Outcome Bytes := decodeQpLoop (data.length + 1) data 0

/-- `src/parsing/mime/quoted_printables.rs:111-151`: the loop of `decode_header_qp`. -/
def decodeHeaderQpLoop : Nat → Bytes → Nat → Outcome Bytes
  | 0, _, _ => .abort .hang
  | fuel + 1, data, idx =>
    match data[idx]? with
    | none => .ok data
    | some byte =>
      if byte == 95 then do
        let data ← vecSet data idx 0x20
        decodeHeaderQpLoop fuel data (idx + 1)
      else if byte == 61 then
        if data[idx + 1]? == some 13 && data[idx + 2]? == some 10 then do
          let data ← vecDrain data idx (idx + 3)
          decodeHeaderQpLoop fuel data idx
        else if data.length > idx + 2 then do
          let (first, data) ← vecRemove data (idx + 1)
          let (second, data) ← vecRemove data (idx + 1)
          match fromHex first, fromHex second with
          | some first, some second => do
            let value ← u8 (first.toNat * 16 + second.toNat)
            let data ← vecSet data idx (UInt8.ofNat value)
            decodeHeaderQpLoop fuel data (idx + 1)
          | _, _ => do
            let data ← putReplacement data idx
            decodeHeaderQpLoop fuel data (idx + 3)
        else decodeHeaderQpLoop fuel data (idx + 1)
      else if byte ≥ 0x20 && byte ≤ 0x7E then
        decodeHeaderQpLoop fuel data (idx + 1)
      else do
        let data ← putReplacement data idx
        decodeHeaderQpLoop fuel data (idx + 3)

/-- `src/parsing/mime/quoted_printables.rs:108-154` (`decode_header_qp`). -/
def decodeHeaderQp (data : Bytes) : Outcome Bytes := decodeHeaderQpLoop (data.length + 1) data 0

end EmailParser
