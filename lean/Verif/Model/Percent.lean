import Verif.Model.Common
/-
Model of src/parsing/mime/percent_encoding.rs.
-/
namespace EmailParser

/-- A `HashMap<Cow<str>, Cow<str>>`, up to the order of its entries. -/
abbrev Params := Bytes → Option Bytes

/-- `HashMap::new()`. -/
def Params.empty : Params := fun _ => none

/-- `HashMap::insert`. -/
def Params.insert (m : Params) (name value : Bytes) : Params :=
  fun n => if n = name then some value else m n

/-- `src/parsing/mime/percent_encoding.rs:5-27`: whether the charset is in the list. -/
def knownCharset (charset : Bytes) : Bool :=
  charset == b! "utf-8" || charset == b! "us-ascii" || (textcodeTable.lookup charset).isSome

/-- `src/parsing/mime/percent_encoding.rs:36-41`: the positions of `%`. -/
def percentPositions (idx : Nat) : Bytes → List Nat
  | [] => []
  | b :: bs => if b == 37 then idx :: percentPositions (idx + 1) bs
               else percentPositions (idx + 1) bs

/-- `Vec::remove` when the removed element is not used. -/
def vecErase (data : Bytes) (idx : Nat) : Outcome Bytes :=
  if idx < data.length then .ok (data.take idx ++ data.drop (idx + 1)) else .abort .panic

/-- `*input.get_unchecked_mut(idx) = b`: undefined behaviour when `idx` is out of range. -/
def getUncheckedMutSet (input : Bytes) (idx : Nat) (b : UInt8) : Outcome Bytes :=
  if idx < input.length then .ok (input.set idx b) else .abort .ub

/-- `src/parsing/mime/percent_encoding.rs:53-67`: the body of the loop. -/
def percentStep (input : Bytes) (percent : Nat) : Outcome Bytes :=
  match input[percent + 1]?, input[percent + 2]? with
  | some first, some second =>
    match fromHex first, fromHex second with
    | some first, some second => do
      let n ← u8 (first.toNat * 16 + second.toNat)
      let input ← getUncheckedMutSet input percent (UInt8.ofNat n)
      let input ← vecErase input (percent + 2)
      vecErase input (percent + 1)
    | _, _ => .ok input
  | _, _ => .ok input

/-- `src/parsing/mime/percent_encoding.rs:43-68`: the loop over the positions, last one first. -/
def percentLoop (input : Bytes) : List Nat → Outcome Bytes
  | [] => .ok input
  | percent :: percents => do
    let input ← percentStep input percent
    percentLoop input percents

/-- `src/parsing/mime/percent_encoding.rs:4-96` (`decode_parameter`). -/
def decodeParameter (c : Cfg) (input charset : Bytes) : Outcome Bytes :=
  if !knownCharset charset then .ok input
  else do
    let input ← percentLoop input (percentPositions 0 input).reverse
    match decodeCharset c charset input with
    | some text => text
    | none => .err (.unknown "Unknown charset")

/-- An element of `parameters_vec` (`src/parsing/mime/percent_encoding.rs:99`):
name, index, encoded, value. -/
structure RawParam where
  name : Bytes
  index : Option Nat
  encoded : Bool
  value : Bytes
deriving DecidableEq, Repr

/-- `HashMap::insert` on the segments of a parameter. -/
def Segments.insert (s : Segments) (index : Nat) (v : Bool × Bytes) : Segments :=
  fun i => if i = index then some v else s i

/-- `HashMap::remove` on the segments of a parameter (the removed value is read separately). -/
def Segments.erase (s : Segments) (index : Nat) : Segments :=
  fun i => if i = index then none else s i

/-- `src/parsing/mime/percent_encoding.rs:105-111`: insert in `complex_parameters`, represented by
a list of entries with distinct names. -/
def complexInsert (name : Bytes) (index : Nat) (v : Bool × Bytes) :
    List (Bytes × Segments) → List (Bytes × Segments)
  | [] => [(name, Segments.insert (fun _ => none) index v)]
  | (n, s) :: rest =>
    if n = name then (n, s.insert index v) :: rest
    else (n, s) :: complexInsert name index v rest

/-- `src/parsing/mime/percent_encoding.rs:103-115`: the first loop. -/
def partitionParameters : List RawParam → Params × List (Bytes × Segments) →
    Params × List (Bytes × Segments)
  | [], acc => acc
  | p :: ps, (parameters, complex) =>
    match p.index with
    | some index =>
      partitionParameters ps (parameters, complexInsert p.name index (p.encoded, p.value) complex)
    | none => partitionParameters ps (parameters.insert p.name p.value, complex)

/-- `src/parsing/mime/percent_encoding.rs:118-163`: the initial segment; returns the value and the
charset.  The two arms for borrowed and owned values do the same thing. -/
def firstSegment (c : Cfg) (encoded : Bool) (value : Bytes) : Outcome (Bytes × Option Bytes) :=
  if encoded then do
    let (value, charset) ← takeWhile value fun c => c != 39
    let charset := lowercase charset
    let (value, ()) ← tag value (b! "'")
      "TAG ERROR: In a parameter list, a charset must be followed by a `'`."
    let (value, _language) ← takeWhile value fun c => c != 39
    let (value, ()) ← tag value (b! "'")
      "TAG ERROR: In a parameter list, a language must be followed by a `'`."
    let value ← decodeParameter c value charset
    .ok (value, some charset)
  else .ok (value, none)

/-- `src/parsing/mime/percent_encoding.rs:178`: `idx += 1` on a `u8`. -/
def incrementIndex (c : Cfg) (idx : Nat) : Outcome Nat :=
  if idx + 1 < 256 then .ok (idx + 1)
  else if c.overflowChecks then .abort .panic
  else .ok 0

/-- `src/parsing/mime/percent_encoding.rs:167-177`: what a following segment contributes. -/
def segmentPiece (c : Cfg) (charset : Option Bytes) (encoded : Bool) (newValue : Bytes) :
    Outcome Bytes :=
  match encoded, charset with
  | true, some charset => decodeParameter c newValue charset
  | _, _ => .ok newValue

/-- `src/parsing/mime/percent_encoding.rs:165-179`: the following segments.  The map has at most
256 entries and every iteration removes one, so 257 is enough fuel. -/
def segmentsLoop (c : Cfg) (charset : Option Bytes) : Nat → Segments → Nat → Outcome Bytes
  | 0, _, _ => .abort .hang
  | fuel + 1, values, idx =>
    match values idx with
    | none => .ok []
    | some (encoded, newValue) => do
      let piece ← segmentPiece c charset encoded newValue
      let next ← incrementIndex c idx
      let rest ← segmentsLoop c charset fuel (values.erase idx) next
      .ok (piece ++ rest)

/-- `src/parsing/mime/percent_encoding.rs:117-182`: one iteration of the second loop. -/
def collectOne (c : Cfg) (parameters : Params) (entry : Bytes × Segments) : Outcome Params :=
  match entry.2 0 with
  | none => .ok parameters
  | some (encoded, value) => do
    let (value, charset) ← firstSegment c encoded value
    let rest ← segmentsLoop c charset 257 (entry.2.erase 0) 1
    .ok (parameters.insert entry.1 (value ++ rest))

/-- `src/parsing/mime/percent_encoding.rs:116-183`: the second loop. -/
def collectAll (c : Cfg) (parameters : Params) : List (Bytes × Segments) → Outcome Params
  | [] => .ok parameters
  | entry :: entries => do
    let parameters ← collectOne c parameters entry
    collectAll c parameters entries

/-- `src/parsing/mime/percent_encoding.rs:98-185` (`collect_parameters`). -/
def collectParameters (c : Cfg) (parametersVec : List RawParam) : Outcome Params :=
  let (parameters, complex) := partitionParameters parametersVec (Params.empty, [])
  collectAll c parameters (c.mapOrder complex)

end EmailParser
