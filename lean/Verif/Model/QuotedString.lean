import Verif.Model.Whitespaces
/-
Model of src/parsing/quoted_string.rs (`quoted_pair` is in Model/Whitespaces.lean).
-/
namespace EmailParser

/-- The loop of `src/parsing/quoted_string.rs:44-66`: repeated `[FWS] (1*qtext / quoted-pair)`. -/
def quotedStringLoop : Nat → Bytes → Res Bytes
  | 0, _ => .abort .hang
  | fuel + 1, input => do
    let (newInput, white) ← fwsOrEmpty input
    match takeWhile1 newInput isQtext with
    | .ok (newInput, str) => do
      let (input, output) ← quotedStringLoop fuel newInput
      .ok (input, white ++ str ++ output)
    | .err _ =>
      match quotedPair newInput with
      | .ok (newInput, str) => do
        let (input, output) ← quotedStringLoop fuel newInput
        .ok (input, white ++ str ++ output)
      | .err _ => .ok (input, [])
      | .abort k => .abort k
    | .abort k => .abort k

/-- `src/parsing/quoted_string.rs:30-88` (`quoted_string`). -/
def quotedString (c : Cfg) (input : Bytes) : Res Bytes := do
  let input ← skipCfws c input
  if startsWith input (b! "\"") then do
    let input ← sliceFrom input 1
    let (input, output) ← quotedStringLoop (input.length + 1) input
    let (input, last) ← fwsOrEmpty input
    if startsWith input (b! "\"") then do
      let input ← sliceFrom input 1
      let input ← skipCfws c input
      .ok (input, output ++ last)
    else .err (.unknown "Quoted string must end with a dquote")
  else .err (.unknown "Quoted string must begin with a dquote")

end EmailParser
