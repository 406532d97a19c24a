import Verif.Model.Combinators
/-
Model of src/parsing/whitespaces.rs and of `quoted_pair` (src/parsing/quoted_string.rs:4-28), which
`ccontent` needs.
-/
namespace EmailParser

/-- `src/parsing/whitespaces.rs:4-28` (`fws`). -/
def fws (input : Bytes) : Res Bytes := do
  let (input, before) ← optional input fun input =>
    pair input
      (fun input => takeWhile input isWsp)
      (fun input => tag input (b! "\r\n")
        "TAG ERROR: A folding whitespace must end with a `\\r\\n` sequence.")
  let (input, after) ← takeWhile1 input isWsp
  match before with
  | some (before, _crlf) => .ok (input, before ++ after)
  | none => .ok (input, after)

/-- `fws(i).unwrap_or((i, empty_string()))` (`src/parsing/common.rs:109` and `:128`), and the
equivalent `if let Ok(…) = fws(i) { … } else { (i, empty_string()) }` of
`src/parsing/quoted_string.rs:47-52` and `:68-73`. -/
def fwsOrEmpty (input : Bytes) : Res Bytes :=
  match fws input with
  | .ok r => .ok r
  | .err _ => .ok (input, [])
  | .abort k => .abort k

/-- `src/parsing/quoted_string.rs:4-28` (`quoted_pair`). -/
def quotedPair (input : Bytes) : Res Bytes := do
  let (input, ()) ← tag input (b! "\\") "TAG ERROR: A quoted pair must start with a `\\`."
  match input with
  | character :: _ =>
    if isVchar character || isWsp character then do
      let rest ← getUncheckedFrom input 1
      let value ← getUncheckedTo input 1
      .ok (rest, value)
    else .err (.unknown "The quoted-pair character is no a vchar or a wsp.")
  | [] => .err (.unknown "The quoted-pair has no second character.")

/-- `src/parsing/whitespaces.rs:30-43` (`ccontent`); `comment` is the parser for nested comments. -/
def ccontent (comment : Bytes → Res Bytes) (input : Bytes) : Res Bytes :=
  matchParsers input
    [ fun i => do
        let (input, value) ← takeWhile1 i isCtext
        .ok (input, value),
      quotedPair,
      comment ]

/-- `src/parsing/whitespaces.rs:45-57` (`comment`).  The first argument is the number of nested
calls the stack still has room for. -/
def comment : Nat → Bytes → Res Bytes
  | 0, input => do
    let (_, ()) ← tag input (b! "(") "TAG ERROR: A comment must start with a `(`."
    .abort .stackOverflow
  | room + 1, input => do
    let (input, ()) ← tag input (b! "(") "TAG ERROR: A comment must start with a `(`."
    let (input, _) ← ignoreMany input fun input =>
      pair input (fun i => optional i fws) (ccontent (comment room))
    let (input, _) ← optional input fws
    let (input, ()) ← tag input (b! ")") "TAG ERROR: A comment must end with a `)`."
    .ok (input, [])

/-- The loop of `src/parsing/whitespaces.rs:74-85` (inside `real_cfws`): repeated
`[FWS] comment`, collecting the white space. -/
def realCfwsLoop (c : Cfg) : Nat → Bytes → Res Bytes
  | 0, _ => .abort .hang
  | fuel + 1, input => do
    let (newInput, foldingWsp) ← optional input fws
    match comment c.stack newInput with
    | .ok (newInput, _comment) => do
      let (input, output) ← realCfwsLoop c fuel newInput
      .ok (input, foldingWsp.getD [] ++ output)
    | .err _ => .ok (input, [])
    | .abort k => .abort k

/-- `src/parsing/whitespaces.rs:61-93` (`real_cfws`). -/
def realCfws (c : Cfg) (input : Bytes) : Res Bytes := do
  let (newInput, foldingWsp) ← optional input fws
  match comment c.stack newInput with
  | .ok (input, _comment) => do
    let (input, output) ← realCfwsLoop c (input.length + 1) input
    let (input, last) ← optional input fws
    .ok (input, foldingWsp.getD [] ++ output ++ last.getD [])
  | .err _ => .err (.unknown "Expected at least one comment")
  | .abort k => .abort k

/-- `src/parsing/whitespaces.rs:59-96` (`cfws`). -/
def cfws (c : Cfg) (input : Bytes) : Res Bytes :=
  matchParsers input [realCfws c, fws]

/-- The recurring `if let Ok((new_input, _)) = cfws(input) { input = new_input }`
(e.g. `src/parsing/common.rs:18-20`), i.e. `optional(input, cfws)` with the value dropped. -/
def skipCfws (c : Cfg) (input : Bytes) : Outcome Bytes :=
  match cfws c input with
  | .ok (newInput, _) => .ok newInput
  | .err _ => .ok input
  | .abort k => .abort k

end EmailParser
