import Verif.Model.Cow
import Verif.Model.Address
/-
The parsers that build strings, with the ownership of these strings: which of them are slices of the input (`Cow::Borrowed`)
and which are copies (`Cow::Owned`).  The rest of the model keeps only the contents; `Props/Borrow.lean` shows that the
parsers here have the same results up to that.

A slice of the input is known by its address.  All parsers receive what is left of one input, so an input of length `n` is at
the address `stop - n`, where `stop` is the address after the last byte.
-/
namespace EmailParser

/-- Where the input is: the memory, the address after its last byte, and the address of the literal `""`
(`src/string.rs:5`). -/
structure Place where
  memory : Memory
  stop : Nat
  empty : Nat

/-- The address of what is left of the input. -/
def Place.addr (p : Place) (input : Bytes) : Nat := p.stop - input.length

/-- The slice made of the first bytes of `input`; the parsers return the contents, of which only the length is needed. -/
def Place.slice (p : Place) (input value : Bytes) : CowStr := .borrowed (p.addr input) value.length

/-- `src/parsing/whitespaces.rs:4-28` (`fws`). -/
def cowFws (p : Place) (input : Bytes) : Res CowStr := do
  let (input₁, before) ← optional input fun input =>
    pair input
      (fun input => takeWhile input isWsp)
      (fun input => tag input (b! "\r\n")
        "TAG ERROR: A folding whitespace must end with a `\\r\\n` sequence.")
  let (input₂, after) ← takeWhile1 input₁ isWsp
  match before with
  | some (before, _crlf) => .ok (input₂, addStr p.memory (p.slice input before) (p.addr input₁) after.length)
  | none => .ok (input₂, p.slice input₁ after)

/-- `fws(i).unwrap_or((i, empty_string()))` (`src/parsing/common.rs:109` and `:128`). -/
def cowFwsOrEmpty (p : Place) (input : Bytes) : Res CowStr :=
  match cowFws p input with
  | .ok r => .ok r
  | .err _ => .ok (input, emptyString p.empty)
  | .abort k => .abort k

/-- `src/parsing/quoted_string.rs:4-28` (`quoted_pair`). -/
def cowQuotedPair (p : Place) (input : Bytes) : Res CowStr := do
  let (input, ()) ← tag input (b! "\\") "TAG ERROR: A quoted pair must start with a `\\`."
  match input with
  | character :: _ =>
    if isVchar character || isWsp character then do
      let rest ← getUncheckedFrom input 1
      let value ← getUncheckedTo input 1
      .ok (rest, p.slice input value)
    else .err (.unknown "The quoted-pair character is no a vchar or a wsp.")
  | [] => .err (.unknown "The quoted-pair has no second character.")

/-- `if let Ok((new_input, fws)) = fws(input) { …; add_string(&mut output, fws); }`
(`src/parsing/quoted_string.rs:47-52` and `:68-73`). -/
def cowAddFws (p : Place) (input : Bytes) (output : CowStr) : Res CowStr :=
  match cowFws p input with
  | .ok (input, fws) => .ok (input, addString p.memory output fws)
  | .err _ => .ok (input, output)
  | .abort k => .abort k

/-- The loop of `src/parsing/quoted_string.rs:44-66`; `output` is the variable of the same name. -/
def cowQuotedStringLoop (p : Place) : Nat → Bytes → CowStr → Res CowStr
  | 0, _, _ => .abort .hang
  | fuel + 1, input, output => do
    let additional := emptyString p.empty
    let (newInput, additional) ← cowAddFws p input additional
    match takeWhile1 newInput isQtext with
    | .ok (newInput₂, str) =>
      let additional := addStr p.memory additional (p.addr newInput) str.length
      cowQuotedStringLoop p fuel newInput₂ (addString p.memory output additional)
    | .err _ =>
      match cowQuotedPair p newInput with
      | .ok (newInput, str) =>
        let additional := addString p.memory additional str
        cowQuotedStringLoop p fuel newInput (addString p.memory output additional)
      | .err _ => .ok (input, output)
      | .abort k => .abort k
    | .abort k => .abort k

/-- `src/parsing/quoted_string.rs:30-88` (`quoted_string`). -/
def cowQuotedString (c : Cfg) (p : Place) (input : Bytes) : Res CowStr := do
  let input ← skipCfws c input
  if startsWith input (b! "\"") then do
    let input ← sliceFrom input 1
    let (input, output) ← cowQuotedStringLoop p (input.length + 1) input (emptyString p.empty)
    let (input, output) ← cowAddFws p input output
    if startsWith input (b! "\"") then do
      let input ← sliceFrom input 1
      let input ← skipCfws c input
      .ok (input, output)
    else .err (.unknown "Quoted string must end with a dquote")
  else .err (.unknown "Quoted string must begin with a dquote")

/-- `src/parsing/common.rs:17-27` (`atom`). -/
def cowAtom (c : Cfg) (p : Place) (input : Bytes) : Res CowStr := do
  let input ← skipCfws c input
  let (rest, atom) ← (takeWhile1 input isAtext).mapErr (.unknown "Atom required")
  let rest ← skipCfws c rest
  .ok (rest, p.slice input atom)

/-- `src/parsing/common.rs:33-49`: the loop of `dot_atom_text`. -/
def cowDotAtomTextLoop (c : Cfg) (p : Place) : Nat → Bytes → CowStr → Res CowStr
  | 0, _, _ => .abort .hang
  | fuel + 1, input, output =>
    if startsWith input (b! ".") then do
      let tail ← sliceFrom input 1
      match if c.feat.compatibilityFixes then takeWhile tail isAtext
            else takeWhile1 tail isAtext with
      | .ok (newInput, atom) => do
        let dot ← sliceTo input 1
        let output := addString p.memory output (p.slice input dot)
        cowDotAtomTextLoop c p fuel newInput (addStr p.memory output (p.addr tail) atom.length)
      | .err _ => .ok (input, output)
      | .abort k => .abort k
    else .ok (input, output)

/-- `src/parsing/common.rs:29-52` (`dot_atom_text`). -/
def cowDotAtomText (c : Cfg) (p : Place) (input : Bytes) : Res CowStr := do
  let (rest, first) ← takeWhile1 input isAtext
  cowDotAtomTextLoop c p (rest.length + 1) rest (p.slice input first)

/-- `src/parsing/common.rs:54-63` (`dot_atom`). -/
def cowDotAtom (c : Cfg) (p : Place) (input : Bytes) : Res CowStr := do
  let input ← skipCfws c input
  let (input, dotAtom) ← cowDotAtomText c p input
  let input ← skipCfws c input
  .ok (input, dotAtom)

/-- `src/parsing/common.rs:65-76` (`word`). -/
def cowWord (c : Cfg) (p : Place) (input : Bytes) : Res CowStr :=
  matchParsers input [cowAtom c p, cowQuotedString c p]

/-- `src/parsing/mime/encoded_headers.rs:46-115` (`encoded_word`): all arms return `Cow::Owned` (lines 90-111). -/
def cowEncodedWord (c : Cfg) (input : Bytes) : Res CowStr := do
  let (input, text) ← encodedWord c input
  .ok (input, .owned text)

/-- `src/parsing/common.rs:79-91`: the words of a phrase. -/
def cowPhraseWord (c : Cfg) (p : Place) (input : Bytes) : Res CowStr :=
  if c.feat.mime then
    matchParsers input
      [ fun i => do
          let (i, _) ← optional i fws
          cowEncodedWord c i,
        cowWord c p ]
  else cowWord c p input

/-- `src/parsing/common.rs:78-103` (`phrase`). -/
def cowPhrase (c : Cfg) (p : Place) (input : Bytes) : Res (List CowStr) := many1 input (cowPhraseWord c p)

/-- Loop of `src/parsing/combinators.rs:174-187` (`collect_many`); `result` is the variable of the same name. -/
def cowCollectManyLoop (p : Place) (parser : Bytes → Res CowStr) : Nat → Bytes → CowStr → Res CowStr
  | 0, _, _ => .abort .hang
  | fuel + 1, input, result =>
    match parser input with
    | .ok (newInput, newResult) => cowCollectManyLoop p parser fuel newInput (addString p.memory result newResult)
    | .err _ => .ok (input, result)
    | .abort k => .abort k

/-- `src/parsing/combinators.rs:174-187` (`collect_many`). -/
def cowCollectMany (p : Place) (input : Bytes) (parser : Bytes → Res CowStr) : Res CowStr :=
  cowCollectManyLoop p parser (input.length + 1) input (emptyString p.empty)

/-- `src/parsing/combinators.rs:220-231` (`collect_pair`). -/
def cowCollectPair (p : Place) (input : Bytes) (parser1 parser2 : Bytes → Res CowStr) : Res CowStr := do
  let (input, first) ← parser1 input
  let (input, second) ← parser2 input
  .ok (input, addString p.memory first second)

/-- `src/parsing/common.rs:105-122` (`unstructured`). -/
def cowUnstructured (p : Place) (input : Bytes) : Res CowStr := do
  let (input, output) ← cowCollectMany p input fun i =>
    cowCollectPair p i (cowFwsOrEmpty p) fun i => do
      let (input, value) ← takeWhile1 i isVchar
      .ok (input, p.slice i value)
  let (input, ()) ← dropWsp input
  .ok (input, output)

/-- `src/parsing/common.rs:127-144`: the `collect_many` loop of `mime_unstructured`, together with the variable
`previous_was_encoded` its closure captures. -/
def cowMimeUnstructuredLoop (c : Cfg) (p : Place) : Nat → Bool → Bytes → CowStr → Res CowStr
  | 0, _, _, _ => .abort .hang
  | fuel + 1, previousWasEncoded, input, result => do
    let (i, wsp) ← cowFwsOrEmpty p input
    match cowEncodedWord c i with
    | .ok (i, text) =>
      if previousWasEncoded then
        cowMimeUnstructuredLoop c p fuel true i (addString p.memory result text)
      else
        let wsp := addString p.memory wsp text
        cowMimeUnstructuredLoop c p fuel true i (addString p.memory result wsp)
    | .err _ =>
      match takeWhile1 i isVchar with
      | .ok (i₂, text) =>
        let wsp := addStr p.memory wsp (p.addr i) text.length
        cowMimeUnstructuredLoop c p fuel false i₂ (addString p.memory result wsp)
      | .err _ => .ok (input, result)
      | .abort k => .abort k
    | .abort k => .abort k

/-- `src/parsing/common.rs:124-151` (`mime_unstructured`). -/
def cowMimeUnstructured (c : Cfg) (p : Place) (input : Bytes) : Res CowStr := do
  let (input, output) ← cowMimeUnstructuredLoop c p (input.length + 1) false input (emptyString p.empty)
  let (input, ()) ← dropWsp input
  .ok (input, output)

/-- `src/parsing/address.rs:97-106`: the loop of `domain_literal`. -/
def cowDomainLiteralLoop (p : Place) : Nat → Bytes → CowStr → Res CowStr
  | 0, _, _ => .abort .hang
  | fuel + 1, input, output => do
    let (newInput, _fws) ← optional input fws
    match takeWhile1 newInput isDtext with
    | .ok (newInput₂, text) =>
      cowDomainLiteralLoop p fuel newInput₂ (addStr p.memory output (p.addr newInput) text.length)
    | .err _ => .ok (input, output)
    | .abort k => .abort k

/-- `src/parsing/address.rs:89-115` (`domain_literal`). -/
def cowDomainLiteral (c : Cfg) (p : Place) (input : Bytes) : Res CowStr := do
  let input ← skipCfws c input
  let (input, ()) ← tag input (b! "[") "TAG ERROR: A domain litteral must be preceded by a `[`."
  let (input, output) ← cowDomainLiteralLoop p (input.length + 1) input (emptyString p.empty)
  let (input, _fws) ← optional input fws
  let (input, ()) ← tag input (b! "]") "TAG ERROR: A domain litteral must be followed by a `]`."
  let input ← skipCfws c input
  .ok (input, output)

/-- `src/parsing/address.rs:81-83` (`local_part`). -/
def cowLocalPart (c : Cfg) (p : Place) (input : Bytes) : Res CowStr :=
  matchParsers input [cowDotAtom c p, cowQuotedString c p]

/-- `src/parsing/address.rs:85-87` (`domain`). -/
def cowDomain (c : Cfg) (p : Place) (input : Bytes) : Res CowStr :=
  matchParsers input [cowDotAtom c p, cowDomainLiteral c p]

/-- `src/parsing/address.rs:44-53` (`addr_spec`). -/
def cowAddrSpec (c : Cfg) (p : Place) (input : Bytes) : Res (CowStr × CowStr) := do
  let (input, localPart) ← cowLocalPart c p input
  let (input, ()) ← tag input (b! "@")
    "TAG ERROR: An address local part must be followed by a `@`."
  let (input, domain) ← cowDomain c p input
  .ok (input, (localPart, domain))

/-- `src/parsing/address.rs:6-19` (`no_fold_litteral`). -/
def cowNoFoldLitteral (p : Place) (input : Bytes) : Res CowStr := do
  let (input, ()) ← tag input (b! "[")
    "TAG ERROR: In message_id, a no_fold_litteral domain must be preceded by a `[`."
  let (rest, domain) ← takeWhile input isDtext
  let (rest, ()) ← tag rest (b! "]")
    "TAG ERROR: In message_id, a no_fold_litteral domain must be closed by a `]`."
  .ok (rest, p.slice input domain)

/-- `src/parsing/address.rs:5-42` (`message_id`). -/
def cowMessageId (c : Cfg) (p : Place) (input : Bytes) : Res (CowStr × CowStr) := do
  let input ← skipCfws c input
  let (input, ()) ← tag input (b! "<") "TAG ERROR: A message ID must start with a `<`."
  let (input, idLeft) ← cowDotAtomText c p input
  let (input, ()) ← tag input (b! "@")
    "TAG ERROR: A message ID right part must be followed by a `@`."
  let (input, idRight) ← matchParsers input [cowDotAtomText c p, cowNoFoldLitteral p]
  let (input, ()) ← tag input (b! ">")
    "TAG ERROR: A message ID left part must be followed by a `>`."
  let input ← skipCfws c input
  .ok (input, (idLeft, idRight))

end EmailParser
