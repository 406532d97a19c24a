import Verif.Model.Message
/-
A second transcription of the parsers, which also counts steps.

A `Timed α` is an outcome together with the number of steps made to reach it.  The functions below
are the ones of `Model/Combinators.lean`, `Model/Whitespaces.lean`, … `Model/Message.lean`, with the
same names (in the namespace `Timed`), line for line, with `tick`s added; that each of them has the
same outcome as the function it copies is proved in `Proofs/Timed/Erase.lean`, and again, for the
whole library, in `C60_same_outcome`.

What counts as a step:
* every byte examined by `take_while`, `take_while1`, `check_line`, `tag_no_case`, `tag` (for the
  latter, all bytes of the expected string, whether or not they are compared), plus one for the
  call;
* every iteration of every loop;
* every test of a single byte (`digit`, the sign of a zone, …), and the three bytes of the name of a day
  or of a month.

A call of a parser that makes no step itself calls at least one that does, so the number of calls is
at most proportional to the number of steps.  Not counted: copying bytes into a `String`
(`add_string`), the decoders of encoded words, parameters and bodies, and the conversion from
charsets (`Timed.lift`).
-/
namespace EmailParser

/-- An outcome, and the number of steps made until then. -/
structure Timed (α : Type) where
  out : Outcome α
  cost : Nat

namespace Timed

variable {α β : Type}

/-- Return `Ok`, without making a step. -/
def ok (a : α) : Timed α := ⟨.ok a, 0⟩

/-- Return `Err`, without making a step. -/
def err (e : Error) : Timed α := ⟨.err e, 0⟩

/-- Stop, without making a step. -/
def abort (k : Abort) : Timed α := ⟨.abort k, 0⟩

/-- A computation whose steps are not counted. -/
def lift (x : Outcome α) : Timed α := ⟨x, 0⟩

/-- Make `n` steps. -/
def tick (n : Nat) : Timed Unit := ⟨.ok (), n⟩

/-- Go on with the outcome (`match`). -/
def on (x : Timed α) (f : Outcome α → Timed β) : Timed β :=
  ⟨(f x.out).out, x.cost + (f x.out).cost⟩

/-- The `?` operator. -/
def bind (x : Timed α) (f : α → Timed β) : Timed β :=
  x.on fun
  | .ok a => f a
  | .err e => .err e
  | .abort k => .abort k

instance : Monad Timed where
  pure := ok
  bind := bind

/-- `Result::map_err(|_| e)`. -/
def mapErr (x : Timed α) (e : Error) : Timed α := ⟨x.out.mapErr e, x.cost⟩

/-- Result of a parser with a count of steps. -/
macro:max "TRes" t:term:max : term => `(Timed (Bytes × $t))

/-- How many bytes `for i in …{ if !condition(input[i]) { return … } }` examines: those that
satisfy the condition and the first one that does not. -/
def examined (condition : UInt8 → Bool) : Bytes → Nat
  | [] => 0
  | b :: bs => if condition b then examined condition bs + 1 else 1

/-- `src/parsing/character_sets.rs:30-44`.  The ten arms are written as one range test;
the value is a `u8`, modelled as `Nat`. -/
def digit (input : Bytes) : TRes Nat := do
  tick 1
  match input with
  | b :: rest =>
    if b ≥ 48 && b ≤ 57 then .ok (rest, b.toNat - 48) else .err (.unknown "Invalid digit")
  | [] => .err (.unknown "Invalid digit")

/-- `src/parsing/character_sets.rs:46-51`. -/
def twoDigits (input : Bytes) : TRes Nat := do
  let (input, first) ← digit input
  let (input, second) ← digit input
  let tens ← Timed.lift (u8 (first * 10))
  let value ← Timed.lift (u8 (tens + second))
  .ok (input, value)

/-- `src/parsing/combinators.rs:4-16` (`tag`).  The `debug_assert!` that the expected string is
UTF-8 is not modelled; every expected string in the code is an ASCII literal. -/
def tag (input expected : Bytes) (errorMessage : String) : TRes Unit := do
  tick (expected.length + 1)
  if startsWith input expected then do
    let rest ← Timed.lift (getUncheckedFrom input expected.length)
    .ok (rest, ())
  else .err (.explicit errorMessage)

/-- `src/parsing/combinators.rs:45-53`: the comparison loop of `tag_no_case`; `idx` is the loop
variable, `n` the number of iterations left.  `Ok(())` when all positions match. -/
def tagNoCaseLoop (input expected expected2 : Bytes) (errorMessage : String) :
    Nat → Nat → Timed Unit
  | _, 0 => .ok ()
  | idx, n + 1 => do
    tick 1
    let c ← Timed.lift (getUnchecked input idx)
    let e ← Timed.lift (getUnchecked expected idx)
    let e2 ← Timed.lift (getUnchecked expected2 idx)
    if c != e && c != e2 then .err (.explicit errorMessage)
    else tagNoCaseLoop input expected expected2 errorMessage (idx + 1) n

/-- `src/parsing/combinators.rs:18-56` (`tag_no_case`).  The debug-build checks are modelled as
always on (a violated one panics). -/
def tagNoCase (input expected expected2 : Bytes) (errorMessage : String) : TRes Unit := do
  tick 1
  if oppositeCase expected expected2 then
    if input.length < expected.length then
      .err (.unknown "Tag error, input is smaller than expected string")
    else do
      let () ← tagNoCaseLoop input expected expected2 errorMessage 0 expected.length
      let rest ← Timed.lift (getUncheckedFrom input expected.length)
      .ok (rest, ())
  else .abort .panic

/-- `src/parsing/combinators.rs:58-68` (`optional`). -/
def optional {α : Type} (input : Bytes) (parser : Bytes → TRes α) : TRes (Option α) :=
  Timed.on (parser input) fun
  | .ok (input, value) => .ok (input, some value)
  | .err _ => .ok (input, none)
  | .abort k => .abort k

/-- `src/parsing/combinators.rs:70-82` (`match_parsers`). -/
def matchParsers {α : Type} (input : Bytes) : List (Bytes → TRes α) → TRes α
  | [] => .err (.unknown "No match arm is matching the data")
  | parser :: parsers =>
    Timed.on (parser input) fun
    | .ok result => .ok result
    | .err _ => matchParsers input parsers
    | .abort k => .abort k

/-- `src/parsing/combinators.rs:84-100` (`take_while`). -/
def takeWhile (input : Bytes) (condition : UInt8 → Bool) : TRes Bytes := do
  tick (examined condition input + 1)
  match firstFailing condition 0 input with
  | some i => do
    let rest ← Timed.lift (getUncheckedFrom input i)
    let value ← Timed.lift (getUncheckedTo input i)
    .ok (rest, value)
  | none => .ok ([], input)

/-- `src/parsing/combinators.rs:102-128` (`take_while1`). -/
def takeWhile1 (input : Bytes) (condition : UInt8 → Bool) : TRes Bytes := do
  tick (examined condition input + 1)
  match input with
  | [] => .err (.unknown "Expected at least one character matching, but there is no character")
  | character :: tail =>
    if !condition character then .err (.unknown "Expected at least one character matching")
    else
      match firstFailing condition 1 tail with
      | some i => do
        let rest ← Timed.lift (getUncheckedFrom input i)
        let value ← Timed.lift (getUncheckedTo input i)
        .ok (rest, value)
      | none => .ok ([], input)

/-- Loop of `src/parsing/combinators.rs:130-140` (`ignore_many`). -/
def ignoreManyLoop {α : Type} (parser : Bytes → TRes α) : Nat → Bytes → TRes Unit
  | 0, _ => .abort .hang
  | fuel + 1, input => do
    tick 1
    Timed.on (parser input) fun
    | .ok (newInput, _) => ignoreManyLoop parser fuel newInput
    | .err _ => .ok (input, ())
    | .abort k => .abort k

/-- `src/parsing/combinators.rs:130-140` (`ignore_many`). -/
def ignoreMany {α : Type} (input : Bytes) (parser : Bytes → TRes α) : TRes Unit :=
  ignoreManyLoop parser (input.length + 1) input

/-- Loop of `src/parsing/combinators.rs:142-155` (`many`). -/
def manyLoop {α : Type} (parser : Bytes → TRes α) : Nat → Bytes → TRes (List α)
  | 0, _ => .abort .hang
  | fuel + 1, input => do
    tick 1
    Timed.on (parser input) fun
    | .ok (newInput, newResult) => do
      let (input, results) ← manyLoop parser fuel newInput
      .ok (input, newResult :: results)
    | .err _ => .ok (input, [])
    | .abort k => .abort k

/-- `src/parsing/combinators.rs:142-155` (`many`). -/
def many {α : Type} (input : Bytes) (parser : Bytes → TRes α) : TRes (List α) :=
  manyLoop parser (input.length + 1) input

/-- `src/parsing/combinators.rs:157-172` (`many1`). -/
def many1 {α : Type} (input : Bytes) (parser : Bytes → TRes α) : TRes (List α) := do
  let (input, firstResult) ← parser input
  let (input, results) ← manyLoop parser (input.length + 1) input
  .ok (input, firstResult :: results)

/-- Loop of `src/parsing/combinators.rs:174-187` (`collect_many`); `add_string` is concatenation of
contents (`Model/Cow.lean`). -/
def collectManyLoop (parser : Bytes → TRes Bytes) : Nat → Bytes → TRes Bytes
  | 0, _ => .abort .hang
  | fuel + 1, input => do
    tick 1
    Timed.on (parser input) fun
    | .ok (newInput, newResult) => do
      let (input, result) ← collectManyLoop parser fuel newInput
      .ok (input, newResult ++ result)
    | .err _ => .ok (input, [])
    | .abort k => .abort k

/-- `src/parsing/combinators.rs:174-187` (`collect_many`). -/
def collectMany (input : Bytes) (parser : Bytes → TRes Bytes) : TRes Bytes :=
  collectManyLoop parser (input.length + 1) input

/-- `src/parsing/combinators.rs:189-199` (`pair`). -/
def pair {α β : Type} (input : Bytes) (parser1 : Bytes → TRes α) (parser2 : Bytes → TRes β) :
    TRes (α × β) := do
  let (input, first) ← parser1 input
  let (input, second) ← parser2 input
  .ok (input, (first, second))

/-- `src/parsing/combinators.rs:201-218` (`triplet`). -/
def triplet {α β γ : Type} (input : Bytes) (parser1 : Bytes → TRes α) (parser2 : Bytes → TRes β)
    (parser3 : Bytes → TRes γ) : TRes (α × β × γ) := do
  let (input, first) ← parser1 input
  let (input, second) ← parser2 input
  let (input, third) ← parser3 input
  .ok (input, (first, second, third))

/-- `src/parsing/combinators.rs:220-231` (`collect_pair`). -/
def collectPair (input : Bytes) (parser1 parser2 : Bytes → TRes Bytes) : TRes Bytes := do
  let (input, first) ← parser1 input
  let (input, second) ← parser2 input
  .ok (input, first ++ second)

/-- `src/parsing/combinators.rs:233-248` (`prefixed`). -/
def prefixed {α : Type} (input : Bytes) (parser : Bytes → TRes α) (pre : Bytes) : TRes α := do
  tick (pre.length + 1)
  if startsWith input pre then do
    let input ← Timed.lift (getUncheckedFrom input pre.length)
    parser input
  else .err (.unknown "Expected a prefix")

/-- `src/parsing/whitespaces.rs:4-28` (`fws`). -/
def fws (input : Bytes) : TRes Bytes := do
  let (input, before) ← optional input fun input =>
    pair input
      (fun input => takeWhile input isWsp)
      (fun input => tag input (b! "\r\n")
        "TAG ERROR: A folding whitespace must end with a `\\r\\n` sequence.")
  let (input, after) ← takeWhile1 input isWsp
  match before with
  | some (before, _crlf) => .ok (input, before ++ after)
  | none => .ok (input, after)

/-- `fws(i).unwrap_or((i, empty_string()))` (`src/parsing/common.rs:109` and `:128`), and the
equivalent `if let Ok(…) = fws(i) { … } else { (i, empty_string()) }` of
`src/parsing/quoted_string.rs:47-52` and `:68-73`. -/
def fwsOrEmpty (input : Bytes) : TRes Bytes :=
  Timed.on (fws input) fun
  | .ok r => .ok r
  | .err _ => .ok (input, [])
  | .abort k => .abort k

/-- `src/parsing/quoted_string.rs:4-28` (`quoted_pair`). -/
def quotedPair (input : Bytes) : TRes Bytes := do
  let (input, ()) ← tag input (b! "\\") "TAG ERROR: A quoted pair must start with a `\\`."
  tick 1
  match input with
  | character :: _ =>
    if isVchar character || isWsp character then do
      let rest ← Timed.lift (getUncheckedFrom input 1)
      let value ← Timed.lift (getUncheckedTo input 1)
      .ok (rest, value)
    else .err (.unknown "The quoted-pair character is no a vchar or a wsp.")
  | [] => .err (.unknown "The quoted-pair has no second character.")

/-- `src/parsing/whitespaces.rs:30-43` (`ccontent`); `comment` is the parser for nested comments. -/
def ccontent (comment : Bytes → TRes Bytes) (input : Bytes) : TRes Bytes :=
  matchParsers input
    [ fun i => do
        let (input, value) ← takeWhile1 i isCtext
        .ok (input, value),
      quotedPair,
      comment ]

/-- `src/parsing/whitespaces.rs:45-57` (`comment`).  The first argument is the number of nested
calls the stack still has room for. -/
def comment : Nat → Bytes → TRes Bytes
  | 0, input => do
    let (_, ()) ← tag input (b! "(") "TAG ERROR: A comment must start with a `(`."
    .abort .stackOverflow
  | room + 1, input => do
    let (input, ()) ← tag input (b! "(") "TAG ERROR: A comment must start with a `(`."
    let (input, _) ← ignoreMany input fun input =>
      pair input (fun i => optional i fws) (ccontent (comment room))
    let (input, _) ← optional input fws
    let (input, ()) ← tag input (b! ")") "TAG ERROR: A comment must end with a `)`."
    .ok (input, [])

/-- The loop of `src/parsing/whitespaces.rs:74-85` (inside `real_cfws`): repeated
`[FWS] comment`, collecting the white space. -/
def realCfwsLoop (c : Cfg) : Nat → Bytes → TRes Bytes
  | 0, _ => .abort .hang
  | fuel + 1, input => do
    tick 1
    let (newInput, foldingWsp) ← optional input fws
    Timed.on (comment c.stack newInput) fun
    | .ok (newInput, _comment) => do
      let (input, output) ← realCfwsLoop c fuel newInput
      .ok (input, foldingWsp.getD [] ++ output)
    | .err _ => .ok (input, [])
    | .abort k => .abort k

/-- `src/parsing/whitespaces.rs:61-93` (`real_cfws`). -/
def realCfws (c : Cfg) (input : Bytes) : TRes Bytes := do
  let (newInput, foldingWsp) ← optional input fws
  Timed.on (comment c.stack newInput) fun
  | .ok (input, _comment) => do
    let (input, output) ← realCfwsLoop c (input.length + 1) input
    let (input, last) ← optional input fws
    .ok (input, foldingWsp.getD [] ++ output ++ last.getD [])
  | .err _ => .err (.unknown "Expected at least one comment")
  | .abort k => .abort k

/-- `src/parsing/whitespaces.rs:59-96` (`cfws`). -/
def cfws (c : Cfg) (input : Bytes) : TRes Bytes :=
  matchParsers input [realCfws c, fws]

/-- The recurring `if let Ok((new_input, _)) = cfws(input) { input = new_input }`
(e.g. `src/parsing/common.rs:18-20`), i.e. `optional(input, cfws)` with the value dropped. -/
def skipCfws (c : Cfg) (input : Bytes) : Timed Bytes :=
  Timed.on (cfws c input) fun
  | .ok (newInput, _) => .ok newInput
  | .err _ => .ok input
  | .abort k => .abort k

/-- The loop of `src/parsing/quoted_string.rs:44-66`: repeated `[FWS] (1*qtext / quoted-pair)`. -/
def quotedStringLoop : Nat → Bytes → TRes Bytes
  | 0, _ => .abort .hang
  | fuel + 1, input => do
    tick 1
    let (newInput, white) ← fwsOrEmpty input
    Timed.on (takeWhile1 newInput isQtext) fun
    | .ok (newInput, str) => do
      let (input, output) ← quotedStringLoop fuel newInput
      .ok (input, white ++ str ++ output)
    | .err _ =>
      Timed.on (quotedPair newInput) fun
      | .ok (newInput, str) => do
        let (input, output) ← quotedStringLoop fuel newInput
        .ok (input, white ++ str ++ output)
      | .err _ => .ok (input, [])
      | .abort k => .abort k
    | .abort k => .abort k

/-- `src/parsing/quoted_string.rs:30-88` (`quoted_string`). -/
def quotedString (c : Cfg) (input : Bytes) : TRes Bytes := do
  let input ← skipCfws c input
  tick 1
  if startsWith input (b! "\"") then do
    let input ← Timed.lift (sliceFrom input 1)
    let (input, output) ← quotedStringLoop (input.length + 1) input
    let (input, last) ← fwsOrEmpty input
    tick 1
    if startsWith input (b! "\"") then do
      let input ← Timed.lift (sliceFrom input 1)
      let input ← skipCfws c input
      .ok (input, output ++ last)
    else .err (.unknown "Quoted string must end with a dquote")
  else .err (.unknown "Quoted string must begin with a dquote")

/-- `src/parsing/mime/encoded_headers.rs:28-34` (`charset`). -/
def charset (input : Bytes) : TRes Bytes := do
  let (input, charset) ←
    takeWhile1 input fun c => c > 0x20 && c < 0x7F && !especials c && c != 42
  .ok (input, lowercase charset)

/-- `src/parsing/mime/encoded_headers.rs:36-40` (`encoding`). -/
def encoding (input : Bytes) : TRes Bytes := do
  let (input, encoding) ← takeWhile1 input fun c => c > 0x20 && c < 0x7F && !especials c
  .ok (input, lowercase encoding)

/-- `src/parsing/mime/encoded_headers.rs:42-44` (`encoded_text`). -/
def encodedText (input : Bytes) : TRes Bytes :=
  takeWhile1 input fun c => c > 0x20 && c ≤ 0x7E && c != 63

/-- `src/parsing/mime/encoded_headers.rs:46-115` (`encoded_word`). -/
def encodedWord (c : Cfg) (input : Bytes) : TRes Bytes := do
  let (input, ()) ← tag input (b! "=?") "TAG ERROR: An encoded word must start with `=?`."
  let (input, charset) ← charset input
  let (input, _language) ← optional input fun input =>
    pair input
      (fun input => tag input (b! "*")
        "TAG ERROR: In an encoded word with encoding, a charset must be followed by a `*`.")
      encoding
  let (input, ()) ← tag input (b! "?")
    "TAG ERROR: In an encoded word, a language must be followed by a `?`."
  let (input, encoding) ← encoding input
  let (input, ()) ← tag input (b! "?")
    "TAG ERROR: In an encoded word, a encoding must be followed by a `?`."
  let (input, data) ← encodedText input
  let (input, ()) ← tag input (b! "?=") "TAG ERROR: An encoded word must end with `?=`."
  let text ← Timed.lift (decodeWord c charset encoding data)
  .ok (input, text)

/-- `src/parsing/common.rs:17-27` (`atom`). -/
def atom (c : Cfg) (input : Bytes) : TRes Bytes := do
  let input ← skipCfws c input
  let (input, atom) ← (takeWhile1 input isAtext).mapErr (.unknown "Atom required")
  let input ← skipCfws c input
  .ok (input, atom)

/-- `src/parsing/common.rs:33-49`: the loop of `dot_atom_text`. -/
def dotAtomTextLoop (c : Cfg) : Nat → Bytes → TRes Bytes
  | 0, _ => .abort .hang
  | fuel + 1, input => do
    tick 2
    if startsWith input (b! ".") then do
      let tail ← Timed.lift (sliceFrom input 1)
      Timed.on (if c.feat.compatibilityFixes then takeWhile tail isAtext
            else takeWhile1 tail isAtext) fun
      | .ok (newInput, atom) => do
        let dot ← Timed.lift (sliceTo input 1)
        let (input, output) ← dotAtomTextLoop c fuel newInput
        .ok (input, dot ++ atom ++ output)
      | .err _ => .ok (input, [])
      | .abort k => .abort k
    else .ok (input, [])

/-- `src/parsing/common.rs:29-52` (`dot_atom_text`). -/
def dotAtomText (c : Cfg) (input : Bytes) : TRes Bytes := do
  let (input, first) ← takeWhile1 input isAtext
  let (input, output) ← dotAtomTextLoop c (input.length + 1) input
  .ok (input, first ++ output)

/-- `src/parsing/common.rs:54-63` (`dot_atom`). -/
def dotAtom (c : Cfg) (input : Bytes) : TRes Bytes := do
  let input ← skipCfws c input
  let (input, dotAtom) ← dotAtomText c input
  let input ← skipCfws c input
  .ok (input, dotAtom)

/-- `src/parsing/common.rs:65-76` (`word`). -/
def word (c : Cfg) (input : Bytes) : TRes Bytes :=
  matchParsers input [atom c, quotedString c]

/-- `src/parsing/common.rs:79-91`: the words of a phrase; with the feature `mime`, an encoded word
optionally preceded by white space is tried first. -/
def phraseWord (c : Cfg) (input : Bytes) : TRes Bytes :=
  if c.feat.mime then
    matchParsers input
      [ fun i => do
          let (i, _) ← optional i fws
          encodedWord c i,
        word c ]
  else word c input

/-- `src/parsing/common.rs:78-103` (`phrase`). -/
def phrase (c : Cfg) (input : Bytes) : TRes (List Bytes) := many1 input (phraseWord c)

/-- `src/parsing/common.rs:117-119` and `:146-148`: dropping trailing white space. -/
def dropWsp (input : Bytes) : TRes Unit := ignoreMany input fun i => takeWhile1 i isWsp

/-- `src/parsing/common.rs:105-122` (`unstructured`). -/
def unstructured (input : Bytes) : TRes Bytes := do
  let (input, output) ← collectMany input fun i =>
    collectPair i fwsOrEmpty fun i => do
      let (input, value) ← takeWhile1 i isVchar
      .ok (input, value)
  let (input, ()) ← dropWsp input
  .ok (input, output)

/-- `src/parsing/common.rs:127-144`: the `collect_many` loop of `mime_unstructured`, together with
the variable `previous_was_encoded` its closure captures. -/
def mimeUnstructuredLoop (c : Cfg) : Nat → Bool → Bytes → TRes Bytes
  | 0, _, _ => .abort .hang
  | fuel + 1, previousWasEncoded, input => do
    tick 1
    let (i, wsp) ← fwsOrEmpty input
    Timed.on (encodedWord c i) fun
    | .ok (i, text) => do
      let (input, output) ← mimeUnstructuredLoop c fuel true i
      .ok (input, (if previousWasEncoded then text else wsp ++ text) ++ output)
    | .err _ =>
      Timed.on (takeWhile1 i isVchar) fun
      | .ok (i, text) => do
        let (input, output) ← mimeUnstructuredLoop c fuel false i
        .ok (input, wsp ++ text ++ output)
      | .err _ => .ok (input, [])
      | .abort k => .abort k
    | .abort k => .abort k

/-- `src/parsing/common.rs:124-151` (`mime_unstructured`). -/
def mimeUnstructured (c : Cfg) (input : Bytes) : TRes Bytes := do
  let (input, output) ← mimeUnstructuredLoop c (input.length + 1) false input
  let (input, ()) ← dropWsp input
  .ok (input, output)

/-- The shape shared by all header field parsers (e.g. `src/parsing/fields.rs:187-202`):
the field name and colon in any case, the value, CRLF. -/
def headerLine {α : Type} (name nameOpposite : Bytes) (nameError endError : String)
    (value : Bytes → TRes α) (input : Bytes) : TRes α := do
  let (input, ()) ← tagNoCase input name nameOpposite nameError
  let (input, v) ← value input
  let (input, ()) ← tag input (b! "\r\n") endError
  .ok (input, v)

/-- `src/parsing/address.rs:6-19` (`no_fold_litteral`). -/
def noFoldLitteral (input : Bytes) : TRes Bytes := do
  let (input, ()) ← tag input (b! "[")
    "TAG ERROR: In message_id, a no_fold_litteral domain must be preceded by a `[`."
  let (input, domain) ← takeWhile input isDtext
  let (input, ()) ← tag input (b! "]")
    "TAG ERROR: In message_id, a no_fold_litteral domain must be closed by a `]`."
  .ok (input, domain)

/-- `src/parsing/address.rs:5-42` (`message_id`). -/
def messageId (c : Cfg) (input : Bytes) : TRes (Bytes × Bytes) := do
  let input ← skipCfws c input
  let (input, ()) ← tag input (b! "<") "TAG ERROR: A message ID must start with a `<`."
  let (input, idLeft) ← dotAtomText c input
  let (input, ()) ← tag input (b! "@")
    "TAG ERROR: A message ID right part must be followed by a `@`."
  let (input, idRight) ← matchParsers input [dotAtomText c, noFoldLitteral]
  let (input, ()) ← tag input (b! ">")
    "TAG ERROR: A message ID left part must be followed by a `>`."
  let input ← skipCfws c input
  .ok (input, (idLeft, idRight))

/-- `src/parsing/address.rs:97-106`: the loop of `domain_literal`. -/
def domainLiteralLoop : Nat → Bytes → TRes Bytes
  | 0, _ => .abort .hang
  | fuel + 1, input => do
    tick 1
    let (newInput, _fws) ← optional input fws
    Timed.on (takeWhile1 newInput isDtext) fun
    | .ok (newInput, text) => do
      let (input, output) ← domainLiteralLoop fuel newInput
      .ok (input, text ++ output)
    | .err _ => .ok (input, [])
    | .abort k => .abort k

/-- `src/parsing/address.rs:89-115` (`domain_literal`). -/
def domainLiteral (c : Cfg) (input : Bytes) : TRes Bytes := do
  let input ← skipCfws c input
  let (input, ()) ← tag input (b! "[") "TAG ERROR: A domain litteral must be preceded by a `[`."
  let (input, output) ← domainLiteralLoop (input.length + 1) input
  let (input, _fws) ← optional input fws
  let (input, ()) ← tag input (b! "]") "TAG ERROR: A domain litteral must be followed by a `]`."
  let input ← skipCfws c input
  .ok (input, output)

/-- `src/parsing/address.rs:81-83` (`local_part`). -/
def localPart (c : Cfg) (input : Bytes) : TRes Bytes :=
  matchParsers input [dotAtom c, quotedString c]

/-- `src/parsing/address.rs:85-87` (`domain`). -/
def domain (c : Cfg) (input : Bytes) : TRes Bytes :=
  matchParsers input [dotAtom c, domainLiteral c]

/-- `src/parsing/address.rs:44-53` (`addr_spec`). -/
def addrSpec (c : Cfg) (input : Bytes) : TRes EmailAddress := do
  let (input, localPart) ← localPart c input
  let (input, ()) ← tag input (b! "@")
    "TAG ERROR: An address local part must be followed by a `@`."
  let (input, domain) ← domain c input
  .ok (input, { localPart, domain })

/-- `src/parsing/address.rs:55-66` (`angle_addr`). -/
def angleAddr (c : Cfg) (input : Bytes) : TRes EmailAddress := do
  let input ← skipCfws c input
  let (input, ()) ← tag input (b! "<") "TAG ERROR: A angle_addr must start with a `<`."
  let (input, addrSpec) ← addrSpec c input
  let (input, ()) ← tag input (b! ">") "TAG ERROR: A angle_addr must end with a `>`."
  let input ← skipCfws c input
  .ok (input, addrSpec)

/-- `src/parsing/address.rs:68-79` (`name_addr`). -/
def nameAddr (c : Cfg) (input : Bytes) : TRes Mailbox := do
  let (input, displayName) ← optional input (phrase c)
  let (input, angleAddr) ← angleAddr c input
  .ok (input, { name := displayName, address := angleAddr })

/-- `src/parsing/address.rs:117-135` (`mailbox`). -/
def mailbox (c : Cfg) (input : Bytes) : TRes Mailbox :=
  matchParsers input
    [ nameAddr c,
      fun input => do
        let (i, m) ← addrSpec c input
        .ok (i, { name := none, address := m }) ]

/-- `src/parsing/address.rs:137-148` (`mailbox_list`); the loop is the one of `many`. -/
def mailboxList (c : Cfg) (input : Bytes) : TRes (List Mailbox) := do
  let (input, firstMailbox) ← mailbox c input
  let (input, mailboxes) ← many input fun input => prefixed input (mailbox c) (b! ",")
  .ok (input, firstMailbox :: mailboxes)

/-- `src/parsing/address.rs:158-166`: the members of a group. -/
def groupList (c : Cfg) (input : Bytes) : TRes (List Mailbox) :=
  Timed.on (mailboxList c input) fun
  | .ok (newInput, mailboxList) => .ok (newInput, mailboxList)
  | .err _ =>
    Timed.on (cfws c input) fun
    | .ok (newInput, _cfws) => .ok (newInput, [])
    | .err _ => .ok (input, [])
    | .abort k => .abort k
  | .abort k => .abort k

/-- `src/parsing/address.rs:150-175` (`group`). -/
def group (c : Cfg) (input : Bytes) : TRes (List Bytes × List Mailbox) := do
  let (input, displayName) ← phrase c input
  let (input, ()) ← tag input (b! ":")
    "TAG ERROR: A group display name must be followed by a `:`."
  let (input, groupList) ← groupList c input
  let (input, ()) ← tag input (b! ";")
    "TAG ERROR: A group mailbox list must be closed by a `;`."
  let input ← skipCfws c input
  .ok (input, (displayName, groupList))

/-- `src/parsing/address.rs:177-185` (`address`). -/
def address (c : Cfg) (input : Bytes) : TRes Address :=
  Timed.on (mailbox c input) fun
  | .ok (input, mailbox) => .ok (input, .mailbox mailbox)
  | .err _ =>
    Timed.on (group c input) fun
    | .ok (input, (name, members)) => .ok (input, .group name members)
    | .err _ => .err (.unknown "Invalid address: not a mailbox nor a group")
    | .abort k => .abort k
  | .abort k => .abort k

/-- `src/parsing/address.rs:187-198` (`address_list`); the loop is the one of `many`. -/
def addressList (c : Cfg) (input : Bytes) : TRes (List Address) := do
  let (input, firstAddress) ← address c input
  let (input, addresses) ← many input fun input => prefixed input (address c) (b! ",")
  .ok (input, firstAddress :: addresses)

/-- `src/parsing/time.rs:3-21` (`day_name`). -/
def dayName (input : Bytes) : TRes Day := do
  tick 3
  if 3 ≤ input.length then
    match dayNames.lookup ((input.take 3).map asciiLower) with
    | some day => .ok (input.drop 3, day)
    | none => .err (.unknown "Not a valid day_name")
  else .err (.unknown "Expected day_name, but characters are missing (at least 3).")

/-- `src/parsing/time.rs:23-46` (`month`). -/
def month (input : Bytes) : TRes Month := do
  tick 3
  if 3 ≤ input.length then
    match monthNames.lookup ((input.take 3).map asciiLower) with
    | some month => .ok (input.drop 3, month)
    | none => .err (.unknown "Not a valid month")
  else .err (.unknown "Expected month, but characters are missing (at least 3).")

/-- `src/parsing/time.rs:48-57` (`day_of_week`). -/
def dayOfWeek (input : Bytes) : TRes Day := do
  let (input, _fws) ← optional input fws
  let (input, day) ← dayName input
  let (input, ()) ← tag input (b! ",")
    "TAG ERROR: In a day_of_week, a day name must be followed by a comma."
  .ok (input, day)

/-- `src/parsing/time.rs:59-78` (`year`). -/
def year (input : Bytes) : TRes Nat := do
  let (input, _) ← fws input
  let (input, year) ← (takeWhile1 input isDigit).mapErr (.unknown "no digit in year")
  if year.length < 4 then .err (.unknown "year is expected to have 4 digits or more")
  else
    match parseUnsigned (2 ^ 64) year with
    | none => .err (.unknown "Failed to parse year")
    | some year =>
      if year < 1990 then .err (.unknown "year must be after 1990")
      else do
        let (input, _) ← fws input
        .ok (input, year)

/-- `src/parsing/time.rs:83-87`: the optional second digit of a day. -/
def secondDigit (day : Nat) (input : Bytes) : TRes Nat :=
  Timed.on (digit input) fun
  | .ok (newInput, digit) => do
    let day ← Timed.lift (u8 (day * 10))
    let day ← Timed.lift (u8 (day + digit))
    .ok (newInput, day)
  | .err _ => .ok (input, day)
  | .abort k => .abort k

/-- `src/parsing/time.rs:80-93` (`day`). -/
def day (input : Bytes) : TRes Nat := do
  let (input, _fws) ← optional input fws
  let (input, day) ← digit input
  let (input, day) ← secondDigit day input
  if day > 31 then .err (.unknown "day must be less than 31")
  else do
    let (input, _) ← fws input
    .ok (input, day)

/-- `src/parsing/time.rs:95-137` (`time_of_day`). -/
def timeOfDay (input : Bytes) : TRes Time := do
  let (input, hour) ← twoDigits input
  if hour > 23 then .err (.unknown "There is only 24 hours in a day")
  else do
    let (input, ()) ← tag input (b! ":")
      "TAG ERROR: In a time_of_day, the hour must be followed by a colon."
    let (input, minute) ← twoDigits input
    if minute > 59 then .err (.unknown "There is only 60 minutes per hour")
    else if startsWith input (b! ":") then do
      tick 1
      let newInput ← Timed.lift (sliceFrom input 1)
      Timed.on (twoDigits newInput) fun
      | .ok (newInput, second) =>
        if second > 60 then .err (.unknown "There is only 60 seconds in a minute")
        else .ok (newInput, { hour, minute, second })
      | .err _ => .ok (input, { hour, minute, second := 0 })
      | .abort k => .abort k
    else .ok (input, { hour, minute, second := 0 })

/-- `src/parsing/time.rs:142-148`: the sign of a zone. -/
def zoneSign (input : Bytes) : TRes Bool := do
  tick 1
  match input with
  | [] => .err (.unknown "Expected more characters in zone")
  | b :: input =>
    if b == 43 then .ok (input, true)
    else if b == 45 then .ok (input, false)
    else .err (.unknown "Invalid sign character in zone")

/-- `src/parsing/time.rs:139-165` (`zone`). -/
def zone (input : Bytes) : TRes Zone := do
  let (input, _fws) ← fws input
  let (input, sign) ← zoneSign input
  let (input, hourOffset) ← twoDigits input
  let (input, minuteOffset) ← twoDigits input
  if minuteOffset > 59 then .err (.unknown "zone minute_offset out of range")
  else .ok (input, { sign, hourOffset, minuteOffset })

/-- `src/parsing/time.rs:167-171` (`time`). -/
def time (input : Bytes) : TRes TimeWithZone := do
  let (input, time) ← timeOfDay input
  let (input, zone) ← zone input
  .ok (input, { time, zone })

/-- `src/parsing/time.rs:173-178` (`date`). -/
def date (input : Bytes) : TRes Date := do
  let (input, day) ← day input
  let (input, month) ← month input
  let (input, year) ← year input
  .ok (input, { day, month, year })

/-- `src/parsing/time.rs:180-193` (`date_time`). -/
def dateTime (c : Cfg) (input : Bytes) : TRes DateTime := do
  let (input, dayName) ← optional input dayOfWeek
  let (input, date) ← date input
  let (input, time) ← time input
  let input ← skipCfws c input
  .ok (input, { dayName, date, time })

/-- `src/parsing/mime/mime_fields.rs:6-15` (`ignore_inline_cfws`). -/
def ignoreInlineCfws (c : Cfg) (input : Bytes) : TRes Unit := do
  let (i, _) ← triplet input
    (fun input => takeWhile input isWsp)
    (fun input => optional input (comment c.stack))
    (fun input => takeWhile input isWsp)
  .ok (i, ())

/-- `src/parsing/mime/mime_fields.rs:17-22` (`token`). -/
def token (input : Bytes) : TRes Bytes := takeWhile1 input isTokenChar

/-- `src/parsing/mime/mime_fields.rs:36-44`: the loop of `u8_number`. -/
def u8NumberLoop : Nat → Bytes → Nat → TRes Nat
  | 0, _, _ => .abort .hang
  | fuel + 1, input, number => do
    tick 1
    Timed.on (digit input) fun
    | .ok (newInput, newDigit) =>
      if number * 10 < 256 then
        if number * 10 + newDigit < 256 then u8NumberLoop fuel newInput (number * 10 + newDigit)
        else .err (.unknown "Overflow while reading u8.")
      else .err (.unknown "Overflow while reading u8.")
    | .err _ => .ok (input, number)
    | .abort k => .abort k

/-- `src/parsing/mime/mime_fields.rs:33-47` (`u8_number`). -/
def u8Number (input : Bytes) : TRes Nat := do
  let (input, number) ← digit input
  u8NumberLoop (input.length + 1) input number

/-- `src/parsing/mime/mime_fields.rs:31-57`: the value of a `MIME-Version` field. -/
def mimeVersionValue (c : Cfg) (input : Bytes) : TRes (Nat × Nat) := do
  let input ← skipCfws c input
  let (input, d1) ← u8Number input
  let (input, ()) ← tag input (b! ".")
    "TAG ERROR: A MIME version's major version number must be followed by a `.`."
  let (input, d2) ← u8Number input
  let (input, ()) ← ignoreInlineCfws c input
  .ok (input, (d1, d2))

/-- `src/parsing/mime/mime_fields.rs:24-65` (`mime_version`). -/
def mimeVersion (c : Cfg) : Bytes → TRes (Nat × Nat) :=
  headerLine (b! "MIME-Version:") (b! "mime-vERSION:")
    "TAG NO CASE ERROR: Header name (Mime-Version) does not match."
    "TAG ERROR: A header (`MIME-Version` in this case) must end with a CRLF sequence."
    (mimeVersionValue c)

/-- `src/parsing/mime/mime_fields.rs:106-111`: the optional encoding mark. -/
def encodedMark (input : Bytes) : TRes Bool := do
  tick 1
  if input[0]? == some 42 then do
    let input ← Timed.lift (sliceFrom input 1)
    .ok (input, true)
  else .ok (input, false)

/-- `src/parsing/mime/mime_fields.rs:78-118`: parameter name with optional index and optional
encoding mark. -/
def extendedName (input : Bytes) : TRes (Bytes × Option Nat × Bool) := do
  let (input, name) ← takeWhile1 input fun c => isTokenChar c && c != 42
  let (input, index) ← optional input fun input =>
    pair input
      (fun input => tag input (b! "*")
        "TAG ERROR: An indexed MIME parameter name must contain a `*`.")
      (fun input => takeWhile1 input isDigit)
  let index ← Timed.lift (parameterIndex index)
  let (input, encoded) ← encodedMark input
  if input[0]? == some 61 then .ok (input, (name, index, encoded))
  else .err (.unknown "It wont work with this method")

/-- `src/parsing/mime/mime_fields.rs:133-142` and `:295-304`: a token or a quoted string. -/
def parameterValue (c : Cfg) (input : Bytes) : TRes Bytes :=
  matchParsers input
    [ fun input => do
        let (input, value) ← token input
        .ok (input, value),
      quotedString c ]

/-- `src/parsing/mime/mime_fields.rs:67-145` (`parameter`). -/
def parameter (c : Cfg) (input : Bytes) : TRes RawParam := do
  let input ← skipCfws c input
  let (input, ()) ← tag input (b! ";") "TAG ERROR: A MIME parameter must start with `;`."
  let input ← skipCfws c input
  let (input, (name, index, encoded)) ← matchParsers input
    [ extendedName,
      fun input => do
        let (input, name) ← token input
        .ok (input, (name, none, false)) ]
  let (input, ()) ← tag input (b! "=")
    "TAG ERROR: A MIME parameter name must be followed by a `=`."
  let (input, value) ← parameterValue c input
  .ok (input, { name := lowercase name, index, encoded, value })

/-- The recurring `tag_no_case(input, …).map(|(i, ())| (i, value))`
(e.g. `src/parsing/mime/mime_fields.rs:160-166`). -/
def keyword {α : Type} (expected expected2 : Bytes) (errorMessage : String) (value : α)
    (input : Bytes) : TRes α := do
  let (i, ()) ← tagNoCase input expected expected2 errorMessage
  .ok (i, value)

/-- The recurring catch-all alternative: a token, lowercased
(`src/parsing/mime/mime_fields.rs:217-223`, `:268-274`, `:393-398`). -/
def otherToken {α : Type} (mk : Bytes → α) (input : Bytes) : TRes α := do
  let (input, name) ← token input
  .ok (input, mk (lowercase name))

/-- `src/parsing/mime/mime_fields.rs:156-225`: the type before the slash. -/
def mimeType (input : Bytes) : TRes ContentType :=
  matchParsers input
    [ keyword (b! "text") (b! "TEXT")
        "TAG NO CASE ERROR: In a content type header, `text` type does not match." .text,
      keyword (b! "multipart") (b! "MULTIPART")
        "TAG NO CASE ERROR: In a content type header, `multipart` type does not match." .multipart,
      keyword (b! "application") (b! "APPLICATION")
        "TAG NO CASE ERROR: In a content type header, `application` type does not match."
        .application,
      keyword (b! "image") (b! "IMAGE")
        "TAG NO CASE ERROR: In a content type header, `image` type does not match." .image,
      keyword (b! "video") (b! "VIDEO")
        "TAG NO CASE ERROR: In a content type header, `video` type does not match." .video,
      keyword (b! "audio") (b! "AUDIO")
        "TAG NO CASE ERROR: In a content type header, `audio` type does not match." .audio,
      keyword (b! "message") (b! "MESSAGE")
        "TAG NO CASE ERROR: In a content type header, `message` type does not match." .message,
      otherToken .unknown ]

/-- `src/parsing/mime/mime_fields.rs:154-237`: the value of a `Content-Type` field. -/
def contentTypeValue (c : Cfg) (input : Bytes) : TRes (ContentType × Bytes × Params) := do
  let input ← skipCfws c input
  let (input, mimeType) ← mimeType input
  let (input, ()) ← tag input (b! "/")
    "TAG ERROR: A MIME content type must have a `/` separating the type and the subtype."
  let (input, subtype) ← token input
  let (input, parametersVec) ← many input (parameter c)
  let parameters ← Timed.lift (collectParameters c parametersVec)
  let (input, ()) ← ignoreInlineCfws c input
  .ok (input, (mimeType, lowercase subtype, parameters))

/-- `src/parsing/mime/mime_fields.rs:147-245` (`content_type`). -/
def contentType (c : Cfg) : Bytes → TRes (ContentType × Bytes × Params) :=
  headerLine (b! "Content-Type:") (b! "cONTENT-tYPE:")
    "TAG NO CASE ERROR: Header name (Content-Type) does not match."
    "TAG ERROR: A header (`Content-Type` in this case) must end with a CRLF sequence."
    (contentTypeValue c)

/-- `src/parsing/mime/mime_fields.rs:288-307` (`filename_parameter`). -/
def filenameParameter (c : Cfg) (input : Bytes) : TRes Bytes := do
  let input ← skipCfws c input
  let (input, ()) ← tag input (b! ";")
    "TAG ERROR: In a Content-Disposition header, a filename parameter must start with a `;`."
  let input ← skipCfws c input
  let (input, ()) ← tagNoCase input (b! "filename") (b! "FILENAME")
    "TAG NO CASE ERROR: In a Content-Disposition header, the name of the parameter does not match a filename parameter."
  let (input, ()) ← tag input (b! "=")
    "TAG ERROR: In a Content-Disposition header, a filename parameter value must be preceded by a `=`."
  parameterValue c input

/-- `src/parsing/mime/mime_fields.rs:309-324` (`date_parameter`). -/
def dateParameter (c : Cfg) (input name nameUppercase : Bytes) : TRes DateTime := do
  let input ← skipCfws c input
  let (input, ()) ← tag input (b! ";")
    "TAG ERROR: In a Content-Disposition header, a date parameter must start with a `;`."
  let input ← skipCfws c input
  let (input, ()) ← tagNoCase input name nameUppercase
    "TAG NO CASE ERROR: In a Content-Disposition header, the name of the parameter does not match a date parameter."
  let (input, ()) ← tag input (b! "=\"")
    "TAG ERROR: In a Content-Disposition header, a date parameter value must be preceded by `=\"`."
  let (input, value) ← dateTime c input
  let (input, ()) ← tag input (b! "\"")
    "TAG ERROR: In a Content-Disposition header, a date parameter value must be closed by a `\"`."
  .ok (input, value)

/-- `src/parsing/mime/mime_fields.rs:258-276`: the disposition type. -/
def dispositionType (input : Bytes) : TRes DispositionType :=
  matchParsers input
    [ keyword (b! "inline") (b! "INLINE")
        "TAG NO CASE ERROR: In a content disposition header, `inline` disposition does not match."
        .inline,
      keyword (b! "attachment") (b! "ATTACHMENT")
        "TAG NO CASE ERROR: In a content disposition header, `attachment` disposition does not match."
        .attachment,
      otherToken .unknown ]

/-- `src/parsing/mime/mime_fields.rs:326-347`: which of the five kinds of parameters comes next. -/
def dispositionItem (c : Cfg) (input : Bytes) : TRes DispositionItem :=
  matchParsers input
    [ fun input => do
        let (i, v) ← filenameParameter c input
        .ok (i, .filename v),
      fun input => do
        let (i, v) ← dateParameter c input (b! "creation-date") (b! "CREATION-DATE")
        .ok (i, .creationDate v),
      fun input => do
        let (i, v) ← dateParameter c input (b! "modification-date") (b! "MODIFICATION-DATE")
        .ok (i, .modificationDate v),
      fun input => do
        let (i, v) ← dateParameter c input (b! "read-date") (b! "READ-DATE")
        .ok (i, .readDate v),
      fun input => do
        let (i, v) ← parameter c input
        .ok (i, .parameter v) ]

/-- `src/parsing/mime/mime_fields.rs:256-351`: the value of a `Content-Disposition` field.  The
loop is written as `many` followed by a fold of the assignments. -/
def contentDispositionValue (c : Cfg) (input : Bytes) : TRes Disposition := do
  let input ← skipCfws c input
  let (input, dispositionType) ← dispositionType input
  let (input, items) ← many input (dispositionItem c)
  let disposition : Disposition := items.foldl Disposition.add
    { dispositionType, filename := none, creationDate := none, modificationDate := none,
      readDate := none, unstructured := Params.empty }
  let unstructured ← Timed.lift (collectParameters c (items.filterMap DispositionItem.rawParam?))
  let (input, ()) ← ignoreInlineCfws c input
  .ok (input, { disposition with unstructured })

/-- `src/parsing/mime/mime_fields.rs:247-359` (`content_disposition`). -/
def contentDisposition (c : Cfg) : Bytes → TRes Disposition :=
  headerLine (b! "Content-Disposition:") (b! "cONTENT-dISPOSITION:")
    "TAG NO CASE ERROR: Header name (Content-Disposition) does not match."
    "TAG ERROR: A header (`Content-Disposition` in this case) must end with a CRLF sequence."
    (contentDispositionValue c)

/-- `src/parsing/mime/mime_fields.rs:370-400`: the encoding. -/
def transferEncoding (input : Bytes) : TRes ContentTransferEncoding :=
  matchParsers input
    [ keyword (b! "7bit") (b! "7BIT")
        "TAG NO CASE ERROR: In a content transfer encoding header, `7bit` encoding does not match."
        .sevenBit,
      keyword (b! "quoted-printable") (b! "QUOTED-PRINTABLE")
        "TAG NO CASE ERROR: In a content transfer encoding header, `quoted-printable` encoding does not match."
        .quotedPrintable,
      keyword (b! "base64") (b! "BASE64")
        "TAG NO CASE ERROR: In a content transfer encoding header, `base64` encoding does not match."
        .base64,
      keyword (b! "8bit") (b! "8BIT")
        "TAG NO CASE ERROR: In a content transfer encoding header, `8bit` encoding does not match."
        .heightBit,
      keyword (b! "binary") (b! "BINARY")
        "TAG NO CASE ERROR: In a content transfer encoding header, `binary` encoding does not match."
        .binary,
      otherToken .unknown ]

/-- `src/parsing/mime/mime_fields.rs:368-402`: the value of a `Content-Transfer-Encoding` field. -/
def transferEncodingValue (c : Cfg) (input : Bytes) : TRes ContentTransferEncoding := do
  let input ← skipCfws c input
  let (input, encoding) ← transferEncoding input
  let (input, ()) ← ignoreInlineCfws c input
  .ok (input, encoding)

/-- `src/parsing/mime/mime_fields.rs:361-406` (`content_transfer_encoding`). -/
def contentTransferEncoding (c : Cfg) : Bytes → TRes ContentTransferEncoding :=
  headerLine (b! "Content-Transfer-Encoding:") (b! "cONTENT-tRANSFER-eNCODING:")
    "TAG NO CASE ERROR: Header name (Content-Transfer-Encoding) does not match."
    "TAG ERROR: A header (`Content-Transfer-Encoding` in this case) must end with a CRLF sequence."
    (transferEncodingValue c)

/-- `src/parsing/mime/mime_fields.rs:408-423` (`content_id`). -/
def contentId (c : Cfg) : Bytes → TRes (Bytes × Bytes) :=
  headerLine (b! "Content-ID:") (b! "cONTENT-id:")
    "TAG NO CASE ERROR: Header name (Content-ID) does not match."
    "TAG ERROR: A header (`Content-ID` in this case) must end with a CRLF sequence."
    (messageId c)

/-- `src/parsing/mime/mime_fields.rs:425-440` (`content_description`). -/
def contentDescription (c : Cfg) : Bytes → TRes Bytes :=
  headerLine (b! "Content-Description:") (b! "cONTENT-dESCRIPTION:")
    "TAG NO CASE ERROR: Header name (Content-Description) does not match."
    "TAG ERROR: A header (`Content-Description` in this case) must end with a CRLF sequence."
    (mimeUnstructured c)

/-- `src/parsing/fields.rs:279-285`: the value of a `Bcc` field, possibly without any address. -/
def bccValue (c : Cfg) (input : Bytes) : TRes (List Address) :=
  Timed.on (addressList c input) fun
  | .ok r => .ok r
  | .err _ =>
    Timed.on (cfws c input) fun
    | .ok (input, _cfws) => .ok (input, [])
    | .err _ => .err (.unknown "Invalid bcc field")
    | .abort k => .abort k
  | .abort k => .abort k

/-- `src/parsing/fields.rs:319` and `:336`. -/
def messageIds (c : Cfg) (input : Bytes) : TRes (List (Bytes × Bytes)) := many1 input (messageId c)

/-- `src/parsing/fields.rs:353-356` and `:373-376`: unstructured text, with encoded words if the
feature `mime` is enabled. -/
def textValue (c : Cfg) (input : Bytes) : TRes Bytes :=
  if c.feat.mime then mimeUnstructured c input else unstructured input

/-- `src/parsing/fields.rs:394-401`; the loop is the one of `many`. -/
def keywordList (c : Cfg) (input : Bytes) : TRes (List (List Bytes)) := do
  let (input, firstKeyword) ← phrase c input
  let (input, keywords) ← many input fun input => prefixed input (phrase c) (b! ",")
  .ok (input, firstKeyword :: keywords)

/-- `src/parsing/fields.rs:170-185` (`date`). -/
def dateField (c : Cfg) : Bytes → TRes (DateTime) :=
  headerLine (b! "Date:") (b! "dATE:")
    "TAG NO CASE ERROR: Header name (Date) does not match."
    "TAG ERROR: A header (`Date` in this case) must end with a CRLF sequence."
    (dateTime c)

/-- `src/parsing/fields.rs:187-202` (`from`). -/
def fromField (c : Cfg) : Bytes → TRes (List Mailbox) :=
  headerLine (b! "From:") (b! "fROM:")
    "TAG NO CASE ERROR: Header name (From) does not match."
    "TAG ERROR: A header (`From` in this case) must end with a CRLF sequence."
    (mailboxList c)

/-- `src/parsing/fields.rs:204-219` (`sender`). -/
def senderField (c : Cfg) : Bytes → TRes (Mailbox) :=
  headerLine (b! "Sender:") (b! "sENDER:")
    "TAG NO CASE ERROR: Header name (Sender) does not match."
    "TAG ERROR: A header (`Sender` in this case) must end with a CRLF sequence."
    (mailbox c)

/-- `src/parsing/fields.rs:221-236` (`reply_to`). -/
def replyToField (c : Cfg) : Bytes → TRes (List Address) :=
  headerLine (b! "Reply-To:") (b! "rEPLY-tO:")
    "TAG NO CASE ERROR: Header name (Reply-To) does not match."
    "TAG ERROR: A header (`Reply-To` in this case) must end with a CRLF sequence."
    (addressList c)

/-- `src/parsing/fields.rs:238-253` (`to`). -/
def toField (c : Cfg) : Bytes → TRes (List Address) :=
  headerLine (b! "To:") (b! "tO:")
    "TAG NO CASE ERROR: Header name (To) does not match."
    "TAG ERROR: A header (`To` in this case) must end with a CRLF sequence."
    (addressList c)

/-- `src/parsing/fields.rs:255-270` (`cc`). -/
def ccField (c : Cfg) : Bytes → TRes (List Address) :=
  headerLine (b! "Cc:") (b! "cC:")
    "TAG NO CASE ERROR: Header name (Cc) does not match."
    "TAG ERROR: A header (`Cc` in this case) must end with a CRLF sequence."
    (addressList c)

/-- `src/parsing/fields.rs:272-293` (`bcc`). -/
def bccField (c : Cfg) : Bytes → TRes (List Address) :=
  headerLine (b! "Bcc:") (b! "bCC:")
    "TAG NO CASE ERROR: Header name (Bcc) does not match."
    "TAG ERROR: A header (`Bcc` in this case) must end with a CRLF sequence."
    (bccValue c)

/-- `src/parsing/fields.rs:295-310` (`message_id`). -/
def messageIdField (c : Cfg) : Bytes → TRes (Bytes × Bytes) :=
  headerLine (b! "Message-ID:") (b! "mESSAGE-id:")
    "TAG NO CASE ERROR: Header name (Message-ID) does not match."
    "TAG ERROR: A header (`Message-ID` in this case) must end with a CRLF sequence."
    (messageId c)

/-- `src/parsing/fields.rs:312-327` (`in_reply_to`). -/
def inReplyToField (c : Cfg) : Bytes → TRes (List (Bytes × Bytes)) :=
  headerLine (b! "In-Reply-To:") (b! "iN-rEPLY-tO:")
    "TAG NO CASE ERROR: Header name (Reply-To) does not match."
    "TAG ERROR: A header (`In-Reply-To` in this case) must end with a CRLF sequence."
    (messageIds c)

/-- `src/parsing/fields.rs:329-344` (`references`). -/
def referencesField (c : Cfg) : Bytes → TRes (List (Bytes × Bytes)) :=
  headerLine (b! "References:") (b! "rEFERENCES:")
    "TAG NO CASE ERROR: Header name (References) does not match."
    "TAG ERROR: A header (`References` in this case) must end with a CRLF sequence."
    (messageIds c)

/-- `src/parsing/fields.rs:346-364` (`subject`). -/
def subjectField (c : Cfg) : Bytes → TRes (Bytes) :=
  headerLine (b! "Subject:") (b! "sUBJECT:")
    "TAG NO CASE ERROR: Header name (Subject) does not match."
    "TAG ERROR: A header (`Subject` in this case) must end with a CRLF sequence."
    (textValue c)

/-- `src/parsing/fields.rs:366-384` (`comments`). -/
def commentsField (c : Cfg) : Bytes → TRes (Bytes) :=
  headerLine (b! "Comments:") (b! "cOMMENTS:")
    "TAG NO CASE ERROR: Header name (Comments) does not match."
    "TAG ERROR: A header (`Comments` in this case) must end with a CRLF sequence."
    (textValue c)

/-- `src/parsing/fields.rs:386-410` (`keywords`). -/
def keywordsField (c : Cfg) : Bytes → TRes (List (List Bytes)) :=
  headerLine (b! "Keywords:") (b! "kEYWORDS:")
    "TAG NO CASE ERROR: Header name (Keywords) does not match."
    "TAG ERROR: A header (`Keywords` in this case) must end with a CRLF sequence."
    (keywordList c)

/-- The shape shared by the `resent_*` parsers (e.g. `src/parsing/fields.rs:412-422`). -/
def resent {α : Type} (nameError : String) (field : Bytes → TRes α) (input : Bytes) : TRes α := do
  let (input, ()) ← tagNoCase input (b! "Resent-") (b! "rESENT-") nameError
  let (input, v) ← field input
  .ok (input, v)

/-- `src/parsing/fields.rs:412-422` (`resent_date`). -/
def resentDate (c : Cfg) : Bytes → TRes (DateTime) :=
  resent "TAG NO CASE ERROR: Header name (Resent-Date) does not match." (dateField c)

/-- `src/parsing/fields.rs:424-434` (`resent_from`). -/
def resentFrom (c : Cfg) : Bytes → TRes (List Mailbox) :=
  resent "TAG NO CASE ERROR: Header name (Resent-From) does not match." (fromField c)

/-- `src/parsing/fields.rs:436-446` (`resent_sender`). -/
def resentSender (c : Cfg) : Bytes → TRes (Mailbox) :=
  resent "TAG NO CASE ERROR: Header name (Resent-Sender) does not match." (senderField c)

/-- `src/parsing/fields.rs:448-458` (`resent_to`). -/
def resentTo (c : Cfg) : Bytes → TRes (List Address) :=
  resent "TAG NO CASE ERROR: Header name (Resent-To) does not match." (toField c)

/-- `src/parsing/fields.rs:460-470` (`resent_cc`). -/
def resentCc (c : Cfg) : Bytes → TRes (List Address) :=
  resent "TAG NO CASE ERROR: Header name (Resent-Cc) does not match." (ccField c)

/-- `src/parsing/fields.rs:472-482` (`resent_bcc`). -/
def resentBcc (c : Cfg) : Bytes → TRes (List Address) :=
  resent "TAG NO CASE ERROR: Header name (Resent-Bcc) does not match." (bccField c)

/-- `src/parsing/fields.rs:484-494` (`resent_message_id`). -/
def resentMessageId (c : Cfg) : Bytes → TRes (Bytes × Bytes) :=
  resent "TAG NO CASE ERROR: Header name (Resent-Message-ID) does not match." (messageIdField c)

/-- `src/parsing/fields.rs:497-504` (`empty_path`). -/
def emptyPath (c : Cfg) (input : Bytes) : TRes Unit := do
  let input ← skipCfws c input
  let (input, ()) ← tag input (b! "<") "TAG ERROR: An empty path must start with `<`."
  let input ← skipCfws c input
  let (input, ()) ← tag input (b! ">") "TAG ERROR: An empty path must end with `>`."
  let input ← skipCfws c input
  .ok (input, ())

/-- `src/parsing/fields.rs:512-520`: the value of a `Return-Path` field. -/
def returnPathValue (c : Cfg) (input : Bytes) : TRes (Option EmailAddress) :=
  matchParsers input
    [ fun i => do
        let (i, v) ← angleAddr c i
        .ok (i, some v),
      fun i => do
        let (i, ()) ← emptyPath c i
        .ok (i, none) ]

/-- `src/parsing/fields.rs:496-528` (`return_path`). -/
def returnPath (c : Cfg) : Bytes → TRes (Option EmailAddress) :=
  headerLine (b! "Return-Path:") (b! "rETURN-pATH:")
    "TAG NO CASE ERROR: Header name (Return-Path) does not match."
    "TAG ERROR: A header (`Return-Path` in this case) must end with a CRLF sequence."
    (returnPathValue c)

/-- `src/parsing/fields.rs:544-561`: one token of a `Received` field. -/
def receivedToken (c : Cfg) (input : Bytes) : TRes ReceivedToken :=
  Timed.on (word c input) fun
  | .ok (wordInput, word) =>
    Timed.on (domain c input) fun
    | .ok (domainInput, domain) =>
      if domain.length > word.length then .ok (domainInput, .domain domain)
      else .ok (wordInput, .word word)
    | .err _ => .ok (wordInput, .word word)
    | .abort k => .abort k
  | .err _ =>
    Timed.on (angleAddr c input) fun
    | .ok (input, addr) => .ok (input, .addr addr)
    | .err _ =>
      Timed.on (addrSpec c input) fun
      | .ok (input, addr) => .ok (input, .addr addr)
      | .err _ =>
        Timed.on (domain c input) fun
        | .ok (input, domain) => .ok (input, .domain domain)
        | .err _ => .err (.unknown "match error")
        | .abort k => .abort k
      | .abort k => .abort k
    | .abort k => .abort k
  | .abort k => .abort k

/-- `src/parsing/fields.rs:544-567`: the value of a `Received` field. -/
def receivedValue (c : Cfg) (input : Bytes) : TRes (List ReceivedToken × DateTime) := do
  let (input, receivedTokens) ← many input (receivedToken c)
  let (input, ()) ← tag input (b! ";") "TAG ERROR: Received tokens must be followed by a `;`."
  let (input, dateTime) ← dateTime c input
  .ok (input, (receivedTokens, dateTime))

/-- `src/parsing/fields.rs:537-575` (`received`). -/
def received (c : Cfg) : Bytes → TRes (List ReceivedToken × DateTime) :=
  headerLine (b! "Received:") (b! "rECEIVED:")
    "TAG NO CASE ERROR: Header name (Received) does not match."
    "TAG ERROR: A header (`Received` in this case) must end with a CRLF sequence."
    (receivedValue c)

/-- `src/parsing/fields.rs:577-587` (`trace`). -/
def trace (c : Cfg) (input : Bytes) :
    TRes (Option (Option EmailAddress) × List (List ReceivedToken × DateTime)) := do
  let (input, returnPath) ← optional input (returnPath c)
  let (input, received) ← many1 input (received c)
  .ok (input, (returnPath, received))

/-- `src/parsing/fields.rs:596-599`: the value of an unrecognized field. -/
def unknownValue (c : Cfg) (input : Bytes) : TRes Bytes :=
  if c.feat.unrecognizedHeaders then mimeUnstructured c input else unstructured input

/-- `src/parsing/fields.rs:589-608` (`unknown`). -/
def unknown (c : Cfg) (input : Bytes) : TRes (Bytes × Bytes) := do
  let (input, name) ← takeWhile1 input isFtext
  let (input, ()) ← tag input (b! ":") "TAG ERROR: A header name must be followed by a `:`."
  let (input, value) ← unknownValue c input
  let (input, ()) ← tag input (b! "\r\n") "TAG ERROR: A header must end with a CRLF sequence."
  .ok (input, (name, value))

/-- `Result::map` on the value of a parser (`|i| p(i).map(|(i, v)| (i, f(v)))`). -/
def mapValue {α β : Type} (f : α → β) (parser : Bytes → TRes α) (input : Bytes) : TRes β := do
  let (i, v) ← parser input
  .ok (i, f v)

/-- `src/parsing/fields.rs:85-93`. -/
def traceFieldParsers (c : Cfg) : List (Bytes → TRes TraceField) :=
  [ mapValue .date (resentDate c),
    mapValue .from (resentFrom c),
    mapValue .sender (resentSender c),
    mapValue .to (resentTo c),
    mapValue .cc (resentCc c),
    mapValue .bcc (resentBcc c),
    mapValue .messageId (resentMessageId c) ]

/-- `src/parsing/fields.rs:110-161`: the alternatives for a header field, in the order of the
code. -/
@[irreducible] def fieldParsers (c : Cfg) : List (Bytes → TRes Field) :=
  enabled c.feat.date (mapValue .date (dateField c)) ++
  enabled c.feat.from (mapValue .from (fromField c)) ++
  enabled c.feat.sender (mapValue .sender (senderField c)) ++
  enabled c.feat.replyTo (mapValue .replyTo (replyToField c)) ++
  enabled c.feat.to (mapValue .to (toField c)) ++
  enabled c.feat.cc (mapValue .cc (ccField c)) ++
  enabled c.feat.bcc (mapValue .bcc (bccField c)) ++
  enabled c.feat.messageId (mapValue .messageId (messageIdField c)) ++
  enabled c.feat.inReplyTo (mapValue .inReplyTo (inReplyToField c)) ++
  enabled c.feat.references (mapValue .references (referencesField c)) ++
  enabled c.feat.subject (mapValue .subject (subjectField c)) ++
  enabled c.feat.comments (mapValue .comments (commentsField c)) ++
  enabled c.feat.mime (mapValue (fun (mj, mn) => .mimeVersion mj mn) (mimeVersion c)) ++
  enabled c.feat.mime (mapValue (fun (t, st, p) => .contentType t st p) (contentType c)) ++
  enabled c.feat.mime (mapValue .contentTransferEncoding (contentTransferEncoding c)) ++
  enabled c.feat.mime (mapValue .contentId (contentId c)) ++
  enabled c.feat.mime (mapValue .contentDescription (contentDescription c)) ++
  enabled c.feat.mime (mapValue .contentDisposition (contentDisposition c)) ++
  enabled c.feat.keywords (mapValue .keywords (keywordsField c)) ++
  [mapValue (fun (name, value) => .unknown name value) (unknown c)]

/-- `src/parsing/fields.rs:79-105`: one trace block. -/
def traceBlock (c : Cfg) (input : Bytes) : TRes Field := do
  let (input, trace) ← trace c input
  let (input, traceFields) ← many input fun input => matchParsers input (traceFieldParsers c)
  .ok (input, .trace trace.1 trace.2 traceFields)

/-- `src/parsing/fields.rs:108-161`: one header field outside of trace blocks. -/
def field (c : Cfg) (input : Bytes) : TRes Field := matchParsers input (fieldParsers c)

/-- `src/parsing/fields.rs:78-106`: the trace blocks. -/
def traces (c : Cfg) (input : Bytes) : TRes (List Field) :=
  if c.feat.trace then many input (traceBlock c) else .ok (input, [])

/-- `src/parsing/fields.rs:75-168` (`fields`).  The `while let` loops are those of `many`; the
body of the first loop cannot leave the loop early after `trace` has succeeded, as the inner loop
ends with `Ok`. -/
def fields (c : Cfg) (input : Bytes) : TRes (List Field) := do
  let (input, traces) ← traces c input
  let (input, fields) ← many input (field c)
  .ok (input, traces ++ fields)

/-- `src/parsing/message.rs:26-39` (`check_line`). -/
def checkLine (input : Bytes) : TRes Unit := do
  let maxIdx := min input.length 998
  tick (examined isText (input.take maxIdx) + 1)
  match firstFailing isText 0 (input.take maxIdx) with
  | some i => do
    let rest ← Timed.lift (getUncheckedFrom input i)
    .ok (rest, ())
  | none => do
    let rest ← Timed.lift (getUncheckedFrom input maxIdx)
    .ok (rest, ())

/-- `src/parsing/message.rs:86-102`: the loop of `body`. -/
def bodyLoop : Nat → Bytes → Timed Unit
  | 0, _ => .abort .hang
  | fuel + 1, input => do
    tick 1
    let (newInput, ()) ← checkLine input
    Timed.on (tag newInput (b! "\r\n")
        "TAG ERROR: In a body, a line must end with a CRLF sequence.") fun
    | .ok (newInput, ()) => bodyLoop fuel newInput
    | .err e => if newInput.isEmpty then .ok () else .err e
    | .abort k => .abort k

/-- `src/parsing/message.rs:75-108` (`body`). -/
def body (input : Bytes) : Timed (Option Bytes) :=
  if input.isEmpty then .ok none
  else do
    let (newInput, ()) ← tag input (b! "\r\n")
      "TAG ERROR: Headers must be followed by a CRLF sequence."
    bodyLoop (newInput.length + 1) newInput
    let value ← Timed.lift (getUncheckedFrom input 2)
    .ok (some value)

/-- `src/parsing/message.rs:110-133` (`parse_message`, both versions). -/
def parseMessage (c : Cfg) (input : Bytes) : Timed (List Field × Option Bytes) := do
  let (input, fields) ← fields c input
  if c.feat.mime then
    if input.isEmpty then .ok (fields, none)
    else do
      let (newInput, ()) ← tag input (b! "\r\n")
        "TAG ERROR: Headers must be followed by a CRLF sequence."
      .ok (fields, some newInput)
  else do
    let body ← body input
    .ok (fields, body)

/-- `src/email.rs:97-387` (`Email::parse`; `TryFrom<&[u8]>`, lines 390-396, is the same). -/
def parse (c : Cfg) (data : Bytes) : Timed Email :=  do
  let (fields, body) ← parseMessage c data
  tick fields.length
  let a ← Timed.lift (EmailAcc.addAll {} fields)
  Timed.lift (a.finish c body)

end Timed

end EmailParser
