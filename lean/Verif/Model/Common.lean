import Verif.Model.QuotedString
import Verif.Model.EncodedHeaders
/-
Model of src/parsing/common.rs (`lowercase` is in Model/EncodedHeaders.lean).
-/
namespace EmailParser

/-- `src/parsing/common.rs:17-27` (`atom`). -/
def atom (c : Cfg) (input : Bytes) : Res Bytes := do
  let input ← skipCfws c input
  let (input, atom) ← (takeWhile1 input isAtext).mapErr (.unknown "Atom required")
  let input ← skipCfws c input
  .ok (input, atom)

/-- `src/parsing/common.rs:33-49`: the loop of `dot_atom_text`. -/
def dotAtomTextLoop (c : Cfg) : Nat → Bytes → Res Bytes
  | 0, _ => .abort .hang
  | fuel + 1, input =>
    if startsWith input (b! ".") then do
      let tail ← sliceFrom input 1
      match if c.feat.compatibilityFixes then takeWhile tail isAtext
            else takeWhile1 tail isAtext with
      | .ok (newInput, atom) => do
        let dot ← sliceTo input 1
        let (input, output) ← dotAtomTextLoop c fuel newInput
        .ok (input, dot ++ atom ++ output)
      | .err _ => .ok (input, [])
      | .abort k => .abort k
    else .ok (input, [])

/-- `src/parsing/common.rs:29-52` (`dot_atom_text`). -/
def dotAtomText (c : Cfg) (input : Bytes) : Res Bytes := do
  let (input, first) ← takeWhile1 input isAtext
  let (input, output) ← dotAtomTextLoop c (input.length + 1) input
  .ok (input, first ++ output)

/-- `src/parsing/common.rs:54-63` (`dot_atom`). -/
def dotAtom (c : Cfg) (input : Bytes) : Res Bytes := do
  let input ← skipCfws c input
  let (input, dotAtom) ← dotAtomText c input
  let input ← skipCfws c input
  .ok (input, dotAtom)

/-- `src/parsing/common.rs:65-76` (`word`). -/
def word (c : Cfg) (input : Bytes) : Res Bytes :=
  matchParsers input [atom c, quotedString c]

/-- `src/parsing/common.rs:79-91`: the words of a phrase; with the feature `mime`, an encoded word
optionally preceded by white space is tried first. -/
def phraseWord (c : Cfg) (input : Bytes) : Res Bytes :=
  if c.feat.mime then
    matchParsers input
      [ fun i => do
          let (i, _) ← optional i fws
          encodedWord c i,
        word c ]
  else word c input

/-- `src/parsing/common.rs:78-103` (`phrase`). -/
def phrase (c : Cfg) (input : Bytes) : Res (List Bytes) := many1 input (phraseWord c)

/-- `src/parsing/common.rs:117-119` and `:146-148`: dropping trailing white space. -/
def dropWsp (input : Bytes) : Res Unit := ignoreMany input fun i => takeWhile1 i isWsp

/-- `src/parsing/common.rs:105-122` (`unstructured`). -/
def unstructured (input : Bytes) : Res Bytes := do
  let (input, output) ← collectMany input fun i =>
    collectPair i fwsOrEmpty fun i => do
      let (input, value) ← takeWhile1 i isVchar
      .ok (input, value)
  let (input, ()) ← dropWsp input
  .ok (input, output)

/-- `src/parsing/common.rs:127-144`: the `collect_many` loop of `mime_unstructured`, together with
the variable `previous_was_encoded` its closure captures. -/
def mimeUnstructuredLoop (c : Cfg) : Nat → Bool → Bytes → Res Bytes
  | 0, _, _ => .abort .hang
  | fuel + 1, previousWasEncoded, input => do
    let (i, wsp) ← fwsOrEmpty input
    match encodedWord c i with
    | .ok (i, text) => do
      let (input, output) ← mimeUnstructuredLoop c fuel true i
      .ok (input, (if previousWasEncoded then text else wsp ++ text) ++ output)
    | .err _ =>
      match takeWhile1 i isVchar with
      | .ok (i, text) => do
        let (input, output) ← mimeUnstructuredLoop c fuel false i
        .ok (input, wsp ++ text ++ output)
      | .err _ => .ok (input, [])
      | .abort k => .abort k
    | .abort k => .abort k

/-- `src/parsing/common.rs:124-151` (`mime_unstructured`). -/
def mimeUnstructured (c : Cfg) (input : Bytes) : Res Bytes := do
  let (input, output) ← mimeUnstructuredLoop c (input.length + 1) false input
  let (input, ()) ← dropWsp input
  .ok (input, output)

/-- The shape shared by all header field parsers (e.g. `src/parsing/fields.rs:187-202`):
the field name and colon in any case, the value, CRLF. -/
def headerLine {α : Type} (name nameOpposite : Bytes) (nameError endError : String)
    (value : Bytes → Res α) (input : Bytes) : Res α := do
  let (input, ()) ← tagNoCase input name nameOpposite nameError
  let (input, v) ← value input
  let (input, ()) ← tag input (b! "\r\n") endError
  .ok (input, v)

end EmailParser
