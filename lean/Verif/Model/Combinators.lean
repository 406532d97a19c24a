import Verif.Model.CharSets
/-
Model of src/parsing/combinators.rs.

A `while let Ok(..) = parser(input)` loop is modelled with a fuel argument equal to the length of
the input plus one; running out of fuel is the outcome `abort hang`.  A loop whose body consumes at
least one byte per iteration cannot run out of fuel; a loop whose body succeeds without consuming
anything is called again on the same input and never ends, and does run out of fuel.
-/
namespace EmailParser

/-- `src/parsing/combinators.rs:4-16` (`tag`).  The `debug_assert!` that the expected string is
UTF-8 is not modelled; every expected string in the code is an ASCII literal. -/
def tag (input expected : Bytes) (errorMessage : String) : Res Unit :=
  if startsWith input expected then do
    let rest ← getUncheckedFrom input expected.length
    .ok (rest, ())
  else .err (.explicit errorMessage)

/-- `src/parsing/combinators.rs:25-37`: the checks done by debug builds in `tag_no_case`
(same length, and the second string is the first with the case of every letter swapped). -/
def oppositeCase (expected expected2 : Bytes) : Bool :=
  expected.length == expected2.length &&
  (expected.zip expected2).all fun (a, b) =>
    !((a ≥ 97 && a ≤ 122 && asciiUpper a != b) || (a ≥ 65 && a ≤ 90 && asciiLower a != b))

/-- `src/parsing/combinators.rs:45-53`: the comparison loop of `tag_no_case`; `idx` is the loop
variable, `n` the number of iterations left.  `Ok(())` when all positions match. -/
def tagNoCaseLoop (input expected expected2 : Bytes) (errorMessage : String) :
    Nat → Nat → Outcome Unit
  | _, 0 => .ok ()
  | idx, n + 1 => do
    let c ← getUnchecked input idx
    let e ← getUnchecked expected idx
    let e2 ← getUnchecked expected2 idx
    if c != e && c != e2 then .err (.explicit errorMessage)
    else tagNoCaseLoop input expected expected2 errorMessage (idx + 1) n

/-- `src/parsing/combinators.rs:18-56` (`tag_no_case`).  The debug-build checks are modelled as
always on (a violated one panics). -/
def tagNoCase (input expected expected2 : Bytes) (errorMessage : String) : Res Unit :=
  if oppositeCase expected expected2 then
    if input.length < expected.length then
      .err (.unknown "Tag error, input is smaller than expected string")
    else do
      let () ← tagNoCaseLoop input expected expected2 errorMessage 0 expected.length
      let rest ← getUncheckedFrom input expected.length
      .ok (rest, ())
  else .abort .panic

/-- `src/parsing/combinators.rs:58-68` (`optional`). -/
def optional {α : Type} (input : Bytes) (parser : Bytes → Res α) : Res (Option α) :=
  match parser input with
  | .ok (input, value) => .ok (input, some value)
  | .err _ => .ok (input, none)
  | .abort k => .abort k

/-- `src/parsing/combinators.rs:70-82` (`match_parsers`). -/
def matchParsers {α : Type} (input : Bytes) : List (Bytes → Res α) → Res α
  | [] => .err (.unknown "No match arm is matching the data")
  | parser :: parsers =>
    match parser input with
    | .ok result => .ok result
    | .err _ => matchParsers input parsers
    | .abort k => .abort k

/-- The loop `for i in start..input.len() { if !condition(input[i]) { … } }`
(`src/parsing/combinators.rs:89-98` and `:117-126`): index of the first byte, from index `i` on,
that does not satisfy the condition.  The list is the part of the input from index `i` on. -/
def firstFailing (condition : UInt8 → Bool) (i : Nat) : Bytes → Option Nat
  | [] => none
  | b :: bs => if condition b then firstFailing condition (i + 1) bs else some i

/-- `src/parsing/combinators.rs:84-100` (`take_while`). -/
def takeWhile (input : Bytes) (condition : UInt8 → Bool) : Res Bytes :=
  match firstFailing condition 0 input with
  | some i => do
    let rest ← getUncheckedFrom input i
    let value ← getUncheckedTo input i
    .ok (rest, value)
  | none => .ok ([], input)

/-- `src/parsing/combinators.rs:102-128` (`take_while1`). -/
def takeWhile1 (input : Bytes) (condition : UInt8 → Bool) : Res Bytes :=
  match input with
  | [] => .err (.unknown "Expected at least one character matching, but there is no character")
  | character :: tail =>
    if !condition character then .err (.unknown "Expected at least one character matching")
    else
      match firstFailing condition 1 tail with
      | some i => do
        let rest ← getUncheckedFrom input i
        let value ← getUncheckedTo input i
        .ok (rest, value)
      | none => .ok ([], input)

/-- Loop of `src/parsing/combinators.rs:130-140` (`ignore_many`). -/
def ignoreManyLoop {α : Type} (parser : Bytes → Res α) : Nat → Bytes → Res Unit
  | 0, _ => .abort .hang
  | fuel + 1, input =>
    match parser input with
    | .ok (newInput, _) => ignoreManyLoop parser fuel newInput
    | .err _ => .ok (input, ())
    | .abort k => .abort k

/-- `src/parsing/combinators.rs:130-140` (`ignore_many`). -/
def ignoreMany {α : Type} (input : Bytes) (parser : Bytes → Res α) : Res Unit :=
  ignoreManyLoop parser (input.length + 1) input

/-- Loop of `src/parsing/combinators.rs:142-155` (`many`). -/
def manyLoop {α : Type} (parser : Bytes → Res α) : Nat → Bytes → Res (List α)
  | 0, _ => .abort .hang
  | fuel + 1, input =>
    match parser input with
    | .ok (newInput, newResult) => do
      let (input, results) ← manyLoop parser fuel newInput
      .ok (input, newResult :: results)
    | .err _ => .ok (input, [])
    | .abort k => .abort k

/-- `src/parsing/combinators.rs:142-155` (`many`). -/
def many {α : Type} (input : Bytes) (parser : Bytes → Res α) : Res (List α) :=
  manyLoop parser (input.length + 1) input

/-- `src/parsing/combinators.rs:157-172` (`many1`). -/
def many1 {α : Type} (input : Bytes) (parser : Bytes → Res α) : Res (List α) := do
  let (input, firstResult) ← parser input
  let (input, results) ← manyLoop parser (input.length + 1) input
  .ok (input, firstResult :: results)

/-- Loop of `src/parsing/combinators.rs:174-187` (`collect_many`); `add_string` is concatenation of
contents (`Model/Cow.lean`). -/
def collectManyLoop (parser : Bytes → Res Bytes) : Nat → Bytes → Res Bytes
  | 0, _ => .abort .hang
  | fuel + 1, input =>
    match parser input with
    | .ok (newInput, newResult) => do
      let (input, result) ← collectManyLoop parser fuel newInput
      .ok (input, newResult ++ result)
    | .err _ => .ok (input, [])
    | .abort k => .abort k

/-- `src/parsing/combinators.rs:174-187` (`collect_many`). -/
def collectMany (input : Bytes) (parser : Bytes → Res Bytes) : Res Bytes :=
  collectManyLoop parser (input.length + 1) input

/-- `src/parsing/combinators.rs:189-199` (`pair`). -/
def pair {α β : Type} (input : Bytes) (parser1 : Bytes → Res α) (parser2 : Bytes → Res β) :
    Res (α × β) := do
  let (input, first) ← parser1 input
  let (input, second) ← parser2 input
  .ok (input, (first, second))

/-- `src/parsing/combinators.rs:201-218` (`triplet`). -/
def triplet {α β γ : Type} (input : Bytes) (parser1 : Bytes → Res α) (parser2 : Bytes → Res β)
    (parser3 : Bytes → Res γ) : Res (α × β × γ) := do
  let (input, first) ← parser1 input
  let (input, second) ← parser2 input
  let (input, third) ← parser3 input
  .ok (input, (first, second, third))

/-- `src/parsing/combinators.rs:220-231` (`collect_pair`). -/
def collectPair (input : Bytes) (parser1 parser2 : Bytes → Res Bytes) : Res Bytes := do
  let (input, first) ← parser1 input
  let (input, second) ← parser2 input
  .ok (input, first ++ second)

/-- `src/parsing/combinators.rs:233-248` (`prefixed`). -/
def prefixed {α : Type} (input : Bytes) (parser : Bytes → Res α) (pre : Bytes) : Res α :=
  if startsWith input pre then do
    let input ← getUncheckedFrom input pre.length
    parser input
  else .err (.unknown "Expected a prefix")

end EmailParser
