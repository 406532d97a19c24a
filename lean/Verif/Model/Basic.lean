/-
Basic vocabulary of the model: byte strings, outcomes, configuration.
All paths cited below are relative to /repo/email-parser/.
-/
namespace EmailParser

/-- A byte slice `&[u8]`, and also the content of a `&str`/`Cow<str>`/`String`
(Rust strings are modelled by their UTF-8 bytes; that these bytes really are
valid UTF-8, although most of them are built with `from_utf8_unchecked`, is a theorem,
not an assumption).  Ownership (`Cow::Borrowed` or `Cow::Owned`) is not part of this model; it is
treated separately in `Model/Cow.lean`. -/
abbrev Bytes := List UInt8

/-- Byte-string literals: `b! "From:"` elaborates to the explicit list of its UTF-8 bytes. -/
syntax:max "b!" str : term

macro_rules
  | `(b! $s:str) => do
    let elems := s.getString.toUTF8.toList.toArray.map fun b =>
      Lean.Syntax.mkNumLit (toString b.toNat)
    `(([$elems,*] : List UInt8))

/-- `src/error.rs:1-7` (`enum Error`), messages included. -/
inductive Error where
  | explicit (message : String)
  | unknown (message : String)
  | duplicateHeader (name : String)
  | missingHeader (name : String)
deriving DecidableEq, Repr

/-- `src/error.rs:9-20` (`impl Display for Error`). -/
def Error.display : Error → String
  | .unknown message => message
  | .explicit message => message
  | .duplicateHeader name => "There are too many " ++ name ++ " headers in this mail."
  | .missingHeader name => "A valid " ++ name ++ " header is required."

/-- The ways in which Rust code can fail to return a value.
* `panic`: an explicit panic, a checked index or slice out of range, an arithmetic overflow in
  a build with overflow checks;
* `ub`: an out-of-range `get_unchecked`/`get_unchecked_mut`;
* `hang`: a loop that never ends;
* `stackOverflow`: recursion deeper than the thread's stack (process abort). -/
inductive Abort where
  | panic | ub | hang | stackOverflow
deriving DecidableEq, Repr

/-- Outcome of running a Rust function of type `Result<α, Error>`:
`Ok`, `Err`, or the computation does not return. -/
inductive Outcome (α : Type) where
  | ok (a : α)
  | err (e : Error)
  | abort (k : Abort)
deriving DecidableEq, Repr

/-- The `?` operator: `Err` is returned to the caller, an abort aborts everything. -/
@[inline] def Outcome.bind {α β : Type} (x : Outcome α) (f : α → Outcome β) : Outcome β :=
  match x with
  | .ok a => f a
  | .err e => .err e
  | .abort k => .abort k

instance : Monad Outcome where
  pure := .ok
  bind := Outcome.bind

/-- `Result::map_err(|_| e)`. -/
def Outcome.mapErr {α : Type} (x : Outcome α) (e : Error) : Outcome α :=
  match x with
  | .ok a => .ok a
  | .err _ => .err e
  | .abort k => .abort k

/-- `src/error.rs:24` (`type Res<'a, T> = Result<(&'a [u8], T), Error>`). -/
macro:max "Res" t:term:max : term => `(Outcome (Bytes × $t))

/-- The single-byte and table-driven decoders of the crate `textcode` used by the library
(`src/parsing/mime/encoded_headers.rs:94-110`). -/
inductive Textcode where
  | iso8859_1 | iso8859_2 | iso8859_3 | iso8859_4 | iso8859_5 | iso8859_6 | iso8859_7
  | iso8859_8 | iso8859_9 | iso8859_10 | iso8859_11 | iso8859_13 | iso8859_14 | iso8859_15
  | iso8859_16 | iso6937 | gb2312
deriving DecidableEq, Repr

/-- Cargo features (`Cargo.toml:16-40`).  `mime` stands for `mime` together with
`content-disposition`: with `mime` but not `content-disposition` the crate does not compile,
because `src/parsing/mime/entity.rs:37` initialises a field that does not exist then.
`unrecognizedHeaders` requires `mime`; `sender` requires `from` (`src/email.rs:315`);
see `Features.compiles`. -/
structure Features where
  to : Bool
  cc : Bool
  bcc : Bool
  date : Bool
  «from» : Bool
  sender : Bool
  replyTo : Bool
  messageId : Bool
  inReplyTo : Bool
  references : Bool
  subject : Bool
  comments : Bool
  keywords : Bool
  trace : Bool
  mime : Bool
  unrecognizedHeaders : Bool
  compatibilityFixes : Bool
deriving DecidableEq, Repr

/-- The feature sets for which the crate compiles. -/
def Features.compiles (f : Features) : Prop :=
  (f.sender = true → f.from = true) ∧ (f.unrecognizedHeaders = true → f.mime = true)

/-- `Cargo.toml:17-18`: the default features (all headers, nothing else). -/
def Features.default : Features where
  to := true
  cc := true
  bcc := true
  date := true
  «from» := true
  sender := true
  replyTo := true
  messageId := true
  inReplyTo := true
  references := true
  subject := true
  comments := true
  keywords := true
  trace := true
  mime := false
  unrecognizedHeaders := false
  compatibilityFixes := false

/-- All headers and MIME. -/
def Features.full : Features :=
  { Features.default with mime := true, unrecognizedHeaders := true }

/-- Well-formed UTF-8 (Unicode standard, table 3-7): what `String::from_utf8` and
`std::str::from_utf8` of the Rust standard library accept.  The standard library is not part of
the repository; this is its documented behaviour. -/
def utf8Valid : Bytes → Bool
  | [] => true
  | b :: bs =>
    if b < 0x80 then utf8Valid bs
    else if b < 0xC2 then false
    else if b < 0xE0 then
      match bs with
      | b1 :: bs => isCont b1 && utf8Valid bs
      | [] => false
    else if b < 0xF0 then
      match bs with
      | b1 :: b2 :: bs =>
        (if b == 0xE0 then 0xA0 ≤ b1 && b1 ≤ 0xBF
         else if b == 0xED then 0x80 ≤ b1 && b1 ≤ 0x9F
         else isCont b1) && isCont b2 && utf8Valid bs
      | _ => false
    else if b < 0xF5 then
      match bs with
      | b1 :: b2 :: b3 :: bs =>
        (if b == 0xF0 then 0x90 ≤ b1 && b1 ≤ 0xBF
         else if b == 0xF4 then 0x80 ≤ b1 && b1 ≤ 0x8F
         else isCont b1) && isCont b2 && isCont b3 && utf8Valid bs
      | _ => false
    else false
where
  /-- continuation bytes `80..BF` -/
  isCont (b : UInt8) : Bool := 0x80 ≤ b && b ≤ 0xBF

/-- `u8::to_ascii_lowercase`. -/
def asciiLower (c : UInt8) : UInt8 := if c ≥ 65 && c ≤ 90 then c + 32 else c

/-- `u8::to_ascii_uppercase`. -/
def asciiUpper (c : UInt8) : UInt8 := if c ≥ 97 && c ≤ 122 then c - 32 else c

/-- Values of `HashMap<u8, (bool, Cow<str>)>` (`src/parsing/mime/percent_encoding.rs:102`). -/
abbrev Segments := Nat → Option (Bool × Bytes)

/-- Everything the behaviour of a compiled copy of the library depends on besides its input.
* `feat`: the Cargo features it was compiled with;
* `overflowChecks`: whether integer overflow panics (debug builds) or wraps (release builds);
* `stack`: how many nested calls of `comment` fit on the stack
  (`src/parsing/whitespaces.rs:45-57` is the only recursion in the parser);
* `textcode`: the external charset decoders (crate `textcode`, not in the repository); all that is
  assumed of them is that they return a Rust `String`, i.e. valid UTF-8;
* `toLowercase`: `str::to_lowercase` of the standard library (Unicode tables not modelled; only its
  effect on ASCII strings is assumed);
* `mapOrder`: the order in which a `HashMap` is iterated
  (`src/parsing/mime/percent_encoding.rs:116`), unspecified and different on every run; all that is
  assumed is that every entry is visited exactly once. -/
structure Cfg where
  feat : Features
  overflowChecks : Bool
  stack : Nat
  textcode : Textcode → Bytes → Bytes
  toLowercase : Bytes → Bytes
  mapOrder : List (Bytes × Segments) → List (Bytes × Segments)
  textcode_valid : ∀ t bytes, utf8Valid (textcode t bytes) = true
  toLowercase_ascii : ∀ s : Bytes, (∀ b ∈ s, b < 128) → toLowercase s = s.map asciiLower
  mapOrder_perm : ∀ l, (mapOrder l).Perm l

/-- `slice.get_unchecked(n..)`: undefined behaviour when `n` is out of range. -/
def getUncheckedFrom (input : Bytes) (n : Nat) : Outcome Bytes :=
  if n ≤ input.length then .ok (input.drop n) else .abort .ub

/-- `slice.get_unchecked(..n)`: undefined behaviour when `n` is out of range. -/
def getUncheckedTo (input : Bytes) (n : Nat) : Outcome Bytes :=
  if n ≤ input.length then .ok (input.take n) else .abort .ub

/-- `slice.get_unchecked(n)`: undefined behaviour when `n` is out of range. -/
def getUnchecked (input : Bytes) (n : Nat) : Outcome UInt8 :=
  match input[n]? with
  | some b => .ok b
  | none => .abort .ub

/-- `&slice[n..]`: panics when `n` is out of range. -/
def sliceFrom (input : Bytes) (n : Nat) : Outcome Bytes :=
  if n ≤ input.length then .ok (input.drop n) else .abort .panic

/-- `&slice[..n]`: panics when `n` is out of range. -/
def sliceTo (input : Bytes) (n : Nat) : Outcome Bytes :=
  if n ≤ input.length then .ok (input.take n) else .abort .panic

/-- `slice.get(a..b)`. -/
def getRange (input : Bytes) (a b : Nat) : Option Bytes :=
  if a ≤ b ∧ b ≤ input.length then some ((input.drop a).take (b - a)) else none

/-- `slice.starts_with(prefix)`. -/
def startsWith (input pre : Bytes) : Bool := pre.isPrefixOf input

/-- The result of an `u8` computation whose mathematical value is `n`.  Overflow is modelled as
a panic whatever the build (a release build would wrap); the totality theorems show that it
never happens at the places where this is used, so the two kinds of build agree there. -/
def u8 (n : Nat) : Outcome Nat :=
  if n < 256 then .ok n else .abort .panic

end EmailParser
