import Verif.Model.Common
/-
Model of src/address.rs and src/parsing/address.rs.
-/
namespace EmailParser

/-- `src/address.rs:12-16`. -/
structure EmailAddress where
  localPart : Bytes
  domain : Bytes
deriving DecidableEq, Repr

/-- `src/address.rs:3-10`. -/
structure Mailbox where
  name : Option (List Bytes)
  address : EmailAddress
deriving DecidableEq, Repr

/-- `src/address.rs:18-22`. -/
inductive Address where
  | mailbox (m : Mailbox)
  | group (name : List Bytes) (members : List Mailbox)
deriving DecidableEq, Repr

/-- `src/parsing/address.rs:6-19` (`no_fold_litteral`). -/
def noFoldLitteral (input : Bytes) : Res Bytes := do
  let (input, ()) ← tag input (b! "[")
    "TAG ERROR: In message_id, a no_fold_litteral domain must be preceded by a `[`."
  let (input, domain) ← takeWhile input isDtext
  let (input, ()) ← tag input (b! "]")
    "TAG ERROR: In message_id, a no_fold_litteral domain must be closed by a `]`."
  .ok (input, domain)

/-- `src/parsing/address.rs:5-42` (`message_id`). -/
def messageId (c : Cfg) (input : Bytes) : Res (Bytes × Bytes) := do
  let input ← skipCfws c input
  let (input, ()) ← tag input (b! "<") "TAG ERROR: A message ID must start with a `<`."
  let (input, idLeft) ← dotAtomText c input
  let (input, ()) ← tag input (b! "@")
    "TAG ERROR: A message ID right part must be followed by a `@`."
  let (input, idRight) ← matchParsers input [dotAtomText c, noFoldLitteral]
  let (input, ()) ← tag input (b! ">")
    "TAG ERROR: A message ID left part must be followed by a `>`."
  let input ← skipCfws c input
  .ok (input, (idLeft, idRight))

/-- `src/parsing/address.rs:97-106`: the loop of `domain_literal`. -/
def domainLiteralLoop : Nat → Bytes → Res Bytes
  | 0, _ => .abort .hang
  | fuel + 1, input => do
    let (newInput, _fws) ← optional input fws
    match takeWhile1 newInput isDtext with
    | .ok (newInput, text) => do
      let (input, output) ← domainLiteralLoop fuel newInput
      .ok (input, text ++ output)
    | .err _ => .ok (input, [])
    | .abort k => .abort k

/-- `src/parsing/address.rs:89-115` (`domain_literal`). -/
def domainLiteral (c : Cfg) (input : Bytes) : Res Bytes := do
  let input ← skipCfws c input
  let (input, ()) ← tag input (b! "[") "TAG ERROR: A domain litteral must be preceded by a `[`."
  let (input, output) ← domainLiteralLoop (input.length + 1) input
  let (input, _fws) ← optional input fws
  let (input, ()) ← tag input (b! "]") "TAG ERROR: A domain litteral must be followed by a `]`."
  let input ← skipCfws c input
  .ok (input, output)

/-- `src/parsing/address.rs:81-83` (`local_part`). -/
def localPart (c : Cfg) (input : Bytes) : Res Bytes :=
  matchParsers input [dotAtom c, quotedString c]

/-- `src/parsing/address.rs:85-87` (`domain`). -/
def domain (c : Cfg) (input : Bytes) : Res Bytes :=
  matchParsers input [dotAtom c, domainLiteral c]

/-- `src/parsing/address.rs:44-53` (`addr_spec`). -/
def addrSpec (c : Cfg) (input : Bytes) : Res EmailAddress := do
  let (input, localPart) ← localPart c input
  let (input, ()) ← tag input (b! "@")
    "TAG ERROR: An address local part must be followed by a `@`."
  let (input, domain) ← domain c input
  .ok (input, { localPart, domain })

/-- `src/parsing/address.rs:55-66` (`angle_addr`). -/
def angleAddr (c : Cfg) (input : Bytes) : Res EmailAddress := do
  let input ← skipCfws c input
  let (input, ()) ← tag input (b! "<") "TAG ERROR: A angle_addr must start with a `<`."
  let (input, addrSpec) ← addrSpec c input
  let (input, ()) ← tag input (b! ">") "TAG ERROR: A angle_addr must end with a `>`."
  let input ← skipCfws c input
  .ok (input, addrSpec)

/-- `src/parsing/address.rs:68-79` (`name_addr`). -/
def nameAddr (c : Cfg) (input : Bytes) : Res Mailbox := do
  let (input, displayName) ← optional input (phrase c)
  let (input, angleAddr) ← angleAddr c input
  .ok (input, { name := displayName, address := angleAddr })

/-- `src/parsing/address.rs:117-135` (`mailbox`). -/
def mailbox (c : Cfg) (input : Bytes) : Res Mailbox :=
  matchParsers input
    [ nameAddr c,
      fun input => do
        let (i, m) ← addrSpec c input
        .ok (i, { name := none, address := m }) ]

/-- `src/parsing/address.rs:137-148` (`mailbox_list`); the loop is the one of `many`. -/
def mailboxList (c : Cfg) (input : Bytes) : Res (List Mailbox) := do
  let (input, firstMailbox) ← mailbox c input
  let (input, mailboxes) ← many input fun input => prefixed input (mailbox c) (b! ",")
  .ok (input, firstMailbox :: mailboxes)

/-- `src/parsing/address.rs:158-166`: the members of a group. -/
def groupList (c : Cfg) (input : Bytes) : Res (List Mailbox) :=
  match mailboxList c input with
  | .ok (newInput, mailboxList) => .ok (newInput, mailboxList)
  | .err _ =>
    match cfws c input with
    | .ok (newInput, _cfws) => .ok (newInput, [])
    | .err _ => .ok (input, [])
    | .abort k => .abort k
  | .abort k => .abort k

/-- `src/parsing/address.rs:150-175` (`group`). -/
def group (c : Cfg) (input : Bytes) : Res (List Bytes × List Mailbox) := do
  let (input, displayName) ← phrase c input
  let (input, ()) ← tag input (b! ":")
    "TAG ERROR: A group display name must be followed by a `:`."
  let (input, groupList) ← groupList c input
  let (input, ()) ← tag input (b! ";")
    "TAG ERROR: A group mailbox list must be closed by a `;`."
  let input ← skipCfws c input
  .ok (input, (displayName, groupList))

/-- `src/parsing/address.rs:177-185` (`address`). -/
def address (c : Cfg) (input : Bytes) : Res Address :=
  match mailbox c input with
  | .ok (input, mailbox) => .ok (input, .mailbox mailbox)
  | .err _ =>
    match group c input with
    | .ok (input, (name, members)) => .ok (input, .group name members)
    | .err _ => .err (.unknown "Invalid address: not a mailbox nor a group")
    | .abort k => .abort k
  | .abort k => .abort k

/-- `src/parsing/address.rs:187-198` (`address_list`); the loop is the one of `many`. -/
def addressList (c : Cfg) (input : Bytes) : Res (List Address) := do
  let (input, firstAddress) ← address c input
  let (input, addresses) ← many input fun input => prefixed input (address c) (b! ",")
  .ok (input, firstAddress :: addresses)

end EmailParser
