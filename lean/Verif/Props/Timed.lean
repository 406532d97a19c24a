import Verif.Proofs.Timed.Pays
import Verif.Proofs.Timed.Lower
import Verif.Model.Concrete
/-
The number of steps the parser makes.

A step is an iteration of a loop or the examination of a byte (`Model/Timed.lean`).  The two facts
that make the count meaningful are proved as well: the counting parser is the parser
(`C60_same_outcome`), and no consumed byte escapes the count (C61).
-/
namespace EmailParser

/-! ### C60: the time is at most quadratic -/

/-- The parser that counts its steps comes to the same outcome as `Email::parse`, whatever the input and
the features. -/
theorem C60_same_outcome (c : Cfg) (input : Bytes) : (Timed.parse c input).out = Email.parse c input :=
  Timed.parse_out input

/-- The number of steps is at most proportional to the square of the length of the input: for every
input, whether or not it is an e-mail, every set of features, and every size of the stack. -/
theorem C60_quadratic (c : Cfg) (input : Bytes) :
    (Timed.parse c input).cost ≤ 11000000 * ((input.length + 1) * (input.length + 1)) :=
  Timed.parse_within (Timed.Values.quad c) input

/-- A header field is parsed, or rejected, in a number of steps at most proportional to the square of
the length of its line, whatever comes after the CRLF that ends it: a field cannot make the parser look
at the rest of the e-mail. -/
theorem C60_field (c : Cfg) (line rest : Bytes) (h : rest.head? ≠ some 32 ∧ rest.head? ≠ some 9) :
    (Timed.field c (line ++ 13 :: 10 :: rest)).cost ≤ 170000 * ((line.length + 1) * (line.length + 1)) := by
  have h1 := (Timed.Line.field (Timed.Values.quad c) (i := line ++ 13 :: 10 :: rest)).1.cost fun _ _ h => h.2
  have h2 := Timed.sq_mono (Timed.reach_line rest h line)
  exact Nat.le_trans h1 (Nat.mul_le_mul_left _ h2)

/-! ### C61: every consumed byte is counted -/

/-- Without MIME, an e-mail that is accepted has cost at least a step for each of its bytes. -/
theorem C61_message (c : Cfg) (input : Bytes) (hm : c.feat.mime = false) (e : Email)
    (h : (Timed.parse c input).out = .ok e) : input.length ≤ (Timed.parse c input).cost := by
  have hp := Timed.Pays.parseMessage (c := c) (i := input)
  unfold Timed.parse at h ⊢
  refine Timed.Within.paid (i := input) (Timed.Within.bind hp (fun a k _ hk => ?_) fun _ _ _ => trivial) h
  rw [hm] at hk
  refine Timed.within_tick.mpr (Timed.within_bind.mpr (Timed.within_lift (fun _ _ => ?_) trivial))
  refine Timed.within_lift (fun _ _ => ?_) trivial
  simp at hk
  omega

/-- With any features, the same holds of the header and of a body that is checked; a body that is left
for later (with MIME) is not read. -/
theorem C61_parts (c : Cfg) (input : Bytes) (fields : List Field) (body : Option Bytes)
    (h : (Timed.parseMessage c input).out = .ok (fields, body)) :
    input.length ≤ (Timed.parseMessage c input).cost + if c.feat.mime then (body.getD []).length else 0 := by
  have hp := Timed.Pays.parseMessage (c := c) (i := input)
  unfold Timed.Within at hp
  rw [h] at hp
  simpa using hp

/-- Each header field that is read has cost at least as many steps as it has bytes. -/
theorem C61_field (c : Cfg) (input rest : Bytes) (field : Field)
    (h : (Timed.field c input).out = .ok (rest, field)) :
    input.length ≤ rest.length + (Timed.field c input).cost := by
  have hp := Timed.Pays.field (c := c) (i := input)
  unfold Timed.Pays Timed.Within at hp
  rw [h] at hp
  simpa using hp

/-! ### C62: without MIME, the time is linear -/

/-- Without MIME, the number of steps is at most proportional to the length of the input: for every
input, whether or not it is an e-mail, every set of the other features, and every size of the stack.
The alternatives that are tried in vain, and the comments that are never closed, do not add up. -/
theorem C62_linear (c : Cfg) (hm : c.feat.mime = false) (input : Bytes) :
    (Timed.parse c input).cost ≤ 11000000 * (input.length + 1) :=
  Timed.parse_within (Timed.Values.lin hm) input

/-- Without MIME, a header field is parsed, or rejected, in a number of steps at most proportional to the
length of its line. -/
theorem C62_field (c : Cfg) (hm : c.feat.mime = false) (line rest : Bytes)
    (h : rest.head? ≠ some 32 ∧ rest.head? ≠ some 9) :
    (Timed.field c (line ++ 13 :: 10 :: rest)).cost ≤ 170000 * (line.length + 1) := by
  have h1 := (Timed.Line.field (Timed.Values.lin hm) (i := line ++ 13 :: 10 :: rest)).1.cost fun _ _ h => h.2
  have h2 := Timed.Growth.mono (g := Timed.lin) (Timed.reach_line rest h line)
  exact Nat.le_trans h1 (Nat.mul_le_mul_left _ h2)

/-- With MIME too, this holds of lists of identifiers and of received tokens: reading them costs at most in
proportion to the bytes up to the end of the folded line. -/
theorem C62_values (c : Cfg) (line rest : Bytes) (h : rest.head? ≠ some 32 ∧ rest.head? ≠ some 9) :
    (Timed.messageIds c (line ++ 13 :: 10 :: rest)).cost ≤ 590 * (line.length + 1) ∧
    (Timed.receivedValue c (line ++ 13 :: 10 :: rest)).cost ≤ 4873 * (line.length + 1) := by
  have h2 := Timed.Growth.mono (g := Timed.lin) (Timed.reach_line rest h line)
  constructor
  · have h1 := Timed.Within.cost (Timed.messageIds_flat (c := c) (i := line ++ 13 :: 10 :: rest)) fun _ _ h => h.2
    exact Nat.le_trans h1 (Nat.mul_le_mul_left _ h2)
  · have h1 := Timed.Within.cost (Timed.receivedValue_flat (c := c) (i := line ++ 13 :: 10 :: rest)) fun _ _ h => h.2
    exact Nat.le_trans h1 (Nat.mul_le_mul_left _ h2)

/-! ### C64: with MIME, the square is reached -/

/-- The text `piece`, `n` times. -/
def times (n : Nat) (piece : Bytes) : Bytes := (List.replicate n piece).flatten

def shortHeader : Bytes := b! "From: a@b\r\nDate: 1 Jan 2000 00:00:00 +0000\r\n"

/-- An e-mail whose first field has `n` groups without members; the name of each is an encoded word with
a parenthesis. -/
def openGroups (n : Nat) : Bytes := b! "To:" ++ times n (b! "=?utf-8?q?x(?=:;,") ++ b! "a@b\r\n" ++ shortHeader

/-- With MIME, the number of steps is not at most proportional to the length: the parser tries to read
each of the groups as a mailbox, in which the parenthesis begins a comment, and looks for the end of the
comment in all of the groups that follow. -/
theorem C64_quadratic_reached (c : Cfg) (hm : c.feat.mime = true) (ht : c.feat.to = true) (n : Nat)
    (hs : n < c.stack) :
    49 * (n * n) + 757 * n ≤ 2 * (Timed.parse c (openGroups n)).cost ∧ (openGroups n).length = 17 * n + 52 := by
  have h : openGroups n = b! "To:" ++ Timed.openGroups shortHeader.tail n := by
    unfold openGroups times Timed.openGroups Timed.openGroup
    rw [List.append_assoc, List.append_assoc]
    rfl
  constructor
  · rw [h]
    exact Timed.parse_open hm ht n hs
  · rw [h, List.length_append, Timed.openGroups_length, show shortHeader.tail.length = 43 from rfl]
    show 3 + _ = _
    omega

/-- So no factor `k` bounds the steps by the length, and C62 does need the absence of MIME. -/
theorem C64_not_linear (c : Cfg) (hm : c.feat.mime = true) (ht : c.feat.to = true) (k : Nat)
    (hs : k + 1 < c.stack) : ∃ input, k * (input.length + 1) < (Timed.parse c input).cost := by
  obtain ⟨h1, h2⟩ := C64_quadratic_reached c hm ht (k + 1) hs
  refine ⟨openGroups (k + 1), ?_⟩
  rw [h2]
  have e1 : (k + 1) * (k + 1) = k * k + 2 * k + 1 := by rw [Nat.add_mul, Nat.mul_add]; omega
  have e2 : k * (17 * (k + 1) + 52 + 1) = 17 * (k * k) + 70 * k := by
    rw [show 17 * (k + 1) + 52 + 1 = 17 * k + 70 by omega, Nat.mul_add, Nat.mul_left_comm, Nat.mul_comm k 70]
  omega

/-- The same for the field alone (`C60_field` is tight). -/
theorem C64_field (c : Cfg) (hm : c.feat.mime = true) (ht : c.feat.to = true) (n : Nat) (hs : n < c.stack)
    (rest : Bytes) :
    49 * (n * n) + 757 * n ≤
      2 * (Timed.field c (b! "To:" ++ (times n (b! "=?utf-8?q?x(?=:;,") ++ (b! "a@b\r\nF" ++ rest)))).cost :=
  Timed.field_open hm ht n hs

/-! ### Examples -/

/-- These e-mails are accepted. -/
example : (match Email.parse (Cfg.concrete .full) (openGroups 6) with
    | .ok e => e.to.map List.length
    | _ => none) = some 7 ∧ (openGroups 6).length = 154 ∧
    (Timed.parse (Cfg.concrete .full) (openGroups 6)).cost = 3702 ∧
    (Timed.parse (Cfg.concrete .full) (openGroups 12)).cost = 8619 := by
  decide +kernel

/-- An e-mail with `n` recipients. -/
def recipients (n : Nat) : Bytes := shortHeader ++ b! "To: " ++ times n (b! "a@b,") ++ b! "a@b\r\n"

/-- An e-mail with `n` addresses in which a comment seems to begin. -/
def openComments (n : Nat) : Bytes := shortHeader ++ b! "To: " ++ times n (b! "=?utf-8?q?x(?=:;,") ++ b! "a@b\r\n"

/-- Twice as many recipients, at most twice as many steps. -/
example : (recipients 4).length = 69 ∧ (Timed.parse (Cfg.concrete .full) (recipients 4)).cost = 1311 ∧
    (recipients 8).length = 85 ∧ (Timed.parse (Cfg.concrete .full) (recipients 8)).cost = 2063 := by
  decide +kernel

/-- Twice as many unclosed comments, more than twice as many steps: each of them is read to the end of the
line (the factor tends to four; see section 5 of the design document). -/
example : (openComments 8).length = 189 ∧ (Timed.parse (Cfg.concrete .full) (openComments 8)).cost = 5137 ∧
    (openComments 16).length = 325 ∧ (Timed.parse (Cfg.concrete .full) (openComments 16)).cost = 12853 ∧
    (openComments 32).length = 597 ∧ (Timed.parse (Cfg.concrete .full) (openComments 32)).cost = 37693 := by
  decide +kernel

/-- An e-mail with `n` groups. -/
def groups (n : Nat) : Bytes := shortHeader ++ b! "To: " ++ times n (b! "a:b<c@d>,e@f;,") ++ b! "a@b\r\n"

/-- Without MIME, the same texts: twice as many, at most twice as many steps; and so for groups, which are
first read as mailboxes. -/
example (c : Cfg) (hc : c = Cfg.concrete { Features.full with mime := false }) :
    (Timed.parse c (openComments 8)).cost = 3845 ∧ (Timed.parse c (openComments 16)).cost = 7117 ∧
    (Timed.parse c (openComments 32)).cost = 13661 ∧
    (Timed.parse c (groups 8)).cost = 5121 ∧ (Timed.parse c (groups 16)).cost = 9729 := by
  subst hc
  decide +kernel

/-- Each iteration of a loop is counted, also of those in which all bytes are counted by the parsers they call. -/
example (c : Cfg) (hc : c = Cfg.concrete .full) :
    (Timed.unstructured (b! " a b c\r\n")).cost = 51 ∧ (Timed.realCfws c (b! "(a) (b) (c)x")).cost = 152 ∧
    (Timed.quotedString c (b! "\"a b\\c\"")).cost = 86 ∧ (Timed.domainLiteral c (b! "[a b c]x")).cost = 90 ∧
    (Timed.u8Number (b! "123x")).cost = 7 := by
  subst hc
  decide +kernel

/-- The lines after the field make no difference. -/
example : (Timed.field (Cfg.concrete .full) (b! "Subject: a\r\nb")).cost = 65 ∧
    (Timed.field (Cfg.concrete .full) (b! "Subject: a\r\nbcdefgh\r\ni")).cost = 65 := by
  decide +kernel

/-- Without MIME the body is counted too; what is rejected need not be read. -/
example (c : Cfg) (hc : c = Cfg.concrete { Features.full with mime := false }) (text : Bytes)
    (ht : text = shortHeader ++ b! "\r\nHello\r\n") :
    text.length = 53 ∧ (Timed.parse c text).cost = 348 ∧ (Timed.parse c (10 :: text)).cost = 37 := by
  subst hc ht
  decide +kernel

end EmailParser
