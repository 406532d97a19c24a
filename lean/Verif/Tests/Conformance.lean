import Verif.Model.Concrete
import Verif.Model.Cow
import Verif.Proofs.Basic
/-
The unit tests of the repository, run against the model by the kernel.

These are tests, not proofs: they check that the model gives the results the authors of the library expect of
their code.  Every assertion of the `#[cfg(test)]` modules of the repository is here, in the order of the files, with the
exception of the tests that only print or that read files which are not in the repository
(`src/parsing/message.rs:160-163`, `src/email.rs:402-413`, `tests/local_emails.rs`).
The two tests about ownership (`Cow::Borrowed`/`Cow::Owned`) of quoted strings are in Props/Borrow.lean.
-/
namespace EmailParser.Tests

/-! ### Configuration of the tests -/

/-- ISO 8859-1 to UTF-8: what the decoder of the crate `textcode` is documented to do for this charset. -/
def latin1 (bytes : Bytes) : Bytes :=
  bytes.flatMap fun b => if b < 128 then [b] else [0xC0 + b / 64, 0x80 + b % 64]

theorem utf8Valid_latin1 (bytes : Bytes) : utf8Valid (latin1 bytes) = true := by
  induction bytes with
  | nil => rfl
  | cons b bs ih =>
    have hb : ∀ b : UInt8, ¬ b < 128 → ¬ (0xC0 + b / 64 < (0x80 : UInt8)) ∧ ¬ (0xC0 + b / 64 < (0xC2 : UInt8)) ∧
        0xC0 + b / 64 < (0xE0 : UInt8) ∧ utf8Valid.isCont (0x80 + b % 64) = true := by decide +kernel
    unfold latin1 at ih ⊢
    rw [List.flatMap_cons]
    by_cases h : b < 128
    · rw [if_pos h]
      simp only [List.cons_append, List.nil_append]
      rw [utf8Valid.eq_def]
      simp only
      rw [if_pos h]
      exact ih
    · obtain ⟨h1, h2, h3, h4⟩ := hb b h
      rw [if_neg h]
      simp only [List.cons_append, List.nil_append]
      rw [utf8Valid.eq_def]
      simp only
      rw [if_neg h1, if_neg h2, if_pos h3, h4]
      exact ih

/-- The configuration of the tests, for a set of features: ISO 8859-1 is decoded, the other external decoders keep the ASCII
characters. -/
def cfg (feat : Features) : Cfg :=
  { Cfg.concrete feat with
    textcode := fun t bytes => if t = .iso8859_1 then latin1 bytes else bytes.filter (· < 128)
    textcode_valid := fun t bytes => by
      split
      · exact utf8Valid_latin1 bytes
      · exact (Cfg.concrete feat).textcode_valid t bytes }

/-- Without MIME (the default features). -/
def cDefault : Cfg := cfg .default

/-- All features, `compatibility-fixes` included. -/
def cAll : Cfg := cfg { Features.full with compatibilityFixes := true }

/-- All features but `compatibility-fixes`. -/
def cFull : Cfg := cfg .full

/-- `.unwrap()`, as an option. -/
def val {α : Type} : Outcome α → Option α
  | .ok a => some a
  | _ => none

/-- `.unwrap().1`. -/
def snd {α : Type} (x : Res α) : Option α := (val x).map Prod.snd

/-- `.unwrap().0`. -/
def rest {α : Type} (x : Res α) : Option Bytes := (val x).map Prod.fst

/-- `.is_err()`. -/
def isErr {α : Type} : Outcome α → Bool
  | .err _ => true
  | _ => false

/-- `.is_ok()`. -/
def isOk {α : Type} : Outcome α → Bool
  | .ok _ => true
  | _ => false

/-- The assertion holds whatever the features. -/
def Always (p : Cfg → Bool) : Prop := p cDefault = true ∧ p cFull = true ∧ p cAll = true

instance (p : Cfg → Bool) : Decidable (Always p) := inferInstanceAs (Decidable (_ ∧ _ ∧ _))

/-! ### `src/email.rs` -/

/-! `src/email.rs:415-456 (test_field_number)` -/

example : Always fun c => isErr (Email.parse c (b! "From: Mubelotix <mubelotix@mubelotix.dev>\r\n\r\nHey!\r\n")) := by
  decide +kernel

example : Always fun c => isErr (Email.parse c (b! "From: Mubelotix <mubelotix@mubelotix.dev>\r\nDate: 5 May 2003 18:58:34 +0000\r\nDate: 6 May 2003 18:58:34 +0000\r\n\r\nHey!\r\n")) := by
  decide +kernel

example : Always fun c => isErr (Email.parse c (b! "Date: 5 May 2003 18:58:34 +0000\r\n\r\nHey!\r\n")) := by
  decide +kernel

example : Always fun c => isErr (Email.parse c (b! "From: Mubelotix <mubelotix@mubelotix.dev>\r\nFrom: Someone <jack@gmail.com>\r\nDate: 5 May 2003 18:58:34 +0000\r\n\r\nHey!\r\n")) := by
  decide +kernel

/-! ### `src/parsing/address.rs` -/

/-! `src/parsing/address.rs:204-211 (test_local_part)` -/

example : Always fun c => snd (localPart c (b! "mubelotix")) = some (b! "mubelotix") := by decide +kernel

example : Always fun c => snd (localPart c (b! "\"mubelotix\\ the\\ admin\"")) = some (b! "mubelotix the admin") := by
  decide +kernel

/-! `src/parsing/address.rs:213-218 (test_message_id)` -/

example : Always fun c => snd (messageId c (b! "<idleft@idright>")) = some (b! "idleft", b! "idright") := by
  decide +kernel

example : Always fun c => (snd (messageId c (b! "<idleft@[idright]>"))).map Prod.snd = some (b! "idright") := by
  decide +kernel

/-! `src/parsing/address.rs:220-233 (test_domain)` -/

example : Always fun c => snd (domainLiteral c (b! "[mubelotix.dev]")) = some (b! "mubelotix.dev") := by decide +kernel

example : Always fun c => snd (domainLiteral c (b! "[mubelotix\r\n .dev]")) = some (b! "mubelotix.dev") := by
  decide +kernel

example : Always fun c => snd (domain c (b! "[mubelotix\r\n .dev]")) = some (b! "mubelotix.dev") := by decide +kernel

example : Always fun c => snd (domain c (b! "mubelotix.dev")) = some (b! "mubelotix.dev") := by decide +kernel

/-! `src/parsing/address.rs:235-264 (test_addr)` -/

example : Always fun c => snd (addrSpec c (b! "mubelotix@mubelotix.dev")) = some ⟨b! "mubelotix", b! "mubelotix.dev"⟩ := by
  decide +kernel

example : Always fun c => snd (addrSpec c (b! "\"special\\ person\"@gmail.com")) = some ⟨b! "special person", b! "gmail.com"⟩ := by
  decide +kernel

example : Always fun c => snd (nameAddr c (b! "<mubelotix@gmail.com>")) = some ⟨none, b! "mubelotix", b! "gmail.com"⟩ := by
  decide +kernel

example : Always fun c => (snd (nameAddr c (b! "Random Guy <someone@gmail.com>"))).map (fun m => (m.name.map List.length, m.address)) = some (some 2, ⟨b! "someone", b! "gmail.com"⟩) := by
  decide +kernel

example : Always fun c => snd (mailbox c (b! "mubelotix@mubelotix.dev")) = some ⟨none, b! "mubelotix", b! "mubelotix.dev"⟩ := by
  decide +kernel

example : Always fun c => snd (mailbox c (b! "Random Guy <someone@gmail.com>")) = some ⟨some [b! "Random", b! "Guy"], b! "someone", b! "gmail.com"⟩ := by
  decide +kernel

/-! `src/parsing/address.rs:266-294 (test_lists)` -/

example : Always fun c => (snd (mailboxList c (b! "test@gmail.com,Michel<michel@gmail.com>,<postmaster@mubelotix.dev>"))).map List.length = some 3 := by
  decide +kernel

example : Always fun c => (snd (group c (b! "Developers: Mubelotix <mubelotix@mubelotix.dev>, Someone <guy@gmail.com>;"))).map (fun g => (g.1[0]?, g.2[0]?)) = some (some (b! "Developers"), some ⟨some [b! "Mubelotix"], b! "mubelotix", b! "mubelotix.dev"⟩) := by
  decide +kernel

example : Always fun c => (snd (addressList c (b! "mubelotix@gmail.com,guy@gmail.com,Developers:mubelotix@gmail.com,guy@gmail.com;"))).map List.length = some 3 := by
  decide +kernel

/-! ### `src/parsing/character_sets.rs` -/

/-! `src/parsing/character_sets.rs:138-144 (test_wsp)` -/

example : isWsp 32 && isWsp 9 && !isWsp 97 && !isWsp 101 := by decide +kernel

/-! ### `src/parsing/combinators.rs` -/

/-! `src/parsing/combinators.rs:254-267 (unsafe_add_test): the buffer `abcdef` is at address 1000` -/

example : addString (fun a => UInt8.ofNat (a - 1000 + 97)) (fromSlice 1000 3) (fromSlice 1003 3) = .borrowed 1000 6 := by
  decide +kernel

example : addString (fun a => UInt8.ofNat (a - 1000 + 97)) (fromSlice 1000 2) (fromSlice 1003 3) = .owned (b! "abdef") := by
  decide +kernel

/-! `src/parsing/combinators.rs:269-281 (test_optional)` -/

example : snd (optional (b! "abcdef") fun i => tag i (b! "efg") "TAG ERROR: Testing") = some none := by decide +kernel

example : snd (optional (b! "abcdef") fun i => tag i (b! "abc") "TAG ERROR: Testing") = some (some ()) := by
  decide +kernel

/-! `src/parsing/combinators.rs:283-287 (test_take_while)` -/

example : (snd (takeWhile (b! "     abc") isWsp)).map List.length = some 5 := by decide +kernel

example : (snd (takeWhile (b! "abc") isWsp)).map List.length = some 0 := by decide +kernel

/-! `src/parsing/combinators.rs:289-296 (test_tag)` -/

example : isErr (tag (b! "abc") (b! "def") "TAG ERROR: Testing") := by decide +kernel

example : isOk (tag (b! "abc") (b! "ab") "TAG ERROR: Testing") := by decide +kernel

example : rest (tag (b! "abc") (b! "abc") "TAG ERROR: Testing") = some [] := by decide +kernel

example : isErr (tag (b! "abc") (b! "Ab") "TAG ERROR: Testing") := by decide +kernel

example : isOk (tagNoCase (b! "abc") (b! "Ab") (b! "aB") "TAG ERROR: Testing no case") := by decide +kernel

/-! ### `src/parsing/common.rs` -/

/-! `src/parsing/common.rs:157-196 (test_encoded_unstructured)` -/

example : snd (mimeUnstructured cFull (b! "the quick brown fox jumps\r\n over =?UTF-8?Q?Chlo=C3=A9_Helloco?=   ")) = some (b! "the quick brown fox jumps over Chloé Helloco") := by
  decide +kernel

example : snd (mimeUnstructured cFull (b! "=?ISO-8859-1?Q?a?=")) = some (b! "a") := by decide +kernel

example : snd (mimeUnstructured cFull (b! "=?ISO-8859-1?Q?a?= b")) = some (b! "a b") := by decide +kernel

example : snd (mimeUnstructured cFull (b! "=?ISO-8859-1?Q?a?= =?ISO-8859-1?Q?b?=")) = some (b! "ab") := by
  decide +kernel

example : snd (mimeUnstructured cFull (b! "=?ISO-8859-1?Q?a?=  =?ISO-8859-1?Q?b?=")) = some (b! "ab") := by
  decide +kernel

example : snd (mimeUnstructured cFull (b! "=?ISO-8859-1?Q?a?=\r\n  =?ISO-8859-1?Q?b?=")) = some (b! "ab") := by
  decide +kernel

example : snd (mimeUnstructured cFull (b! "=?ISO-8859-1?Q?a_b?=")) = some (b! "a b") := by decide +kernel

example : snd (mimeUnstructured cFull (b! "=?ISO-8859-1?Q?a?= =?ISO-8859-2?Q?_b?=")) = some (b! "a b") := by
  decide +kernel

/-! `src/parsing/common.rs:198-215 (test_encoded_phrase)` -/

example : snd (phrase cFull (b! "Lou =?UTF-8?Q?Dorl=C3=A9ans?=")) = some [b! "Lou", b! "Dorléans"] := by decide +kernel

example : snd (phrase cFull (b! "=?ISO-8859-1?Q?Andr=E9?= Pirard")) = some [b! "André", b! "Pirard"] := by
  decide +kernel

example : snd (phrase cFull (b! " =?US-ASCII?Q?Keith_Moore?=")) = some [b! "Keith Moore"] := by decide +kernel

/-! `src/parsing/common.rs:217-224 (test_word_and_phrase)` -/

example : Always fun c => snd (word c (b! " this is a \"rust\\ test\" ")) = some (b! "this") := by decide +kernel

example : Always fun c => snd (phrase c (b! " this is a \"rust\\ test\" ")) = some [b! "this", b! "is", b! "a", b! "rust test"] := by
  decide +kernel

/-! `src/parsing/common.rs:226-234 (test_unstructured)` -/

example : snd (unstructured (b! "the quick brown fox jumps\r\n over the lazy dog   ")) = some (b! "the quick brown fox jumps over the lazy dog") := by
  decide +kernel

/-! `src/parsing/common.rs:236-245 (test_atom)` -/

example : Always fun c => snd (atom c (b! "this is a test")) = some (b! "this") := by decide +kernel

example : Always fun c => snd (atom c (b! "   averylongatom ")) = some (b! "averylongatom") := by decide +kernel

example : Always fun c => snd (dotAtomText c (b! "this.is.a.test")) = some (b! "this.is.a.test") := by decide +kernel

example : Always fun c => snd (dotAtom c (b! "  this.is.a.test ")) = some (b! "this.is.a.test") := by decide +kernel

/-! ### `src/parsing/fields.rs` -/

/-! `src/parsing/fields.rs:614-623 (test_fields)` -/

example : Always fun c => rest (fields c (b! "To: Mubelotix <mubelotix@gmail.com>\r\nFrOm: Mubelotix <mubelotix@gmail.com>\r\n")) = some [] := by
  decide +kernel

/-! `src/parsing/fields.rs:625-635 (test_unknown_field)` -/

example : Always fun c => snd (unknown c (b! "hidden-field:hidden message\r\n")) = some (b! "hidden-field", b! "hidden message") := by
  decide +kernel

/-! `src/parsing/fields.rs:637-672 (test_trace)` -/

example : Always fun c => snd (returnPath c (b! "Return-Path:<>\r\n")) = some none := by decide +kernel

example : Always fun c => (snd (returnPath c (b! "Return-Path:<mubelotix@gmail.com>\r\n"))).map (·.map EmailAddress.localPart) = some (some (b! "mubelotix")) := by
  decide +kernel

example : Always fun c => (snd (received c (b! "Received:test<mubelotix@gmail.com>;5 May 2003 18:59:03 +0000\r\n"))).map (·.1) = some [.word (b! "test"), .addr ⟨b! "mubelotix", b! "gmail.com"⟩] := by
  decide +kernel

example : Always fun c => (snd (received c (b! "Received:mubelotix.dev;5 May 2003 18:59:03 +0000\r\n"))).map (·.1) = some [.domain (b! "mubelotix.dev")] := by
  decide +kernel

example : Always fun c => rest (trace c (b! "Return-Path:<>\r\nReceived:akala miam miam;5 May 2003 18:59:03 +0000\r\nReceived:mubelotix.dev;5 May 2003 18:59:03 +0000\r\n")) = some [] := by
  decide +kernel

/-! `src/parsing/fields.rs:674-711 (test_resent)` -/

example : Always fun c => isOk (resentDate c (b! "Resent-Date:5 May 2003 18:59:03 +0000\r\n")) := by decide +kernel

example : Always fun c => (snd (resentFrom c (b! "Resent-FrOm: Mubelotix <mubelotix@gmail.com>\r\n"))).map (·.map (·.address.localPart)) = some [b! "mubelotix"] := by
  decide +kernel

example : Always fun c => (snd (resentSender c (b! "Resent-sender: Mubelotix <mubelotix@gmail.com>\r\n"))).map (·.address.domain) = some (b! "gmail.com") := by
  decide +kernel

example : Always fun c => (snd (resentTo c (b! "Resent-To: Mubelotix <mubelotix@gmail.com>\r\n"))).map List.isEmpty = some false := by
  decide +kernel

example : Always fun c => (snd (resentCc c (b! "Resent-Cc: Mubelotix <mubelotix@gmail.com>\r\n"))).map List.isEmpty = some false := by
  decide +kernel

example : Always fun c => (snd (resentBcc c (b! "Resent-Bcc: Mubelotix <mubelotix@gmail.com>\r\n"))).map List.isEmpty = some false := by
  decide +kernel

/-! `src/parsing/fields.rs:713-716 (test_date)` -/

example : Always fun c => isOk (dateField c (b! "Date:5 May 2003 18:59:03 +0000\r\n")) := by decide +kernel

/-! `src/parsing/fields.rs:718-743 (test_originators)` -/

example : Always fun c => (snd (fromField c (b! "FrOm: Mubelotix <mubelotix@gmail.com>\r\n"))).map (·.map (·.address.localPart)) = some [b! "mubelotix"] := by
  decide +kernel

example : Always fun c => (snd (senderField c (b! "sender: Mubelotix <mubelotix@gmail.com>\r\n"))).map (·.address.domain) = some (b! "gmail.com") := by
  decide +kernel

example : Always fun c => (snd (replyToField c (b! "Reply-to: Mubelotix <mubelotix@gmail.com>\r\n"))).map List.length = some 1 := by
  decide +kernel

/-! `src/parsing/fields.rs:745-760 (test_destination)` -/

example : Always fun c => (snd (toField c (b! "To: Mubelotix <mubelotix@gmail.com>\r\n"))).map List.isEmpty = some false := by
  decide +kernel

example : Always fun c => (snd (ccField c (b! "Cc: Mubelotix <mubelotix@gmail.com>\r\n"))).map List.isEmpty = some false := by
  decide +kernel

example : Always fun c => (snd (bccField c (b! "Bcc: Mubelotix <mubelotix@gmail.com>\r\n"))).map List.isEmpty = some false := by
  decide +kernel

example : Always fun c => (snd (bccField c (b! "Bcc: \r\n \r\n"))).map List.isEmpty = some true := by decide +kernel

/-! `src/parsing/fields.rs:762-794 (test_ids)` -/

example : Always fun c => snd (messageIdField c (b! "Message-ID:<556100154@gmail.com>\r\n")) = some (b! "556100154", b! "gmail.com") := by
  decide +kernel

example : Always fun c => (snd (referencesField c (b! "References:<qzdzdq@qdz.com><dzdzjd@zdzdj.dz>\r\n"))).map List.length = some 2 := by
  decide +kernel

example : Always fun c => (snd (inReplyToField c (b! "In-Reply-To:<eefes@qzd.fr><52@s.dz><adzd@zd.d>\r\n"))).map List.length = some 3 := by
  decide +kernel

/-! `src/parsing/fields.rs:796-819 (test_informational)` -/

example : Always fun c => snd (subjectField c (b! "Subject:French school is boring\r\n")) = some (b! "French school is boring") := by
  decide +kernel

example : Always fun c => snd (subjectField c (b! "Subject:Folding\r\n is slow\r\n")) = some (b! "Folding is slow") := by
  decide +kernel

example : Always fun c => snd (commentsField c (b! "Comments:Rust is great\r\n")) = some (b! "Rust is great") := by
  decide +kernel

example : Always fun c => (snd (keywordsField c (b! "Keywords:rust parser fast zero copy,email rfc5322\r\n"))).map List.length = some 2 := by
  decide +kernel

/-! `src/parsing/fields.rs:821-848 (test_mime_encoding)` -/

example : snd (subjectField cFull (b! "Subject: =?UTF-8?B?8J+OiEJpcnRoZGF5IEdpdmVhd2F58J+OiA==?= Win free stickers\r\n from daily.dev =?UTF-8?B?8J+MiA==?=\r\n")) = some (b! " 🎈Birthday Giveaway🎈 Win free stickers from daily.dev 🌈") := by
  decide +kernel

example : snd (commentsField cFull (b! "Comments: =?ISO-8859-1?B?SWYgeW91IGNhbiByZWFkIHRoaXMgeW8=?=\r\n =?ISO-8859-2?B?dSB1bmRlcnN0YW5kIHRoZSBleGFtcGxlLg==?=\r\n")) = some (b! " If you can read this you understand the example.") := by
  decide +kernel

example : (snd (fromField cFull (b! "From: =?US-ASCII?Q?Keith_Moore?= <moore@cs.utk.edu>\r\n"))).map (·.map (·.name.map (·[0]?))) = some [some (some (b! "Keith Moore"))] := by
  decide +kernel

example : (snd (unknown cFull (b! "X-SG-EID:\r\n =?us-ascii?Q?t3vk5cTFE=2FYEGeQ8h3SwrnzIAGc=2F+ADymlys=2FfRFW4Zjpt=2F3MuaO9JNHS2enYQ?=\r\n =?us-ascii?Q?Jsv0=2FpYrPem+YssHetKlrE5nJnOfr=2FYdJOyJFf8?=\r\n =?us-ascii?Q?3mRuMRE9KGu=2F5O75=2FwwN6dG14nuP4SyMIZwbMdG?=\r\n =?us-ascii?Q?vXmM2kgcM=2FOalKeT03BMp4YCg9h1LhkV6PZEoHB?=\r\n =?us-ascii?Q?d4tcAvNZQqLaA4ykI1EpNxKVVyZXVWqTp2uisdf?=\r\n =?us-ascii?Q?HB=2F6BKcIs+XSDNeakQqmn=2FwAqOk78AvtRB5LnNL?=\r\n =?us-ascii?Q?lz3oRXlMZbdFgRH+KAyLQ=3D=3D?=\r\n"))).map Prod.snd = some (b! " t3vk5cTFE/YEGeQ8h3SwrnzIAGc/+ADymlys/fRFW4Zjpt/3MuaO9JNHS2enYQJsv0/pYrPem+YssHetKlrE5nJnOfr/YdJOyJFf83mRuMRE9KGu/5O75/wwN6dG14nuP4SyMIZwbMdGvXmM2kgcM/OalKeT03BMp4YCg9h1LhkV6PZEoHBd4tcAvNZQqLaA4ykI1EpNxKVVyZXVWqTp2uisdfHB/6BKcIs+XSDNeakQqmn/wAqOk78AvtRB5LnNLlz3oRXlMZbdFgRH+KAyLQ==") := by
  decide +kernel

/-! ### `src/parsing/message.rs` -/

/-! `src/parsing/message.rs:139-158 (test_body)` -/

example : snd (line (b! "This is a line\r\nAnd this is a second line")) = some (b! "This is a line") := by
  decide +kernel

example : (val (bodyLines (b! "\r\nThis is a line\r\nAnd this is a second line"))).map List.length = some 2 := by
  decide +kernel

example : val (body (b! "\r\nThis is a line\r\nAnd this is a second line")) = some (some (b! "This is a line\r\nAnd this is a second line")) := by
  decide +kernel

/-! ### `src/parsing/quoted_string.rs` -/

/-! `src/parsing/quoted_string.rs:94-105 (test_quoted_pair)` -/

example : isOk (quotedPair (b! "\\rtest")) && isOk (quotedPair (b! "\\ test")) := by decide +kernel

example : snd (quotedPair (b! "\\rtest")) = some (b! "r") := by decide +kernel

example : snd (quotedPair (b! "\\ test")) = some (b! " ") := by decide +kernel

example : isErr (quotedPair (b! "\\")) && isErr (quotedPair (b! "\\\x00")) && isErr (quotedPair (b! "test")) := by
  decide +kernel

/-! `src/parsing/quoted_string.rs:107-119 (test_quoted_string, contents)` -/

example : Always fun c => snd (quotedString c (b! " \"This\\ is\\ a\\ test\"")) = some (b! "This is a test") := by
  decide +kernel

example : Always fun c => snd (quotedString c (b! "\r\n  \"This\\ is\\ a\\ test\"  ")) = some (b! "This is a test") := by
  decide +kernel

/-! ### `src/parsing/time.rs` -/

/-! `src/parsing/time.rs:199-213 (test_day)` -/

example : snd (dayName (b! "Mon ")) = some .monday := by decide +kernel

example : snd (dayName (b! "moN ")) = some .monday := by decide +kernel

example : snd (dayName (b! "thu")) = some .thursday := by decide +kernel

example : snd (dayOfWeek (b! "   thu, ")) = some .thursday := by decide +kernel

example : snd (dayOfWeek (b! "wed, ")) = some .wednesday := by decide +kernel

example : snd (dayOfWeek (b! " Sun,")) = some .sunday := by decide +kernel

example : snd (day (b! "31 ")) = some 31 ∧ snd (day (b! "9 ")) = some 9 ∧ snd (day (b! "05 ")) = some 5 ∧ snd (day (b! "23 ")) = some 23 := by
  decide +kernel

/-! `src/parsing/time.rs:215-224 (test_month_and_year)` -/

example : snd (month (b! "Apr ")) = some .april := by decide +kernel

example : snd (month (b! "may ")) = some .may := by decide +kernel

example : snd (month (b! "deC ")) = some .december := by decide +kernel

example : snd (year (b! " 2020 ")) = some 2020 := by decide +kernel

example : snd (year (b! "\r\n 1995 ")) = some 1995 := by decide +kernel

example : snd (year (b! " 250032 ")) = some 250032 := by decide +kernel

/-! `src/parsing/time.rs:226-291 (test_date)` -/

example : snd (date (b! "1 nov 2020 ")) = some ⟨1, .november, 2020⟩ := by decide +kernel

example : snd (date (b! "25 dec 2038 ")) = some ⟨25, .december, 2038⟩ := by decide +kernel

example : Always fun c => snd (dateTime c (b! "Mon, 12 Apr 2023 10:25:03 +0000")) = some ⟨some .monday, ⟨12, .april, 2023⟩, ⟨⟨10, 25, 3⟩, ⟨true, 0, 0⟩⟩⟩ := by
  decide +kernel

example : Always fun c => snd (dateTime c (b! "5 May 2003 18:59:03 +0000")) = some ⟨none, ⟨5, .may, 2003⟩, ⟨⟨18, 59, 3⟩, ⟨true, 0, 0⟩⟩⟩ := by
  decide +kernel

/-! `src/parsing/time.rs:293-382 (test_time)` -/

example : snd (timeOfDay (b! "10:40:29")) = some ⟨10, 40, 29⟩ := by decide +kernel

example : snd (timeOfDay (b! "10:40 ")) = some ⟨10, 40, 0⟩ := by decide +kernel

example : snd (timeOfDay (b! "05:23 ")) = some ⟨5, 23, 0⟩ := by decide +kernel

example : snd (zone (b! " +1000 ")) = some ⟨true, 10, 0⟩ := by decide +kernel

example : snd (zone (b! " -0523 ")) = some ⟨false, 5, 23⟩ := by decide +kernel

example : snd (time (b! "06:44 +0100")) = some ⟨⟨6, 44, 0⟩, ⟨true, 1, 0⟩⟩ := by decide +kernel

example : snd (time (b! "23:57 +0000")) = some ⟨⟨23, 57, 0⟩, ⟨true, 0, 0⟩⟩ := by decide +kernel

example : snd (time (b! "08:23:02 -0500")) = some ⟨⟨8, 23, 2⟩, ⟨false, 5, 0⟩⟩ := by decide +kernel

/-! ### `src/parsing/whitespaces.rs` -/

/-! `src/parsing/whitespaces.rs:102-111 (test_fws)` -/

example : snd (fws (b! "   test")) = some (b! "   ") := by decide +kernel

example : snd (fws (b! " test")) = some (b! " ") := by decide +kernel

example : snd (fws (b! "   \r\n  test")) = some (b! "     ") := by decide +kernel

example : isErr (fws (b! "  \r\ntest")) && isErr (fws (b! "\r\ntest")) && isErr (fws (b! "test")) := by decide +kernel

/-! `src/parsing/whitespaces.rs:113-117 (test_ccontent)` -/

example : snd (ccontent (comment 100) (b! "abcde")) = some (b! "abcde") := by decide +kernel

example : snd (ccontent (comment 100) (b! "ab)cde")) = some (b! "ab") := by decide +kernel

/-! `src/parsing/whitespaces.rs:119-133 (test_comment)` -/

example : (rest (comment 100 (b! "(this is a comment)"))).map List.length = some 0 := by decide +kernel

example : (rest (comment 100 (b! "(a comment) and a value"))).map List.length = some 12 := by decide +kernel

example : (rest (comment 100 (b! "(this is a comment (and another comment)) and a value"))).map List.length = some 12 := by
  decide +kernel

example : isErr (comment 100 (b! "a value")) && isErr (comment 100 (b! "(unclosed comment")) := by decide +kernel

/-! `src/parsing/whitespaces.rs:135-150 (test_cfws)` -/

example : Always fun c => snd (cfws c (b! "  (this is a comment)\r\n (this is a second comment)  value")) = some (b! "     ") := by
  decide +kernel

example : Always fun c => snd (cfws c (b! "  (this is a comment)\r\n (this is a second comment)\r\n  value")) = some (b! "     ") := by
  decide +kernel

/-! ### `src/parsing/mime/base64.rs` -/

/-! `src/parsing/mime/base64.rs:178-208 (encode)` -/

example : val (encodeBase64 (b! "That's a test!")) = some (b! "VGhhdCdzIGEgdGVzdCE=") := by decide +kernel

example : val (encodeBase64 (b! "Rust is the best language")) = some (b! "UnVzdCBpcyB0aGUgYmVzdCBsYW5ndWFnZQ==") := by
  decide +kernel

example : val (encodeBase64 (b! "I am french!")) = some (b! "SSBhbSBmcmVuY2gh") := by decide +kernel

example : val (encodeBase64 (b! "abcdefghi")) = some (b! "YWJjZGVmZ2hp") := by decide +kernel

example : val (encodeBase64 (b! "abcdefghij")) = some (b! "YWJjZGVmZ2hpag==") := by decide +kernel

example : val (encodeBase64 (b! "abcdefghijk")) = some (b! "YWJjZGVmZ2hpams=") := by decide +kernel

example : val (encodeBase64 (b! "abcdefghijkl")) = some (b! "YWJjZGVmZ2hpamts") := by decide +kernel

/-! `src/parsing/mime/base64.rs:210-249 (decode)` -/

example : [5, 15, 25, 53, 62, 63].all fun n => base64Map[n]?.bind getValueEncoded == some (UInt8.ofNat n) := by
  decide +kernel

example : val (decodeBase64 (b! "YWJjZGVmZ2hpamts")) = some (b! "abcdefghijkl") := by decide +kernel

example : val (decodeBase64 (b! "YWJjZGVmZ2hpag==")) = some (b! "abcdefghij") := by decide +kernel

example : val (decodeBase64 (b! "YWJjZGV*mZ2hpag==")) = some (b! "abcdefghij") := by decide +kernel

example : val (decodeBase64 (b! "YWJjZGV*******mZ2hpag==")) = some (b! "abcdefghij") := by decide +kernel

example : val (decodeBase64 (b! "***Y*WJ*jZ*GV*******mZ2**hp*ag=*=**")) = some (b! "abcdefghij") := by decide +kernel

example : val (decodeBase64 (b! "PGRpdiBkaXI9Imx0ciI+SGV5IMOpbW9qaSDwn5iNPC9kaXY+DQo=")) = some (b! "<div dir=\"ltr\">Hey émoji 😍</div>\r\n") := by
  decide +kernel

/-! ### `src/parsing/mime/encoded_headers.rs` -/

/-! `src/parsing/mime/encoded_headers.rs:121-135 (encoded_with_language)` -/

example : snd (encodedWord cFull (b! "=?iso-8859-1*en?q?this=20is=20some=20text?=")) = some (b! "this is some text") := by
  decide +kernel

example : snd (encodedWord cFull (b! "=?utf-8*en?q?voici=20un=20peu=20de=20texte?=")) = some (b! "voici un peu de texte") := by
  decide +kernel

/-! `src/parsing/mime/encoded_headers.rs:137-168 (encoded_word_test)` -/

example : snd (encodedWord cFull (b! "=?iso-8859-1?q?this=20is=20some=20text?=")) = some (b! "this is some text") := by
  decide +kernel

example : snd (encodedWord cFull (b! "=?utf-8?q?Don=27t_forget!_Claim_your_=245_today_=F0=9F=92=B8?=")) = some (b! "Don't forget! Claim your $5 today 💸") := by
  decide +kernel

example : snd (encodedWord cFull (b! "=?UTF-8?Q?Chlo=C3=A9_Helloco?=")) = some (b! "Chloé Helloco") := by decide +kernel

example : snd (encodedWord cFull (b! "=?ISO-8859-1?B?SWYgeW91IGNhbiByZWFkIHRoaXMgeW8=?=")) = some (b! "If you can read this yo") := by
  decide +kernel

example : snd (encodedWord cFull (b! "=?ISO-8859-2?B?dSB1bmRlcnN0YW5kIHRoZSBleGFtcGxlLg==?=")) = some (b! "u understand the example.") := by
  decide +kernel

/-! ### `src/parsing/mime/entity.rs` -/

/-- The fields of a raw entity; of the parameters, the values of `charset` and of `boundary`. -/
structure EntityView where
  mimeType : ContentType
  subtype : Bytes
  description : Option Bytes
  id : Option (Bytes × Bytes)
  charset : Option Bytes
  boundary : Option Bytes
  value : Bytes
  noDisposition : Bool
  additionalHeaders : List (Bytes × Bytes)
deriving DecidableEq

def view (e : RawEntity) : EntityView :=
  ⟨e.mimeType, e.subtype, e.description, e.id, e.parameters (b! "charset"), e.parameters (b! "boundary"), e.value,
    e.disposition.isNone, e.additionalHeaders⟩

/-! `src/parsing/mime/entity.rs:260-316 (raw_entity_test)` -/

example : (val (rawEntity cFull (b! "\r\nText"))).map view = some ⟨.text, b! "plain", none, none, some (b! "us-ascii"), none, [84, 101, 120, 116], true, []⟩ := by
  decide +kernel

example : (val (rawEntity cFull (b! "Content-type: text/html; charset=utf-8\r\nUnknown: Test\r\n\r\n<p>Text</p>"))).map view = some ⟨.text, b! "html", none, none, some (b! "utf-8"), none, [60, 112, 62, 84, 101, 120, 116, 60, 47, 112, 62], true, [(b! "Unknown", b! " Test")]⟩ := by
  decide +kernel

example : isOk (rawEntity cFull (b! "Content-type: multipart/alternative; boundary=\"simple boundary\"\r\n\r\nThis is the preamble.  It is to be ignored, though it\r\nis a handy place for composition agents to include an\r\nexplanatory note to non-MIME conformant readers.\r\n\r\n--simple boundary\r\n\r\nThis is implicitly typed plain US-ASCII text.\r\nIt does NOT end with a linebreak.\r\n--simple boundary\r\nContent-type: text/plain; charset=us-ascii\r\n\r\nThis is explicitly typed plain US-ASCII text.\r\nIt DOES end with a linebreak.\r\n\r\n--simple boundary--\r\n\r\nThis is the epilogue.  It is also to be ignored.")) := by
  decide +kernel

/-- The text of a text entity. -/
def text? : Entity → Option (Bytes × Bytes)
  | .text subtype value => some (subtype, value)
  | _ => none

/-! `src/parsing/mime/entity.rs:318-324 (entity_test)` -/

example : ((val (rawEntity cFull (b! "Content-type: text/html; charset=utf-8\r\nContent-Transfer-Encoding: quoted-printable\r\n\r\n<p>Test=C3=A9</p>"))).bind fun r => val (RawEntity.parse cFull r)).bind text? = some (b! "html", b! "<p>Testé</p>") := by
  decide +kernel

/-! ### `src/parsing/mime/mime_fields.rs` -/

/-- The fields of a disposition; of the unstructured parameters, the values of `param` and of `filename`. -/
structure DispositionView where
  dispositionType : DispositionType
  filename : Option Bytes
  creationDate : Option DateTime
  modificationDate : Option DateTime
  readDate : Option DateTime
  param : Option Bytes
  filenameParam : Option Bytes
deriving DecidableEq

def dispositionView (d : Disposition) : DispositionView :=
  ⟨d.dispositionType, d.filename, d.creationDate, d.modificationDate, d.readDate, d.unstructured (b! "param"),
    d.unstructured (b! "filename")⟩

/-! `src/parsing/mime/mime_fields.rs:446-479 (test_content_disposition)` -/

example : (snd (contentDisposition cFull (b! "Content-Disposition: inline\r\n"))).map dispositionView = some ⟨.inline, none, none, none, none, none, none⟩ := by
  decide +kernel

example : (snd (contentDisposition cFull (b! "Content-Disposition: attachment; filename=genome.jpeg;\r\n modification-date=\"Wed, 12 Feb 1997 16:29:51 -0500\"\r\n"))).map dispositionView = some ⟨.attachment, some (b! "genome.jpeg"), none, some ⟨some .wednesday, ⟨12, .february, 1997⟩, ⟨⟨16, 29, 51⟩, ⟨false, 5, 0⟩⟩⟩, none, none, none⟩ := by
  decide +kernel

example : (snd (contentDisposition cFull (b! "Content-Disposition: attachment; param*0=foo;\r\n param*1=bar\r\n"))).map dispositionView = some ⟨.attachment, none, none, none, none, some (b! "foobar"), none⟩ := by
  decide +kernel

/-! `src/parsing/mime/mime_fields.rs:481-497 (test_content_id)` -/

example : snd (contentId cFull (b! "Content-ID: <123456@mubelotix.dev>\r\n")) = some (b! "123456", b! "mubelotix.dev") := by
  decide +kernel

example : snd (contentId cFull (b! "cOntent-id: <qpfpsqfh@gmail.com>\r\n")) = some (b! "qpfpsqfh", b! "gmail.com") := by
  decide +kernel

/-! `src/parsing/mime/mime_fields.rs:499-515 (test_content_description)` -/

example : snd (contentDescription cFull (b! "Content-Description:a picture of the Space Shuttle Endeavor.\r\n")) = some (b! "a picture of the Space Shuttle Endeavor.") := by
  decide +kernel

example : snd (contentDescription cFull (b! "Content-DeScription:Ferris the crab\r\n")) = some (b! "Ferris the crab") := by
  decide +kernel

/-! `src/parsing/mime/mime_fields.rs:517-533 (test_mime_version)` -/

example : snd (mimeVersion cFull (b! "MIME-Version: 1.0\r\n")) = some (1, 0) := by decide +kernel

example : snd (mimeVersion cFull (b! "MIME-VersIon: 1.2\r\n")) = some (1, 2) := by decide +kernel

example : snd (mimeVersion cFull (b! "MIME-VersIon: (produced by MetaSend Vx.x) 2.0\r\n")) = some (2, 0) := by
  decide +kernel

example : snd (mimeVersion cFull (b! "MIME-VersIon: 214.25 (produced by MetaSend Vx.x)\r\n")) = some (214, 25) := by
  decide +kernel

/-! `src/parsing/mime/mime_fields.rs:535-595 (test_content_type)` -/

example : (snd (contentType cFull (b! "Content-type: tExt/plain\r\n"))).map (·.1) = some .text := by decide +kernel

example : (snd (contentType cFull (b! "Content-Type: message/external-body; access-type=URL;\r\n URL*0=\"ftp://\";\r\n URL*1=\"cs.utk.edu/pub/moore/bulk-mailer/bulk-mailer.tar\"\r\n"))).map (fun t => (t.1, t.2.1, t.2.2 (b! "access-type"), t.2.2 (b! "url"), t.2.2 (b! "URL"))) = some (.message, b! "external-body", some (b! "URL"), some (b! "ftp://cs.utk.edu/pub/moore/bulk-mailer/bulk-mailer.tar"), none) := by
  decide +kernel

example : (snd (contentType cFull (b! "Content-Type: application/x-stuff;\r\n title*0*=us-ascii'en'This%20is%20even%20more%20;\r\n title*1*=%2A%2A%2Afun%2A%2A%2A%20;\r\n title*2=\"isn't it!\"\r\n"))).map (fun t => (t.1, t.2.1, t.2.2 (b! "title"), t.2.2 (b! "title*0"))) = some (.application, b! "x-stuff", some (b! "This is even more ***fun*** isn't it!"), none) := by
  decide +kernel

example : (snd (contentType cFull (b! "Content-type: text/plain\r\n"))).map (·.2.1) = some (b! "plain") := by
  decide +kernel

example : (snd (contentType cFull (b! "Content-type: multIpart/unknown\r\n"))).map (·.1) = some .multipart := by
  decide +kernel

example : (snd (contentType cFull (b! "Content-Type: text/plain; chaRSet=\"iso-8859-1\"\r\n"))).map (fun t => t.2.2 (b! "charset")) = some (some (b! "iso-8859-1")) := by
  decide +kernel

example : (snd (contentType cFull (b! "Content-Type: text/plain; charset=\"iso-8859-1\"\r\n"))).map (fun t => t.2.2 (b! "charset")) = some (some (b! "iso-8859-1")) := by
  decide +kernel

example : (snd (contentType cFull (b! "Content-type: text/plain; charset=us-ascii (Plain text)\r\n"))).map (fun t => t.2.2 (b! "charset")) = some (some (b! "us-ascii")) := by
  decide +kernel

example : (snd (contentType cFull (b! "Content-type: text/plain; charset=\"us-ascii\"\r\n"))).map (fun t => t.2.2 (b! "charset")) = some (some (b! "us-ascii")) := by
  decide +kernel

example : (snd (contentType cFull (b! "Content-Type: multipart/alternative; \r\n\tboundary=\"_000_DB6P193MB0021E64E5870F10170A32CB8EB920DB6P193MB0021EURP_\"\r\n"))).map (fun t => t.2.2 (b! "boundary")) = some (some (b! "_000_DB6P193MB0021E64E5870F10170A32CB8EB920DB6P193MB0021EURP_")) := by
  decide +kernel

/-! `src/parsing/mime/mime_fields.rs:597-617 (test_content_transfer_encoding)` -/

example : snd (contentTransferEncoding cFull (b! "Content-Transfer-Encoding: 7bit\r\n")) = some .sevenBit := by
  decide +kernel

example : snd (contentTransferEncoding cFull (b! "Content-Transfer-Encoding: binary (invalid) \r\n")) = some .binary := by
  decide +kernel

example : snd (contentTransferEncoding cFull (b! "Content-Transfer-Encoding: (not readable) base64 \r\n")) = some .base64 := by
  decide +kernel

/-! ### `src/parsing/mime/multipart.rs` -/

/-! `src/parsing/mime/multipart.rs:101-108 (test_multipart)` -/

example : isOk (parseMultipart cFull (b! "This is the preamble.  It is to be ignored, though it\r\nis a handy place for composition agents to include an\r\nexplanatory note to non-MIME conformant readers.\r\n\r\n--simple boundary\r\n\r\nThis is implicitly typed plain US-ASCII text.\r\nIt does NOT end with a linebreak.\r\n--simple boundary\r\nContent-type: text/plain; charset=us-ascii\r\n\r\nThis is explicitly typed plain US-ASCII text.\r\nIt DOES end with a linebreak.\r\n\r\n--simple boundary--\r\n\r\nThis is the epilogue.  It is also to be ignored.") (Params.empty.insert (b! "boundary") (b! "simple boundary"))) := by
  decide +kernel

/-! `src/parsing/mime/multipart.rs:110-163 (test_boundary)` -/

example : snd (beforeBoundary (b! "boundary") (b! "--boundary\r\nI am making a not here: huge success")) = some [] := by
  decide +kernel

example : snd (beforeBoundary (b! "boundary") (b! "aeiouy\r\n--boundary\r\n")) = some (b! "aeiouy") := by decide +kernel

example : snd (beforeBoundary (b! "boundary") (b! "This was a triumph\r\n--boundary\r\nI am making a not here: huge success")) = some (b! "This was a triumph") := by
  decide +kernel

example : snd (beforeBoundary (b! "boundary") (b! "\r\n--boundary\r\nI am making a not here: huge success")) = some [] := by
  decide +kernel

example : rest (beforeBoundary (b! "boundary") (b! "This was a triumph\r\n--boundary\r\nI am making a not here: huge success")) = some (b! "I am making a not here: huge success") := by
  decide +kernel

example : rest (beforeClosingBoundary (b! "boundary") (b! "This was a triumph\r\n--boundary--\r\nI am making a not here: huge success")) = some (b! "I am making a not here: huge success") := by
  decide +kernel

/-! ### `src/parsing/mime/percent_encoding.rs` -/

/-! `src/parsing/mime/percent_encoding.rs:191-201 (test_percent_encoding)` -/

example : val (decodeParameter cFull (b! "This%20is%20even%20more%20") (b! "us-ascii")) = some (b! "This is even more ") := by
  decide +kernel

example : val (decodeParameter cFull (b! "%2A%2A%2Afun%2A%2A%2A%20") (b! "us-ascii")) = some (b! "***fun*** ") := by
  decide +kernel

/-! ### `src/parsing/mime/quoted_printables.rs` -/

/-! `src/parsing/mime/quoted_printables.rs:160-172 (encode)` -/

example : val (encodeQp (b! "This was a triumph. Il était une fois...\r\nAnd voilà ! \r\nSimon")) = some (b! "This was a triumph. Il =C3=A9tait une fois...\r\nAnd voil=C3=A0 !=20\r\nSimon") := by
  decide +kernel

example : val (encodeQp (b! "Now's the time for all folk to come to the aid of their country. Wtf this sentence is not long enough to test line-lenght limit.")) = some (b! "Now's the time for all folk to come to the aid of their country. Wtf thi=\r\ns sentence is not long enough to test line-lenght limit.") := by
  decide +kernel

/-! `src/parsing/mime/quoted_printables.rs:174-186 (decode)` -/

example : val (decodeQp (b! "This was a triumph. Il =C3=A9tait une fois...\r\nAnd voil=C3=A0 !=20\r\nSimon")) = some (b! "This was a triumph. Il était une fois...\r\nAnd voilà ! \r\nSimon") := by
  decide +kernel

example : val (decodeQp (b! "Now's the time for all folk to come to the aid of their country. Wtf thi=\r\ns sentence is not long enough to test line-lenght limit.")) = some (b! "Now's the time for all folk to come to the aid of their country. Wtf this sentence is not long enough to test line-lenght limit.") := by
  decide +kernel

end EmailParser.Tests
