# Formal model of `email-parser`

All paths of Rust files are relative to `/repo/email-parser/`; Lean files are under `/verif/lean/`.

## 1. Trusted base

* The Lean 4.33 kernel.  Theorems may use only `propext`, `Classical.choice` and `Quot.sound`
  (checked with `#print axioms`); no axiom is declared, there is no `sorry`, `native_decide`,
  `bv_decide`, `implemented_by` or `unsafe`.
* The transcription of the Rust code into `lean/Verif/Model/*.lean`.  Every definition cites the
  file and lines it models and states its simplifications.
* The documented behaviour of the Rust standard library used by the code: slices, `Vec` editing,
  `str::from_utf8`, `str::parse`, `HashMap` (as a finite map with an arbitrary iteration order),
  `to_ascii_lowercase`, `str::to_lowercase` (on ASCII strings only; arbitrary otherwise).
* The crate `textcode` is not in the repository.  Its decoders are an arbitrary parameter of the
  model (`Cfg.textcode`); the only assumption is that they return a `String`, i.e. valid UTF-8.
* Specifications in `lean/Verif/Spec/*.lean` are part of what a reader has to believe; they do not
  use the model's helper functions.

## 2. What is modelled

| Rust | Lean | notes |
|---|---|---|
| `error.rs` | `Model/Basic.lean` | complete |
| `parsing/character_sets.rs` | `Model/CharSets.lean` | complete (`special` is not called by the library) |
| `parsing/combinators.rs` | `Model/Combinators.lean` | complete |
| `parsing/whitespaces.rs` | `Model/Whitespaces.lean` | complete |
| `parsing/quoted_string.rs` | `Model/QuotedString.lean`, `quoted_pair` in `Whitespaces` | complete |
| `parsing/common.rs` | `Model/Common.lean`, `lowercase` in `EncodedHeaders` | complete |
| `address.rs`, `parsing/address.rs` | `Model/Address.lean` | complete |
| `time.rs`, `parsing/time.rs` | `Model/Time.lean` | complete |
| `parsing/mime/base64.rs` | `Model/Base64.lean` | complete, in-place buffer included |
| `parsing/mime/quoted_printables.rs` | `Model/QuotedPrintable.lean` | complete, in-place buffer included |
| `parsing/mime/encoded_headers.rs` | `Model/EncodedHeaders.lean` | complete |
| `parsing/mime/percent_encoding.rs` | `Model/Percent.lean` | complete |
| `mime.rs`, `parsing/mime/mime_fields.rs` | `Model/MimeFields.lean`, `into_owned` in `Model/Cow.lean` | complete |
| `parsing/fields.rs` | `Model/Fields.lean` | complete |
| `parsing/mime/entity.rs`, `multipart.rs` | `Model/Entity.lean` | complete; the owned arm of `header_part_owned` by C50 |
| `parsing/message.rs` | `Model/Message.lean` | complete |
| `email.rs` | `Model/Message.lean` | complete |
| `string.rs` | `Model/Cow.lean` | complete |
| ownership of the strings built by `whitespaces.rs`, `quoted_string.rs`, `common.rs`, `address.rs` (up to `addr_spec`) | `Model/Borrow.lean` | the rest of the model keeps contents only |
| ownership of all other strings, up to `Email::parse`, `raw_entity` and `RawEntity::parse` | `Model/BorrowMessage.lean` | a copy of the parsers in which strings have addresses; parameters are lists of entries in any order; `entity` reads the value at a given place, which is in the input or, for an owned value, in the entity |
| number of steps of everything `Email::parse` calls | `Model/Timed.lean` | a copy of the parsers with a counter; steps are iterations of loops and bytes examined; copying bytes, decoding of encoded words, parameters and bodies are not counted |
| number of steps of the codecs | `Model/TimedCodecs.lean` | likewise, with the bytes that `Vec::insert`, `remove` and `drain` move |
| number of steps of `raw_entity` and `RawEntity::parse` | `Model/TimedEntity.lean` | likewise, with the comparisons of the input with the delimiters; the conversion from charsets is not counted |

Not modelled: `lib.rs`, `prelude.rs` (re-exports), benches, examples, tests, `fuzz/`; the `Debug` and
`PartialEq` derivations; memory allocation failure; running time other than the number of steps above; the aliasing model of Rust
(`string.rs` builds a slice from two adjacent ones with `from_raw_parts`; the model checks that the
range stays inside one buffer, not that the pointer has provenance for it).

How Rust is rendered:

* A byte slice or string is a `List UInt8`.  `Result` is `Outcome`: `ok`, `err`, or `abort` with a
  reason: `panic`, `ub` (out-of-range unchecked access), `hang` (endless loop), `stackOverflow`.
* Each unchecked access is a function that returns `abort ub` out of range; each checked one returns
  `abort panic`.  Arithmetic on `u8` that could overflow returns `abort panic` when it would.
* A `while` loop is a structurally recursive function with fuel = remaining length + 1; running out
  of fuel is `abort hang`.  C01 shows that fuel never runs out, so the fuel is not a bound.
* `comment` is the only recursive parser; its recursion is bounded by `Cfg.stack`, which stands for
  the number of nested calls the thread's stack has room for; beyond is `abort stackOverflow`.
* Cargo features are a record of booleans (`Cfg.feat`), all theorems hold for all feature sets
  unless stated.
* Debug and release builds: `Cfg.overflowChecks` for the one addition that can overflow.

## 3. Layout

* `Verif/Model` – the model, one file per Rust file or group of files (table above).
* `Verif/Spec` – specifications.  They use the model's data types (results of the parsers) but none of its
  functions, except where a file says so.
  * `Gram`, `Chars`, `Grammar`, `Fields`, `Mime`, `Params` – RFC 5322/2045/2047/2231 grammars as relations between a text
    and a value;
  * `Base64`, `QuotedPrintable`, `Utf8` – streaming decoders and encoders;
  * `Strings` – all strings reachable from a result; `Entity` – delimiters and joining of parts; `Email` – what an
    `Email` must be, given its fields; `Lines` – header lines; `Trace` – trace blocks; `Cow`, `Borrow`, `BorrowMessage` – owned and borrowed strings and the reasons to copy; `Size` – how long the strings of a value are;
  * `Guarded` – the strings that cannot contain control characters;
  * `WhiteLines` – the headers of a text, which of them may have a line of white space only;
  * `Bytes` – bytes and lines that have no place in a header block;
  * `Relay` – what a line at the top of a message adds to its trace;
  * `Inert` – header lines without a meaning of their own, and the places outside a trace;
  * `Separate` – what two e-mails or parts have in common if their headers differ in some names only;
  * `Case` – the same value with all letters in lower case;
  * `Compatible` – what the feature `compatibility-fixes` adds;
  * `Dots` – header lines for which that feature makes no difference;
  * `Join` – putting lists together and taking them apart;
  * `Edit` – what an edit of one header changes;
  * `Build` – builds of the same sources, that is configurations that differ only in stack, overflow checks and hash order;
  * `Exact`, `ExactTrace`, `ExactPart`, `ExactWords`, `ExactCut`, `ExactMessage`, `ExactParts`, `ExactAll`, `ExactAnyPart` – what a header line denotes, and how lines are divided into trace blocks; `Layout`, `Addresses`, `HeaderLayout` – all permitted ways to lay out a value, a header, a message;
  * `Print`, `PrintAddress`, `PrintMime`, `PrintMessage`, `Part` – canonical texts of values, messages, parts and trees
    of parts; `Unicode` – the text of messages with any characters; `Normal`, `NormalMime`, `NormalPart` – the canonical text of an e-mail and of a part; `Nesting`, `Work` – reading all levels of a multipart message, and the steps it takes; `Features` – comparing e-mails read with different Cargo features.
* `Verif/Proofs` – helper lemmas: `Sound/*` (what a parser returns is in the grammar), `Complete/*` (what is in the grammar
  is accepted, with that value), `Local/*` (a header parser does not look beyond its line), the rest per topic.
* `Verif/Props` – the property theorems, each followed by an `example` that shows a non-trivial instance.
* `Verif/Tests/Conformance.lean` – the unit tests of the repository, evaluated in the model by the kernel.  They check the
  transcription; nothing is derived from them.
* `seeded/LOG.jsonl` – wrong programs the theorems were tested against.

## 4. Properties and how they are proved

| Property | Modelled | Approach |
|---|---|---|
| C01 | all parsers, all entry points | a Hoare-style predicate over outcomes, one lemma per parser, composed up to `Email.parse` and `RawEntity.parse`; fuel suffices by consumption |
| C02 | `comment` and its callers | the same lemmas with a depth; the bound is shown exact by a family of inputs |
| C03 | continuation counter of `collect_parameters` | exact condition for the overflow, by induction on the segments |
| C04 | all results | soundness lemmas give that undecoded text is ASCII; decoded text is valid by the checks of the decoders; collected over all strings reachable from the result |
| C05, C08, C09 | `parse_message`, `Email::parse` | `input = consumed ++ rest`; the consumed headers contain no empty line; case analysis of the entry points |
| C06, C07 | body functions | induction on the line loop against an inductive definition of lines |
| C10, C11, C29 | all header parsers | locality: what a parser does depends only on the header line (`Proofs/Local`), each line is consumed completely or kept as unknown |
| C12 | header names | `tagNoCase` accepts exactly the strings equal up to ASCII case |
| C13, C20, C22, C48 | header parsers | soundness against the grammar relations |
| C14–C19 | `Email::parse` on fields | induction on the field list against a declarative specification of the result |
| C21, C23–C28, C45, C46, C52, C53 | value parsers | completeness lemma per parser against a layout relation, then printers whose texts are in the relation |
| C30–C36 | in-place codecs | refinement of the in-place loops to streaming specifications, then round trips |
| C37–C39 | percent decoding, continuations | refinement; independence of the order of the map by a permutation argument |
| C40–C44 | multipart, entities | specification of the first delimiter; soundness and completeness of the search; decision logic |
| C47 | trace block | exact description of what is a trace block; locality; layout |
| C49, C50 | `string.rs`, `into_owned` | memory model with buffers and addresses; case analysis |
| C58 | the parsers that build strings, with addresses | an invariant of `add_string`: what was built, from which text, and where it ends; the contents agree with the rest of the model |
| C51 | everything without multipart | `MessageL`: each line in any layout, in any order → `Email.parse` gives exactly the email of the fields; the canonical text is one such layout |
| C59 | everything without MIME | every value of the grammar satisfies the conditions under which C51 writes it; consecutive trace blocks are separate since the loops are greedy |
| C60 | all parsers, with a counter | the cost of a value is proportional to what remains of the line (`Flat`), of a list to its square (`Quad`); a failing alternative is paid by the line that is read in the end; the sum over the lines is at most the square of the length |
| C61 | all parsers, with a counter | one lemma per parser: bytes consumed ≤ steps |
| C62 | all parsers, with a counter | a parser that succeeds costs at most a constant for each byte it consumes, unless it stops in front of something that looks like white space or a comment and is not (`Repaid`); there nothing more can be read. What an alternative read in vain is read again by the one that succeeds |
| C63 | codecs, with a counter | the bytes behind the index never become more, so an iteration costs at most a constant times their number; for base64 each iteration is paid by the bytes it passes; families of escapes, by induction, with the exact cost |
| C64 | address lists, with a counter | the exact cost of a family of lists of groups, by induction on the number of groups: reading one as a mailbox opens a comment, which opens one in the next |
| C65 | one level of a MIME body, with a counter | a delimiter is found after at most as many comparisons as there are bytes before it, each at most as long as the value; the squares of parts that do not overlap add up; a family of values that repeat the beginning of a delimiter |
| C66 | everything with MIME | the encoded forms are layouts in the sense of C51: base64 and percent-encoding are decoded to what was encoded; a parameter of each name is found by the last of its segments |
| C67 | everything | every value of the grammars satisfies the conditions under which C66 writes it; the e-mail is the one of the letter since names are in lower case and the parameters have finitely many names |
| C68 | `raw_entity`, `RawEntity::parse`, everything with MIME | as C66 and C67, for the headers of parts; a boundary longer than all of the parts is in none of them (C55), and joining is undone by splitting (C40) |
| C69 | `RawEntity::parse`, `parse_multipart`, `raw_entity` on all levels, with their counting copies | induction on the levels (C56) with the bounds of C65; from below, splitting a body takes at least as many steps as its parts are long, and C57 has the parts |
| C70 | `fields`, `field`, `parse_message`, `Email::parse` under two sets of Cargo features | a parser gives the same result unless the header is recognised by only one of the two; the header section is divided into the same lines by both, and corresponding lines are compared |
| C71 | everything `Email::parse` calls, with addresses | both copies of each parser come to the same outcome, and each string is in the text that was read or that text contains a reason; then the loop over the fields |
| C72 | `raw_entity`, `header_part`, `header_part_owned`, `parse_multipart`, `entity`, with addresses | as C71; a part of a multipart entity is read at the place of its slice; C50 for owned input |
| C73 | `Email::parse`, `raw_entity`, `parse_multipart`, `entity`, with addresses | a weight for each value (the bytes of its strings, and one for each string), bounded by what its parser consumed; spare capacity, hash tables and values that are dropped do not count; the growth of the charset conversions is a parameter |
| C74 | `field`, `fields`, `Email::parse` and all parsers of RFC 5322 values | from right to left, every derivation of the grammar is brought into the layout of `HeaderLayout` (white space moved to the word before it, adjacent atoms joined) and then read as shown for C51; from left to right C13 and C29; the messages by C10 and C17 |
| C75 | the functions of `character_sets.rs`, `especials`, token characters | evaluation for all 256 bytes by the kernel |
| C76 | `field`, `fields`, `Email::parse`, `content_type`, `mime_version`, `content_transfer_encoding`, `mime_unstructured` | as C74: every derivation of the grammar of parameters is shown to be what the parser reads (a comment or fold is read in one way only, as no line is blank); the remaining case from C10 |
| C77 | `return_path`, `received`, `received_token`, `trace`, the loop of `fields` over trace blocks, `Email::parse` | as C74 for the values; a trace line is read to its end or not at all (C10), so each `many` reads the longest run of lines of its kind; induction on the blocks |
| C78 | `content_disposition`, `raw_entity`, `header_part`, `Email::parse` | each item is read as a date if a date parameter is a beginning of the text, else as a file name or parameter, so the items are those of the spec; the parsers of parts are those of messages under other constructors |
| C79 | `phrase`, `mailbox`, `address`, `keywords`, `bcc`, `fields`, `Email::parse` | each parser returns a value of the spec before the rest (soundness), and a value of the spec is what it returns (completeness), by induction on lists of words; alternatives are tried in the order in which the spec excludes beginnings |
| C80 | `content_type`, `content_disposition`, `keywords`, `fields`, `Email::parse` | at a line end followed by white space each value parser stops exactly where the spec says: a repetition ends since its next element fails, and an optional comment is not taken across the line end unless it ends there; the field parser fails at white space, so the header block ends and no CRLF follows |
| C81 | `resent_*`, `fields`, `Email::parse` | a resent line is read as the line without `Resent-`, so C79 gives its value; each of the three readers of trace lines either reads a line to its end or fails at it, so the loops divide the lines as the spec does; the rest is C80 for each line |
| C82 | `header_part`, `raw_entity`, `parse_multipart` | the five headers of parts are read as the headers of messages, so C80 says what each line means and which are cut; after a cut line no header can begin and the empty line is missing; the parts of a body are those of C41 |
| C83 | `Email::parse`, `parse_message`, `fields` | what is accepted has a header block of lines with a name and a colon (from the grammar of C05), it ends at the first empty line, and without white lines such lines are of the general form, so C81 decides; if the block is not of that form, `fields` cannot stop at its end, and by locality (C10) nothing after the empty line matters for aborts |
| C84 | `raw_entity`, `header_part`, `parse_multipart`, `entity` | as C83, with the grammar of the headers of parts, C82 for parts made of header lines, and the division of C41; the decoded body is `Spec.decoding`, which is independent of the in-place decoders |
| C85 | the grammars of addresses, ids, types, parameters | values of each grammar, along with C04; `StrOk` of C04 for the strings without MIME; C66 for the subjects |
| C86 | the grammars of all headers, `Email::parse`, `raw_entity` | for each grammar, the number of line breaks in a run of white space at the end of its texts, given that at the beginning (`Tri`): at most one after a comment or space of a structured header, none after a text; so white lines are isolated and only in headers with comments, and all other texts are decided as in C83 and C84 |
| C87 | `Email::parse`, `raw_entity`, `RawEntity::parse` | for every parser, that with more stack and without overflow checks it does the same unless it is aborted (`Under`), up to the text of errors, which no result depends on; two builds are compared through a third one with the stacks of both |
| C88 | `Email::parse`, `body`, `decode_base64`, `RawEntity::parse` | headers do not depend on what follows the empty line (C08, C10); texts that are header lines end with CRLF, so C87 gives the error for the others; beginnings of bodies and of base64 by induction |
| C89 | `Email::parse`, `raw_entity` | what is made of headers consists of printable characters, white space and CRLF, and every line of it continues a header or begins with a name; all else is refused by C87; the accepted texts by C51 |
| C90 | `fields`, `trace`, `Email::parse` | a line that is read alone is read the same above any accepted message; then the first block of `many` is followed through; fields that are traces or unknown do not touch the other members (`Silent`) |
| C91 | `fields`, `unknown`, `Email::parse`, `raw_entity` | the lines of a block after the trace are read one by one (`fields_split`), so that one of them can be put in or taken out; the members of the result other than the unknown fields depend on the other fields only (`known`) |
| C92 | `fields`, `Email::parse`, `raw_entity` | the field of a line is of its name or unknown (`C11_kind`), and each member of the result depends on the fields of its name only (`off`) |
| C93 | all parsers used without `mime` | every parser commutes with putting letters in lower case (`Caseless`, `Proofs/Case.lean`), since every character class and literal is closed under it |
| C94 | `dot_atom_text` and all parsers of header lines without `mime` | the exact grammars of C77 and C79 are monotone in the feature (`Proofs/Compatible.lean`); what is read with the feature is then found with the completeness lemmas, and the e-mails are compared with C80 |
| C95 | `dot_atom_text`, all parsers of header lines, `fields`, `Email::parse` | the two runs are compared step by step while every dot of the rest is followed (`Level` in `Proofs/Dots.lean`); lines and trace blocks are separated with the locality of C10, and the division into lines is unique |
| C96 | `mailbox_list`, `address_list`, `keywords`, `bcc`, `in_reply_to`, `references` | a line that is read has one of the layouts of C74 (`read_value` in `Proofs/Join.lean`: the layout that the grammar gives is read as itself, so it is the value that was read), and layouts with commas are put together and taken apart without the parsers; with encoded words and `=?` there is a counterexample |
| C97 | `fields`, `parse_message`, `Email::parse`, `raw_entity` | the line is exchanged in the list of fields with the locality of C91 and C92, then the specification of C17 (`EmailResult`) decides; `C97_added` combines it with C96 |
| C54, C55 | `raw_entity`, `RawEntity::parse` | the same for parts; induction on trees |
| C56, C57 | repeated `RawEntity::parse` | the number of ASCII bytes decreases by the delimiters at each level; growth by an explicit family of nested quoted-printable parts |

## 5. Disagreements between the code and what a user may expect

(Proved facts are cited in `MANIFEST.json`.)

* Comments nest without limit: deep nesting overflows the stack (C02).
* 256 continuation segments of one MIME parameter overflow a `u8` counter (C03).
* Percent decoding works from right to left and can decode twice (C37).
* White space before the CRLF of a structured header makes the header unrecognised (C29), but on a line of its own it is
  accepted: `From: a@b`, CRLF, space, CRLF (`C86_sharp`).
* A message cut at the end of any line of its header block, a folded line included, is accepted as a shorter message
  (`C88_unnoticed`); so is a base64 body cut after a group of four characters.
* Lines of headers can have any length (`C89_any_length`), although those of a body are limited to 998 characters without MIME
  (C06).  Headers in UTF-8 (RFC 6532) make the whole message be refused (`C89_foreign`).
* Dates before 1990 are rejected; day 0 is accepted; the day name is not checked against the date.
* `Content-Type: textual/plain`, `Content-Transfer-Encoding: 7bitx` and
  `Content-Disposition: inlinex` are rejected since a known name that is a prefix is committed to.
* `filename*=` and `filename*0=` are put in the unstructured parameters, not in `filename`; so no text of a header gives a
  `filename` with a character outside of ASCII.
* `Received`/`Resent-*` after another header and `Return-Path` without `Received` are unknown fields.
  So one `Delivered-To` or `DKIM-Signature` line above the trace, as many relays add, makes the whole trace be returned as
  unknown fields (`C90_hidden`).
* A `text/*` entity without charset parameter is `Unknown`; `us-ascii` is decoded as UTF-8.
* The closing delimiter of a multipart body must be followed by CRLF.
* The quoted-printable decoder keeps trailing white space of encoded lines.
* In a MIME part the last of several equal headers wins; in `Email::parse` they are an error.
* `mime` without `content-disposition`, and `sender` without `from`, do not compile.
* Two folds in one run of white space end a text header; in structured headers they make it unrecognised, except between
  the words of a name, where they are accepted (`C70_folded_name`), and similar places between two parts or at the end
  (`C86_sharp`); three in a row are never accepted (`C86_where`).
* `name*=charset''…` without continuation index is kept undecoded.
* `Content-Transfer-Encoding: base64url` is kept as an additional header and the body is not decoded; an unknown name such as
  `uuencode` is an error when the entity is read.
* An encoded word followed by white space before `,` or `:` makes the phrase fail; an encoded word after a comment at the start
  of a phrase is read as an atom; decoded text is not checked, and an encoded word may contain `,` or `<` literally.
* A token of `Received` is never read as an `addr-spec`, since its local part is read as a word before: a line with
  `for a@b` is not recognised (C77).
* `Received: ; date` (no tokens) and `Bcc:` with only white space are not recognised.
* A line that begins with the boundary in the epilogue changes the parts; two adjacent delimiters must not share their CRLF.
* The values of `Subject`, `Comments` and unknown headers keep the white space after the colon.
* With MIME, decoded texts are returned with their control characters: a subject can contain CRLF and what looks like another
  header (`C85_injection`), so a program that puts it in a header again must encode it.  Addresses, ids, names and types cannot.
* Nested quoted-printable multiparts grow exponentially: a message of a few kilobytes can hold a part of any size the memory
  has room for (C57), and reading all its levels takes exponential time.  Unless a multipart part is ill-formed
  quoted-printable data (bytes outside of ASCII, or `=` without two digits), the time is at most cubic (C69).
* `string.rs` decides by adjacency of addresses only; two different buffers that happen to be adjacent would be merged.  The
  parsers only add slices of one input, for which the merge is right (C49).
* Reading a message can take a time quadratic in the length of a line: with MIME, each of the addresses `=?utf-8?q?x(?=:;,` or the
  parameters `;creation-date="1 Jan 2000 00:00:00 +0000 ("` of a line makes the parser look for the end of a comment up to the end
  of the line (as the comments nest, the stack limits the number of such items, C02).  C64 proves
  this for the addresses; C60 shows that it cannot be worse, and C62 that it needs MIME.
* Decoding quoted-printable data takes a time quadratic in its length, as every escape is closed up by moving all that follows
  (`Vec::remove`); the same for percent-encoding and for `encode_qp` (C63).  Base64 is linear.
* The search for the delimiters of a multipart can take a time quadratic in the length of the value, with a boundary of the same
  length (written in percent-encoding, so that it repeats the beginning of a delimiter; C65).
* With MIME the feature `compatibility-fixes` does not only add: `From: =?utf-8?q?(?=<c..d@e>)@f` is an address with a comment
  without it, and not understood with it, as the beginning is then taken for an encoded word before an address
  (`C94_mime_counterexample`).  It can also make an accepted message be refused, when a header becomes understood twice (C94).
