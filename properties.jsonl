{"id": "C01", "title": "Parsing never panics, never reads out of bounds, always terminates", "statement": "For every byte string and every compilable feature set, Email::parse either returns Ok or Err: it reaches no panic (slice index, arithmetic overflow, unreachable!, vector edit), no out-of-range unchecked access, and no endless loop, provided the comment nesting fits the stack (C02) and, in builds with overflow checks, fewer than 256 '*' occur in the input (C03).", "quantifier": "all inputs, all feature sets, all charset decoders, all hash-map orders, all stack sizes", "why_tests_cant": "The set of inputs is infinite and the unsafe blocks are justified by informal comments only; a fuzzer cannot exclude a remaining bad index or an infinite loop.", "anchors": ["email-parser/src/email.rs:Email::parse", "email-parser/src/parsing/combinators.rs", "email-parser/src/parsing/message.rs", "email-parser/src/parsing/mime/base64.rs:decode_base64", "email-parser/src/parsing/mime/quoted_printables.rs"]}
{"id": "C02", "title": "Stack use is bounded by comment nesting, and nesting is not bounded", "statement": "Parsing can exhaust the stack only on an input containing more '(' than the number of nested comment calls the stack has room for; conversely for every stack size there is a header block whose parsing exhausts it (the code has no nesting limit).", "quantifier": "all inputs and all stack sizes", "why_tests_cant": "A test shows one depth on one machine; it cannot show that recursion is the only stack consumer nor that every stack size is beaten.", "anchors": ["email-parser/src/parsing/whitespaces.rs:comment", "email-parser/src/parsing/whitespaces.rs:ccontent"]}
{"id": "C03", "title": "Continuation counter overflow", "statement": "In a build without overflow checks no input makes header parameter collection panic; in a build with overflow checks a parameter with all 256 continuation indices 0..=255 panics, and an input with fewer than 256 '*' never does.", "quantifier": "all inputs, both kinds of build", "why_tests_cant": "The panic needs a header with 256 continuations; the complementary claim ranges over all inputs.", "anchors": ["email-parser/src/parsing/mime/percent_encoding.rs:collect_parameters"]}
{"id": "C04", "title": "Every string handed to the user is valid UTF-8", "statement": "Every string reachable from the Email returned for any input is valid UTF-8, although most are created with from_utf8_unchecked; without the mime feature every string is plain ASCII.", "quantifier": "all inputs, all feature sets, all charset decoders that return valid strings", "why_tests_cant": "Invalid UTF-8 in a str is undefined behaviour that a test usually does not observe; the claim covers all byte strings.", "anchors": ["email-parser/src/string.rs:from_slice", "email-parser/src/parsing/mime/percent_encoding.rs:decode_parameter", "email-parser/src/email.rs:Email"]}
{"id": "C05", "title": "The body is what follows the first empty line", "statement": "If parsing the message succeeds, the input is the header block followed either by nothing (no body) or by CRLF and the body; the header block is empty or ends with CRLF, consists of the fields in order, each line of it begins with a field name and a colon, and it contains no empty line of its own.", "quantifier": "all inputs accepted", "why_tests_cant": "Header/body confusion (header injection, request smuggling style) must be excluded for every input, not sample mails.", "anchors": ["email-parser/src/parsing/message.rs:parse_message", "email-parser/src/parsing/fields.rs:fields"]}
{"id": "C06", "title": "Body acceptance without mime is exactly the RFC 5322 line discipline", "statement": "Without the mime feature, a body is accepted if and only if it is a sequence of lines of at most 998 bytes, each byte in 1..=127 other than CR and LF, separated by CRLF; an accepted body is returned unchanged.", "quantifier": "all bodies", "why_tests_cant": "Boundary 998/999, lone CR, lone LF, byte 0 and 128 at every position and every line: infinitely many cases.", "anchors": ["email-parser/src/parsing/message.rs:body", "email-parser/src/parsing/message.rs:check_line"]}
{"id": "C07", "title": "The two body functions agree", "statement": "The line-splitting body parser accepts exactly the inputs the checking body parser accepts, and joining its lines with CRLF gives back the body.", "quantifier": "all inputs", "why_tests_cant": "Agreement of two implementations on every input cannot be sampled.", "anchors": ["email-parser/src/parsing/message.rs:body_lines", "email-parser/src/parsing/message.rs:body"]}
{"id": "C08", "title": "With mime the body is opaque", "statement": "With the mime feature the bytes after the empty line are never inspected or rejected during message parsing: replacing the body by any other bytes leaves the parsed headers and the acceptance unchanged.", "quantifier": "all header blocks, all bodies", "why_tests_cant": "Quantifies over pairs of arbitrary bodies.", "anchors": ["email-parser/src/parsing/message.rs:parse_message"]}
{"id": "C09", "title": "Which errors parsing can report", "statement": "Email::parse fails only with: the CRLF-after-headers error, the body line error (without mime), a duplicate-header error, a missing-header error for From, Date or Sender, or, with mime, a transfer-decoding error; malformed header values alone never produce an error. The displayed text of an error identifies it among all errors Email::parse can report.", "quantifier": "all inputs", "why_tests_cant": "The claim is about the absence of every other error over all inputs.", "anchors": ["email-parser/src/email.rs:Email::parse", "email-parser/src/error.rs:Error", "email-parser/src/error.rs:fmt"]}
{"id": "C10", "title": "Headers are parsed independently (locality)", "statement": "The outcome of parsing one header field depends only on the bytes of that field: whatever follows a successfully parsed field, provided it does not start with white space, the same value is obtained, and the rest is what follows.", "quantifier": "all header fields, all continuations", "why_tests_cant": "Any following header could influence a backtracking parser; tests only combine a few.", "anchors": ["email-parser/src/parsing/fields.rs:fields"]}
{"id": "C11", "title": "Unrecognised and malformed headers are kept, not dropped", "statement": "Every well-formed header line (name, colon, printable text with folding, CRLF) is consumed by the header loop: it becomes a typed field or an unknown field carrying its exact name and its unfolded text; it never ends the header block. The only exception: with the feature mime, a folded MIME-Version, Content-Type, Content-Transfer-Encoding, Content-Disposition or Keywords line, whose value may end at a fold.", "quantifier": "all header names, all texts, all foldings", "why_tests_cant": "Completeness over all names and values.", "anchors": ["email-parser/src/parsing/fields.rs:unknown", "email-parser/src/parsing/fields.rs:fields"]}
{"id": "C12", "title": "Header names are case-insensitive", "statement": "Changing the case of any ASCII letters in the name of a recognised header does not change the result of parsing it.", "quantifier": "all headers, all 2^n case variants, all following inputs", "why_tests_cant": "2^n variants times arbitrary values.", "anchors": ["email-parser/src/parsing/combinators.rs:tag_no_case", "email-parser/src/parsing/fields.rs"]}
{"id": "C13", "title": "Accepted header values conform to the RFC 5322 grammar", "statement": "When a structured header is parsed, the consumed bytes are derivable from the RFC 5322 grammar for that header and the value reported is the one denoted by the derivation.", "quantifier": "all inputs accepted, all structured headers", "why_tests_cant": "Soundness against a grammar quantifies over all accepted strings.", "anchors": ["email-parser/src/parsing/fields.rs", "email-parser/src/parsing/address.rs", "email-parser/src/parsing/time.rs"]}
{"id": "C14", "title": "Required headers", "statement": "Parsing never succeeds unless a valid Date and a valid From header are present (when those features are enabled); the reported date and authors are those of the unique such header.", "quantifier": "all inputs", "why_tests_cant": "All ways of omitting or malforming a header.", "anchors": ["email-parser/src/email.rs:Email::parse"]}
{"id": "C15", "title": "Duplicates are rejected, never silently overwritten", "statement": "If two fields of the same once-only kind are parsed, Email::parse fails with the duplicate error naming that header; if it succeeds each once-only kind occurs at most once and its value is the one reported.", "quantifier": "all field sequences", "why_tests_cant": "All positions and kinds of the repeated header.", "anchors": ["email-parser/src/email.rs:Email::parse"]}
{"id": "C16", "title": "Sender inference", "statement": "The reported sender is the Sender header's mailbox if there is one; otherwise the only author; with several authors and no Sender header parsing fails with a missing-Sender error.", "quantifier": "all field sequences", "why_tests_cant": "Covers author lists of every length.", "anchors": ["email-parser/src/email.rs:Email::parse"]}
{"id": "C17", "title": "Nothing is lost between the fields and the Email", "statement": "On success comments, keywords, trace blocks and unknown fields of the Email are exactly those of the parsed fields in order, with multiplicity, and every optional member is present iff its field is.", "quantifier": "all field sequences", "why_tests_cant": "Order and multiplicity for sequences of any length.", "anchors": ["email-parser/src/email.rs:Email::parse"]}
{"id": "C18", "title": "Order of distinct headers is irrelevant", "statement": "Swapping two fields of different kinds does not change whether Email::parse succeeds nor any member of the resulting Email.", "quantifier": "all field sequences, all permutations preserving the order within a kind", "why_tests_cant": "n! permutations.", "anchors": ["email-parser/src/email.rs:Email::parse"]}
{"id": "C19", "title": "Error precedence", "statement": "Errors are reported in this order: syntax of the message, then the first duplicate, then missing From, missing Date, missing Sender, then undecodable body.", "quantifier": "all field sequences and bodies", "why_tests_cant": "Combinations of simultaneous errors over all sequences.", "anchors": ["email-parser/src/email.rs:Email::parse"]}
{"id": "C20", "title": "Ranges of parsed dates", "statement": "Every parsed date has day at most 31, hour at most 23, minute at most 59, second at most 60, zone minutes at most 59, zone hours at most 99, year between 1990 and 2^64-1; no numeric wrap-around occurs while reading it.", "quantifier": "all inputs accepted", "why_tests_cant": "All digit strings of any length.", "anchors": ["email-parser/src/parsing/time.rs:date_time"]}
{"id": "C21", "title": "Date round trip", "statement": "Printing any in-range date in RFC 5322 format (with or without day name and seconds) and parsing it gives the same date back, whatever follows.", "quantifier": "all in-range dates, all continuations not extending the date", "why_tests_cant": "About 10^23 dates, times contexts.", "anchors": ["email-parser/src/parsing/time.rs:date_time"]}
{"id": "C22", "title": "Digit count of years", "statement": "A year is accepted iff it has at least four digits and its value is between 1990 and 2^64-1; leading zeros beyond are allowed.", "quantifier": "all digit strings", "why_tests_cant": "Unbounded digit strings.", "anchors": ["email-parser/src/parsing/time.rs:year"]}
{"id": "C23", "title": "Quoted strings", "statement": "For every text of printable characters, spaces and tabs, quoting it (backslash before quote and backslash) and parsing the quoted string gives the text back exactly.", "quantifier": "all texts", "why_tests_cant": "Escapes at every position in strings of every length.", "anchors": ["email-parser/src/parsing/quoted_string.rs:quoted_string"]}
{"id": "C24", "title": "Mailbox round trip", "statement": "Printing any mailbox (optional display name of atoms or quoted words, dot-atom or quoted local part, dot-atom or literal domain) and parsing it gives the same mailbox back.", "quantifier": "all mailboxes", "why_tests_cant": "Interaction of display name, angle address, bare address for all strings.", "anchors": ["email-parser/src/parsing/address.rs:mailbox"]}
{"id": "C25", "title": "Address lists and groups round trip", "statement": "Printing a list of mailboxes and groups separated by commas and parsing it gives the same list: same length, order and members.", "quantifier": "all address lists", "why_tests_cant": "Lists of any length with nested groups.", "anchors": ["email-parser/src/parsing/address.rs:address_list", "email-parser/src/parsing/address.rs:group"]}
{"id": "C26", "title": "Message identifiers", "statement": "Printing a message identifier <left@right> and parsing it gives the same pair; lists of identifiers likewise for References and In-Reply-To.", "quantifier": "all identifiers and lists", "why_tests_cant": "All strings and list lengths.", "anchors": ["email-parser/src/parsing/address.rs:message_id"]}
{"id": "C27", "title": "Comments and folding white space are ignored", "statement": "Inserting any well-formed comment (arbitrarily nested, within the stack) or folding white space around an atom, a dot-atom or a quoted string does not change the value parsed.", "quantifier": "all comments of every depth, all words", "why_tests_cant": "Nesting depth and content unbounded.", "anchors": ["email-parser/src/parsing/whitespaces.rs:cfws", "email-parser/src/parsing/common.rs:atom"]}
{"id": "C28", "title": "Unfolding of text headers", "statement": "Without encoded words, parsing an unstructured value yields the text with the CRLF of every fold removed and the white space kept, and trailing white space dropped; every printable text, folded at any white space, is recovered.", "quantifier": "all texts, all foldings", "why_tests_cant": "All fold positions.", "anchors": ["email-parser/src/parsing/common.rs:unstructured"]}
{"id": "C29", "title": "White space before the CRLF of a structured header", "statement": "A white space immediately before the terminating CRLF of a structured header makes that header unrecognised (it is reported as an unknown field) although RFC 5322 allows it: every date, mailbox, address or message identifier header so ended, and without the feature mime the keywords. (White space on a line of its own is another matter, see C86.)", "quantifier": "all values", "why_tests_cant": "States a discrepancy for all header values.", "anchors": ["email-parser/src/parsing/whitespaces.rs:fws", "email-parser/src/parsing/fields.rs"]}
{"id": "C30", "title": "Base64 round trip", "statement": "Decoding the encoding of any byte string gives the byte string back, including when arbitrary non-alphabet bytes other than '=' are interspersed.", "quantifier": "all byte strings, all insertions", "why_tests_cant": "All lengths mod 3 and all byte values at every position; in-place algorithm.", "anchors": ["email-parser/src/parsing/mime/base64.rs"]}
{"id": "C31", "title": "The in-place base64 decoder equals a streaming specification", "statement": "For every input, decode_base64 returns what a streaming decoder returns (skip foreign bytes, quantum by quantum, same errors), although it overwrites the buffer it reads; the output is at most three quarters of the input's alphabet characters.", "quantifier": "all byte strings", "why_tests_cant": "Aliasing between read and write positions at every length.", "anchors": ["email-parser/src/parsing/mime/base64.rs:decode_base64"]}
{"id": "C32", "title": "Base64 encoder output shape", "statement": "The encoder's output consists of CRLF-separated lines of at most 72 characters of the base64 alphabet with padding only at the end, and its length is 4*ceil(n/3) plus line breaks.", "quantifier": "all byte strings", "why_tests_cant": "All lengths.", "anchors": ["email-parser/src/parsing/mime/base64.rs:encode_base64"]}
{"id": "C33", "title": "Quoted-printable round trip", "statement": "Decoding the quoted-printable encoding of any byte string gives the byte string back.", "quantifier": "all byte strings", "why_tests_cant": "Soft breaks interact with CR LF pairs and trailing spaces at every column.", "anchors": ["email-parser/src/parsing/mime/quoted_printables.rs:encode_qp", "email-parser/src/parsing/mime/quoted_printables.rs:decode_qp"]}
{"id": "C34", "title": "The in-place quoted-printable decoders equal streaming specifications", "statement": "For every input decode_qp and decode_header_qp return what a one-pass streaming decoder returns; invalid escapes and bytes become U+FFFD; nothing decoded is decoded again.", "quantifier": "all byte strings", "why_tests_cant": "In-place edits shift the data; double decoding could happen anywhere.", "anchors": ["email-parser/src/parsing/mime/quoted_printables.rs:decode_qp", "email-parser/src/parsing/mime/quoted_printables.rs:decode_header_qp"]}
{"id": "C35", "title": "Quoted-printable encoder output shape", "statement": "Every line of the encoder's output has at most 76 characters, contains only printable ASCII, space and tab, and no line ends with a space or tab.", "quantifier": "all byte strings", "why_tests_cant": "All columns and byte values.", "anchors": ["email-parser/src/parsing/mime/quoted_printables.rs:encode_qp"]}
{"id": "C36", "title": "Quoted-printable text in headers", "statement": "The Q-encoding of any byte string (underscore for space, =XX for specials) decodes back to the byte string.", "quantifier": "all byte strings", "why_tests_cant": "All bytes at all positions.", "anchors": ["email-parser/src/parsing/mime/quoted_printables.rs:decode_header_qp"]}
{"id": "C37", "title": "Percent decoding of parameters", "statement": "If every '%' is followed by two hexadecimal digits, parameter decoding equals standard left-to-right percent-decoding; percent-encoding any byte string and decoding gives it back. In general the code decodes right to left and may decode twice (\"%4%31\" gives \"A\").", "quantifier": "all byte strings", "why_tests_cant": "Overlapping escapes at all positions.", "anchors": ["email-parser/src/parsing/mime/percent_encoding.rs:decode_parameter"]}
{"id": "C38", "title": "Parameter continuations", "statement": "A parameter given as segments 0..n in any order of appearance is reported as the concatenation of the decoded segments in index order, up to the first gap; without segment 0 it is not reported.", "quantifier": "all segmentations, all orders, all values", "why_tests_cant": "Orders times segment counts.", "anchors": ["email-parser/src/parsing/mime/percent_encoding.rs:collect_parameters"]}
{"id": "C39", "title": "Hash-map iteration order is unobservable", "statement": "The result of parsing does not depend on the iteration order of hash maps, unless overflow checks are on and the input has 256 asterisks or more; then the order may decide between a panic and an error.", "quantifier": "all inputs, all pairs of iteration orders", "why_tests_cant": "The order is randomised per process; a test sees one.", "anchors": ["email-parser/src/parsing/mime/percent_encoding.rs:collect_parameters"]}
{"id": "C40", "title": "Multipart split and join", "statement": "Joining parts (none containing the boundary line) with a boundary and a preamble and epilogue, then parsing, gives exactly those parts in order.", "quantifier": "all part lists, all boundaries, all preambles and epilogues", "why_tests_cant": "All contents and list lengths.", "anchors": ["email-parser/src/parsing/mime/multipart.rs:parse_multipart"]}
{"id": "C41", "title": "Multipart splitting is sound", "statement": "When a multipart body is split, the body is the preamble, the delimiters, the parts and the epilogue concatenated; parts do not overlap, cover the body, and contain no further delimiter line.", "quantifier": "all bodies and boundaries", "why_tests_cant": "All inputs, including boundaries overlapping themselves.", "anchors": ["email-parser/src/parsing/mime/multipart.rs"]}
{"id": "C42", "title": "Identity encodings", "statement": "With transfer encoding 7bit, 8bit, binary or none, the entity value is the body unchanged; base64 and quoted-printable bodies produced by the encoders decode to the original; an unknown encoding is an error.", "quantifier": "all bodies", "why_tests_cant": "All bodies.", "anchors": ["email-parser/src/parsing/mime/entity.rs:decode_value"]}
{"id": "C43", "title": "Defaults of a MIME part", "statement": "A part without headers is text/plain; charset=us-ascii with its body unchanged; of a repeated header the last one counts; other headers are kept in order.", "quantifier": "all parts", "why_tests_cant": "All header sequences.", "anchors": ["email-parser/src/parsing/mime/entity.rs:header_part", "email-parser/src/parsing/mime/entity.rs:raw_entity"]}
{"id": "C44", "title": "Decoding text entities", "statement": "RawEntity::parse on a text entity with charset utf-8 or us-ascii (any case) returns the value unchanged if it is valid UTF-8 and an error otherwise; text without charset or with an unlisted one, and other types, give Unknown. is_composite_type holds exactly for parts whose type is named message or multipart; only such parts are read as multipart, and only other ones as text.", "quantifier": "all raw entities", "why_tests_cant": "All values and charset spellings.", "anchors": ["email-parser/src/parsing/mime/entity.rs:entity", "email-parser/src/mime.rs:is_composite_type"]}
{"id": "C45", "title": "White space between encoded words", "statement": "White space (also folded) between two adjacent encoded words is dropped, white space between an encoded word and plain text is kept.", "quantifier": "all texts and encoded words", "why_tests_cant": "All sequences of words.", "anchors": ["email-parser/src/parsing/common.rs:mime_unstructured", "email-parser/src/parsing/mime/encoded_headers.rs:encoded_word"]}
{"id": "C46", "title": "Content-Type round trip", "statement": "Printing a content type with token subtype and any quoted parameters and parsing it gives the type, the lowercased subtype and the parameters back, whatever white space and comments surround the parameters; a text of any length cut into encoded segments (RFC 2231) in any order is put together again.", "quantifier": "all types, subtypes, parameter lists", "why_tests_cant": "All parameter lists.", "anchors": ["email-parser/src/parsing/mime/mime_fields.rs:content_type"]}
{"id": "C47", "title": "Trace headers", "statement": "A trace block is reported iff the header block starts with an optional Return-Path followed by at least one Received; Received and Resent headers elsewhere, or a Return-Path without Received, are reported as unknown fields.", "quantifier": "all header blocks", "why_tests_cant": "All positions.", "anchors": ["email-parser/src/parsing/fields.rs:trace", "email-parser/src/parsing/fields.rs:fields"]}
{"id": "C48", "title": "MIME version numbers do not wrap", "statement": "A MIME version number is accepted iff its value is at most 255, and is reported exactly.", "quantifier": "all digit strings", "why_tests_cant": "Unbounded digit strings.", "anchors": ["email-parser/src/parsing/mime/mime_fields.rs:mime_version"]}
{"id": "C49", "title": "Zero-copy concatenation", "statement": "Concatenating two strings, borrowed or owned, gives the concatenation of their contents; the merged borrowed string never extends outside the buffer both come from; consecutive slices of the input are merged without allocation.", "quantifier": "all memory contents, all slices", "why_tests_cant": "All pointer configurations.", "anchors": ["email-parser/src/string.rs:add_string", "email-parser/src/string.rs:add_str"]}
{"id": "C50", "title": "into_owned keeps the contents", "statement": "Converting content types, dispositions and transfer encodings to owned values changes no content and leaves no borrowed string.", "quantifier": "all values", "why_tests_cant": "All values.", "anchors": ["email-parser/src/mime.rs:into_owned"]}
{"id": "C51", "title": "Whole-message round trip", "statement": "Rendering any abstract message (date, authors, optional sender, recipients, identifiers, subject, comments, keywords, other headers, body) in canonical form and parsing it returns exactly that message.", "quantifier": "all abstract messages", "why_tests_cant": "End-to-end completeness over all messages.", "anchors": ["email-parser/src/email.rs:Email::parse"]}
{"id": "C52", "title": "Encoded words", "statement": "An encoded word built from any non-empty byte string with charset utf-8 and encoding b or q decodes to that string when it is valid UTF-8, and otherwise is left as literal text.", "quantifier": "all byte strings", "why_tests_cant": "All byte strings.", "anchors": ["email-parser/src/parsing/mime/encoded_headers.rs:encoded_word"]}
{"id": "C53", "title": "Content-Disposition round trip", "statement": "Printing a disposition (any type, optional file name, optional creation, modification and reading dates, any other parameters), with any white space, comments, order of parameters and case of names, and parsing it gives the disposition back; the last occurrence of a parameter counts.", "quantifier": "all dispositions and layouts", "why_tests_cant": "All parameter lists and layouts.", "anchors": ["email-parser/src/parsing/mime/mime_fields.rs:content_disposition"]}
{"id": "C54", "title": "Parts of multipart messages", "statement": "A part whose header lines are laid out in any permitted way (case, white space, comments, folds, order, unknown headers) is read as exactly its headers - the last of each kind counts - and its decoded body, and is rejected only if the body cannot be decoded. Writing any part in canonical form and reading it gives that part back.", "quantifier": "all parts and layouts", "why_tests_cant": "All header lists, layouts and bodies.", "anchors": ["email-parser/src/parsing/mime/entity.rs:raw_entity"]}
{"id": "C55", "title": "Trees of parts", "statement": "Writing any tree of parts, nested to any depth, with any encodings, preambles and epilogues, and reading it level by level gives the same tree; the same for a whole message around it. A suitable boundary exists for any texts.", "quantifier": "all trees, any depth and width", "why_tests_cant": "Unbounded nesting.", "anchors": ["email-parser/src/parsing/mime/entity.rs:raw_entity", "email-parser/src/parsing/mime/multipart.rs:parse_multipart", "email-parser/src/mime.rs:RawEntity::parse"]}
{"id": "C56", "title": "Reading all levels ends", "statement": "Calling RawEntity::parse again on every part always ends: a message has at most one entity for every four of its bytes, on at most one level for every twelve, whatever encodings are used.", "quantifier": "all messages, all nestings", "why_tests_cant": "Termination and a bound for every input.", "anchors": ["email-parser/src/mime.rs:RawEntity::parse", "email-parser/src/email.rs:Email::parse"]}
{"id": "C57", "title": "Growth of nested data", "statement": "Each level of nesting makes the data at most three times longer, and this is reached: for each n there is a message of a length quadratic in n whose innermost part, when n + 1 levels are read, has a body of 3^n bytes.", "quantifier": "all entities and numbers of levels", "why_tests_cant": "Asymptotic statement about all depths.", "anchors": ["email-parser/src/parsing/mime/quoted_printables.rs:decode_qp", "email-parser/src/mime.rs:RawEntity::parse"]}
{"id": "C58", "title": "Strings are slices of the input unless something has to be left out", "statement": "Atoms, dot-atoms and both parts of a message identifier are always slices of the input. A quoted string is a copy exactly if a line break or a backslash has to be left out after its beginning; unstructured text exactly if it is folded after its beginning (or contains encoded words); a domain literal exactly if it contains white space between its characters. Otherwise the string is the slice of the input at the position of the text. Every borrowed string lies within the input, and the contents are those the rest of the model computes.", "quantifier": "all inputs, at all addresses, all feature sets", "why_tests_cant": "Tests check two strings; ownership depends on the addresses of all the pieces.", "anchors": ["email-parser/src/string.rs:add_string", "email-parser/src/string.rs:add_str", "email-parser/src/parsing/quoted_string.rs:quoted_string", "email-parser/src/parsing/whitespaces.rs:fws", "email-parser/src/parsing/common.rs:unstructured", "email-parser/src/parsing/common.rs:dot_atom_text", "email-parser/src/parsing/address.rs:domain_literal", "email-parser/src/parsing/address.rs:message_id"]}
{"id": "C59", "title": "Canonical form of what has been read", "statement": "Without the features mime and compatibility-fixes, every e-mail that is read, and whose unknown fields do not have the names of known headers, can be written again in a canonical form computed from the e-mail alone; the canonical text is accepted and read as the same e-mail. Two such messages are read as the same e-mail exactly if their canonical texts are equal, and writing canonically twice changes nothing.", "quantifier": "all inputs, all feature sets without mime and compatibility-fixes", "why_tests_cant": "Any parsed value must be printable: tests only print values chosen by hand.", "anchors": ["email-parser/src/email.rs:Email::parse", "email-parser/src/parsing/fields.rs:fields", "email-parser/src/parsing/address.rs:mailbox", "email-parser/src/parsing/common.rs:unstructured", "email-parser/src/parsing/time.rs:date_time"]}
{"id": "C60", "title": "Parsing takes at most quadratic time", "statement": "The number of steps (iterations of loops and bytes examined) Email::parse makes is at most proportional to the square of the length of the input, whether or not the input is an e-mail. A header field takes a number of steps at most proportional to the square of the length of its line, whatever follows. The parser that counts its steps comes to the same outcome as the parser.", "quantifier": "all inputs, all feature sets, all sizes of the stack", "why_tests_cant": "An adversarial input with exponential backtracking need not be among the tests.", "anchors": ["email-parser/src/email.rs:Email::parse", "email-parser/src/parsing/message.rs:parse_message", "email-parser/src/parsing/fields.rs:fields", "email-parser/src/parsing/whitespaces.rs:comment", "email-parser/src/parsing/combinators.rs:many"]}
{"id": "C61", "title": "Every consumed byte is counted", "statement": "The number of steps in C60 is not too small: an e-mail that is accepted without MIME has cost at least one step for each of its bytes, a header field that is read at least one for each byte of the field, and with MIME the only bytes that need not be counted are those of the body, which is left unread.", "quantifier": "all inputs, all feature sets", "why_tests_cant": "A statement about a measure on all inputs.", "anchors": ["email-parser/src/email.rs:Email::parse", "email-parser/src/parsing/message.rs:parse_message"]}
{"id": "C62", "title": "Without MIME, parsing takes linear time", "statement": "Without the feature mime, the number of steps Email::parse makes is at most proportional to the length of the input, whether or not the input is an e-mail, and a header field takes a number of steps at most proportional to the length of its line. Whatever the features, this also holds of lists of message identifiers and of the values of Received fields.", "quantifier": "all inputs, all feature sets without mime, all sizes of the stack", "why_tests_cant": "A list that is read again for each of its items, or a comment that is opened in each of them, only shows on long inputs of the right shape.", "anchors": ["email-parser/src/email.rs:Email::parse", "email-parser/src/parsing/address.rs:address_list", "email-parser/src/parsing/address.rs:mailbox", "email-parser/src/parsing/address.rs:group", "email-parser/src/parsing/fields.rs:received", "email-parser/src/parsing/common.rs:phrase"]}
{"id": "C63", "title": "Base64 is linear, the codecs that edit the buffer in the middle are quadratic", "statement": "Counting iterations, bytes written and bytes moved to make or close a gap in the buffer: base64 is decoded, or rejected, in at most 2n + 6 steps for n bytes, and encoded in exactly one iteration for every three bytes; the quoted-printable codecs and the percent decoder need at most a constant times the square of the length, and there are texts of every length that need that much: n escapes take 3n^2 + 2n + 1 steps to decode. So no linear bound holds for them.", "quantifier": "all data, all charsets", "why_tests_cant": "A quadratic codec passes every test; only the growth over all lengths shows it.", "anchors": ["email-parser/src/parsing/mime/base64.rs:decode_base64", "email-parser/src/parsing/mime/quoted_printables.rs:decode_qp", "email-parser/src/parsing/mime/quoted_printables.rs:decode_header_qp", "email-parser/src/parsing/mime/quoted_printables.rs:encode_qp", "email-parser/src/parsing/mime/percent_encoding.rs:decode_parameter"]}
{"id": "C64", "title": "With MIME, the quadratic time is reached", "statement": "With the features mime and to, for each n that the stack has room for there is a message of 17n + 52 bytes for which Email::parse makes at least (49n^2 + 757n)/2 steps, all of them in its first field. So the bound of C60 cannot be improved, and the absence of MIME is needed in C62.", "quantifier": "all n below the size of the stack, all feature sets with mime and to", "why_tests_cant": "A family of messages of growing length; each of them is parsed without any problem.", "anchors": ["email-parser/src/parsing/address.rs:mailbox", "email-parser/src/parsing/address.rs:address_list", "email-parser/src/parsing/common.rs:phrase", "email-parser/src/parsing/common.rs:dot_atom", "email-parser/src/parsing/whitespaces.rs:comment"]}
{"id": "C65", "title": "One level of a MIME body is read in quadratic time", "statement": "RawEntity::parse finds, reads and decodes all of the parts of an entity in a number of steps at most proportional to the square of the length of the value, however many parts there are and however long the boundary is; reading one part takes at most the square of its length. The functions that count come to the same outcomes as the functions. The square is reached: for each n there is an entity of 8n + 8 bytes in which the search for the delimiters alone compares (n + 1)(4n + 1) bytes.", "quantifier": "all entities, all parts, all boundaries, all feature sets", "why_tests_cant": "Splitting at a delimiter again and again could cost the cube; only the growth over all lengths shows it.", "anchors": ["email-parser/src/parsing/mime/entity.rs:entity", "email-parser/src/parsing/mime/entity.rs:raw_entity", "email-parser/src/parsing/mime/entity.rs:header_part", "email-parser/src/parsing/mime/multipart.rs:parse_multipart", "email-parser/src/parsing/mime/multipart.rs:before_boundary_idx", "email-parser/src/parsing/mime/multipart.rs:before_closing_boundary_idx"]}
{"id": "C66", "title": "Messages with any characters are read back as they were written", "statement": "With the feature mime, any valid UTF-8 text can be written as display name, name of a group, keyword, subject, comment, description, unrecognised header or parameter of a content type or disposition (as encoded word or encoded parameter where it cannot be written as it is), and Email::parse reads the message back as exactly the e-mail that was written, in every configuration. The texts for which this holds are exactly those of valid UTF-8.", "quantifier": "all messages whose strings are valid UTF-8, all feature sets", "why_tests_cant": "Tests decode a few encoded words; they do not show that all strings can be written, in all places and with all neighbours.", "anchors": ["email-parser/src/parsing/mime/encoded_headers.rs:encoded_word", "email-parser/src/parsing/common.rs:mime_unstructured", "email-parser/src/parsing/mime/mime_fields.rs:parameter", "email-parser/src/parsing/mime/percent_encoding.rs:collect_parameters", "email-parser/src/parsing/address.rs:address_list", "email-parser/src/email.rs:Email::parse"]}
{"id": "C67", "title": "In every configuration an e-mail that has been read can be written again and reads the same", "statement": "With any features, MIME and compatibility-fixes included, every e-mail that Email::parse returns (and in which no unknown field has the name of a known one) can be written as a message, with encoded words, encoded parameters and a plain body, and Email::parse reads that message as exactly the same e-mail. The e-mails that can be read in this way are exactly those of the messages that can be written: every string in a result is valid UTF-8 of the kind that its place admits, every date is in range, every name of a type or parameter is a token in lower case. Two messages are read as the same e-mail exactly if their canonical texts are the same.", "quantifier": "all inputs, all feature sets", "why_tests_cant": "The set of all results of the parser is described exactly; tests see only single results.", "anchors": ["email-parser/src/email.rs:Email::parse", "email-parser/src/parsing/message.rs:parse_message", "email-parser/src/parsing/mime/mime_fields.rs:content_type", "email-parser/src/parsing/mime/mime_fields.rs:content_disposition", "email-parser/src/parsing/mime/percent_encoding.rs:collect_parameters", "email-parser/src/parsing/mime/encoded_headers.rs:encoded_word", "email-parser/src/parsing/fields.rs:fields"]}
{"id": "C68", "title": "Parts that have been read can be written again and put together in new messages", "statement": "Any part of a multipart message whose strings are valid UTF-8 can be written, and raw_entity reads it back as it was. With the feature mime, every part that raw_entity returns (and in which no additional header has the name of one with a meaning) can be written in this way and reads the same; the parts that can be read are exactly those of the parts that can be written. Any nonempty list of parts read from any texts can be put together: every message that can be written can be given a body that RawEntity::parse splits into exactly these parts, in order, while Email::parse reads all its other fields as before.", "quantifier": "all parts, all lists of parts, all messages, all feature sets with mime", "why_tests_cant": "Tests take apart some given messages; they do not show that the pieces of any messages can be combined.", "anchors": ["email-parser/src/parsing/mime/entity.rs:raw_entity", "email-parser/src/parsing/mime/entity.rs:header_part", "email-parser/src/parsing/mime/entity.rs:entity", "email-parser/src/parsing/mime/multipart.rs:parse_multipart", "email-parser/src/email.rs:Email::parse"]}
{"id": "C69", "title": "The time to read all levels of a multipart message", "statement": "Reading an entity and, again and again, the parts that RawEntity::parse returns takes a well-defined number of steps. If no multipart part becomes longer by decoding, this is at most a constant times the number of levels times the square of the length of the value, and for a message at most a constant times the cube of its length. A part becomes longer by decoding only if its body is quoted-printable and not well-formed (RFC 2045 6.7). Without that condition the steps are at most a constant times 9 to the number of levels times the square of the length; and they can indeed be exponential: for every n there is a message of at most 200 + 200 n + 11 n^2 bytes for which reading all levels takes at least 3^n / 3 steps. In general, reading takes at least a third as many steps as any entity inside is long.", "quantifier": "all entities, all messages, all n, all configurations of the external crates", "why_tests_cant": "A test can time some messages; it cannot show a bound for all messages, nor that there is none that is polynomial.", "anchors": ["email-parser/src/mime.rs:RawEntity::parse", "email-parser/src/parsing/mime/multipart.rs:parse_multipart", "email-parser/src/parsing/mime/entity.rs:raw_entity", "email-parser/src/parsing/mime/quoted_printables.rs:decode_qp"]}
{"id": "C70", "title": "Cargo features do not interfere with each other", "statement": "When builds of the library with different Cargo features accept the same message, they agree on what both report: a member of Email that exists in both builds has the same value in both (the body if neither has mime, the entity if both have it), and the unknown fields with a name that both or none of them recognise are the same. (mime and unrecognized-headers must be the same in both, or the header section must not contain '=?', since only these decode encoded words in certain headers; compatibility-fixes must be the same.) Moreover, leaving out features for headers does no harm: a message whose header section consists of header lines in the sense of RFC 5322 and that is accepted is also accepted without some of these features. The condition on the lines is needed.", "quantifier": "all messages, all pairs of sets of Cargo features that compile, all configurations of the external crates", "why_tests_cant": "There are tens of thousands of sets of features and billions of pairs of them, and infinitely many messages for each.", "anchors": ["email-parser/src/parsing/fields.rs:fields", "email-parser/src/parsing/fields.rs:unknown", "email-parser/src/email.rs:Email::parse", "email-parser/src/parsing/message.rs:parse_message"]}
{"id": "C71", "title": "All strings of an e-mail are slices of the message unless there is a reason to copy", "statement": "Every string in the Email that Email::parse returns is a slice of the message, one of three literals for a missing Content-Type, or owned, and its content is the one the rest of the model computes. A string is owned only if the header section contains a folded line, a backslash, the beginning of an encoded word, a domain literal with something else than its characters, the same text in another case, or a numbered part of a MIME parameter, or if it is the body decoded from Base64 or quoted-printable. A body that is not decoded is the slice of the message after the empty line.", "quantifier": "all messages, at all addresses, all feature sets, all orders of the MIME parameters", "why_tests_cant": "Tests compare contents: a needless copy, or a slice of the wrong buffer with the right bytes, is not seen.", "anchors": ["email-parser/src/email.rs:Email::parse", "email-parser/src/parsing/message.rs:parse_message", "email-parser/src/parsing/fields.rs:fields", "email-parser/src/parsing/address.rs:mailbox", "email-parser/src/parsing/mime/mime_fields.rs:content_type", "email-parser/src/parsing/mime/mime_fields.rs:content_disposition", "email-parser/src/parsing/mime/percent_encoding.rs:collect_parameters", "email-parser/src/string.rs:add_string"]}
{"id": "C72", "title": "Strings of MIME entities: slices of a borrowed input, copies of an owned one", "statement": "From a borrowed input raw_entity makes an entity whose strings are slices of the input, literals, or copies for one of the reasons of C71; its value is the slice after the headers unless it is decoded. From an owned input it makes an entity with the same contents in which no string is borrowed. RawEntity::parse gives the parts of a multipart entity as slices of its value, with the same guarantee for each string of each part; a text in UTF-8 or US-ASCII is the value itself and any other text is a new string.", "quantifier": "all inputs, at all addresses, all feature sets, all orders of the MIME parameters", "why_tests_cant": "Dangling slices appear only when the owned input is dropped; the tests keep it.", "anchors": ["email-parser/src/parsing/mime/entity.rs:raw_entity", "email-parser/src/parsing/mime/entity.rs:entity", "email-parser/src/parsing/mime/entity.rs:header_part", "email-parser/src/parsing/mime/entity.rs:header_part_owned", "email-parser/src/parsing/mime/multipart.rs:parse_multipart", "email-parser/src/mime.rs:RawEntity::parse"]}
{"id": "C73", "title": "What is read takes memory in proportion to the input", "statement": "If a conversion from a charset makes at most k bytes (k at least 2) of one byte, the strings of an e-mail take together at most k+1 bytes for each byte of the message, with one more byte counted for every string; in addition there are only 23 for the literals of the default type, 1 for the body, and the sender, which may be a second copy of the author and has the same bound. The same bound holds for each MIME entity, from borrowed and owned inputs, and with k+7 instead of k+1 for all parts of a multipart entity together, whatever their number. Bodies do get three times as long.", "quantifier": "all messages, at all addresses, all feature sets, all charset conversions with the given bound, all orders of the MIME parameters", "why_tests_cant": "A small message that makes the parser allocate a lot is found by tests only if its shape is guessed.", "anchors": ["email-parser/src/email.rs:Email::parse", "email-parser/src/parsing/message.rs:parse_message", "email-parser/src/parsing/mime/entity.rs:raw_entity", "email-parser/src/parsing/mime/entity.rs:entity", "email-parser/src/parsing/mime/multipart.rs:parse_multipart", "email-parser/src/parsing/mime/percent_encoding.rs:collect_parameters", "email-parser/src/parsing/mime/encoded_headers.rs:encoded_word"]}
{"id": "C74", "title": "Header lines are read as fields of their kind exactly when they are in the grammar", "statement": "A header line with text folded as RFC 5322 2.2.3 says, with comments nested no deeper than the stack allows, is read as a field of the kind of its name if and only if it is in the grammar of RFC 5322 (without obsolete syntax) for that header and, unless its value is unstructured text, does not end with white space; the value is then that of any reading of the grammar, which has only one up to where the atoms of a name are divided. Otherwise the name and the text of the line are reported as an unknown field. Hence a message of such lines is accepted if and only if its body is acceptable and the lines in the grammar contain the required fields and no repetition of a field that may occur once only. With the feature mime this holds for headers without encoded words, other than Keywords and those with parameters.", "quantifier": "all header lines and all messages made of them, all feature sets", "why_tests_cant": "Both directions quantify over all texts and all derivations of an ambiguous grammar; tests show neither that nothing else is accepted nor that nothing valid is refused.", "anchors": ["email-parser/src/parsing/fields.rs:fields", "email-parser/src/parsing/address.rs", "email-parser/src/parsing/time.rs", "email-parser/src/parsing/common.rs", "email-parser/src/parsing/whitespaces.rs:cfws", "email-parser/src/email.rs:Email::parse"]}
{"id": "C75", "title": "Character classes are those of the standards", "statement": "For every byte, the character tests of the code (is_wsp, is_vchar, is_digit, is_ctext, is_dtext, is_atext, is_qtext, is_ftext, is_text, special, tspecial, especials, token characters) agree with the classes that RFC 5234, 5322, 2045 and 2047 define, mostly by exclusion. Every visible character is either in atext or a special, never both. A digit is read exactly from 0 to 9 as its value, and two digits as the number below 100 they write.", "quantifier": "all 256 bytes, all inputs", "why_tests_cant": "Tests try a few characters of each class; a character missing in a list of twenty comparisons is not noticed.", "anchors": ["email-parser/src/parsing/character_sets.rs", "email-parser/src/parsing/mime/mime_fields.rs:token", "email-parser/src/parsing/mime/encoded_headers.rs:especials"]}
{"id": "C76", "title": "MIME and text header lines are read exactly as the grammar says", "statement": "A line of MIME-Version, Content-Transfer-Encoding or Content-Type, within the limits of stack and overflow checks, is read to its end as a field of its kind if and only if it is in the grammar of that header, and the value is the only one of the grammar. Otherwise either its name and text are reported as an unknown field, or the field is read from a beginning of the line that is in the grammar and the rest of the line is left. Every text has exactly one meaning, with encoded words or without; Subject, Comments, Content-Description and the headers that are not recognised are read with that meaning. A message of such lines, and of those of C74, is accepted if and only if no required field is missing, none that may occur once is repeated, and the body can be decoded with the transfer encoding that the lines denote.", "quantifier": "all header lines and all messages made of them, all feature sets, all charset conversions", "why_tests_cant": "Both directions quantify over all texts and all derivations of the grammar of parameters, comments and encoded words.", "anchors": ["email-parser/src/parsing/mime/mime_fields.rs:content_type", "email-parser/src/parsing/mime/mime_fields.rs:mime_version", "email-parser/src/parsing/mime/mime_fields.rs:content_transfer_encoding", "email-parser/src/parsing/common.rs:mime_unstructured", "email-parser/src/parsing/fields.rs:fields", "email-parser/src/email.rs:Email::parse"]}
{"id": "C77", "title": "Trace header lines and trace blocks are read exactly as the grammar says", "statement": "A Return-Path, Received or Resent-* line with text folded as RFC 5322 2.2.3 says, within the limits of stack and overflow checks (and, with the feature mime, a Resent-* line without encoded words), is read if and only if it is in the grammar of RFC 5322 3.6.7 and 3.6.6 and does not end with white space, and is never read in part. The value is that of any reading of the grammar: the same path, the same date, the same words, domains and addresses up to the divisions between the tokens. Of the grammar of Received only the alternative addr-spec is missing, which is never taken by the code. The header lines of a message are divided in exactly one way into trace blocks (at most one return path, one or more Received lines, as many Resent-* lines as follow) and other lines; the message is accepted if and only if the other lines satisfy the conditions of C74 and C76.", "quantifier": "all header lines and all messages made of them, all feature sets with trace", "why_tests_cant": "Both directions quantify over all texts and all derivations of an ambiguous grammar, and over all orders of trace lines.", "anchors": ["email-parser/src/parsing/fields.rs:return_path", "email-parser/src/parsing/fields.rs:received", "email-parser/src/parsing/fields.rs:trace", "email-parser/src/parsing/fields.rs:fields", "email-parser/src/email.rs:Email::parse"]}
{"id": "C78", "title": "Content-Disposition lines and the header lines of MIME parts are read exactly as the grammar says", "statement": "With the feature mime, a Content-Disposition line with text folded as RFC 5322 2.2.3 says, within the limits of stack and overflow checks, is read to its end if and only if it is in the grammar of RFC 2183, which has several readings as a date parameter is also a parameter of the form of RFC 2045: the value is that of the reading in which every parameter that can be a date is one, and there is exactly one such value. Otherwise the text is reported under the name of the header, or only a beginning of a folded line is read, which is a disposition. In a part of a multipart message the five headers that have a meaning there denote what they denote in a message, a line of these headers that is not in the grammar denotes its name and text, and so does every other line. Every line that is not folded denotes something. The part is then what its headers denote (the last of each kind) with the body decoded by the denoted transfer encoding, and is rejected if and only if the body cannot be decoded.", "quantifier": "all header lines, all messages and parts made of them, all feature sets with mime", "why_tests_cant": "Both directions quantify over all texts and all derivations of an ambiguous grammar; which derivation counts depends on whether a quoted date with a comment ends in a later parameter.", "anchors": ["email-parser/src/parsing/mime/mime_fields.rs:content_disposition", "email-parser/src/parsing/mime/entity.rs:raw_entity", "email-parser/src/parsing/mime/entity.rs:header_part", "email-parser/src/email.rs:Email::parse"]}
{"id": "C79", "title": "Header lines denote one field each, to the letter, encoded words in names included", "statement": "For a header line with text folded as RFC 5322 2.2.3 says, within the limits of stack and overflow checks, let the meaning of its text be given by the grammar in which: a word of a phrase is an encoded word (with the feature mime) if it begins like one after optional white space, otherwise an atom that is as long as possible or a quoted string, with the comments around it; a mailbox is an address in angle brackets with its name if a beginning of the text is one, otherwise an address; an address is a mailbox if a beginning of the text is one, otherwise a group; elements are separated by commas; dates, identifiers, MIME headers and dispositions are those of RFC 5322, 2045 and 2183; unstructured text is that of RFC 2047. Then the line is read to its end as a field of its kind if and only if its text has a meaning, the field is exactly that meaning, words of names included, and there is at most one. Otherwise the name and the text are reported, or (only MIME-Version, Content-Type, Content-Transfer-Encoding, Content-Disposition and Keywords with the feature mime) a beginning of a folded line is read that has a meaning. Every line of the other headers denotes a field. A message made of lines that denote fields gives exactly the result prescribed for these fields, and is accepted if and only if they satisfy the conditions on required and repeated headers and the body can be decoded.", "quantifier": "all header lines, all messages made of them, all feature sets", "why_tests_cant": "Both directions quantify over all texts and derivations; whether a text is an address depends on whether any beginning of it is a name with an address in angle brackets, and an encoded word may contain commas, colons and angle brackets.", "anchors": ["email-parser/src/parsing/common.rs:phrase", "email-parser/src/parsing/common.rs:word", "email-parser/src/parsing/address.rs:mailbox", "email-parser/src/parsing/address.rs:address", "email-parser/src/parsing/address.rs:group", "email-parser/src/parsing/fields.rs:keywords", "email-parser/src/parsing/fields.rs:bcc", "email-parser/src/parsing/fields.rs:fields", "email-parser/src/email.rs:Email::parse"]}
{"id": "C80", "title": "Every message made of header lines is decided: it is known which folded lines are read only in part", "statement": "For a header line with text folded as RFC 5322 2.2.3 says, within the limits of stack and overflow checks: the line is read up to a line end inside of it, and no further, exactly if its header is MIME-Version, Content-Type, Content-Transfer-Encoding, Content-Disposition or Keywords (with the feature mime) and the text before that line end is a value of the header which nothing continues: no parameter begins after it, and the last parameter is not quoted (or, for a disposition, is a date); or no word begins after the keywords. Every line either means one field or is read only in part, and not both. A message with such a line, after lines that mean something, is refused with the error that headers must be followed by CRLF, whatever follows. So a message all of whose header lines are of the general form and within the limits (and, with the feature trace, without trace headers first) is accepted exactly if all of its lines mean something, with no header twice, none of the required ones missing, and a body that can be decoded; then the result is the one for these fields.", "quantifier": "all header lines, all line ends inside of them, all messages made of header lines, all feature sets", "why_tests_cant": "That a beginning of a line is read and the rest is not needs the absence of any continuation, over all texts; where a line ends depends on quotes, comments and encoded words before its folds.", "anchors": ["email-parser/src/parsing/mime/mime_fields.rs:content_type", "email-parser/src/parsing/mime/mime_fields.rs:content_disposition", "email-parser/src/parsing/mime/mime_fields.rs:mime_version", "email-parser/src/parsing/mime/mime_fields.rs:content_transfer_encoding", "email-parser/src/parsing/fields.rs:keywords", "email-parser/src/parsing/fields.rs:fields", "email-parser/src/parsing/message.rs:parse_message", "email-parser/src/email.rs:Email::parse"]}
{"id": "C81", "title": "Every message made of header lines is decided to the letter, trace headers included", "statement": "For a list of header lines of the general form of RFC 5322 2.2 within the limits of stack and overflow checks: a resent line is read exactly if it stands for a field in the grammar with preferred readings (see C79), encoded words in names included, and as that field, one at most. With the feature trace the lines are divided in exactly one way into trace blocks at the beginning (an optional return path, one or more Received lines, then the resent lines) and lines after them. If each line after the blocks means a field, the header block is the blocks followed by these fields, which are unique, and the result of the message is the one for them; if one of the lines means none, the message is refused with the error that headers must be followed by CRLF. The message is accepted exactly if each of the lines after the blocks means a field, no header comes twice, none of the required ones is missing among them (resent headers do not count), and the body can be decoded.", "quantifier": "all lists of header lines, all bodies, all feature sets", "why_tests_cant": "Which blocks and fields a list of lines has depends on all of them and on each of their texts; acceptance in both directions quantifies over all divisions and readings.", "anchors": ["email-parser/src/parsing/fields.rs:fields", "email-parser/src/parsing/fields.rs:trace", "email-parser/src/parsing/fields.rs:received", "email-parser/src/parsing/fields.rs:resent_from", "email-parser/src/parsing/fields.rs:resent_to", "email-parser/src/parsing/fields.rs:resent_bcc", "email-parser/src/parsing/message.rs:parse_message", "email-parser/src/email.rs:Email::parse"]}
{"id": "C82", "title": "Every MIME part made of header lines is decided, and every multipart body made of such parts", "statement": "With the feature mime, for a part whose header lines are of the general form of RFC 5322 2.2 and within the limits of stack and overflow checks: every header line means one thing (the five headers that have a meaning in parts mean what they mean in a message, all others their name and text) or is one of these five and read only up to a line end inside of it, and not both. A part with such a line after lines that mean something is refused with the error that the header part must be followed by CRLF, whatever follows. Otherwise the part is read exactly as what its lines mean (the last of each kind) with the body decoded by the transfer encoding they give, and refused if the body cannot be decoded. A multipart body whose parts, as divided by the boundary lines, are of this form is read exactly as the list of what its parts mean, and refused if one of them means nothing.", "quantifier": "all header lines, parts and multipart bodies made of them, all boundaries, all feature sets with mime", "why_tests_cant": "Acceptance in both directions quantifies over all texts and readings; a part is refused for a fold in one line only if no reading of the whole line and no continuation exists.", "anchors": ["email-parser/src/parsing/mime/entity.rs:raw_entity", "email-parser/src/parsing/mime/entity.rs:header_part", "email-parser/src/parsing/mime/entity.rs:entity", "email-parser/src/parsing/mime/multipart.rs:parse_multipart", "email-parser/src/parsing/mime/mime_fields.rs:content_type", "email-parser/src/parsing/mime/mime_fields.rs:content_disposition"]}
{"id": "C83", "title": "What is returned is determined for every input, not only for well-formed messages", "statement": "Every input is divided in one way at its first empty line. If the text before it (or all of it, if there is none) has no line of white space only and is within the limits of stack and overflow checks, the outcome is exactly one of these: the text is made of header lines, in one way, each of which means something, and the result is that for these fields and this body (an email, or the error for a duplicate or missing header or an undecodable body); the same, but without MIME the body is not lines of text, and the error says so; some line after the trace headers is read in part only, or the text is not made of header lines at all, and the error says that headers must be followed by CRLF. Nothing else is accepted, and no input of this kind makes the program abort. What is accepted always has a header block of lines that begin with a name and a colon.", "quantifier": "all byte strings whose text before the first empty line has no white line and is within the limits, all feature sets that compile", "why_tests_cant": "Rejection of everything that is not a message is a statement about all byte strings; a parser that is too liberal on some malformed text passes any suite of messages.", "anchors": ["email-parser/src/parsing/message.rs:parse_message", "email-parser/src/parsing/fields.rs:fields", "email-parser/src/email.rs:Email::parse", "email-parser/src/parsing/fields.rs:unknown"]}
{"id": "C84", "title": "What is returned is determined for every MIME part and every multipart body, whatever they contain", "statement": "A part is divided in one way at its first empty line. If the text before it has no line of white space only and is within the limits of stack and overflow checks, the outcome is exactly one of these: the text is made of header lines each of which means something, and the entity is the one these headers and the decoded body make, or the error is that of the decoding of the body; some line is read in part only, or the text is not made of header lines, and the error says that the header part must be followed by CRLF. A multipart entity gives all its parts in order, or the error of the first part that has one, or the error that there is no boundary parameter, or the error that the body is not divided by the boundary.", "quantifier": "all byte strings as parts (and all multipart entities with such parts) whose header blocks have no white line and are within the limits, all feature sets with MIME", "why_tests_cant": "Which of several errors is reported, and that nothing malformed is accepted, are statements about all byte strings and all lists of parts.", "anchors": ["email-parser/src/parsing/mime/entity.rs:raw_entity", "email-parser/src/parsing/mime/entity.rs:header_part", "email-parser/src/parsing/mime/multipart.rs:parse_multipart", "email-parser/src/parsing/mime/entity.rs:entity"]}
{"id": "C85", "title": "Addresses, message ids, field names and types cannot contain control characters; decoded texts can", "statement": "In every e-mail that Email::parse returns, and in every part of a multipart body, whatever the features: domains, message ids, names of unknown fields, subtypes, unknown types and the names of parameters consist of printable ASCII characters other than the space; local parts, words of Received fields and filenames of printable characters, spaces and tabs. Without MIME no string other than the body contains anything but printable characters, spaces and tabs. With MIME the subjects that can occur are exactly the valid UTF-8 texts, line breaks and NUL included: a subject can be \"Hi\", CRLF, \"Bcc: c@d\".", "quantifier": "all byte strings as messages, parts and entities, all feature sets that compile; for the subjects all byte strings x", "why_tests_cant": "That no input at all brings a control character into an address is a statement about all inputs; a test can only try the tricks its author knows (encoded words, quoted pairs, folds, percent-encoding).", "anchors": ["email-parser/src/parsing/address.rs:addr_spec", "email-parser/src/parsing/address.rs:message_id", "email-parser/src/parsing/mime/encoded_headers.rs:encoded_word", "email-parser/src/parsing/mime/mime_fields.rs:parameter", "email-parser/src/parsing/fields.rs:unknown"]}
{"id": "C86", "title": "Lines of white space in a header block: where they are accepted, and what is returned for everything else", "statement": "A text consists of headers (a name, a colon, text in which a line break is followed by white space, and a line end) in one way at most. In every message that Email::parse accepts, a line of white space only can be part of a header only if that header allows comments (Date, From, Sender, Reply-To, To, Cc, Bcc, Message-ID, In-Reply-To, References, Keywords, Content-ID, Content-Type, Content-Disposition where these are read, and the trace headers), and never are two such lines in a row; each of these headers does accept one. A message with a white line in another header, or with two in a row, is refused with the error that headers must be followed by CRLF. The same holds for MIME parts with Content-Type, Content-ID and Content-Disposition. For every input whose header block has no white line in such a place, or also one in a place where it is not allowed, what is returned is determined as in C83, for parts and multipart bodies as in C84.", "quantifier": "all byte strings as messages and parts, all feature sets that compile (for parts: with MIME); for what is returned, all but those with white lines only in the headers named", "why_tests_cant": "Which runs of folds can be accepted depends on how two neighbouring optional comments share them, in every grammar; tests of white lines would have to try every position in every header.", "anchors": ["email-parser/src/parsing/whitespaces.rs:fws", "email-parser/src/parsing/whitespaces.rs:cfws", "email-parser/src/parsing/message.rs:parse_message", "email-parser/src/parsing/fields.rs:fields", "email-parser/src/parsing/mime/entity.rs:raw_entity", "email-parser/src/email.rs:Email::parse"]}
{"id": "C87", "title": "The result does not depend on the build or on the run", "statement": "Let two programs be compiled from the same sources with the same features, and differ in the room on the stack, in whether arithmetic is checked for overflow (debug and release builds) and in the order in which hash maps are visited (drawn at random in every run). If neither is aborted on an input, they return the same: the same e-mail, or the same error; likewise for MIME parts and for the parsing of entities. For every input there is one result that every build returns unless it is aborted, and builds without overflow checks and with a stack for as many nested comments as there are opening parentheses do return it. A build with more stack, or also without overflow checks, returns whatever another one returns. Hence what is returned is as determined in C86, for parts and multipart bodies too, without a limit on parentheses and asterisks, unless the program is aborted. Whether a build is aborted does depend on it: for every stack there is an input that needs one more frame, and there is one that only builds with overflow checks cannot read.", "quantifier": "all byte strings as messages and parts, all entities, all pairs of builds (any stack, checks, order of hash maps) with the same features and libraries", "why_tests_cant": "Tests are run with one build on one machine, and the order of hash maps cannot be chosen; an abort caught deep in a parser of alternatives could let another alternative succeed.", "anchors": ["email-parser/src/parsing/whitespaces.rs:comment", "email-parser/src/parsing/mime/percent_encoding.rs:collect_parameters", "email-parser/src/email.rs:Email::parse", "email-parser/src/parsing/mime/entity.rs:raw_entity", "email-parser/src/mime.rs:RawEntity::parse"]}
{"id": "C88", "title": "Truncated messages: which cuts are noticed", "statement": "A text without an empty line that does not end with a line end is refused with the error that headers must be followed by CRLF (or the program is aborted); hence so is every message cut inside of a line of its header block or of the empty line after it. Cut at the end of the header block, an accepted message is accepted with the same headers and no body (with MIME: an empty entity, whatever the encoding). Without MIME the body of an accepted message can be replaced by any body of lines and nothing else changes; a message cut in its body is accepted with the part of the body that has arrived, unless it is cut between CR and LF, which is the error for body lines. With MIME it is accepted with what that part is decoded to, or refused if it cannot be decoded; base64 is decoded to a beginning of what was sent, or refused for an incomplete group. A multipart body without its closing delimiter is refused. Other cuts are not noticed: there is a message that is accepted with a shorter subject when cut between the two lines of that header.", "quantifier": "all byte strings, all accepted messages and all their beginnings, all feature sets that compile", "why_tests_cant": "Tests cut a few messages at a few places; what matters is every place of every message, since cuts are made by networks.", "anchors": ["email-parser/src/parsing/message.rs:parse_message", "email-parser/src/parsing/message.rs:body", "email-parser/src/email.rs:Email::parse", "email-parser/src/parsing/mime/base64.rs:decode_base64", "email-parser/src/parsing/mime/multipart.rs:parse_multipart"]}
{"id": "C89", "title": "Which bytes, line ends and lines make a message be refused", "statement": "A message is refused with the error that headers must be followed by CRLF (or the program is aborted) if what is before its first empty line is not made of headers: in particular if it contains a control character other than tab, a byte above 126 (so also text in UTF-8, RFC 6532), a CR that is not followed by LF, a LF that is not preceded by CR, or a line that neither begins with white space nor with a field name and a colon (a space before the colon, the first line of a mailbox file). So is every text without CRLF, for instance a message with LF as line end. The same holds for the parts of multipart bodies. On the other hand every text of printable characters, spaces and tabs is accepted as the text of a header on one line: lines of headers can have any length, although RFC 5322 limits them to 998 characters.", "quantifier": "all byte strings as messages and parts, all feature sets that compile (for parts: with MIME), all lengths", "why_tests_cant": "A test can show that a few malformed texts are refused; that no foreign byte in any place of any header is overlooked is a statement about all texts.", "anchors": ["email-parser/src/parsing/message.rs:parse_message", "email-parser/src/parsing/fields.rs:fields", "email-parser/src/parsing/fields.rs:unknown", "email-parser/src/parsing/mime/entity.rs:raw_entity", "email-parser/src/email.rs:Email::parse"]}
{"id": "C90", "title": "Lines that relays add at the top of a message", "statement": "Every relay of a message puts lines above it. With the trace feature, if a message is accepted and does not begin with a resent header, then with a well-formed Received line put above it, it is accepted, and the only difference in the result is that the line is the first of the first trace block, or a block of its own if the first block begins with a return path or there is none. A well-formed Return-Path line above a message whose first block has no return path becomes the return path of that block, and nothing else changes. Any other header line without a meaning of its own (for instance Delivered-To or DKIM-Signature) above a message made of header lines is accepted too, but hides the trace: the trace of the result is empty, and each line of the trace becomes an unknown field, in order, with its name as written and its text; all other members are the same.", "quantifier": "all accepted messages, all well-formed lines, all feature sets that compile", "why_tests_cant": "Whether a line at the top changes how the rest is read depends on all that follows; a test has only a few messages and lines.", "anchors": ["email-parser/src/parsing/fields.rs:fields", "email-parser/src/parsing/fields.rs:trace", "email-parser/src/parsing/fields.rs:received", "email-parser/src/parsing/fields.rs:return_path", "email-parser/src/parsing/fields.rs:unknown", "email-parser/src/email.rs:Email::parse"]}
{"id": "C91", "title": "Header lines without a meaning of their own are inert", "statement": "Let a message be a block of header lines followed by nothing or by an empty line and a body, and let one of the lines have a name that is neither recognized nor that of a trace header, and stand at a place that is not inside the trace. The message is accepted if and only if the message without the line is, and then the two results are the same except that the unknown fields of the first have one more entry, with the name as written and the text of the line, at its place between the entries of the lines before and after it. The same holds for the parts of a multipart body and any line with a name other than those of the MIME headers of parts, with the additional headers of the part in place of the unknown fields.", "quantifier": "all messages made of header lines and all parts, all such lines at all places, all feature sets that compile", "why_tests_cant": "Spam filters and mailing lists add lines with any names at any places; tests have a few of them only.", "anchors": ["email-parser/src/parsing/fields.rs:fields", "email-parser/src/parsing/fields.rs:unknown", "email-parser/src/parsing/fields.rs:trace", "email-parser/src/email.rs:Email::parse", "email-parser/src/parsing/mime/entity.rs:raw_entity"]}
{"id": "C92", "title": "A header line has an effect on the member of its own name only", "statement": "Let two messages be blocks of header lines followed by the same rest, and let them differ in one line only, the two lines having any names but those of trace headers and any text, well-formed or not. If both are accepted, the results agree in every member except those of the names of the two lines and the unknown fields; in particular the body and the trace are the same. (The sender counts as a member of From too, since it is inferred from it; the value of the MIME entity is the member of Content-Transfer-Encoding.) The same holds if the line is removed from one of them at a place outside the trace, and then the shorter message is accepted whenever the longer one is, unless the line is From, Date or Sender. Two neighbouring lines of different names can be swapped: acceptance and all members stay the same, except for the order of the unknown fields. The same holds for the header lines of MIME parts, where only a line Content-Transfer-Encoding can be needed for the part to be accepted.", "quantifier": "all messages and parts made of header lines, all lines at all places, all feature sets that compile", "why_tests_cant": "That a line, however malformed, does not change how another one is read or which member it goes to is a statement about pairs of messages; tests try single messages.", "anchors": ["email-parser/src/parsing/fields.rs:fields", "email-parser/src/parsing/fields.rs:unknown", "email-parser/src/email.rs:Email::parse", "email-parser/src/parsing/mime/entity.rs:raw_entity"]}
{"id": "C93", "title": "Changing the case of letters in a message changes nothing but the case of letters in the result", "statement": "Let two messages differ at most in the case of ASCII letters, anywhere in them. Without the mime feature they are accepted or refused together, with the same error if refused, and if accepted the two e-mails are equal after putting all letters in lower case: the same members are set, with the same number of mailboxes, groups, words, identifiers, received tokens and trace blocks, and the dates are equal. With any features the value of a Date header does not depend on the case of letters, and the values of Message-ID, In-Reply-To, References, Return-Path and Received depend on it only in the case of their own letters. With the mime feature this fails for whole messages, as it should: two messages are given which differ in the case of one letter of a base64 encoded word and have different subjects.", "quantifier": "all pairs of byte sequences equal up to the case of ASCII letters; all feature sets that compile without mime (Date, identifiers and trace lines: all feature sets)", "why_tests_cant": "There are as many variants of a message as there are subsets of its letters; tests try a few spellings of header names.", "anchors": ["email-parser/src/parsing/combinators.rs:tag_no_case", "email-parser/src/parsing/character_sets.rs:is_atext", "email-parser/src/parsing/time.rs:day_name", "email-parser/src/parsing/fields.rs:fields", "email-parser/src/email.rs:Email::parse"]}
{"id": "C94", "title": "The compatibility-fixes feature only adds to what is read", "statement": "Without the mime feature, every header line within the limits of the program is read as the same field with and without compatibility-fixes, or it has the name of a header with addresses or identifiers and is an unknown field without the feature and that header with it. An accepted message without trace header names is accepted with the feature too and the e-mail keeps all members (the author no longer counts as sender if a sender becomes understood) and all unknown fields of other names, unless a once-only header is now understood twice, which is the only new error; without unknown fields of such names the e-mail is the same. Lines with a date or identifiers, Return-Path and Received lines only gain whatever the other features. With mime the feature can also make a line be no longer understood: a concrete From line shows it.", "quantifier": "all header lines and messages made of them within the stack limit; all feature sets that compile without mime (identifiers and trace lines: all feature sets)", "why_tests_cant": "The feature changes where dotted atoms end and so every later choice of the parser; tests compare a few addresses in one build.", "anchors": ["email-parser/src/parsing/common.rs:dot_atom_text", "email-parser/src/parsing/address.rs:mailbox", "email-parser/src/parsing/fields.rs:fields", "email-parser/src/email.rs:Email::parse"]}
{"id": "C95", "title": "The compatibility-fixes feature makes no difference without a dangling dot in an address or identifier", "statement": "With and without the feature compatibility-fixes, whatever the other features are, a header line gives the same field and the same rest if its name is not that of a header with addresses, domains or identifiers (From, Sender, Reply-To, To, Cc, Bcc, Message-ID, In-Reply-To, References, Content-ID, Return-Path, Received, Resent-*), or if every dot in it is followed by a character of atoms.  A line alone then also has the same error or abort.  A message all of whose header lines are of this kind is read as the same e-mail, or by neither; the dots of all other headers and of the body do not matter.", "quantifier": "all configurations of features, all header lines (folded or not), all messages, all bodies", "why_tests_cant": "Tests run with one set of features and a few addresses; that no other text can make the feature visible is a statement about every pair of runs on every message.", "anchors": ["email-parser/src/parsing/common.rs:dot_atom_text", "email-parser/src/parsing/fields.rs:fields", "email-parser/src/parsing/address.rs:addr_spec", "email-parser/src/email.rs:Email::parse"]}
{"id": "C96", "title": "Lists of addresses, keywords and identifiers can be put together and taken apart", "statement": "If two lines of the same header with a list (From, Reply-To, To, Cc, Bcc, Keywords) are read as fields of that header, the line with the first text, a comma and the second text is read as the list of the members of both, in order and unchanged.  Conversely the text of such a list is a number of texts with commas between them, one for each member, and a line with one of these texts alone is read as that member, unless the text ends with white space: commas in quoted strings, comments, domain literals and groups never divide a list.  In-Reply-To and References behave the same, in both directions, with the texts directly after each other.  With encoded words switched on this is for texts without `=?` (and not for Keywords); there is a counterexample otherwise.", "quantifier": "all configurations of features, all names in any case, all texts within the nesting limit (folded or not), all rests", "why_tests_cant": "Tests have a few lists; that no member can affect how a neighbour is read is a statement about every pair of lists.", "anchors": ["email-parser/src/parsing/address.rs:mailbox_list", "email-parser/src/parsing/address.rs:address_list", "email-parser/src/parsing/fields.rs:keywords", "email-parser/src/parsing/fields.rs:references", "email-parser/src/parsing/fields.rs:bcc"]}
{"id": "C97", "title": "A header of an accepted message can be edited", "statement": "If one header line of an accepted message, read as a field of its kind, is replaced by another line of the same header that is also read as a field of that kind, the new message is accepted, its e-mail has the new value where the old one has the old value (for Comments and Keywords at the same place of the list), and the two e-mails agree in every other member, the unknown fields, the trace and the body or part.  Content-Transfer-Encoding is excepted, since the body may not be decodable with the new one, and so is an edit that makes a single author a list of several in a message without a Sender line, since then a sender is required.  In particular recipients can be added to a message by a comma and another text of the same header, and references by another text directly after the first.  In a part any header line may be replaced by any other one, the part stays accepted, and the new line has its effect unless a later one has the same name (again except Content-Transfer-Encoding).", "quantifier": "all configurations of features that compile, all header blocks, all lines (folded or not), all bodies", "why_tests_cant": "Tests parse a few fixed messages; that no edit of a header can make another header unreadable or the message unacceptable is a statement about all pairs of messages.", "anchors": ["email-parser/src/email.rs:Email::parse", "email-parser/src/parsing/fields.rs:fields", "email-parser/src/parsing/message.rs:parse_message", "email-parser/src/parsing/address.rs:address_list", "email-parser/src/parsing/mime/entity.rs:raw_entity"]}
