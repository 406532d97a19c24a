import Verif.Model.Basic
/-
Character classes of RFC 5234, RFC 5322, RFC 2045 and RFC 2047, written as in the standards.
-/
namespace EmailParser.Spec

/-- RFC 5234 B.1: visible (printing) characters. -/
def vchar (c : UInt8) : Bool := 0x21 ≤ c && c ≤ 0x7E

/-- RFC 5234 B.1: space and horizontal tab. -/
def wsp (c : UInt8) : Bool := c == 0x20 || c == 0x09

/-- RFC 5234 B.1: decimal digits. -/
def digit (c : UInt8) : Bool := 0x30 ≤ c && c ≤ 0x39

/-- RFC 5322 3.2.3: `()<>[]:;@\,."`. -/
def specials : Bytes := b! "()<>[]:;@\\,.\""

/-- RFC 5322 3.2.3: "printable US-ASCII characters not including specials". -/
def atext (c : UInt8) : Bool := vchar c && !specials.contains c

/-- RFC 5322 3.2.2: "printable US-ASCII characters not including `(`, `)`, or `\`". -/
def ctext (c : UInt8) : Bool := vchar c && !(b! "()\\").contains c

/-- RFC 5322 3.2.4: "printable US-ASCII characters not including `\` or the quote character". -/
def qtext (c : UInt8) : Bool := vchar c && !(b! "\\\"").contains c

/-- RFC 5322 3.4.1: "printable US-ASCII characters not including `[`, `]`, or `\`". -/
def dtext (c : UInt8) : Bool := vchar c && !(b! "[]\\").contains c

/-- RFC 5322 3.6.8: "printable US-ASCII characters not including `:`". -/
def ftext (c : UInt8) : Bool := vchar c && c != 58

/-- RFC 5322 3.5: characters of a body line, "excluding CR and LF" (and NUL). -/
def text (c : UInt8) : Bool := c != 0 && c < 128 && c != 13 && c != 10

/-- RFC 2045 5.1: `()<>@,;:\"/[]?=`. -/
def tspecials : Bytes := b! "()<>@,;:\\\"/[]?="

/-- RFC 2045 5.1: "any (US-ASCII) CHAR except SPACE, CTLs, or tspecials". -/
def tokenChar (c : UInt8) : Bool := vchar c && !tspecials.contains c

/-- RFC 2047 2: `()<>@,;:"/[]?.=`, and the backslash, which the code adds. -/
def especials : Bytes := b! "()<>@,;:\"/[]?.=\\"

/-- RFC 2047 2: characters of the encoding and language names. -/
def encodingChar (c : UInt8) : Bool := vchar c && !especials.contains c

/-- RFC 2047 2 and RFC 2231 5: characters of a charset name followed by an optional `*language`. -/
def charsetChar (c : UInt8) : Bool := encodingChar c && c != 42

/-- RFC 2047 2: "any printable ASCII character other than `?` or SPACE". -/
def encodedTextChar (c : UInt8) : Bool := vchar c && c != 63

end EmailParser.Spec
