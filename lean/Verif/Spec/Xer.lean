import Verif.Model.Xer
/-!
# Specification: XML text and what it means to write and read it
-/
namespace Asn1

/-! ## Text -/

/-- Text as octets, one per (ASCII) character. -/
def text (l : List Char) : List Byte := l.map fun c => BitVec.ofNat 8 c.toNat

/-- `<tag>`. -/
def startTag (tag : List Byte) : List Byte := text ['<'] ++ tag ++ text ['>']

/-- `</tag>`. -/
def endTag (tag : List Byte) : List Byte := text ['<', '/'] ++ tag ++ text ['>']

/-- `<tag/>`. -/
def emptyTag (tag : List Byte) : List Byte := text ['<'] ++ tag ++ text ['/', '>']

/-- `<tag>contents</tag>`, or `<tag/>` if there are no contents. -/
def element (tag contents : List Byte) : List Byte := if contents = [] then emptyTag tag else startTag tag ++ contents ++ endTag tag

/-- Two spaces per level, if white space is wanted. -/
def indent (white : Bool) (level : Int) : List Byte := if white = true ∧ 0 ≤ level then List.replicate (2 * level.toNat) 0x20#8 else []

/-- A new line, if white space is wanted and the element stands in a line of its own (level 0 or more). -/
def newLine (white : Bool) (level : Int) : List Byte := if white = true ∧ 0 ≤ level then [0x0A#8] else []

/-- A line: indentation, text, new line. -/
def line (white : Bool) (level : Int) (l : List Byte) : List Byte := indent white level ++ l ++ newLine white level

/-- A line written by the encoders of strings: indentation by level, a new line in any case. -/
def lineNL (w : Bool) (level : Int) (l : List Byte) : List Byte := indent w level ++ l ++ newLine w 0

/-- `<tag>contents</tag>`, never `<tag/>`; contents alone without a tag. -/
def wrapped (tag contents : List Byte) : List Byte := if tag = [] then contents else startTag tag ++ contents ++ endTag tag

/-- Decimal notation. -/
def decimalNat (n : Nat) : List Byte := text (Nat.toDigits 10 n)

/-- Decimal notation with a minus sign. -/
def decimalInt (v : Int) : List Byte := (if v < 0 then text ['-'] else []) ++ decimalNat v.natAbs

/-- The words for truth values (X.693, 8.3.2 via X.680, 18.3). -/
def boolWord (b : Bool) : List Byte := if b then text ['t', 'r', 'u', 'e'] else text ['f', 'a', 'l', 's', 'e']

/-- A hexadecimal digit, upper case. -/
def hexUpper (n : Nat) : Byte := BitVec.ofNat 8 ((Nat.digitChar n).toUpper.toNat)

/-- Two hexadecimal digits per octet. -/
def hexText (l : List Byte) : List Byte := l.flatMap fun b => [hexUpper (b.toNat / 16), hexUpper (b.toNat % 16)]

/-- A 0 or 1 per bit. -/
def bitText (l : List Bool) : List Byte := l.map fun b => if b then 0x31#8 else 0x30#8

/-- Components with points between. -/
def oidText : List Nat → List Byte
  | [] => []
  | v :: l => decimalNat v ++ l.flatMap fun w => text ['.'] ++ decimalNat w

/-- White space. -/
def IsSpaces (l : List Byte) : Prop := ∀ b ∈ l, b = 0x20#8 ∨ 9 ≤ b.toNat ∧ b.toNat ≤ 13

/-- A character of a name: a letter, a digit or one of `.+-_`. -/
def IsNameChar (b : Byte) : Prop :=
  (0x41 ≤ b.toNat ∧ b.toNat ≤ 0x5A) ∨ (0x61 ≤ b.toNat ∧ b.toNat ≤ 0x7A) ∨ (0x30 ≤ b.toNat ∧ b.toNat ≤ 0x39) ∨
    b ∈ text ['.', '+', '-', '_']

/-- No 0 inside: the characters of a C string. -/
def NoNul (l : List Byte) : Prop := ∀ b ∈ l, b ≠ 0#8

/-- A tag the decoder can read: 1 to 99 name characters. -/
def GoodTag (tag : List Byte) : Prop := tag ≠ [] ∧ tag.length ≤ 99 ∧ ∀ b ∈ tag, IsNameChar b

/-- Contents of an element: no `<` and no 0. -/
def PlainText (l : List Byte) : Prop := ∀ b ∈ l, b ≠ 0x3C#8 ∧ b ≠ 0#8

/-! ## Writing -/

/-- A stream to write to: inside its buffer, and 0 from the current position to the end, as `ByteStream_Init` leaves it. -/
structure XReady (s : XerStream) : Prop where
  fits : s.count ≤ s.buf.length
  pos : s.currentByte ≤ s.count
  zero : ∀ i, s.currentByte ≤ i → i < s.count → s.buf[i]? = some 0#8

/-- The stream after `l` has been written. -/
def XerStream.put (s : XerStream) (l : List Byte) : XerStream :=
  { s with buf := s.buf.take s.currentByte ++ l ++ s.buf.drop (s.currentByte + l.length), currentByte := s.currentByte + l.length }

/-- What a function may change: nothing before the position, nothing from `count` on. -/
structure XKeeps (s s' : XerStream) : Prop where
  count : s'.count = s.count
  white : s'.white = s.white
  length : s'.buf.length = s.buf.length
  before : s'.buf.take s.currentByte = s.buf.take s.currentByte
  behind : s'.buf.drop s.count = s.buf.drop s.count
  pos : s.currentByte ≤ s'.currentByte

/-- `f` writes the text `l`: on a ready stream it never goes wrong; it leaves everything else alone and the stream ready; if it
returns `TRUE` it has written exactly `l`; and it does return `TRUE` if there is room for `l` and one more octet. -/
def XWrites (f : XM Unit) (l : Bool → List Byte) : Prop :=
  ∀ s, XReady s → ∃ r s', f s = .ok (r, s') ∧ XReady s' ∧ XKeeps s s' ∧
    (r = some () → s' = s.put (l s.white) ∧ s.currentByte + (l s.white).length ≤ s.count) ∧
    (s.currentByte + (l s.white).length < s.count → r = some ())

/-! ## Reading -/

/-- A stream to read from. -/
structure XInput (s : XerStream) : Prop where
  fits : s.count ≤ s.buf.length
  pos : s.currentByte ≤ s.count

/-- What has not been read yet. -/
def XerStream.unread (s : XerStream) : List Byte := (s.buf.take s.count).drop s.currentByte

/-- `f` reads the text `l` as the value `a`: whatever white space stands before it and whatever stands behind it, `f` returns `TRUE`
and `a`, and at most white space at the end of the text is left unread. -/
def XReads {α : Type} (f : XM α) (a : α) (l : List Byte) : Prop :=
  ∀ s w rest, XInput s → IsSpaces w → s.unread = w ++ l ++ rest →
    ∃ s' w', f s = .ok (some a, s') ∧ XInput s' ∧ s'.buf = s.buf ∧ s'.count = s.count ∧ s'.white = s.white ∧ IsSpaces w' ∧
      s'.unread = w' ++ rest

/-! ## Reading what anybody may have written -/

/-- Everything but the position is as before. -/
structure XSame (s s' : XerStream) : Prop where
  buf : s'.buf = s.buf
  count : s'.count = s.count
  white : s'.white = s.white

/-- The text in the buffer. -/
def XerStream.whole (s : XerStream) : List Byte := s.buf.take s.count

/-- Positions the decoder can be at: up to one octet behind the end. -/
def XIn (s : XerStream) : Prop := s.count ≤ s.buf.length ∧ s.currentByte ≤ s.count + 1

/-- On every text with the property `Q`, `f` returns (with `TRUE` or `FALSE`), changes nothing but the position and leaves that inside;
outputs have the property `P`. -/
def XSafe (Q : List Byte → Prop) {α : Type} (f : XM α) (P : α → Prop) : Prop :=
  ∀ s, XIn s → Q s.whole → ∃ r s', f s = .ok (r, s') ∧ XSame s s' ∧ XIn s' ∧ ∀ a, r = some a → P a

/-- No attribute can be written without a double quote. -/
def NoQuote (l : List Byte) : Prop := (0x22#8 : Byte) ∉ l

/-- At most 18 digits in a row. -/
def ShortNumbers (l : List Byte) : Prop := ∀ d, d <:+: l → (∀ b ∈ d, 0x30 ≤ b.toNat ∧ b.toNat ≤ 0x39) → d.length ≤ 18

/-- `<?…?>`, up to the first `?>`; `<?>` counts. -/
def IsDeclaration (l : List Byte) : Prop :=
  ∃ d, l = text ['<'] ++ d ++ text ['>'] ∧ text ['?'] <+: d ∧ text ['?'] <:+ d ∧ ¬ text ['?', '>'] <:+: d

/-- `<!--…-->`, up to the first `-->`; `<!-->` counts. -/
def IsComment (l : List Byte) : Prop :=
  ∃ d, l = text ['<', '!'] ++ d ++ text ['>'] ∧ text ['-', '-'] <+: d ∧ text ['-', '-'] <:+ d ∧ ¬ text ['-', '-', '>'] <:+: d

/-- What a decoder passes over between two tokens: white space, at most one declaration, at most one comment behind it. -/
def Skipped (l : List Byte) : Prop :=
  ∃ w h w1 c w2, IsSpaces w ∧ IsSpaces w1 ∧ IsSpaces w2 ∧ (h = [] ∨ IsDeclaration h) ∧ (c = [] ∨ IsComment c) ∧ l = w ++ h ++ w1 ++ c ++ w2

/-- The tokens `l`, with anything that is skipped before each of them. -/
def Spread : List (List Byte) → List Byte → Prop
  | [], l => l = []
  | t :: ts, l => ∃ j r, Skipped j ∧ Spread ts r ∧ l = j ++ t ++ r

/-- `<tag>c</tag>`, or `<tag/>` if `c` is empty; anything that is skipped may stand before each token. -/
def ElementText (tag c l : List Byte) : Prop :=
  (c = [] ∧ Spread [text ['<'], tag, text ['/'], text ['>']] l) ∨
  ((∀ b ∈ c, b ≠ 0x3C#8) ∧ ∃ l1 l2, Spread [text ['<'], tag, text ['>']] l1 ∧ Spread [text ['<'], text ['/'], tag, text ['>']] l2 ∧ l = l1 ++ c ++ l2)

/-- What `f` has read whenever it returned `TRUE` with the value `a`: a text `l` with `P a l`. -/
def Accepts {α : Type} (f : XM α) (P : α → List Byte → Prop) : Prop :=
  ∀ s, XIn s → ∀ a s', f s = .ok (some a, s') → XSame s s' ∧ XIn s' ∧ ∃ l, P a l ∧ s.unread = l ++ s'.unread

/-- `f` on the stream `s` comes to an end and returns `r`. -/
def XReturns {α : Type} (f : XM α) (s : XerStream) (r : Option α) : Prop := ∃ s', f s = .ok (r, s')

/-! ## Round trips -/

/-- The text between the positions of `s` and `s'`. -/
def XerStream.written (s s' : XerStream) : List Byte := (s'.buf.take s'.currentByte).drop s.currentByte

/-- Whatever `enc` has written into a stream, `dec` reads it from any other stream as `a`, whatever stands behind it, and leaves at most
white space of it unread. -/
def XerRoundTrip {α : Type} (enc : XM Unit) (dec : XM α) (a : α) : Prop :=
  ∀ s s', XReady s → enc s = .ok (some (), s') → ∀ t rest, XInput t → t.unread = s.written s' ++ rest →
    ∃ t' w, dec t = .ok (some a, t') ∧ XInput t' ∧ XSame t t' ∧ IsSpaces w ∧ t'.unread = w ++ rest

end Asn1
