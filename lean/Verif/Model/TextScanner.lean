import Verif.Model.Utf8
/-!
# The standard library scanner (`text/scanner`) as configured by scanner.go

`newScanner` (scanner.go:24-36) sets `Mode = ScanIdents|ScanInts|ScanFloats|ScanStrings`,
`IsIdentRune = unicode.IsLetter`, `Whitespace = {\t,\n,\r}`, and no `Error` callback.

Modelled: which characters a token consumes, its class, its text and its byte
offset.  Not modelled: line/column numbers, and the diagnostics that
`Scanner.error` prints on stderr (they do not influence tokens; `Model/Diag` has them).

The state of a `scanner.Scanner` is the sequence of characters not yet consumed
(the look-ahead `s.ch` is its head) and the byte offset of that sequence.
-/

namespace Verif

/-- `unicode.IsLetter`: exact on ASCII, an arbitrary predicate `U` elsewhere. -/
def isLetter (U : Nat → Bool) (r : Nat) : Bool :=
  if r < 128 then (65 ≤ r && r ≤ 90) || (97 ≤ r && r ≤ 122) else U r

/-- text/scanner `isDecimal` -/
def isDecimal (r : Nat) : Bool := 48 ≤ r && r ≤ 57

/-- text/scanner `isHex` -/
def isHex (r : Nat) : Bool := isDecimal r || (65 ≤ r && r ≤ 70) || (97 ≤ r && r ≤ 102)

/-- `lower(r) == c` for a lower-case ASCII letter `c` (text/scanner `lower`). -/
def lowerIs (r c : Nat) : Bool := r == c || r + 32 == c

/-- Scanner state: remaining characters and their byte offset
(`Scanner.ch`, `srcBuf[srcPos:]`, `srcBufOffset+srcPos-lastCharLen`). -/
structure SS where
  rest : List Ch
  off : Nat
deriving DecidableEq, Repr

/-- text/scanner `Init` followed by the first `Peek`, which skips one leading
byte-order mark. -/
def SS.init (src : List Nat) : SS :=
  match decode src with
  | c :: cs => if c.r = 0xFEFF then ⟨cs, c.b.length⟩ else ⟨c :: cs, 0⟩
  | [] => ⟨[], 0⟩

/-- text/scanner `Peek`: the next rune, `none` for EOF. -/
def SS.peek (s : SS) : Option Nat := s.rest.head?.map Ch.r

/-- Token classes of text/scanner.  `Char`, `RawString` and `Comment` cannot occur
in this configuration. -/
inductive RTok where
  | eof | ident | int | float | string
  | rune (r : Nat)
deriving DecidableEq, Repr

/-- text/scanner `digits`: accepts digits of the base and underscores. -/
def digits (base : Nat) (cs : List Ch) : List Ch :=
  cs.dropWhile fun c => (if base ≤ 10 then isDecimal c.r else isHex c.r) || c.r == ch!"_"

/-- Does the next character satisfy `p`? -/
def nextIs (p : Nat → Bool) : List Ch → Bool
  | c :: _ => p c.r
  | [] => false

/-- text/scanner `scanNumber`, integer part after the initial `0`, if any: the number
base, whether a prefix `x` is present, and the rest. `cs` starts with a decimal digit. -/
def numPrefix (cs : List Ch) : Nat × List Ch :=
  match cs with
  | c :: cs' =>
    if c.r = ch!"0" then
      if nextIs (lowerIs · ch!"x") cs' then (16, cs'.tail)
      else if nextIs (lowerIs · ch!"o") cs' then (8, cs'.tail)
      else if nextIs (lowerIs · ch!"b") cs' then (2, cs'.tail)
      else (8, cs')
    else (10, cs)
  | [] => (10, [])

/-- text/scanner `scanNumber`, exponent: accepts `e`/`p` (either case), a sign and
digits, whether or not the mantissa allows it (violations only print diagnostics). -/
def numExponent (cs : List Ch) : Bool × List Ch :=
  if nextIs (fun r => lowerIs r ch!"e" || lowerIs r ch!"p") cs then
    let cs1 := cs.tail
    let cs2 := if nextIs (fun r => r == ch!"+" || r == ch!"-") cs1 then cs1.tail else cs1
    (true, digits 10 cs2)
  else (false, cs)

/-- text/scanner `scanNumber(ch, seenDot)`; `cs` starts at `ch`. -/
def scanNumber (cs : List Ch) (seenDot : Bool) : RTok × List Ch :=
  let (base, cs1, dot) :=
    if seenDot then (10, cs, true)
    else
      let (base, c1) := numPrefix cs
      let c2 := digits base c1
      if nextIs (· == ch!".") c2 then (base, c2.tail, true) else (base, c2, false)
  let cs2 := if dot then digits base cs1 else cs1
  let (exp, cs3) := numExponent cs2
  (if dot || exp then RTok.float else RTok.int, cs3)

/-- text/scanner `digitVal(ch) < base` -/
def digitLt (base r : Nat) : Bool :=
  (isDecimal r && r - 48 < base) || (base == 16 && isHex r)

/-- text/scanner `scanDigits(ch, base, n)`; `cs` starts at `ch`. -/
def scanDigits (base : Nat) : Nat → List Ch → List Ch
  | 0, cs => cs
  | n + 1, cs => if nextIs (digitLt base) cs then scanDigits base n cs.tail else cs

/-- text/scanner `scanEscape('"')`; `cs` follows the backslash. -/
def scanEscape (cs : List Ch) : List Ch :=
  match cs with
  | [] => []
  | c :: cs' =>
    if (bs!"abfnrtv\\\"").contains c.r then cs'
    else if 48 ≤ c.r && c.r ≤ 55 then scanDigits 8 3 cs
    else if c.r = ch!"x" then scanDigits 16 2 cs'
    else if c.r = ch!"u" then scanDigits 16 4 cs'
    else if c.r = ch!"U" then scanDigits 16 8 cs'
    else cs

/-- text/scanner `scanString('"')`, after the opening quote: stops at the closing
quote, at a newline or at EOF, leaving that character unconsumed.  The first argument
is a recursion bound (the number of characters is sufficient). -/
def scanStringN : Nat → List Ch → List Ch
  | 0, cs => cs
  | _, [] => []
  | n + 1, c :: cs =>
    if c.r = ch!"\"" || c.r = ch!"\n" then c :: cs
    else if c.r = ch!"\\" then scanStringN n (scanEscape cs)
    else scanStringN n cs

/-- text/scanner `Scan`, after white space has been skipped and for a non-empty rest:
class of the token starting at `c`, and what remains after it. -/
def scanRest (U : Nat → Bool) (c : Ch) (cs : List Ch) : RTok × List Ch :=
  if isLetter U c.r then (.ident, cs.dropWhile fun d => isLetter U d.r)
  else if isDecimal c.r then scanNumber (c :: cs) false
  else if c.r = ch!"\"" then (.string, (scanStringN cs.length cs).tail)
  else if c.r = ch!"." then
    if nextIs isDecimal cs then scanNumber cs true else (.rune c.r, cs)
  else (.rune c.r, cs)

/-- A token of text/scanner: class (return value of `Scan`), `Position.Offset`, `TokenText()`. -/
structure RawTok where
  cls : RTok
  pos : Nat
  text : GoString
deriving DecidableEq, Repr

/-- The part of `cs` consumed when only the suffix `cs'` remains. -/
def consumed (cs cs' : List Ch) : List Ch := cs.take (cs.length - cs'.length)

/-- text/scanner `Scan` with white-space set `ws`. -/
def rawScan (U : Nat → Bool) (ws : Nat → Bool) (s : SS) : RawTok × SS :=
  let rest := s.rest.dropWhile fun c => ws c.r
  let off := s.off + (bytesOf (consumed s.rest rest)).length
  match rest with
  | [] => (⟨.eof, off, []⟩, ⟨[], off⟩)
  | c :: cs =>
    let (cls, rest') := scanRest U c cs
    let text := bytesOf (consumed (c :: cs) rest')
    (⟨cls, off, text⟩, ⟨rest', off + text.length⟩)

end Verif
