import Verif.Model.Bytes
/-!
# UTF-8 decoding (`unicode/utf8`)

`text/scanner` reads its source rune by rune with `utf8.DecodeRune`.
-/

namespace Verif

/-- `utf8.RuneError` -/
def runeError : Nat := 0xFFFD

/-- A continuation byte, `0x80..0xBF` (`locb`/`hicb` in unicode/utf8). -/
def isCont (b : Nat) : Bool := 0x80 ≤ b && b ≤ 0xBF

/-- Go standard library `unicode/utf8.DecodeRune` on a non-empty input `b0 :: t`:
the rune and the number of bytes read.  Invalid or truncated encodings give
`(RuneError, 1)`, as in Go (table `first` and `acceptRanges`). -/
def decodeRune (b0 : Nat) (t : List Nat) : Nat × Nat :=
  if b0 < 0x80 then (b0, 1)
  else if 0xC2 ≤ b0 && b0 ≤ 0xDF then
    match t with
    | b1 :: _ => if isCont b1 then ((b0 - 0xC0) * 64 + (b1 - 0x80), 2) else (runeError, 1)
    | _ => (runeError, 1)
  else if 0xE0 ≤ b0 && b0 ≤ 0xEF then
    match t with
    | b1 :: b2 :: _ =>
      let lo := if b0 = 0xE0 then 0xA0 else 0x80
      let hi := if b0 = 0xED then 0x9F else 0xBF
      if lo ≤ b1 && b1 ≤ hi && isCont b2 then
        ((b0 - 0xE0) * 4096 + (b1 - 0x80) * 64 + (b2 - 0x80), 3)
      else (runeError, 1)
    | _ => (runeError, 1)
  else if 0xF0 ≤ b0 && b0 ≤ 0xF4 then
    match t with
    | b1 :: b2 :: b3 :: _ =>
      let lo := if b0 = 0xF0 then 0x90 else 0x80
      let hi := if b0 = 0xF4 then 0x8F else 0xBF
      if lo ≤ b1 && b1 ≤ hi && isCont b2 && isCont b3 then
        ((b0 - 0xF0) * 262144 + (b1 - 0x80) * 4096 + (b2 - 0x80) * 64 + (b3 - 0x80), 4)
      else (runeError, 1)
    | _ => (runeError, 1)
  else (runeError, 1)

/-- One rune of the source together with the bytes it was decoded from. -/
structure Ch where
  /-- the rune -/
  r : Nat
  /-- its bytes in the source -/
  b : List Nat
deriving DecidableEq, Repr

/-- Successive runes of a byte string, as read by repeated `utf8.DecodeRune`
(text/scanner `Scanner.next`; its buffering is not modelled).  The first
argument is a recursion bound; `decode` supplies a sufficient one. -/
def decodeN : Nat → List Nat → List Ch
  | 0, _ => []
  | _, [] => []
  | n + 1, b0 :: t =>
    let (r, w) := decodeRune b0 t
    ⟨r, (b0 :: t).take w⟩ :: decodeN n ((b0 :: t).drop w)

/-- All runes of a byte string. -/
def decode (bs : List Nat) : List Ch := decodeN bs.length bs

/-- The source bytes of a sequence of runes. -/
def bytesOf (cs : List Ch) : List Nat := cs.flatMap Ch.b

end Verif
