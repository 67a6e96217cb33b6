import Verif.Model.Scanner
/-! # token/kind_string.go -/

namespace Verif

/-- Decimal digits of a natural number, most significant first; `fuel` bounds the number of
digits (`n + 1` suffices). -/
def decimalN : Nat → Nat → GoString
  | 0, _ => []
  | fuel + 1, n => if n < 10 then [48 + n] else decimalN fuel (n / 10) ++ [48 + n % 10]

/-- strconv.FormatInt(i, 10) -/
def formatInt (i : Int) : GoString :=
  match i with
  | .ofNat n => decimalN (n + 1) n
  | .negSucc n => bs!"-" ++ decimalN (n + 2) (n + 1)

/-- token/kind_string.go:36 `_Kind_name` -/
def kindName : GoString :=
  bs!"InvalidMacroEmptyLineCommentSpaceWordNumberSymbolLbraceRbraceLbrackRbrackLparenRparenOtherVerbatimEOF"

/-- token/kind_string.go:38 `_Kind_index` -/
def kindIndex : List Nat := [0, 7, 12, 21, 28, 33, 37, 43, 49, 55, 61, 67, 73, 79, 85, 90, 98, 101]

/-- A Go slice expression `s[a:b]`: panics unless `a ≤ b ≤ len(s)`. -/
def goSlice (s : GoString) (a b : Nat) : Res GoString :=
  if a ≤ b ∧ b ≤ s.length then .ok ((s.drop a).take (b - a)) else .panic (.other "slice bounds out of range")

/-- A Go index expression on an array. -/
def goIndex (l : List Nat) (i : Nat) : Res Nat :=
  match l[i]? with
  | some v => .ok v
  | none => .panic (.other "index out of range")

/-- token/kind_string.go:40-45 `Kind.String`, for any value of the integer type `Kind`. -/
def kindString (i : Int) : Res GoString :=
  if i < 0 ∨ i ≥ (kindIndex.length - 1 : Nat) then .ok (bs!"Kind(" ++ formatInt i ++ bs!")")
  else
    goIndex kindIndex i.toNat >>= fun a => goIndex kindIndex (i.toNat + 1) >>= fun b => goSlice kindName a b

/-- The value of each constant, token/token.go:18-36 (`iota`). -/
def Kind.value : Kind → Int
  | .invalid => 0 | .macro => 1 | .emptyLine => 2 | .comment => 3 | .space => 4 | .word => 5
  | .number => 6 | .symbol => 7 | .lbrace => 8 | .rbrace => 9 | .lbrack => 10 | .rbrack => 11
  | .lparen => 12 | .rparen => 13 | .other => 14 | .verbatim => 15 | .eof => 16

end Verif
