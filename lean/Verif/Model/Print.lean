import Verif.Model.Ast
import Verif.Model.Utf8
/-! # ast.Print (ast/ast.go:166-253) and the `%q` verb -/

namespace Verif

/-- The lower-case hexadecimal digit of a value below 16 (strconv `lowerhex`). -/
def hexDigit (n : Nat) : Nat := if n < 10 then 48 + n else 87 + n

/-- `n` hexadecimal digits of `v`, most significant first. -/
def hexN : Nat → Nat → GoString
  | 0, _ => []
  | n + 1, v => hexN n (v / 16) ++ [hexDigit (v % 16)]

/-- strconv.IsPrint: exact on ASCII, an arbitrary predicate `Pr` elsewhere. -/
def isPrint (Pr : Nat → Bool) (r : Nat) : Bool :=
  if r < 128 then 32 ≤ r && r ≤ 126 else Pr r

/-- The standard library's `strconv.appendEscapedRune(buf, r, '"', false, false)`, preceded by the
case of an invalid byte in `appendQuotedWith` (a rune of one byte `≥ 0x80`).  `utf8.AppendRune` of
a decoded rune is represented by the bytes it was decoded from. -/
def escape (Pr : Nat → Bool) (c : Ch) : GoString :=
  if c.r = runeError ∧ c.b.length = 1 then bs!"\\x" ++ hexN 2 (c.b.headD 0)
  else if c.r = ch!"\"" ∨ c.r = ch!"\\" then [ch!"\\", c.r]
  else if isPrint Pr c.r then c.b
  else if c.r = 7 then bs!"\\a"
  else if c.r = 8 then bs!"\\b"
  else if c.r = 12 then bs!"\\f"
  else if c.r = 10 then bs!"\\n"
  else if c.r = 13 then bs!"\\r"
  else if c.r = 9 then bs!"\\t"
  else if c.r = 11 then bs!"\\v"
  else if c.r < 32 ∨ c.r = 127 then bs!"\\x" ++ hexN 2 c.r
  else if c.r < 0x10000 then bs!"\\u" ++ hexN 4 c.r
  else bs!"\\U" ++ hexN 8 c.r

/-- `fmt.Fprintf(o, "%q", s)` for a string: `strconv.Quote`. -/
def quote (Pr : Nat → Bool) (s : GoString) : GoString :=
  bs!"\"" ++ (decode s).flatMap (escape Pr) ++ bs!"\""

mutual
/-- ast/ast.go:166-253 `Print`: the text written to `o`.  The nil dereference of
`node.Name.Name` (ast/ast.go:181) is the only panic. Write errors of `o` are ignored by Go and
not modelled. -/
def print (Pr : Nat → Bool) : Node → Res GoString
  | .arg _ l _ => printList Pr l >>= fun t => .ok (bs!"{" ++ t ++ bs!"}")
  | .ident _ name => .ok (bs!"ast.Ident{" ++ quote Pr name ++ bs!"}")
  | .macro none _ => .panic (.other "ast.Print: nil macro name")
  | .macro (some (_, name)) args =>
    match args with
    | [] => .ok (bs!"ast.Macro{" ++ quote Pr name ++ bs!"}")
    | n :: l => print Pr n >>= fun t => printMore Pr l >>= fun u =>
        .ok (bs!"ast.Macro{" ++ quote Pr name ++ bs!", Args:" ++ (t ++ u) ++ bs!"}")
  | .math _ _ l _ =>
    match l with
    | [] => .ok bs!"ast.MathExpr{}"
    | n :: l => print Pr n >>= fun t => printMore Pr l >>= fun u =>
        .ok (bs!"ast.MathExpr{List:" ++ (t ++ u) ++ bs!"}")
  | .optArg _ l _ => printList Pr l >>= fun t => .ok (bs!"[" ++ t ++ bs!"]")
  | .word _ t => .ok (bs!"ast.Word{" ++ quote Pr t ++ bs!"}")
  | .lit _ t => .ok (bs!"ast.Lit{" ++ quote Pr t ++ bs!"}")
  | .list l => printList Pr l >>= fun t => .ok (bs!"ast.List{" ++ t ++ bs!"}")
  | .sub _ n => print Pr n >>= fun t => .ok (bs!"ast.Sub{" ++ t ++ bs!"}")
  | .sup _ n => print Pr n >>= fun t => .ok (bs!"ast.Sup{" ++ t ++ bs!"}")
  | .sym _ t => .ok (bs!"ast.Symbol{" ++ quote Pr t ++ bs!"}")
  | .nil => .ok bs!"<nil>"
/-- The loops `for i, n := range l { if i > 0 { ", " }; Print(o, n) }`. -/
def printList (Pr : Nat → Bool) : List Node → Res GoString
  | [] => .ok []
  | n :: l => print Pr n >>= fun t => printMore Pr l >>= fun u => .ok (t ++ u)
/-- The iterations of such a loop with `i > 0`. -/
def printMore (Pr : Nat → Bool) : List Node → Res GoString
  | [] => .ok []
  | n :: l => print Pr n >>= fun t => printMore Pr l >>= fun u => .ok (bs!", " ++ t ++ u)
end

end Verif
