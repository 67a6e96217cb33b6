import Verif.Model.Scanner
/-! # Vocabulary: names of token kinds -/

namespace Verif.Spec
open Verif

/-- The identifier of each kind in token/token.go:18-36. -/
def kindLabel : Kind → GoString
  | .invalid => bs!"Invalid" | .macro => bs!"Macro" | .emptyLine => bs!"EmptyLine"
  | .comment => bs!"Comment" | .space => bs!"Space" | .word => bs!"Word" | .number => bs!"Number"
  | .symbol => bs!"Symbol" | .lbrace => bs!"Lbrace" | .rbrace => bs!"Rbrace" | .lbrack => bs!"Lbrack"
  | .rbrack => bs!"Rbrack" | .lparen => bs!"Lparen" | .rparen => bs!"Rparen" | .other => bs!"Other"
  | .verbatim => bs!"Verbatim" | .eof => bs!"EOF"

end Verif.Spec
