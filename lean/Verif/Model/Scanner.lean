import Verif.Model.TextScanner
/-! # scanner.go and token/token.go -/

namespace Verif

/-- token/token.go:18-36 (`iota` order) -/
inductive Kind where
  | invalid | macro | emptyLine | comment | space | word | number | symbol
  | lbrace | rbrace | lbrack | rbrack | lparen | rparen | other | verbatim | eof
deriving DecidableEq, Repr

/-- token/token.go:39-43 -/
structure Token where
  kind : Kind
  pos : Nat
  text : GoString
deriving DecidableEq, Repr

/-- scanner.go:34 `Whitespace = 1<<'\t' | 1<<'\n' | 1<<'\r'` -/
def isWs (r : Nat) : Bool := r == 9 || r == 10 || r == 13

/-- scanner.go:89-90, the characters that become `token.Symbol` -/
def symbolChars : List Nat := bs!"$_=<>^/*-+!?':,;."

/-- scanner.go:174-194 `scanComment`: tokens are read with no white space skipped until a
newline or EOF; carriage returns are left out of the text.  The first argument bounds the
number of iterations (the number of remaining characters plus one is sufficient). -/
def scanCommentN (U : Nat → Bool) : Nat → SS → GoString → Res (GoString × SS)
  | 0, _, _ => .fuel
  | n + 1, s, acc =>
    let (t, s') := rawScan U (fun _ => false) s
    if t.cls = .rune 13 then scanCommentN U n s' acc
    else if t.cls = .rune 10 ∨ t.cls = .eof then .ok (acc, s')
    else scanCommentN U n s' (acc ++ t.text)

/-- scanner.go:51-153 `scan` (with `next`, `scanMacro` scanner.go:155-172 and `scanComment`). -/
def scan (U : Nat → Bool) (s : SS) : Res (Token × SS) :=
  let (t, s') := rawScan U isWs s
  match t.cls with
  | .ident => .ok (⟨.word, t.pos, t.text⟩, s')
  | .rune r =>
    if r = ch!"\\" then
      if s'.peek = some ch!" " then
        -- scanner.go:64-70
        let (_, s'') := rawScan U isWs s'
        .ok (⟨.space, t.pos, bs!"\\ "⟩, s'')
      else
        -- scanner.go:159-172 scanMacro
        let (t2, s'') := rawScan U isWs s'
        .ok (⟨.macro, t.pos, bs!"\\" ++ t2.text⟩, s'')
    else if r = ch!" " then .ok (⟨.space, t.pos, bs!" "⟩, s')
    else if r = ch!"%" then
      -- scanner.go:81-87
      match scanCommentN U (s'.rest.length + 1) s' bs!"%" with
      | .ok (line, s'') => .ok (⟨.comment, t.pos, line⟩, s'')
      | .panic p => .panic p
      | .fuel => .fuel
    else if symbolChars.contains r then .ok (⟨.symbol, t.pos, t.text⟩, s')
    else if r = ch!"[" then .ok (⟨.lbrack, t.pos, t.text⟩, s')
    else if r = ch!"]" then .ok (⟨.rbrack, t.pos, t.text⟩, s')
    else if r = ch!"{" then .ok (⟨.lbrace, t.pos, t.text⟩, s')
    else if r = ch!"}" then .ok (⟨.rbrace, t.pos, t.text⟩, s')
    else if r = ch!"(" then .ok (⟨.lparen, t.pos, t.text⟩, s')
    else if r = ch!")" then .ok (⟨.rparen, t.pos, t.text⟩, s')
    else .panic (.unhandledToken r)
  | .int => .ok (⟨.number, t.pos, t.text⟩, s')
  | .float => .ok (⟨.number, t.pos, t.text⟩, s')
  | .string => .ok (⟨.other, t.pos, t.text⟩, s')
  | .eof => .ok (⟨.eof, t.pos, []⟩, s')

end Verif
