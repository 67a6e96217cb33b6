import Verif.Model.Scanner
import Verif.Model.Tables
import Verif.Model.Ast
/-! # parser.go and macros.go -/

namespace Verif

/-- parser.go:21-26 -/
inductive Mode where
  | normal | math
deriving DecidableEq, Repr

/-- The macro table built by macros.go:18-337: the builtin entries, then every symbol of
`tex2unicode.Symbols()` not already present, with an empty signature.
`none`: unknown macro. `some none`: a nil entry. `some (some sig)`: `builtinMacro(sig)`. -/
def macroLookup (name : GoString) : Option (Option GoString) :=
  match latexMacros.lookup name with
  | some e => some e
  | none =>
    match name with
    | c :: k => if c = ch!"\\" ∧ (tex2uni.lookup k).isSome then some (some []) else none
    | [] => none

/-- parser.go:58-63 `next`, parser.go:65-70 `expect`: reads a token, which must have the
one-character text `v`. -/
def expect (U : Nat → Bool) (v : Nat) (s : SS) : Res (Token × SS) :=
  scan U s >>= fun r =>
    if r.1.text = [v] then .ok r else .panic (.expected v)

/-- The loop `for p.s.Next() { if stop {break}; node := p.parseNode(tok); if node == nil
{continue}; list = append(list, node) }`, which occurs in `parse` (parser.go:46-53, never
stopping), `parseMathExpr` (147-160), `parseMacroArg` (194-207), `parseOptMacroArg`
(222-235), `parseSup`/`parseSub` (251-263, 281-293) and `parseMathLbrace` (323-335).
Result: the nodes, the position of the token that stopped the loop (0 if the input ended
first, the zero value of the Go fields), and the scanner state. -/
abbrev Loop := Mode → (Token → Bool) → SS → Res (List Node × Nat × SS)

/-- parser.go:189-209 `parseMacroArg` -/
def parseMacroArg (U : Nat → Bool) (loop : Loop) (m : Mode) (s : SS) : Res (Node × SS) :=
  expect U ch!"{" s >>= fun r =>
    loop m (fun t => t.kind == .rbrace) r.2 >>= fun x =>
      .ok (.arg r.1.pos x.1 x.2.1, x.2.2)

/-- parser.go:211-237 `parseOptMacroArg`: no argument unless the very next character is `[`. -/
def parseOptMacroArg (U : Nat → Bool) (loop : Loop) (m : Mode) (s : SS) :
    Res (List Node × SS) :=
  if s.peek ≠ some ch!"[" then .ok ([], s)
  else
    expect U ch!"[" s >>= fun r =>
      loop m (fun t => t.kind == .rbrack) r.2 >>= fun x =>
        .ok ([.optArg r.1.pos x.1 x.2.1], x.2.2)

/-- macros.go:349-358, the loop over the signature (lower-cased by `strings.ToLower`);
`v` (parser.go:239-240) and other letters consume nothing. -/
def parseArgs (U : Nat → Bool) (loop : Loop) (m : Mode) : GoString → SS → Res (List Node × SS)
  | [], s => .ok ([], s)
  | c :: sig, s =>
    if c = ch!"A" ∨ c = ch!"a" then
      parseMacroArg U loop m s >>= fun r =>
        parseArgs U loop m sig r.2 >>= fun q => .ok (r.1 :: q.1, q.2)
    else if c = ch!"O" ∨ c = ch!"o" then
      parseOptMacroArg U loop m s >>= fun r =>
        parseArgs U loop m sig r.2 >>= fun q => .ok (r.1 ++ q.1, q.2)
    else parseArgs U loop m sig s

mutual

/-- parser.go:72-120 `parseNode`, with `parseMathExpr` (122-163, reached only with `$`),
`parseMacro` (165-173), `builtinMacro.parseMacro` (macros.go:341-361), `parseWord`,
`parseNumber`, `parseSymbol` (175-187, 302-307), `parseSup`/`parseSub` (242-300) and
`parseMathLbrace` (309-337, reached only with `{`).  `p.state` is the argument `m`: it is
set to math by `parseMathExpr` and restored on return.  The first argument is fuel. -/
def parseNode (U : Nat → Bool) : Nat → Mode → Token → SS → Res (Node × SS)
  | 0, _, _, _ => .fuel
  | n + 1, m, tok, s =>
    match tok.kind with
    | .comment => .ok (.nil, s)
    | .macro =>
      match macroLookup tok.text with
      | none => .panic (.unknownMacro tok.text)
      | some none => .panic .nilMacro
      | some (some sig) =>
        parseArgs U (parseLoop U n) m sig s >>= fun r =>
          .ok (.macro (some (tok.pos, tok.text)) r.1, r.2)
    | .word => .ok (.word tok.pos tok.text, s)
    | .number => .ok (.lit tok.pos tok.text, s)
    | .symbol =>
      if tok.text = bs!"$" then
        parseLoop U n .math (fun t => t.text == bs!"$") s >>= fun x =>
          .ok (.math tok.text tok.pos x.1 x.2.1, x.2.2)
      else if tok.text = bs!"^" then
        if s.peek = some ch!"{" then
          expect U ch!"{" s >>= fun r =>
            parseLoop U n m (fun t => t.kind == .rbrace) r.2 >>= fun x =>
              .ok (.sup tok.pos (.list x.1), x.2.2)
        else
          scan U s >>= fun r =>
            parseNode U n m r.1 r.2 >>= fun x => .ok (.sup tok.pos x.1, x.2)
      else if tok.text = bs!"_" then
        if s.peek = some ch!"{" then
          expect U ch!"{" s >>= fun r =>
            parseLoop U n m (fun t => t.kind == .rbrace) r.2 >>= fun x =>
              .ok (.sub tok.pos (.list x.1), x.2.2)
        else
          scan U s >>= fun r =>
            parseNode U n m r.1 r.2 >>= fun x => .ok (.sub tok.pos x.1, x.2)
      else .ok (.sym tok.pos tok.text, s)
    | .lbrace =>
      match m with
      | .math =>
        parseLoop U n m (fun t => t.kind == .rbrace) s >>= fun x => .ok (.list x.1, x.2.2)
      | .normal => .panic .lbraceNotImplemented
    | .other => .panic .otherNotImplemented
    | .space =>
      match m with
      | .math => .ok (.nil, s)
      | .normal => .ok (.sym tok.pos tok.text, s)
    | .lparen => .ok (.sym tok.pos tok.text, s)
    | .rparen => .ok (.sym tok.pos tok.text, s)
    | .lbrack => .ok (.sym tok.pos tok.text, s)
    | .rbrack => .ok (.sym tok.pos tok.text, s)
    | _ => .panic .impossible

/-- See `Loop`. -/
def parseLoop (U : Nat → Bool) : Nat → Mode → (Token → Bool) → SS → Res (List Node × Nat × SS)
  | 0, _, _, _ => .fuel
  | n + 1, m, stop, s =>
    scan U s >>= fun r =>
      if r.1.kind = .eof then .ok ([], 0, r.2)
      else if stop r.1 then .ok ([], r.1.pos, r.2)
      else
        parseNode U n m r.1 r.2 >>= fun x =>
          parseLoop U n m stop x.2 >>= fun y =>
            .ok (if x.1.isNil then y.1 else x.1 :: y.1, y.2)
end

/-- parser.go:16-19 `ParseExpr` (with `newParser`, `parse`, parser.go:35-56), with explicit
fuel.  The error result is always nil and is not represented. -/
def parseExprN (U : Nat → Bool) (fuel : Nat) (x : GoString) : Res Node :=
  parseLoop U fuel .normal (fun _ => false) (SS.init x) >>= fun r => .ok (.list r.1)

/-- `ParseExpr` with enough fuel for every input (C01). -/
def parseExpr (U : Nat → Bool) (x : GoString) : Res Node :=
  parseExprN U (2 * x.length + 2) x

end Verif
