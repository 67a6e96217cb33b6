import Verif.Model.Parser
/-!
# What ParseExpr writes to standard error

scanner.go:24-36 leaves `Error` of the text/scanner unset (line 29 is commented out), so `Scanner.error` prints its messages on
standard error (`fmt.Fprintf(os.Stderr, "%s: %s\n", pos, msg)`).  `Model/TextScanner` leaves them out; here they are: the
functions below compute the messages the functions of `Model/TextScanner` with the same structure print, and the parser is repeated with a
log.  Simplified: a message is known by its kind, not by its position and wording; and there are two logs, of the messages about
characters (printed by `next`) and of those about tokens, so the order between the two is not modelled.
-/

namespace Verif

/-- The messages of text/scanner in this configuration. -/
inductive Diag where
  /-- `next`: "invalid character NUL" -/
  | nul
  /-- `next`: "invalid UTF-8 encoding" -/
  | utf8
  /-- `scanNumber`: "invalid radix point in …" -/
  | radix
  /-- `scanNumber`: "… has no digits" -/
  | noDigits
  /-- `scanNumber`: "… exponent requires decimal mantissa" or "… hexadecimal mantissa" -/
  | exponent
  /-- `scanNumber`: "exponent has no digits" -/
  | exponentDigits
  /-- `scanNumber`: "hexadecimal mantissa requires a 'p' exponent" -/
  | hexExponent
  /-- `scanNumber`: "invalid digit … in …" -/
  | digit
  /-- `scanNumber`: "'_' must separate successive digits" -/
  | separator
  /-- `scanString`: "literal not terminated" -/
  | notTerminated
  /-- `scanEscape`, `scanDigits`: "invalid char escape" -/
  | escape
deriving DecidableEq, Repr

/-- text/scanner `next`: what it prints when it reads this character. -/
def charDiag (c : Ch) : List Diag := if c.r = 0 then [.nul] else if c.r = 0xFFFD ∧ c.b.length = 1 then [.utf8] else []

/-- text/scanner `digits`: the characters it accepts. -/
def digitsTaken (base : Nat) (cs : List Ch) : List Ch :=
  cs.takeWhile fun c => (if base ≤ 10 then isDecimal c.r else isHex c.r) || c.r == ch!"_"

/-- text/scanner `digits`: bit 0 of `digsep`, there is a digit -/
def hasDigit (a : List Ch) : Bool := a.any fun c => c.r != ch!"_"

/-- text/scanner `digits`: `invalid` is set, a digit is too large for the base (10 at most) -/
def badDigit (base : Nat) (a : List Ch) : Bool := decide (base ≤ 10) && a.any fun c => c.r != ch!"_" && decide (48 + base ≤ c.r)

/-- text/scanner `invalidSep`, its loop: `hex` is `x1 == 'x'`, the first number is `d`; whether it returns an index -/
def sepLoop (hex : Bool) : Nat → List Nat → Bool
  | d, [] => d == ch!"_"
  | d, r :: rs =>
    if r = ch!"_" then d != ch!"0" || sepLoop hex ch!"_" rs
    else if isDecimal r || (hex && isHex r) then sepLoop hex ch!"0" rs
    else d == ch!"_" || sepLoop hex ch!"." rs

/-- text/scanner `invalidSep`: whether it returns an index -/
def invalidSep (t : List Nat) : Bool :=
  match t with
  | z :: x :: rs =>
    if z = ch!"0" ∧ (lowerIs x ch!"x" || lowerIs x ch!"o" || lowerIs x ch!"b") = true then sepLoop (lowerIs x ch!"x") ch!"0" rs
    else sepLoop false ch!"." t
  | _ => sepLoop false ch!"." t

/-- text/scanner `scanNumber`: `prefix`, for `cs` that starts with a digit -/
def numLetter (cs : List Ch) : Nat :=
  match cs with
  | c :: cs' =>
    if c.r = ch!"0" then
      if nextIs (lowerIs · ch!"x") cs' then ch!"x"
      else if nextIs (lowerIs · ch!"o") cs' then ch!"o"
      else if nextIs (lowerIs · ch!"b") cs' then ch!"b"
      else ch!"0"
    else 0
  | [] => 0

/-- text/scanner `scanNumber`, from the exponent on: `pre` is `prefix`, `mant` the digits of the mantissa, `dot` tells that there was a dot, `cs` starts at
the exponent, `text` is what of the token comes before. -/
def exponentDiags (base pre : Nat) (mant : List Ch) (dot : Bool) (text cs : List Ch) : List Diag :=
  let isE := nextIs (lowerIs · ch!"e") cs
  let isP := nextIs (lowerIs · ch!"p") cs
  let ds := if isE || isP then digitsTaken 10 (if nextIs (fun r => r == ch!"+" || r == ch!"-") cs.tail then cs.tail.tail else cs.tail) else []
  (if isE || isP then
    (if isE && pre != 0 && pre != ch!"0" then [.exponent] else if isP && pre != ch!"x" then [.exponent] else []) ++
      (if hasDigit ds then [] else [.exponentDigits])
  else if pre == ch!"x" && dot then [.hexExponent] else []) ++
  (if !dot && !(isE || isP) && badDigit base mant then [.digit] else []) ++
  (if (mant ++ ds).any (fun c => c.r == ch!"_") && invalidSep ((text ++ consumed cs (numExponent cs).2).map Ch.r) then [.separator] else [])

/-- text/scanner `scanNumber(ch, seenDot)`: what it prints; `cs` starts at `ch`; `lead` is the dot, if it has been seen -/
def numDiags (lead cs : List Ch) (seenDot : Bool) : List Diag :=
  let pre := if seenDot then 0 else numLetter cs
  let base := if seenDot then 10 else (numPrefix cs).1
  let c1 := if seenDot then cs else (numPrefix cs).2
  let int := if seenDot then [] else digitsTaken base c1
  let c2 := if seenDot then cs else digits base c1
  let dot := seenDot || nextIs (· == ch!".") c2
  let c3 := if seenDot then cs else if dot then c2.tail else c2
  let frac := if dot then digitsTaken base c3 else []
  let c4 := if dot then digits base c3 else c3
  (if dot && (pre == ch!"o" || pre == ch!"b") then [.radix] else []) ++
  (if pre == ch!"0" || hasDigit (int ++ frac) then [] else [.noDigits]) ++
  exponentDiags base pre (int ++ frac) dot (lead ++ consumed cs c4) c4

/-- text/scanner `scanDigits(ch, base, n)`: what it prints -/
def scanDigitsDiags (base : Nat) : Nat → List Ch → List Diag
  | 0, _ => []
  | n + 1, cs => if nextIs (digitLt base) cs then scanDigitsDiags base n cs.tail else [.escape]

/-- text/scanner `scanEscape('"')`: what it prints -/
def scanEscapeDiags (cs : List Ch) : List Diag :=
  match cs with
  | [] => [.escape]
  | c :: cs' =>
    if (bs!"abfnrtv\\\"").contains c.r then []
    else if 48 ≤ c.r && c.r ≤ 55 then scanDigitsDiags 8 3 cs
    else if c.r = ch!"x" then scanDigitsDiags 16 2 cs'
    else if c.r = ch!"u" then scanDigitsDiags 16 4 cs'
    else if c.r = ch!"U" then scanDigitsDiags 16 8 cs'
    else [.escape]

/-- text/scanner `scanString('"')`: what it prints (the first argument is a bound, as in `scanStringN`) -/
def scanStringDiags : Nat → List Ch → List Diag
  | _, [] => [.notTerminated]
  | 0, _ => []
  | n + 1, c :: cs =>
    if c.r = ch!"\"" then []
    else if c.r = ch!"\n" then [.notTerminated]
    else if c.r = ch!"\\" then scanEscapeDiags cs ++ scanStringDiags n (scanEscape cs)
    else scanStringDiags n cs

/-- text/scanner `Scan`, as `scanRest`: what it prints about the token that begins at `c` -/
def restDiags (U : Nat → Bool) (c : Ch) (cs : List Ch) : List Diag :=
  if isLetter U c.r then []
  else if isDecimal c.r then numDiags [] (c :: cs) false
  else if c.r = ch!"\"" then scanStringDiags cs.length cs
  else if c.r = ch!"." then
    if nextIs isDecimal cs then numDiags [c] cs true else []
  else []

/-- What is printed: about characters, and about tokens. -/
structure Log where
  chars : List Diag
  toks : List Diag
deriving DecidableEq, Repr

instance : Append Log := ⟨fun a b => ⟨a.chars ++ b.chars, a.toks ++ b.toks⟩⟩

/-- text/scanner `Scan`: what it prints.  It reads the characters up to and including the one after the token; the first one of `s` has been read
before. -/
def rawLog (U : Nat → Bool) (ws : Nat → Bool) (s : SS) : Log :=
  ⟨(consumed s.rest.tail (rawScan U ws s).2.rest.tail).flatMap charDiag,
    match s.rest.dropWhile fun c => ws c.r with
    | [] => []
    | c :: cs => restDiags U c cs⟩

/-- A result and what was printed. -/
def LRes (α : Type) : Type := Log × Res α

namespace LRes
/-- this result, and this printed -/
def of {α : Type} (l : Log) (r : Res α) : LRes α := (l, r)
/-- returns -/
def ok {α : Type} (a : α) : LRes α := (⟨[], []⟩, .ok a)
/-- panics -/
def panic {α : Type} (p : Panic) : LRes α := (⟨[], []⟩, .panic p)
/-- out of fuel -/
def fuel {α : Type} : LRes α := (⟨[], []⟩, .fuel)
/-- one after the other -/
protected def bind {α β : Type} (x : LRes α) (f : α → LRes β) : LRes β :=
  match x.2 with
  | .ok a => (x.1 ++ (f a).1, (f a).2)
  | .panic p => (x.1, .panic p)
  | .fuel => (x.1, .fuel)
/-- prints and then -/
def log {α : Type} (l : Log) (x : LRes α) : LRes α := (l ++ x.1, x.2)
end LRes
instance : Bind LRes := ⟨LRes.bind⟩

/-- scanner.go:174-194 `scanComment`, with what is printed -/
def scanCommentL (U : Nat → Bool) : Nat → SS → GoString → LRes (GoString × SS)
  | 0, _, _ => .fuel
  | n + 1, s, acc =>
    let (t, s') := rawScan U (fun _ => false) s
    .log (rawLog U (fun _ => false) s) <|
      if t.cls = .rune 13 then scanCommentL U n s' acc
      else if t.cls = .rune 10 ∨ t.cls = .eof then .ok (acc, s')
      else scanCommentL U n s' (acc ++ t.text)

/-- scanner.go:51-153 `scan` (with `next`, `scanMacro`, `scanComment`), with what is printed: after the first call of `Scan` there is a
second one behind a backslash, and there are those of `scanComment` behind a percent sign. -/
def scanL (U : Nat → Bool) (s : SS) : LRes (Token × SS) :=
  let (t, s') := rawScan U isWs s
  .log (rawLog U isWs s) <|
    match t.cls with
    | .rune r =>
      if r = ch!"\\" then .of (rawLog U isWs s') (scan U s)
      else if r = ch!"%" then
        scanCommentL U (s'.rest.length + 1) s' bs!"%" >>= fun x => .ok (⟨.comment, t.pos, x.1⟩, x.2)
      else .of ⟨[], []⟩ (scan U s)
    | _ => .of ⟨[], []⟩ (scan U s)

/-- parser.go:58-63 `next`, parser.go:65-70 `expect`: reads a token, which must have the
one-character text `v`. -/
def expectL (U : Nat → Bool) (v : Nat) (s : SS) : LRes (Token × SS) :=
  scanL U s >>= fun r =>
    if r.1.text = [v] then .ok r else .panic (.expected v)

/-- The loop `for p.s.Next() { if stop {break}; node := p.parseNodeL(tok); if node == nil
{continue}; list = append(list, node) }`, which occurs in `parse` (parser.go:46-53, never
stopping), `parseMathExpr` (147-160), `parseMacroArg` (194-207), `parseOptMacroArg`
(222-235), `parseSup`/`parseSub` (251-263, 281-293) and `parseMathLbrace` (323-335).
Result: the nodes, the position of the token that stopped the loop (0 if the input ended
first, the zero value of the Go fields), and the scanner state. -/
abbrev LoopL := Mode → (Token → Bool) → SS → LRes (List Node × Nat × SS)

/-- parser.go:189-209 `parseMacroArg` -/
def parseMacroArgL (U : Nat → Bool) (loop : LoopL) (m : Mode) (s : SS) : LRes (Node × SS) :=
  expectL U ch!"{" s >>= fun r =>
    loop m (fun t => t.kind == .rbrace) r.2 >>= fun x =>
      .ok (.arg r.1.pos x.1 x.2.1, x.2.2)

/-- parser.go:211-237 `parseOptMacroArg`: no argument unless the very next character is `[`. -/
def parseOptMacroArgL (U : Nat → Bool) (loop : LoopL) (m : Mode) (s : SS) :
    LRes (List Node × SS) :=
  if s.peek ≠ some ch!"[" then .ok ([], s)
  else
    expectL U ch!"[" s >>= fun r =>
      loop m (fun t => t.kind == .rbrack) r.2 >>= fun x =>
        .ok ([.optArg r.1.pos x.1 x.2.1], x.2.2)

/-- macros.go:349-358, the loop over the signature (lower-cased by `strings.ToLower`);
`v` (parser.go:239-240) and other letters consume nothing. -/
def parseArgsL (U : Nat → Bool) (loop : LoopL) (m : Mode) : GoString → SS → LRes (List Node × SS)
  | [], s => .ok ([], s)
  | c :: sig, s =>
    if c = ch!"A" ∨ c = ch!"a" then
      parseMacroArgL U loop m s >>= fun r =>
        parseArgsL U loop m sig r.2 >>= fun q => .ok (r.1 :: q.1, q.2)
    else if c = ch!"O" ∨ c = ch!"o" then
      parseOptMacroArgL U loop m s >>= fun r =>
        parseArgsL U loop m sig r.2 >>= fun q => .ok (r.1 ++ q.1, q.2)
    else parseArgsL U loop m sig s

mutual

/-- parser.go:72-120 `parseNode`, with `parseMathExpr` (122-163, reached only with `$`),
`parseMacro` (165-173), `builtinMacro.parseMacro` (macros.go:341-361), `parseWord`,
`parseNumber`, `parseSymbol` (175-187, 302-307), `parseSup`/`parseSub` (242-300) and
`parseMathLbrace` (309-337, reached only with `{`).  `p.state` is the argument `m`: it is
set to math by `parseMathExpr` and restored on return.  The first argument is fuel. -/
def parseNodeL (U : Nat → Bool) : Nat → Mode → Token → SS → LRes (Node × SS)
  | 0, _, _, _ => .fuel
  | n + 1, m, tok, s =>
    match tok.kind with
    | .comment => .ok (.nil, s)
    | .macro =>
      match macroLookup tok.text with
      | none => .panic (.unknownMacro tok.text)
      | some none => .panic .nilMacro
      | some (some sig) =>
        parseArgsL U (parseLoopL U n) m sig s >>= fun r =>
          .ok (.macro (some (tok.pos, tok.text)) r.1, r.2)
    | .word => .ok (.word tok.pos tok.text, s)
    | .number => .ok (.lit tok.pos tok.text, s)
    | .symbol =>
      if tok.text = bs!"$" then
        parseLoopL U n .math (fun t => t.text == bs!"$") s >>= fun x =>
          .ok (.math tok.text tok.pos x.1 x.2.1, x.2.2)
      else if tok.text = bs!"^" then
        if s.peek = some ch!"{" then
          expectL U ch!"{" s >>= fun r =>
            parseLoopL U n m (fun t => t.kind == .rbrace) r.2 >>= fun x =>
              .ok (.sup tok.pos (.list x.1), x.2.2)
        else
          scanL U s >>= fun r =>
            parseNodeL U n m r.1 r.2 >>= fun x => .ok (.sup tok.pos x.1, x.2)
      else if tok.text = bs!"_" then
        if s.peek = some ch!"{" then
          expectL U ch!"{" s >>= fun r =>
            parseLoopL U n m (fun t => t.kind == .rbrace) r.2 >>= fun x =>
              .ok (.sub tok.pos (.list x.1), x.2.2)
        else
          scanL U s >>= fun r =>
            parseNodeL U n m r.1 r.2 >>= fun x => .ok (.sub tok.pos x.1, x.2)
      else .ok (.sym tok.pos tok.text, s)
    | .lbrace =>
      match m with
      | .math =>
        parseLoopL U n m (fun t => t.kind == .rbrace) s >>= fun x => .ok (.list x.1, x.2.2)
      | .normal => .panic .lbraceNotImplemented
    | .other => .panic .otherNotImplemented
    | .space =>
      match m with
      | .math => .ok (.nil, s)
      | .normal => .ok (.sym tok.pos tok.text, s)
    | .lparen => .ok (.sym tok.pos tok.text, s)
    | .rparen => .ok (.sym tok.pos tok.text, s)
    | .lbrack => .ok (.sym tok.pos tok.text, s)
    | .rbrack => .ok (.sym tok.pos tok.text, s)
    | _ => .panic .impossible

/-- See `Loop`. -/
def parseLoopL (U : Nat → Bool) : Nat → Mode → (Token → Bool) → SS → LRes (List Node × Nat × SS)
  | 0, _, _, _ => .fuel
  | n + 1, m, stop, s =>
    scanL U s >>= fun r =>
      if r.1.kind = .eof then .ok ([], 0, r.2)
      else if stop r.1 then .ok ([], r.1.pos, r.2)
      else
        parseNodeL U n m r.1 r.2 >>= fun x =>
          parseLoopL U n m stop x.2 >>= fun y =>
            .ok (if x.1.isNil then y.1 else x.1 :: y.1, y.2)
end

/-- parser.go:16-19 `ParseExpr` (with `newParser`, `parse`, parser.go:35-56), with explicit
fuel.  The error result is always nil and is not represented. -/
def parseExprNL (U : Nat → Bool) (fuel : Nat) (x : GoString) : LRes Node :=
  parseLoopL U fuel .normal (fun _ => false) (SS.init x) >>= fun r => .ok (.list r.1)

/-- `ParseExpr` with enough fuel for every input (C01); the first call of `Scan` reads the first character (a byte order mark is skipped; nothing is
printed about it). -/
def parseExprL (U : Nat → Bool) (x : GoString) : LRes Node :=
  .log ⟨((SS.init x).rest.take 1).flatMap charDiag, []⟩ (parseExprNL U (2 * x.length + 2) x)

end Verif
