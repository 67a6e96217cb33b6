import Verif.Model.Ship
import Verif.Model.Symbols
import Verif.Model.Parser
/-! # mtex/parser.go: from syntax trees to boxes

Parameters: the backend `be`; `num`, the value of `strconv.ParseFloat(s, 64)` (`none` for an
error); `x`, the source text (`parser.expr`). `UnderlineThickness` of the backend is taken to return (it does
in the repository). -/

namespace Verif
variable {F : Type} [GoFloat F]
open GoFloat

/-- mtex/parser.go:242-256 `spaceWidth` -/
def spaceWidth : List (GoString × (Int × Nat)) := [
  (bs!"\\,", (16667, 100000)),
  (bs!"\\thinspace", (16667, 100000)),
  (bs!"\\/", (16667, 100000)),
  (bs!"\\>", (22222, 100000)),
  (bs!"\\:", (22222, 100000)),
  (bs!"\\;", (27778, 100000)),
  (bs!"\\ ", (33333, 100000)),
  (bs!"~", (33333, 100000)),
  (bs!"\\enspace", (5, 10)),
  (bs!"\\quad", (1, 1)),
  (bs!"\\qquad", (2, 1)),
  (bs!"\\!", (-16667, 100000))]

/-- The handler functions that `handler` can return. -/
inductive Hk where
  | space | symbol | hspace | function | frac | dfrac | tfrac | binom | sqrt | overline
deriving DecidableEq, Repr

/-- mtex/parser.go:175-182 `init`: whether `p.macros` has the key. -/
def hasMacro (name : GoString) : Bool :=
  (tex2uni.any fun q => name == bs!"\\" ++ q.1) || (mtexMacros.any fun q => name == q.1)

/-- mtex/parser.go:139-173 `handler`.  `name[1:]` of an empty name would panic; names are never
empty here. -/
def handlerOf (name : GoString) : Option Hk :=
  if (spaceWidth.lookup name).isSome then some .space
  else if isSpaced name || setHas (newSet symPunctuationSymbols) name then some .symbol
  else if name = bs!"\\hspace" then some .hspace
  else if setHas (newSet symFunctionNames) (name.drop 1) then some .function
  else if name = bs!"\\frac" then some .frac
  else if name = bs!"\\dfrac" then some .dfrac
  else if name = bs!"\\tfrac" then some .tfrac
  else if name = bs!"\\binom" then some .binom
  else if name = bs!"\\sqrt" then some .sqrt
  else if name = bs!"\\overline" then some .overline
  else if hasMacro name then some .symbol
  else none

/-- mtex/parser.go:558-565 `rcparams("mathtext.default")` -/
def mathDefault : GoString := bs!"it"

/-- `fnt.Type = t` -/
def TState.withType (st : TState F) (t : GoString) : TState F := { st with font := { st.font with typ := t } }

/-- mtex/parser.go:510-517 `makeSpace` -/
def makeSpace (be : Backend F) (st : TState F) (percentage : F) : Res (TNode F) :=
  let fnt : Font F := { st.font with name := bs!"it", typ := mathDefault }
  if be.known bs!"m" fnt st.dpi true then .ok (newKern ((be.metrics bs!"m" fnt st.dpi true).advance * percentage))
  else .panic (.other "Metrics")

/-- mtex/parser.go:567-573 `isdigit` -/
def isDigitB (b : Nat) : Bool := 48 ≤ b && b ≤ 57

/-- `strings.LastIndexFunc(s, r != ' ')` and `string(s[i])` (mtex/parser.go:201-207), for what it
is used: the last byte that is not a blank, as a one-character string; empty if there is none.
(For a multi-byte rune Go takes its first byte; either way the result is in no table.) -/
def prevChar (s : GoString) : GoString :=
  match s.reverse.dropWhile (· == 32) with
  | [] => []
  | b :: _ => [b]

/-- `strings.Index(s, ".")`; -1 if absent -/
def indexDot : GoString → Int
  | [] => -1
  | b :: s => if b = 46 then 0 else if indexDot s = -1 then -1 else indexDot s + 1

/-- The test of mtex/parser.go:224-226, where `i` is an index into the whole source `x`: -/
def dotInNumber (x : GoString) (i : Int) : Bool :=
  (i > 0 && isDigitB (x.getD (i - 1).toNat 0)) && (i < (x.length : Int) - 1 && isDigitB (x.getD (i + 1).toNat 0))

/-- mtex/parser.go:184-240 `handleSymbol` for a node with position `pos` and text or name `sym`.
`len(strings.Split(s, " ")) == 0` (line 209) is never true. -/
def handleSymbol (be : Backend F) (x : GoString) (pos : Nat) (sym : GoString) (st : TState F) (math : Bool) :
    Res (TNode F) :=
  newChar be sym st math >>= fun ch =>
    if isSpaced sym then
      let prev := prevChar (x.take pos)
      if setHas (newSet symBinaryOperators) sym && (prev == bs!"{" || setHas (newSet symLeftDelim) prev) then
        .ok (.char ch)
      else
        makeSpace be st (ofRat 2 10) >>= fun k1 => makeSpace be st (ofRat 2 10) >>= fun k2 =>
          .ok (hlistOf be [k1, .char ch, k2] true)
    else if setHas (newSet symPunctuationSymbols) sym then
      if sym = bs!"." then
        if dotInNumber x (indexDot (x.drop pos)) then .ok (.char ch)
        else makeSpace be st (ofRat 2 10) >>= fun k => .ok (hlistOf be [.char ch, k] true)
      else .panic (.other "not implemented")
    else .ok (.char ch)

/-- mtex/parser.go:258-276 `handleSpace` -/
def handleSpace (be : Backend F) (name : GoString) (st : TState F) : Res (TNode F) :=
  match spaceWidth.lookup name with
  | some w => makeSpace be st (ofRat w.1 w.2)
  | none => .panic (.other "could not find a width")

/-- `string(c)` for a rune `c` of a `range` over a string: its bytes, or U+FFFD for an invalid
byte. -/
def runeStr (c : Ch) : GoString := if c.r = runeError then [0xEF, 0xBF, 0xBD] else c.b

/-- `for _, c := range s { append(nodes, NewChar(string(c), state, math)) }` -/
def newChars (be : Backend F) (st : TState F) (math : Bool) : List Ch → Res (List (TNode F))
  | [] => .ok []
  | c :: l => newChar be (runeStr c) st math >>= fun ch => newChars be st math l >>= fun r => .ok (.char ch :: r)

/-- mtex/parser.go:98-103: a literal, character by character, each as a literal at position 0 -/
def literalChars (be : Backend F) (x : GoString) (st : TState F) (math : Bool) : List Ch → Res (List (TNode F))
  | [] => .ok []
  | c :: l => handleSymbol be x 0 (runeStr c) st math >>= fun n => literalChars be x st math l >>= fun r => .ok (n :: r)

/-- mtex/parser.go:288-297 `handleFunction` -/
def handleFunction (be : Backend F) (name : GoString) (st : TState F) (math : Bool) : Res (TNode F) :=
  newChars be (st.withType bs!"rm") math (decode (name.drop 1)) >>= fun l => .ok (hlistOf be l true)

/-- The loop of mtex/parser.go:527-530 -/
def maxDims (l : List (TNode F)) : F × F :=
  l.foldl (fun q n => (GoFloat.max q.1 n.height, GoFloat.max q.2 n.depth)) (zero, zero)

/-- mtex/parser.go:519-547 `autoSizedDelimiter`, for a non-empty `middle` and delimiters other
than "." (all its calls are such) -/
def autoSizedDelimiter (be : Backend F) (left : GoString) (middle : List (TNode F)) (right : GoString)
    (st : TState F) : Res (TNode F) :=
  let q := maxDims middle
  autoHeightChar be left q.1 q.2 st zero >>= fun l => autoHeightChar be right q.1 q.2 st zero >>= fun r =>
    .ok (hlistOf be (l :: middle ++ [r]) true)

/-- `HCentered([]Node{n})` followed by `HPack(width, false)` (mtex/parser.go:367-373) -/
def centredTo (n : TNode F) (width : F) : LHead F × List (TNode F) :=
  let cs := [.glue ssGlue, n, .glue ssGlue]
  (hpack (hpack LHead.zero cs zero true) cs width false, cs)

/-- mtex/parser.go:359-402 `genfrac`.  `delims` says whether the delimiters are `(` and `)` or
both empty; no other combination is used. -/
def genfrac (be : Backend F) (delims : Bool) (rule : F) (display : Bool) (num den : TNode F) (st : TState F) :
    Res (TNode F) :=
  let thickness := be.underline st.font st.dpi
  let num := if display then num else num.shrink be
  let den := if display then den else den.shrink be
  let width := GoFloat.max num.width den.width
  let cnum := centredTo num width
  let cden := centredTo den width
  let sp : TNode F := vbox zero (thickness * ofInt 2)
  let cs : List (TNode F) := [.list .h cnum.1 cnum.2, sp, hrule be st rule, sp, .list .h cden.1 cden.2]
  vpack LHead.zero cs zero true inf >>= fun hd =>
    let fnt := (st.withType mathDefault).font
    if be.known bs!"=" fnt st.dpi true then
      let m := be.metrics bs!"=" fnt st.dpi true
      let shift := cden.1.box.height - ((m.ymax + m.ymin) / ofInt 2 - ofInt 3 * thickness)
      let box := hlistOf be [.list .v (hd.setShift shift) cs, hbox (ofInt 2 * thickness)] true
      if delims then autoSizedDelimiter be bs!"(" [box] bs!")" st else .ok box
    else .panic (.other "Metrics")

/-- mtex/parser.go:427-436 and 494-501: a rule above a body, stretched to a height -/
def ruled (be : Backend F) (st : TState F) (body : TNode F) (height depth : F) : Res (TNode F) :=
  newGlue bs!"fill" >>= fun g =>
    let cs : List (TNode F) := [hrule be st (ofInt (-1)), .glue g, body]
    vpack LHead.zero cs zero true inf >>= fun hd =>
      vpack hd cs (height + (st.font.size * st.dpi) / ofInt 1200) false depth >>= fun hd =>
        .ok (.list .v hd cs)

/-- mtex/parser.go:404-481 `handleSqrt`, after the arguments have been built: `root` is the
optional index, `body` the radicand (an `HList`, given by header and children). -/
def buildSqrt (be : Backend F) (root : Option (TNode F)) (bodyHd : LHead F) (bodyCs : List (TNode F))
    (st : TState F) : Res (TNode F) :=
  let thickness := be.underline st.font st.dpi
  let height := bodyHd.box.height - bodyHd.shift + ofInt 5 * thickness
  let depth := bodyHd.box.depth + bodyHd.shift
  autoHeightChar be bs!"\\__sqrt__" height depth st zero >>= fun check =>
    let checkShift := match check with | .list _ hd _ => hd.shift | _ => zero
    let height := check.height - checkShift
    let depth := check.depth + checkShift
    let padded := hlistOf be [hbox (ofInt 2 * thickness), .list .h bodyHd bodyCs, hbox (ofInt 2 * thickness)] true
    ruled be st padded height depth >>= fun rhs =>
      let root' : TNode F := match root with
        | none => hbox (check.width * ofRat 5 10)
        | some r => (r.shrink be).shrink be
      let cs := [hlistOf be [root'] true]
      vpack LHead.zero cs zero true inf >>= fun hd =>
        let vl : TNode F := .list .v (hd.setShift (-height * ofRat 6 10)) cs
        .ok (hlistOf be [vl, newKern (-check.width * ofRat 5 10), check, rhs] true)

/-- mtex/parser.go:483-508 `handleOverline`, after the argument has been built -/
def buildOverline (be : Backend F) (bodyHd : LHead F) (bodyCs : List (TNode F)) (st : TState F) : Res (TNode F) :=
  let thickness := be.underline st.font st.dpi
  let height := bodyHd.box.height - bodyHd.shift + ofInt 3 * thickness
  let depth := bodyHd.box.depth + bodyHd.shift
  ruled be st (hlistOf be [.list .h bodyHd bodyCs] true) height depth >>= fun rhs =>
    .ok (hlistOf be [rhs] true)

/-- `HListOf(nodes, true)` by header and children -/
def hbody (be : Backend F) (l : List (TNode F)) : LHead F × List (TNode F) :=
  (hpack LHead.zero (insertKerns be l) zero true, insertKerns be l)

/-- mtex/parser.go:65-70 `visitor`, the fields that change.  A visitor is used through a pointer:
it is the state of the walk. -/
structure VSt (F : Type) where
  nodes : List (TNode F)
  st : TState F
  math : Bool

/-- `append(v.nodes, n)` -/
def VSt.push (v : VSt F) (l : List (TNode F)) : VSt F := { v with nodes := v.nodes ++ l }

/-- `h.Handle(p, node, state, math)`: handleSymbol (mtex/parser.go:184-198 for the choice of the
text), handleSpace (258-276), handleCustomSpace (278-286), handleFunction (288-297), handleFrac,
handleDFrac, handleTFrac, handleBinom (299-357), handleSqrt (404-428), handleOverline (483-488).
`hn st math l` stands for `p.handleNode(ast.List(l), state, math)`: the `HList` it returns. -/
def handle (be : Backend F) (num : GoString → Option F) (x : GoString)
    (hn : TState F → Bool → List Node → Res (LHead F × List (TNode F)))
    (h : Hk) (n : Node) (st : TState F) (math : Bool) : Res (TNode F) :=
  match h with
  | .symbol =>
    match n with
    | .macro (some (pos, name)) _ => handleSymbol be x pos name st math
    | .sym pos t => handleSymbol be x pos t st math
    | .word pos t => handleSymbol be x pos t st math
    | .lit pos t => handleSymbol be x pos t st math
    | _ => .panic (.other "invalid ast Node")
  | .space =>
    match n with
    | .sym _ t => handleSpace be t st
    | .macro (some (_, name)) _ => handleSpace be name st
    | _ => .panic (.other "invalid ast node")
  | .hspace =>
    match n with
    | .macro _ (.arg _ (.lit _ t :: _) _ :: _) =>
      match num t with
      | some v => makeSpace be st v
      | none => .panic (.other "could not parse customspace")
    | _ => .panic (.other "customspace argument")
  | .function =>
    match n with
    | .macro (some (_, name)) _ => handleFunction be name st math
    | _ => .panic (.other "interface conversion")
  | .frac =>
    match n with
    | .macro _ (.arg _ l1 _ :: .arg _ l2 _ :: _) =>
      hn st math l1 >>= fun a => hn st math l2 >>= fun b =>
        genfrac be false (be.underline st.font st.dpi) false (.list .h a.1 a.2) (.list .h b.1 b.2) st
    | _ => .panic (.other "frac arguments")
  | .dfrac =>
    match n with
    | .macro _ (.arg _ l1 _ :: .arg _ l2 _ :: _) =>
      hn st math l1 >>= fun a => hn st math l2 >>= fun b =>
        genfrac be false (be.underline st.font st.dpi) true (.list .h a.1 a.2) (.list .h b.1 b.2) st
    | _ => .panic (.other "frac arguments")
  | .tfrac =>
    match n with
    | .macro _ (.arg _ l1 _ :: .arg _ l2 _ :: _) =>
      hn st math l1 >>= fun a => hn st math l2 >>= fun b =>
        genfrac be false (be.underline st.font st.dpi) false (.list .h a.1 a.2) (.list .h b.1 b.2) st
    | _ => .panic (.other "frac arguments")
  | .binom =>
    match n with
    | .macro _ (.arg _ l1 _ :: .arg _ l2 _ :: _) =>
      hn st math l1 >>= fun a => hn st math l2 >>= fun b =>
        genfrac be true zero false (.list .h a.1 a.2) (.list .h b.1 b.2) st
    | _ => .panic (.other "frac arguments")
  | .sqrt =>
    match n with
    | .macro _ [.optArg _ l1 _, .arg _ l2 _] =>
      hn st math l1 >>= fun a => hn st math l2 >>= fun b =>
        buildSqrt be (some (.list .h a.1 a.2)) b.1 b.2 st
    | .macro _ [.arg _ l2 _] => hn st math l2 >>= fun b => buildSqrt be none b.1 b.2 st
    | _ => .panic (.other "invalid sqrt")
  | .overline =>
    match n with
    | .macro _ (.arg _ l2 _ :: _) => hn st math l2 >>= fun b => buildOverline be b.1 b.2 st
    | _ => .panic (.other "overline argument")

/-- mtex/parser.go:111-113: `for _, x := range n.List { v.Visit(x) }` -/
def visitEach (visit : Visit Unit (VSt F)) : List Node → VSt F → Res (VSt F)
  | [], v => .ok v
  | n :: l, v => visit () n v >>= fun r => visitEach visit l r.2

/-- mtex/parser.go:133-137 `handleNode` for a list, given the visitor's `Visit` method. -/
def handleNode (be : Backend F) (visit : Visit Unit (VSt F)) (st : TState F) (math : Bool) (l : List Node) :
    Res (LHead F × List (TNode F)) :=
  walk visit () (.list l) ⟨[], st, math⟩ >>= fun v => .ok (hbody be v.nodes)

/-- mtex/parser.go:72-131 `(*visitor).Visit`.  The first argument bounds the nesting of math and
macros; `Parse` provides enough of it. -/
def mtexVisit (be : Backend F) (num : GoString → Option F) (x : GoString) : Nat → Visit Unit (VSt F)
  | 0 => fun _ _ _ => .fuel
  | fuel + 1 => fun _ n v =>
    match n with
    | .list _ => .ok (some (), v)
    | .sym _ t =>
      if v.math then
        match handlerOf t with
        | none => .panic (.other "no handler for symbol")
        | some h =>
          handle be num x (handleNode be (mtexVisit be num x fuel)) h n v.st v.math >>= fun y =>
            .ok (some (), v.push [y])
      else newChar be t v.st v.math >>= fun c => .ok (some (), v.push [.char c])
    | .word _ t => newChars be v.st v.math (decode t) >>= fun l => .ok (some (), v.push [hlistOf be l true])
    | .lit _ t => literalChars be x v.st v.math (decode t) >>= fun l => .ok (some (), v.push l)
    | .math _ _ l _ =>
      visitEach (mtexVisit be num x fuel) l { v with math := true, st := v.st.withType mathDefault } >>= fun v1 =>
        .ok (none, { v1 with math := v.math, st := v1.st.withType v.st.font.typ })
    | .macro none _ => .panic (.other "macro with nil identifier")
    | .macro (some (_, name)) _ =>
      match handlerOf name with
      | none => .panic (.other "unknown macro")
      | some h =>
        handle be num x (handleNode be (mtexVisit be num x fuel)) h n v.st v.math >>= fun y =>
          .ok (none, v.push [y])
    | .nil => .ok (some (), v)
    | .arg _ _ _ => .panic (.other "unknown ast node")
    | .optArg _ _ _ => .panic (.other "unknown ast node")
    | .ident _ _ => .panic (.other "unknown ast node")
    | .sub _ _ => .panic (.other "unknown ast node")
    | .sup _ _ => .panic (.other "unknown ast node")

/-- mtex/parser.go:51-55: the state `Parse` starts with -/
def initState (size dpi : F) : TState F := ⟨⟨bs!"default", bs!"rm", size⟩, dpi⟩

mutual
/-- How deep a syntax tree is: a bound for the nesting of `Visit` calls. -/
def nodeDepth : Node → Nat
  | .list l => nodesDepth l + 1
  | .macro _ l => nodesDepth l + 1
  | .arg _ l _ => nodesDepth l + 1
  | .optArg _ l _ => nodesDepth l + 1
  | .math _ _ l _ => nodesDepth l + 1
  | .sub _ n => nodeDepth n + 1
  | .sup _ n => nodeDepth n + 1
  | _ => 0
/-- The largest depth of several trees. -/
def nodesDepth : List Node → Nat
  | [] => 0
  | n :: l => Nat.max (nodeDepth n) (nodesDepth l)
end

/-- `ast.Walk(&v, node)` for a fresh visitor: the nodes it collects (mtex/parser.go:57-58). -/
def collect (be : Backend F) (num : GoString → Option F) (x : GoString) (st : TState F) (math : Bool) (n : Node) :
    Res (List (TNode F)) :=
  walk (mtexVisit be num x (nodeDepth n + 1)) () n ⟨[], st, math⟩ >>= fun v => .ok v.nodes

/-- mtex/parser.go:23-26, 45-63 `Parse` and `parse`: the resulting `HList`.  The error is nil
whenever it returns, since `ParseExpr` never returns one (C02). -/
def mtexParse (U : Nat → Bool) (be : Backend F) (num : GoString → Option F) (x : GoString) (size dpi : F) :
    Res (LHead F × List (TNode F)) :=
  parseExpr U x >>= fun n => collect be num x (initState size dpi) false n >>= fun l => .ok (hbody be l)

end Verif
