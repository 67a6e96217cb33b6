import Verif.Model.Heap
import Verif.Model.Mtex
/-! # mtex/parser.go with objects

The same lines as in Model/Mtex.lean, with the boxes as objects on a heap (Model/Heap.lean): the handlers
return addresses, the visitor collects addresses, and `Shrink`, `HPack`, `VPack` and `SetShift` change
the objects. -/

namespace Verif
variable {F : Type} [GoFloat F]
open GoFloat

/-- mtex/parser.go:510-517 `makeSpace` -/
def hMakeSpace (be : Backend F) (st : TState F) (percentage : F) : HM F Ref :=
  let fnt : Font F := { st.font with name := bs!"it", typ := mathDefault }
  if be.known bs!"m" fnt st.dpi true then hNewKern ((be.metrics bs!"m" fnt st.dpi true).advance * percentage)
  else .lift (.panic (.other "Metrics"))

/-- mtex/parser.go:184-240 `handleSymbol` -/
def hHandleSymbol (be : Backend F) (x : GoString) (pos : Nat) (sym : GoString) (st : TState F) (math : Bool) : HM F Ref :=
  (hNewChar be sym st math).bind fun ch =>
    if isSpaced sym then
      let prev := prevChar (x.take pos)
      if setHas (newSet symBinaryOperators) sym && (prev == bs!"{" || setHas (newSet symLeftDelim) prev) then .ret ch
      else
        (hMakeSpace be st (ofRat 2 10)).bind fun k1 => (hMakeSpace be st (ofRat 2 10)).bind fun k2 =>
          hHListOf be [k1, ch, k2] true
    else if setHas (newSet symPunctuationSymbols) sym then
      if sym = bs!"." then
        if dotInNumber x (indexDot (x.drop pos)) then .ret ch
        else (hMakeSpace be st (ofRat 2 10)).bind fun k => hHListOf be [ch, k] true
      else .lift (.panic (.other "not implemented"))
    else .ret ch

/-- mtex/parser.go:258-276 `handleSpace` -/
def hHandleSpace (be : Backend F) (name : GoString) (st : TState F) : HM F Ref :=
  match spaceWidth.lookup name with
  | some w => hMakeSpace be st (ofRat w.1 w.2)
  | none => .lift (.panic (.other "could not find a width"))

/-- `for _, c := range s { append(nodes, NewChar(string(c), state, math)) }` -/
def hNewChars (be : Backend F) (st : TState F) (math : Bool) : List Ch → HM F (List Ref)
  | [] => .ret []
  | c :: l => (hNewChar be (runeStr c) st math).bind fun ch => (hNewChars be st math l).bind fun r => .ret (ch :: r)

/-- mtex/parser.go:98-103 -/
def hLiteralChars (be : Backend F) (x : GoString) (st : TState F) (math : Bool) : List Ch → HM F (List Ref)
  | [] => .ret []
  | c :: l => (hHandleSymbol be x 0 (runeStr c) st math).bind fun n => (hLiteralChars be x st math l).bind fun r =>
      .ret (n :: r)

/-- mtex/parser.go:288-297 `handleFunction` -/
def hHandleFunction (be : Backend F) (name : GoString) (st : TState F) (math : Bool) : HM F Ref :=
  (hNewChars be (st.withType bs!"rm") math (decode (name.drop 1))).bind fun l => hHListOf be l true

/-- mtex/parser.go:519-547 `autoSizedDelimiter`, for one node in the middle and delimiters other than "." (all its calls
are such) -/
def hAutoSizedDelimiter (be : Backend F) (left : GoString) (middle : Ref) (right : GoString) (st : TState F) : HM F Ref :=
  (hGet middle).bind fun m =>
    let q := maxDims [m.shell]
    (hAutoHeightChar be left q.1 q.2 st zero).bind fun l => (hAutoHeightChar be right q.1 q.2 st zero).bind fun r =>
      hHListOf be [l, middle, r] true

/-- mtex/parser.go:359-402 `genfrac`; `delims` as in Model/Mtex.lean. -/
def hGenfrac (be : Backend F) (delims : Bool) (rule : F) (display : Bool) (num den : Ref) (st : TState F) : HM F Ref :=
  let thickness := be.underline st.font st.dpi
  (if display then HM.ret () else (hShrink be num).bind fun _ => hShrink be den).bind fun _ =>
  (hHCentered be [num]).bind fun cnum => (hHCentered be [den]).bind fun cden =>
  (hGet num).bind fun n => (hGet den).bind fun d =>
  let width := GoFloat.max n.shell.width d.shell.width
  (hHPack cnum width false).bind fun _ => (hHPack cden width false).bind fun _ =>
  (hVBox zero (thickness * ofInt 2)).bind fun sp1 => (hHRule be st rule).bind fun rl => (hVBox zero (thickness * ofInt 2)).bind fun sp2 =>
  (hVListOf [cnum, sp1, rl, sp2, cden]).bind fun vlist =>
    let fnt := (st.withType mathDefault).font
    if be.known bs!"=" fnt st.dpi true then
      let m := be.metrics bs!"=" fnt st.dpi true
      (hGet cden).bind fun cd =>
      let shift := cd.shell.height - ((m.ymax + m.ymin) / ofInt 2 - ofInt 3 * thickness)
      (hSetShift vlist shift).bind fun _ => (hHBox (ofInt 2 * thickness)).bind fun hb =>
      (hHListOf be [vlist, hb] true).bind fun box =>
      if delims then hAutoSizedDelimiter be bs!"(" box bs!")" st else .ret box
    else .lift (.panic (.other "Metrics"))

/-- `Shift()` (box.go:573) of what is stored in an object -/
def Cell.shift : Cell F → F
  | .list _ hd _ => hd.shift
  | _ => zero

/-- mtex/parser.go:427-436 and 494-501: a rule above a body, stretched to a height -/
def hRuled (be : Backend F) (st : TState F) (body : Ref) (height depth : F) : HM F Ref :=
  (hHRule be st (ofInt (-1))).bind fun rl => (hNewGlue bs!"fill").bind fun g =>
  (hVListOf [rl, g, body]).bind fun rhs =>
  (hVPack rhs (height + (st.font.size * st.dpi) / ofInt 1200) false depth).bind fun _ => .ret rhs

/-- mtex/parser.go:429-481 `handleSqrt`, after the arguments have been built -/
def hBuildSqrt (be : Backend F) (root : Option Ref) (body : Ref) (st : TState F) : HM F Ref :=
  let thickness := be.underline st.font st.dpi
  (hGet body).bind fun b =>
  let height := b.shell.height - b.shift + ofInt 5 * thickness
  let depth := b.shell.depth + b.shift
  (hAutoHeightChar be bs!"\\__sqrt__" height depth st zero).bind fun check =>
  (hGet check).bind fun c =>
  let height := c.shell.height - c.shift
  let depth := c.shell.depth + c.shift
  (hHBox (ofInt 2 * thickness)).bind fun b1 => (hHBox (ofInt 2 * thickness)).bind fun b2 =>
  (hHListOf be [b1, body, b2] true).bind fun padded =>
  (hRuled be st padded height depth).bind fun rhs =>
  (match root with
    | none => hHBox (c.shell.width * ofRat 5 10)
    | some r => (hShrink be r).bind fun _ => (hShrink be r).bind fun _ => .ret r).bind fun root' =>
  (hHListOf be [root'] true).bind fun r1 => (hVListOf [r1]).bind fun vl =>
  (hSetShift vl (-height * ofRat 6 10)).bind fun _ =>
  (hNewKern (-c.shell.width * ofRat 5 10)).bind fun k =>
  hHListOf be [vl, k, check, rhs] true

/-- mtex/parser.go:483-508 `handleOverline`, after the argument has been built -/
def hBuildOverline (be : Backend F) (body : Ref) (st : TState F) : HM F Ref :=
  let thickness := be.underline st.font st.dpi
  (hGet body).bind fun b =>
  let height := b.shell.height - b.shift + ofInt 3 * thickness
  let depth := b.shell.depth + b.shift
  (hHListOf be [body] true).bind fun hl => (hRuled be st hl height depth).bind fun rhs => hHListOf be [rhs] true

/-- `h.Handle(p, node, state, math)`; see `handle` of Model/Mtex.lean. -/
def hHandle (be : Backend F) (num : GoString → Option F) (x : GoString) (hn : TState F → Bool → List Node → HM F Ref)
    (h : Hk) (n : Node) (st : TState F) (math : Bool) : HM F Ref :=
  let frac (n : Node) (delims : Bool) (rule : F) (display : Bool) : HM F Ref :=
    match n with
    | .macro _ (.arg _ l1 _ :: .arg _ l2 _ :: _) =>
      (hn st math l1).bind fun a => (hn st math l2).bind fun b => hGenfrac be delims rule display a b st
    | _ => .lift (.panic (.other "frac arguments"))
  match h with
  | .symbol =>
    match n with
    | .macro (some (pos, name)) _ => hHandleSymbol be x pos name st math
    | .sym pos t => hHandleSymbol be x pos t st math
    | .word pos t => hHandleSymbol be x pos t st math
    | .lit pos t => hHandleSymbol be x pos t st math
    | _ => .lift (.panic (.other "invalid ast Node"))
  | .space =>
    match n with
    | .sym _ t => hHandleSpace be t st
    | .macro (some (_, name)) _ => hHandleSpace be name st
    | _ => .lift (.panic (.other "invalid ast node"))
  | .hspace =>
    match n with
    | .macro _ (.arg _ (.lit _ t :: _) _ :: _) =>
      match num t with
      | some v => hMakeSpace be st v
      | none => .lift (.panic (.other "could not parse customspace"))
    | _ => .lift (.panic (.other "customspace argument"))
  | .function =>
    match n with
    | .macro (some (_, name)) _ => hHandleFunction be name st math
    | _ => .lift (.panic (.other "interface conversion"))
  | .frac => frac n false (be.underline st.font st.dpi) false
  | .dfrac => frac n false (be.underline st.font st.dpi) true
  | .tfrac => frac n false (be.underline st.font st.dpi) false
  | .binom => frac n true zero false
  | .sqrt =>
    match n with
    | .macro _ [.optArg _ l1 _, .arg _ l2 _] =>
      (hn st math l1).bind fun a => (hn st math l2).bind fun b => hBuildSqrt be (some a) b st
    | .macro _ [.arg _ l2 _] => (hn st math l2).bind fun b => hBuildSqrt be none b st
    | _ => .lift (.panic (.other "invalid sqrt"))
  | .overline =>
    match n with
    | .macro _ (.arg _ l2 _ :: _) => (hn st math l2).bind fun b => hBuildOverline be b st
    | _ => .lift (.panic (.other "overline argument"))

/-- mtex/parser.go:65-70 `visitor` -/
structure HVSt (F : Type) where
  nodes : List Ref
  st : TState F
  math : Bool

/-- `append(v.nodes, ...)` -/
def HVSt.push (v : HVSt F) (l : List Ref) : HVSt F := { v with nodes := v.nodes ++ l }

/-- The state of a walk: the visitor and the objects. -/
abbrev VH (F : Type) := HVSt F × Heap F

/-- Run a computation; the visitor becomes what `f` makes of the result. -/
def withH {α : Type} (m : HM F α) (q : VH F) (f : α → Option Unit × HVSt F) : Res (Option Unit × VH F) :=
  m q.2 >>= fun r => .ok ((f r.1).1, ((f r.1).2, r.2))

/-- mtex/parser.go:111-113 -/
def hVisitEach (visit : Visit Unit (VH F)) : List Node → VH F → Res (VH F)
  | [], v => .ok v
  | n :: l, v => visit () n v >>= fun r => hVisitEach visit l r.2

/-- mtex/parser.go:133-137 `handleNode` for a list -/
def hHandleNode (be : Backend F) (visit : Visit Unit (VH F)) (st : TState F) (math : Bool) (l : List Node) : HM F Ref := fun h =>
  walk visit () (.list l) (⟨[], st, math⟩, h) >>= fun v => hHListOf be v.1.nodes true v.2

/-- mtex/parser.go:72-131 `(*visitor).Visit` -/
def hVisit (be : Backend F) (num : GoString → Option F) (x : GoString) : Nat → Visit Unit (VH F)
  | 0 => fun _ _ _ => .fuel
  | fuel + 1 => fun _ n q =>
    let v := q.1
    match n with
    | .list _ => .ok (some (), q)
    | .sym _ t =>
      if v.math then
        match handlerOf t with
        | none => .panic (.other "no handler for symbol")
        | some h => withH (hHandle be num x (hHandleNode be (hVisit be num x fuel)) h n v.st v.math) q fun y =>
            (some (), v.push [y])
      else withH (hNewChar be t v.st v.math) q fun c => (some (), v.push [c])
    | .word _ t => withH ((hNewChars be v.st v.math (decode t)).bind fun l => hHListOf be l true) q fun y => (some (), v.push [y])
    | .lit _ t => withH (hLiteralChars be x v.st v.math (decode t)) q fun l => (some (), v.push l)
    | .math _ _ l _ =>
      hVisitEach (hVisit be num x fuel) l ({ v with math := true, st := v.st.withType mathDefault }, q.2) >>= fun q1 =>
        .ok (none, ({ q1.1 with math := v.math, st := q1.1.st.withType v.st.font.typ }, q1.2))
    | .macro none _ => .panic (.other "macro with nil identifier")
    | .macro (some (_, name)) _ =>
      match handlerOf name with
      | none => .panic (.other "unknown macro")
      | some h => withH (hHandle be num x (hHandleNode be (hVisit be num x fuel)) h n v.st v.math) q fun y =>
          (none, v.push [y])
    | .nil => .ok (some (), q)
    | .arg _ _ _ => .panic (.other "unknown ast node")
    | .optArg _ _ _ => .panic (.other "unknown ast node")
    | .ident _ _ => .panic (.other "unknown ast node")
    | .sub _ _ => .panic (.other "unknown ast node")
    | .sup _ _ => .panic (.other "unknown ast node")

/-- mtex/parser.go:23-26, 45-63 `Parse` and `parse`: the address of the box -/
def hParse (U : Nat → Bool) (be : Backend F) (num : GoString → Option F) (x : GoString) (size dpi : F) : HM F Ref := fun h =>
  parseExpr U x >>= fun n =>
    walk (hVisit be num x (nodeDepth n + 1)) () n (⟨[], initState size dpi, false⟩, h) >>= fun v =>
      hHListOf be v.1.nodes true v.2

end Verif
