import Verif.Model.Ttf
import Verif.Model.Mtex
/-! # mtex.Parse and mtex.Render with the TrueType backend

`Verif/Model/Mtex.lean` asks a backend that is a function.  The TrueType backend has a memory: it
answers and remembers.  This is the same code (the same lines of tex/box.go and mtex/parser.go) with
the state of that backend passed along.  Lemmas/Run.lean shows that each run gives what the
functional model gives for some backend.

`Shrink` is called on boxes without accents only (mtex builds none), so it makes no call to the
backend. -/

namespace Verif
variable {F H : Type} [GoFloat F]
open GoFloat

/-- A computation that uses a TrueType backend. -/
abbrev TM (F H α : Type) := TtfSt F H → Res (α × TtfSt F H)

namespace TM
/-- A computation that asks nothing. -/
def ret {α : Type} (a : α) : TM F H α := fun s => .ok (a, s)
/-- A computation that asks nothing and may panic. -/
def lift {α : Type} (r : Res α) : TM F H α := fun s => r >>= fun a => .ok (a, s)
/-- One after the other. -/
def bind {α β : Type} (m : TM F H α) (f : α → TM F H β) : TM F H β := fun s => m s >>= fun q => f q.1 q.2
end TM

/-- A call of `Metrics` -/
def TtfEnv.metricsT (e : TtfEnv H) (c : GoString) (f : Font F) (d : F) (m : Bool) : TM F H (Metrics F) := fun s =>
  match e.metrics c f d m s with
  | (.ok r, s') => .ok (r, s')
  | (.panic _, _) => .panic (.other "Metrics")
  | (.fuel, _) => .fuel

/-- A call of `Kern` -/
def TtfEnv.kernT (e : TtfEnv H) (f1 : Font F) (c1 : GoString) (f2 : Font F) (c2 : GoString) (d : F) : TM F H F := fun s =>
  match e.kern f1 c1 f2 c2 d s with
  | (.ok r, s') => .ok (r, s')
  | (.panic p, _) => .panic p
  | (.fuel, _) => .fuel

/-- A backend for the functions that ask for the thickness of lines only. -/
def lineBackend : Backend F where
  kern _ _ _ _ _ := zero
  metrics _ _ _ _ := ⟨zero, zero, zero, zero, zero, zero, zero, zero⟩
  known _ _ _ _ := false
  xheight _ _ := none
  underline := ttfUnderline

/-- box.go:204-217 `(*Char).updateMetrics`, given the metrics -/
def CharD.withMetrics (c : CharD F) (m : Metrics F) : CharD F :=
  { c with metrics := m, width := if c.c = bs!" " then m.advance else m.width,
           height := m.iceberg, depth := -(m.iceberg - m.height) }

/-- box.go:192-202 `NewChar` -/
def newCharT (e : TtfEnv H) (c : GoString) (st : TState F) (math : Bool) : TM F H (CharD F) :=
  (e.metricsT c st.font st.dpi math).bind fun m => .ret ((rawChar c st math).withMetrics m)

/-- box.go:221-231 `(*Char).Kerning` -/
def CharD.kerningT (e : TtfEnv H) (c : CharD F) (next : Option (TNode F)) : TM F H F :=
  let adv := c.metrics.advance - c.width
  match next with
  | some (.char n) => (e.kernT c.font c.c n.font n.c c.dpi).bind fun k => .ret (adv + k)
  | some (.accent n) => (e.kernT c.font c.c n.font n.c c.dpi).bind fun k => .ret (adv + k)
  | _ => .ret (adv + zero)

/-- `Kerning(next)` of any node -/
def TNode.kerningT (e : TtfEnv H) : TNode F → Option (TNode F) → TM F H F
  | .char c, next => c.kerningT e next
  | .accent c, next => c.kerningT e next
  | _, _ => .ret zero

/-- box.go:480-506 `kern` -/
def insertKernsT (e : TtfEnv H) : List (TNode F) → TM F H (List (TNode F))
  | [] => .ret []
  | n :: l =>
    (n.kerningT e l.head?).bind fun dist => (insertKernsT e l).bind fun r =>
      .ret (if !eq dist zero then n :: newKern dist :: r else n :: r)

/-- `HListOf(nodes, true)` (box.go:461-474) by header and children -/
def hbodyT (e : TtfEnv H) (l : List (TNode F)) : TM F H (LHead F × List (TNode F)) :=
  (insertKernsT e l).bind fun cs => .ret (hpack LHead.zero cs zero true, cs)

/-- `HListOf(nodes, true)` -/
def hlistOfT (e : TtfEnv H) (l : List (TNode F)) : TM F H (TNode F) :=
  (hbodyT e l).bind fun q => .ret (.list .h q.1 q.2)

/-- mtex/parser.go:510-517 `makeSpace` -/
def makeSpaceT (e : TtfEnv H) (st : TState F) (percentage : F) : TM F H (TNode F) :=
  (e.metricsT bs!"m" { st.font with name := bs!"it", typ := mathDefault } st.dpi true).bind fun m =>
    .ret (newKern (m.advance * percentage))

/-- mtex/parser.go:184-240 `handleSymbol` -/
def handleSymbolT (e : TtfEnv H) (x : GoString) (pos : Nat) (sym : GoString) (st : TState F) (math : Bool) :
    TM F H (TNode F) :=
  (newCharT e sym st math).bind fun ch =>
    if isSpaced sym then
      let prev := prevChar (x.take pos)
      if setHas (newSet symBinaryOperators) sym && (prev == bs!"{" || setHas (newSet symLeftDelim) prev) then
        .ret (.char ch)
      else
        (makeSpaceT e st (ofRat 2 10)).bind fun k1 => (makeSpaceT e st (ofRat 2 10)).bind fun k2 =>
          hlistOfT e [k1, .char ch, k2]
    else if setHas (newSet symPunctuationSymbols) sym then
      if sym = bs!"." then
        if dotInNumber x (indexDot (x.drop pos)) then .ret (.char ch)
        else (makeSpaceT e st (ofRat 2 10)).bind fun k => hlistOfT e [.char ch, k]
      else .lift (.panic (.other "not implemented"))
    else .ret (.char ch)

/-- mtex/parser.go:258-276 `handleSpace` -/
def handleSpaceT (e : TtfEnv H) (name : GoString) (st : TState F) : TM F H (TNode F) :=
  match spaceWidth.lookup name with
  | some w => makeSpaceT e st (ofRat w.1 w.2)
  | none => .lift (.panic (.other "could not find a width"))

/-- `for _, c := range s { append(nodes, NewChar(string(c), state, math)) }` -/
def newCharsT (e : TtfEnv H) (st : TState F) (math : Bool) : List Ch → TM F H (List (TNode F))
  | [] => .ret []
  | c :: l => (newCharT e (runeStr c) st math).bind fun ch => (newCharsT e st math l).bind fun r => .ret (.char ch :: r)

/-- mtex/parser.go:98-103 -/
def literalCharsT (e : TtfEnv H) (x : GoString) (st : TState F) (math : Bool) : List Ch → TM F H (List (TNode F))
  | [] => .ret []
  | c :: l => (handleSymbolT e x 0 (runeStr c) st math).bind fun n => (literalCharsT e x st math l).bind fun r =>
      .ret (n :: r)

/-- mtex/parser.go:288-297 `handleFunction` -/
def handleFunctionT (e : TtfEnv H) (name : GoString) (st : TState F) (math : Bool) : TM F H (TNode F) :=
  (newCharsT e (st.withType bs!"rm") math (decode (name.drop 1))).bind fun l => hlistOfT e l

/-- ttf.go:176-192 `XHeight`: it panics if there is no font of the type (the face then holds a nil pointer), or no face.  The
number it answers is not modelled: its one user, `AutoHeightChar`, does nothing with it. -/
def TtfEnv.xheightOk (e : TtfEnv H) (f : Font F) : Bool :=
  match e.fonts.get f.typ with
  | none => false
  | some ft => e.lib.newFace ft

/-- box.go:915-957 `AutoHeightChar`, after the x-height has been asked for -/
def autoHeightBodyT (e : TtfEnv H) (c : GoString) (height depth : F) (st : TState F) (factor : F) : TM F H (TNode F) :=
  (newCharT e c st true).bind fun ch =>
    let target := height + depth
    if st.font.name ≠ [] then
      let factor := if eq factor zero then target / (ch.height + ch.depth) else factor
      (newCharT e c { st with font := { st.font with size := st.font.size * factor } } true).bind fun ch' =>
        (hbodyT e [.char ch']).bind fun q => .ret (.list .h { q.1 with shift := depth - ch'.depth } q.2)
    else (hbodyT e [.char ch]).bind fun q => .ret (.list .h { q.1 with shift := zero } q.2)

/-- box.go:915-957 `AutoHeightChar` -/
def autoHeightCharT (e : TtfEnv H) (c : GoString) (height depth : F) (st : TState F) (factor : F) : TM F H (TNode F) :=
  if e.xheightOk st.font then autoHeightBodyT e c height depth st factor else TM.lift (.panic (.other "XHeight"))

/-- mtex/parser.go:519-547 `autoSizedDelimiter` -/
def autoSizedDelimiterT (e : TtfEnv H) (left : GoString) (middle : List (TNode F)) (right : GoString) (st : TState F) :
    TM F H (TNode F) :=
  let q := maxDims middle
  (autoHeightCharT e left q.1 q.2 st zero).bind fun l => (autoHeightCharT e right q.1 q.2 st zero).bind fun r =>
    hlistOfT e (l :: middle ++ [r])

/-- mtex/parser.go:359-402 `genfrac` -/
def genfracT (e : TtfEnv H) (delims : Bool) (rule : F) (display : Bool) (num den : TNode F) (st : TState F) :
    TM F H (TNode F) :=
  let thickness := ttfUnderline st.font st.dpi
  let num := if display then num else num.shrink lineBackend
  let den := if display then den else den.shrink lineBackend
  let width := GoFloat.max num.width den.width
  let cnum := centredTo num width
  let cden := centredTo den width
  let sp : TNode F := vbox zero (thickness * ofInt 2)
  let cs : List (TNode F) := [.list .h cnum.1 cnum.2, sp, hrule lineBackend st rule, sp, .list .h cden.1 cden.2]
  (TM.lift (vpack LHead.zero cs zero true inf)).bind fun hd =>
    (e.metricsT bs!"=" (st.withType mathDefault).font st.dpi true).bind fun m =>
      let shift := cden.1.box.height - ((m.ymax + m.ymin) / ofInt 2 - ofInt 3 * thickness)
      (hlistOfT e [.list .v (hd.setShift shift) cs, hbox (ofInt 2 * thickness)]).bind fun box =>
        if delims then autoSizedDelimiterT e bs!"(" [box] bs!")" st else .ret box

/-- mtex/parser.go:404-481 `handleSqrt`, after the arguments have been built -/
def buildSqrtT (e : TtfEnv H) (root : Option (TNode F)) (bodyHd : LHead F) (bodyCs : List (TNode F)) (st : TState F) :
    TM F H (TNode F) :=
  let thickness := ttfUnderline st.font st.dpi
  let height := bodyHd.box.height - bodyHd.shift + ofInt 5 * thickness
  let depth := bodyHd.box.depth + bodyHd.shift
  (autoHeightCharT e bs!"\\__sqrt__" height depth st zero).bind fun check =>
    let checkShift := match check with | .list _ hd _ => hd.shift | _ => zero
    let height := check.height - checkShift
    let depth := check.depth + checkShift
    (hlistOfT e [hbox (ofInt 2 * thickness), .list .h bodyHd bodyCs, hbox (ofInt 2 * thickness)]).bind fun padded =>
      (TM.lift (ruled lineBackend st padded height depth)).bind fun rhs =>
        let root' : TNode F := match root with
          | none => hbox (check.width * ofRat 5 10)
          | some r => (r.shrink lineBackend).shrink lineBackend
        (hlistOfT e [root']).bind fun r1 =>
          (TM.lift (vpack LHead.zero [r1] zero true inf)).bind fun hd =>
            let vl : TNode F := .list .v (hd.setShift (-height * ofRat 6 10)) [r1]
            hlistOfT e [vl, newKern (-check.width * ofRat 5 10), check, rhs]

/-- mtex/parser.go:483-508 `handleOverline`, after the argument has been built -/
def buildOverlineT (e : TtfEnv H) (bodyHd : LHead F) (bodyCs : List (TNode F)) (st : TState F) : TM F H (TNode F) :=
  let thickness := ttfUnderline st.font st.dpi
  let height := bodyHd.box.height - bodyHd.shift + ofInt 3 * thickness
  let depth := bodyHd.box.depth + bodyHd.shift
  (hlistOfT e [.list .h bodyHd bodyCs]).bind fun b =>
    (TM.lift (ruled lineBackend st b height depth)).bind fun rhs => hlistOfT e [rhs]

/-- `h.Handle(p, node, state, math)`; see `handle` of Model/Mtex.lean. -/
def handleT (e : TtfEnv H) (num : GoString → Option F) (x : GoString)
    (hn : TState F → Bool → List Node → TM F H (LHead F × List (TNode F)))
    (h : Hk) (n : Node) (st : TState F) (math : Bool) : TM F H (TNode F) :=
  let frac (n : Node) (delims : Bool) (rule : F) (display : Bool) : TM F H (TNode F) :=
    match n with
    | .macro _ (.arg _ l1 _ :: .arg _ l2 _ :: _) =>
      (hn st math l1).bind fun a => (hn st math l2).bind fun b =>
        genfracT e delims rule display (.list .h a.1 a.2) (.list .h b.1 b.2) st
    | _ => .lift (.panic (.other "frac arguments"))
  match h with
  | .symbol =>
    match n with
    | .macro (some (pos, name)) _ => handleSymbolT e x pos name st math
    | .sym pos t => handleSymbolT e x pos t st math
    | .word pos t => handleSymbolT e x pos t st math
    | .lit pos t => handleSymbolT e x pos t st math
    | _ => .lift (.panic (.other "invalid ast Node"))
  | .space =>
    match n with
    | .sym _ t => handleSpaceT e t st
    | .macro (some (_, name)) _ => handleSpaceT e name st
    | _ => .lift (.panic (.other "invalid ast node"))
  | .hspace =>
    match n with
    | .macro _ (.arg _ (.lit _ t :: _) _ :: _) =>
      match num t with
      | some v => makeSpaceT e st v
      | none => .lift (.panic (.other "could not parse customspace"))
    | _ => .lift (.panic (.other "customspace argument"))
  | .function =>
    match n with
    | .macro (some (_, name)) _ => handleFunctionT e name st math
    | _ => .lift (.panic (.other "interface conversion"))
  | .frac => frac n false (ttfUnderline st.font st.dpi) false
  | .dfrac => frac n false (ttfUnderline st.font st.dpi) true
  | .tfrac => frac n false (ttfUnderline st.font st.dpi) false
  | .binom => frac n true zero false
  | .sqrt =>
    match n with
    | .macro _ [.optArg _ l1 _, .arg _ l2 _] =>
      (hn st math l1).bind fun a => (hn st math l2).bind fun b =>
        buildSqrtT e (some (.list .h a.1 a.2)) b.1 b.2 st
    | .macro _ [.arg _ l2 _] => (hn st math l2).bind fun b => buildSqrtT e none b.1 b.2 st
    | _ => .lift (.panic (.other "invalid sqrt"))
  | .overline =>
    match n with
    | .macro _ (.arg _ l2 _ :: _) => (hn st math l2).bind fun b => buildOverlineT e b.1 b.2 st
    | _ => .lift (.panic (.other "overline argument"))

/-- The state of a walk: the visitor and the backend. -/
abbrev VT (F H : Type) := VSt F × TtfSt F H

/-- Run a computation with the backend of the walk; the visitor becomes what `f` makes of the result. -/
def withT {α : Type} (m : TM F H α) (q : VT F H) (f : α → Option Unit × VSt F) : Res (Option Unit × VT F H) :=
  m q.2 >>= fun r => .ok ((f r.1).1, ((f r.1).2, r.2))

/-- mtex/parser.go:111-113 -/
def visitEachT (visit : Visit Unit (VT F H)) : List Node → VT F H → Res (VT F H)
  | [], v => .ok v
  | n :: l, v => visit () n v >>= fun r => visitEachT visit l r.2

/-- mtex/parser.go:133-137 `handleNode` for a list -/
def handleNodeT (e : TtfEnv H) (visit : Visit Unit (VT F H)) (st : TState F) (math : Bool) (l : List Node) :
    TM F H (LHead F × List (TNode F)) := fun s =>
  walk visit () (.list l) (⟨[], st, math⟩, s) >>= fun v => hbodyT e v.1.nodes v.2

/-- mtex/parser.go:72-131 `(*visitor).Visit` -/
def mtexVisitT (e : TtfEnv H) (num : GoString → Option F) (x : GoString) : Nat → Visit Unit (VT F H)
  | 0 => fun _ _ _ => .fuel
  | fuel + 1 => fun _ n q =>
    let v := q.1
    match n with
    | .list _ => .ok (some (), q)
    | .sym _ t =>
      if v.math then
        match handlerOf t with
        | none => .panic (.other "no handler for symbol")
        | some h => withT (handleT e num x (handleNodeT e (mtexVisitT e num x fuel)) h n v.st v.math) q fun y =>
            (some (), v.push [y])
      else withT (newCharT e t v.st v.math) q fun c => (some (), v.push [.char c])
    | .word _ t => withT ((newCharsT e v.st v.math (decode t)).bind fun l => hlistOfT e l) q fun y => (some (), v.push [y])
    | .lit _ t => withT (literalCharsT e x v.st v.math (decode t)) q fun l => (some (), v.push l)
    | .math _ _ l _ =>
      visitEachT (mtexVisitT e num x fuel) l ({ v with math := true, st := v.st.withType mathDefault }, q.2) >>= fun q1 =>
        .ok (none, ({ q1.1 with math := v.math, st := q1.1.st.withType v.st.font.typ }, q1.2))
    | .macro none _ => .panic (.other "macro with nil identifier")
    | .macro (some (_, name)) _ =>
      match handlerOf name with
      | none => .panic (.other "unknown macro")
      | some h => withT (handleT e num x (handleNodeT e (mtexVisitT e num x fuel)) h n v.st v.math) q fun y =>
          (none, v.push [y])
    | .nil => .ok (some (), q)
    | .arg _ _ _ => .panic (.other "unknown ast node")
    | .optArg _ _ _ => .panic (.other "unknown ast node")
    | .ident _ _ => .panic (.other "unknown ast node")
    | .sub _ _ => .panic (.other "unknown ast node")
    | .sup _ _ => .panic (.other "unknown ast node")

/-- mtex/parser.go:23-26, 45-63 `Parse` and `parse` -/
def mtexParseT (U : Nat → Bool) (e : TtfEnv H) (num : GoString → Option F) (x : GoString) (size dpi : F) :
    TM F H (LHead F × List (TNode F)) := fun s =>
  parseExpr U x >>= fun n =>
    walk (mtexVisitT e num x (nodeDepth n + 1)) () n (⟨[], initState size dpi, false⟩, s) >>= fun v =>
      hbodyT e v.1.nodes v.2

/-- A drawing call made by `Ship` on the backend. -/
def Draw.run (e : TtfEnv H) (d : Draw F) : TM F H Unit := fun s =>
  match d with
  | .glyph x y f c dpi =>
    match e.renderGlyph x y f c dpi s with
    | (.ok (), s') => .ok ((), s')
    | (.panic p, _) => .panic p
    | (.fuel, _) => .fuel
  | .rect x1 y1 x2 y2 => .ok ((), s.renderRect x1 y1 x2 y2)

/-- The drawing calls, one after the other. -/
def runDraws (e : TtfEnv H) : List (Draw F) → TM F H Unit
  | [] => .ret ()
  | d :: l => (d.run e).bind fun _ => runDraws e l

/-- A call of the `Render` method of the renderer. -/
structure RenderCall (F H : Type) where
  w : F
  h : F
  dpi : F
  ops : List (COp F H)

/-- mtex/render.go:21-50 `Render`: the call made on the renderer, whose answer is the answer of
`Render` up to wrapping: `Parse` returns no error.  `Ship.Call` is run first and the calls it makes
on the backend afterwards: its course does not depend on them, but for a panic. -/
def renderT (U : Nat → Bool) (e : TtfEnv H) (num : GoString → Option F) (x : GoString) (size dpi : F) :
    Res (RenderCall F H) :=
  mtexParseT U e num x size (ofInt 72) .new >>= fun q =>
    shipCall zero zero q.1.1 q.1.2 >>= fun sh =>
      runDraws e sh.1.ops q.2 >>= fun r =>
        .ok ⟨q.1.1.box.width / ofInt 72, ceil (q.1.1.box.height + GoFloat.max q.1.1.box.depth zero) / ofInt 72, dpi,
          r.2.canvas.ops⟩

/-- mtex/render.go:21-50 `Render` on a renderer that answers (`none` is a nil error; the wrapping of
errors is left out) and whose calls change the world `W`.  A panic may be recovered from: the world
is returned in any case. -/
def mtexRender {E W : Type} (U : Nat → Bool) (e : TtfEnv H) (num : GoString → Option F) (x : GoString) (size dpi : F)
    (dst : RenderCall F H → W → Option E × W) (w : W) : Res (Option E) × W :=
  match renderT U e num x size dpi with
  | .ok c => (.ok (dst c w).1, (dst c w).2)
  | .panic p => (.panic p, w)
  | .fuel => (.fuel, w)

end Verif
