import Verif.Model.Box
/-! # Shipping boxes: tex/box.go:959-1170 -/

namespace Verif
variable {F : Type} [GoFloat F]
open GoFloat

/-- A call of a drawing method of the backend (font/font.go:17-21). -/
inductive Draw (F : Type) where
  /-- `RenderGlyph(x, y, font, symbol, dpi)` -/
  | glyph (x y : F) (font : Font F) (sym : GoString) (dpi : F)
  /-- `RenderRectFilled(x1, y1, x2, y2)` -/
  | rect (x1 y1 x2 y2 : F)
deriving DecidableEq, Repr

/-- box.go:965-976 `Ship` without the offset, which does not change during a call, and with the
drawing calls made so far. -/
structure ShipSt (F : Type) where
  maxPush : Int
  s : Int
  v : F
  h : F
  ops : List (Draw F)

/-- box.go:973-975 `off` -/
structure Off (F : Type) where
  h : F
  v : F

/-- utils.go:7-12 `maxInt` -/
def maxInt (a b : Int) : Int := if a > b then a else b

/-- utils.go:14-26 `clamp` -/
def clamp (v : F) : F :=
  if lt v (ofInt (-1000000000)) then ofInt (-1000000000)
  else if lt (ofInt 1000000000) v then ofInt 1000000000
  else v

/-- box.go:251-253 `(*Char).Render` -/
def CharD.render (c : CharD F) (x y : F) : Draw F := .glyph x y c.font c.c c.dpi

/-- box.go:318-326 `(*Accent).Render` -/
def CharD.renderAccent (c : CharD F) (x y : F) : Draw F :=
  .glyph (x - c.metrics.xmin) (y + c.metrics.ymin) c.font c.c c.dpi

/-- box.go:707-709 `(*Rule).render` -/
def renderRule (x y w h : F) : Draw F := .rect x y (x + w) (y + h)

/-- The variables `curG`, `curGlue` of `hlistOut` and `vlistOut`. -/
structure GlueSt (F : Type) where
  g : Int
  glue : F

/-- `var curG int; var curGlue float64` -/
def GlueSt.zero : GlueSt F := ⟨0, GoFloat.zero⟩

/-- box.go:1034-1050 and 1124-1139: the width of a glue and the new `curG`, `curGlue`. -/
def glueStep (hd : LHead F) (g : GlueD F) (q : GlueSt F) : F × GlueSt F :=
  let w := g.width - ofInt q.g
  let q' : GlueSt F :=
    if hd.sign ≠ 0 then
      if hd.sign = 1 then
        if g.stretchOrder = hd.order then
          ⟨round (clamp (hd.set * (q.glue + g.stretch))), q.glue + g.stretch⟩
        else q
      else if g.shrinkOrder = hd.order then
        ⟨round (clamp (hd.set * (q.glue + g.shrink))), q.glue + g.shrink⟩
      else q
    else q
  (w + ofInt q'.g, q')

/-- box.go:997-998, 1089-1090: entering a list -/
def ShipSt.push (st : ShipSt F) : ShipSt F := { st with s := st.s + 1, maxPush := maxInt (st.s + 1) st.maxPush }
/-- box.go:1077, 1169: leaving a list -/
def ShipSt.pop (st : ShipSt F) : ShipSt F := { st with s := st.s - 1 }

mutual
/-- One iteration of the loop of `hlistOut` (box.go:1000-1076) in a list with header `hd`, the
baseline being at `base`.  Returns the state, the node as left by the call (`vlistOut` changes
nodes) and the glue variables. -/
def hNode (o : Off F) (hd : LHead F) (base : F) : TNode F → GlueSt F → ShipSt F →
    Res (ShipSt F × TNode F × GlueSt F)
  | .char c, q, st =>
    .ok ({ st with h := st.h + c.width, ops := st.ops ++ [c.render (st.h + o.h) (st.v + o.v)] }, .char c, q)
  | .accent c, q, st =>
    .ok ({ st with h := st.h + c.width, ops := st.ops ++ [c.renderAccent (st.h + o.h) (st.v + o.v)] }, .accent c, q)
  | .kern k, q, st => .ok ({ st with h := st.h + k.width }, .kern k, q)
  | .list .h nd cs, q, st =>
    if cs.isEmpty then .ok ({ st with h := st.h + nd.box.width }, .list .h nd cs, q)
    else
      hLoop o nd (base + nd.shift) cs .zero { st with v := base + nd.shift }.push >>= fun (st', cs') =>
        .ok ({ st'.pop with h := st.h + nd.box.width, v := base }, .list .h nd cs', q)
  | .list .v nd cs, q, st =>
    if cs.isEmpty then .ok ({ st with h := st.h + nd.box.width }, .list .v nd cs, q)
    else
      vLoop o nd st.h cs .zero { st with v := base + nd.shift - nd.box.height }.push >>= fun (st', cs') =>
        .ok ({ st'.pop with h := st.h + nd.box.width, v := base }, .list .v nd cs', q)
  | .glue g, q, st =>
    let r := glueStep hd g q
    .ok ({ st with h := st.h + r.1 }, .glue g, r.2)
  | .box b, q, st =>
    let rh := if isInf b.height then hd.box.height else b.height
    if pos rh && pos b.width then .panic (.other "interface conversion: missing method render")
    else .ok ({ st with h := st.h + b.width }, .box b, q)
  | .list .plain nd cs, q, st =>
    let rh := if isInf nd.box.height then hd.box.height else nd.box.height
    if pos rh && pos nd.box.width then .panic (.other "interface conversion: missing method render")
    else .ok ({ st with h := st.h + nd.box.width }, .list .plain nd cs, q)
  | .rule b, q, st =>
    let rh := if isInf b.height then hd.box.height else b.height
    let rd := if isInf b.depth then hd.box.depth else b.depth
    if pos rh && pos b.width then
      .ok ({ st with v := base, h := st.h + b.width,
                     ops := st.ops ++ [renderRule (st.h + o.h) (base + rd + o.v) b.width rh] }, .rule b, q)
    else .ok ({ st with h := st.h + b.width }, .rule b, q)
/-- The loop of `hlistOut` (box.go:1000-1076). -/
def hLoop (o : Off F) (hd : LHead F) (base : F) : List (TNode F) → GlueSt F → ShipSt F →
    Res (ShipSt F × List (TNode F))
  | [], _, st => .ok (st, [])
  | n :: l, q, st =>
    hNode o hd base n q st >>= fun (st, n', q) => hLoop o hd base l q st >>= fun (st, l') => .ok (st, n' :: l')
/-- One iteration of the loop of `vlistOut` (box.go:1093-1168) in a list with header `hd`, the
left edge being at `left`. -/
def vNode (o : Off F) (hd : LHead F) (left : F) : TNode F → GlueSt F → ShipSt F →
    Res (ShipSt F × TNode F × GlueSt F)
  | .kern k, q, st => .ok ({ st with v := st.v + k.width }, .kern k, q)
  | .list .h nd cs, q, st =>
    if cs.isEmpty then .ok ({ st with v := st.v + (nd.box.height + nd.box.depth) }, .list .h nd cs, q)
    else
      let nd' : LHead F := { nd with box := { nd.box with width := hd.box.width } }
      let st1 : ShipSt F := { st with v := st.v + nd.box.height, h := left + nd.shift }
      hLoop o nd' st1.v cs .zero st1.push >>= fun (st', cs') =>
        .ok ({ st'.pop with v := st1.v + nd.box.depth, h := left }, .list .h nd' cs', q)
  | .list .v nd cs, q, st =>
    if cs.isEmpty then .ok ({ st with v := st.v + (nd.box.height + nd.box.depth) }, .list .v nd cs, q)
    else
      let nd' : LHead F := { nd with box := { nd.box with width := hd.box.width } }
      let st1 : ShipSt F := { st with v := st.v + nd.box.height, h := left + nd.shift }
      vLoop o nd' st1.h cs .zero { st1 with v := st1.v - nd.box.height }.push >>= fun (st', cs') =>
        .ok ({ st'.pop with v := st1.v + nd.box.depth, h := left }, .list .v nd' cs', q)
  | .glue g, q, st =>
    let r := glueStep hd g q
    .ok ({ st with v := st.v + r.1 }, .glue g, r.2)
  | .char _, _, _ => .panic (.other "tex: Char node found in vlist")
  | .accent _, _, _ => .panic (.other "tex: Accent node found in vlist")
  | .box b, q, st =>
    if pos (b.height + b.depth) && pos b.depth then
      .ok ({ st with v := st.v + (b.height + b.depth) }, .box b, q)
    else .ok (st, .box b, q)
  | .list .plain nd cs, q, st =>
    if pos (nd.box.height + nd.box.depth) && pos nd.box.depth then
      .ok ({ st with v := st.v + (nd.box.height + nd.box.depth) }, .list .plain nd cs, q)
    else .ok (st, .list .plain nd cs, q)
  | .rule b, q, st =>
    let rw := if isInf b.width then hd.box.width else b.width
    if pos (b.height + b.depth) && pos b.depth then
      .ok ({ st with v := st.v + (b.height + b.depth),
                     ops := st.ops ++ [renderRule (st.h + o.h) (st.v + (b.height + b.depth) + o.v) rw
                       (b.height + b.depth)] }, .rule b, q)
    else .ok (st, .rule b, q)
/-- The loop of `vlistOut` (box.go:1093-1168). -/
def vLoop (o : Off F) (hd : LHead F) (left : F) : List (TNode F) → GlueSt F → ShipSt F →
    Res (ShipSt F × List (TNode F))
  | [], _, st => .ok (st, [])
  | n :: l, q, st =>
    vNode o hd left n q st >>= fun (st, n', q) => vLoop o hd left l q st >>= fun (st, l') => .ok (st, n' :: l')
end

/-- box.go:978-986 `(*Ship).Call` and 988-998, 1077 (`hlistOut` on the root, of whatever list
type).  Returns the final state and the children of the root as left by the call. -/
def shipCall (ox oy : F) (hd : LHead F) (cs : List (TNode F)) : Res (ShipSt F × List (TNode F)) :=
  hLoop ⟨ox, oy + hd.box.height⟩ hd zero cs .zero (ShipSt.push ⟨0, 0, zero, zero, []⟩) >>= fun (st, cs') =>
    .ok (st.pop, cs')

end Verif
