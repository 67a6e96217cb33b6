import Verif.Model.Heap
import Verif.Model.Ship
/-! # Shipping boxes that are objects: tex/box.go:959-1170

`Ship` reads the objects while it goes along, and `vlistOut` writes the width of a list in a vertical list
into the object. -/

namespace Verif
variable {F : Type} [GoFloat F]
open GoFloat

/-- The fields of a list object; `GlueOrder`, `GlueSign`, `GlueSet`, `Height`, `Depth`, `Width` and `shift` read
from it. -/
def Cell.head : Cell F → LHead F
  | .list _ hd _ => hd
  | _ => LHead.zero

/-- Read the header of the list at `box`, with the `glueOrder` and `glueSign` that `hlistOut` and `vlistOut` have read
at their beginning (box.go:992-993, 1085-1086). -/
def hHead (box : Ref) (order : Fin 4) (sign : Int) : HM F (LHead F) :=
  (hGet box).bind fun b => .ret { b.head with order := order, sign := sign }

/-- One iteration of the loop of `hlistOut` (box.go:1000-1076) for the node at `r`; `outH`, `outV` are the recursive
calls. -/
def hhStep (o : Off F) (outH outV : Ref → ShipSt F → HM F (ShipSt F)) (box : Ref) (order : Fin 4) (sign : Int) (base : F) (r : Ref)
    (q : GlueSt F) (st : ShipSt F) : HM F (ShipSt F × GlueSt F) :=
  (hGet r).bind fun n =>
    match n with
    | .char c => .ret ({ st with h := st.h + c.width, ops := st.ops ++ [c.render (st.h + o.h) (st.v + o.v)] }, q)
    | .accent c => .ret ({ st with h := st.h + c.width, ops := st.ops ++ [c.renderAccent (st.h + o.h) (st.v + o.v)] }, q)
    | .kern k => .ret ({ st with h := st.h + k.width }, q)
    | .list .h nd cs =>
      if cs.isEmpty then .ret ({ st with h := st.h + nd.box.width }, q)
      else
        (outH r { st with v := base + nd.shift }).bind fun st' => (hGet r).bind fun n' =>
          .ret ({ st' with h := st.h + n'.head.box.width, v := base }, q)
    | .list .v nd cs =>
      if cs.isEmpty then .ret ({ st with h := st.h + nd.box.width }, q)
      else
        (outV r { st with v := base + nd.shift }).bind fun st' => (hGet r).bind fun n' =>
          .ret ({ st' with h := st.h + n'.head.box.width, v := base }, q)
    | .glue g => (hHead box order sign).bind fun hd => .ret ({ st with h := st.h + (glueStep hd g q).1 }, (glueStep hd g q).2)
    | .box b =>
      (hHead box order sign).bind fun hd =>
        let rh := if isInf b.height then hd.box.height else b.height
        if pos rh && pos b.width then .lift (.panic (.other "interface conversion: missing method render"))
        else .ret ({ st with h := st.h + b.width }, q)
    | .list .plain nd _ =>
      (hHead box order sign).bind fun hd =>
        let rh := if isInf nd.box.height then hd.box.height else nd.box.height
        if pos rh && pos nd.box.width then .lift (.panic (.other "interface conversion: missing method render"))
        else .ret ({ st with h := st.h + nd.box.width }, q)
    | .rule b =>
      (hHead box order sign).bind fun hd =>
        let rh := if isInf b.height then hd.box.height else b.height
        let rd := if isInf b.depth then hd.box.depth else b.depth
        if pos rh && pos b.width then
          .ret ({ st with v := base, h := st.h + b.width,
                          ops := st.ops ++ [renderRule (st.h + o.h) (base + rd + o.v) b.width rh] }, q)
        else .ret ({ st with h := st.h + b.width }, q)

/-- One iteration of the loop of `vlistOut` (box.go:1093-1168) for the node at `r`. -/
def hvStep (o : Off F) (outH outV : Ref → ShipSt F → HM F (ShipSt F)) (box : Ref) (order : Fin 4) (sign : Int) (left : F) (r : Ref)
    (q : GlueSt F) (st : ShipSt F) : HM F (ShipSt F × GlueSt F) :=
  (hGet r).bind fun n =>
    match n with
    | .kern k => .ret ({ st with v := st.v + k.width }, q)
    | .list .h nd cs =>
      if cs.isEmpty then .ret ({ st with v := st.v + (nd.box.height + nd.box.depth) }, q)
      else
        (hHead box order sign).bind fun hd =>
        (hSet r (.list .h { nd with box := { nd.box with width := hd.box.width } } cs)).bind fun _ =>
        (outH r { st with v := st.v + nd.box.height, h := left + nd.shift }).bind fun st' => (hGet r).bind fun n' =>
          .ret ({ st' with v := (st.v + nd.box.height) + n'.head.box.depth, h := left }, q)
    | .list .v nd cs =>
      if cs.isEmpty then .ret ({ st with v := st.v + (nd.box.height + nd.box.depth) }, q)
      else
        (hHead box order sign).bind fun hd =>
        (hSet r (.list .v { nd with box := { nd.box with width := hd.box.width } } cs)).bind fun _ =>
        (outV r { st with v := st.v + nd.box.height, h := left + nd.shift }).bind fun st' => (hGet r).bind fun n' =>
          .ret ({ st' with v := (st.v + nd.box.height) + n'.head.box.depth, h := left }, q)
    | .glue g => (hHead box order sign).bind fun hd => .ret ({ st with v := st.v + (glueStep hd g q).1 }, (glueStep hd g q).2)
    | .char _ => .lift (.panic (.other "tex: Char node found in vlist"))
    | .accent _ => .lift (.panic (.other "tex: Accent node found in vlist"))
    | .box b =>
      if pos (b.height + b.depth) && pos b.depth then .ret ({ st with v := st.v + (b.height + b.depth) }, q) else .ret (st, q)
    | .list .plain nd _ =>
      if pos (nd.box.height + nd.box.depth) && pos nd.box.depth then
        .ret ({ st with v := st.v + (nd.box.height + nd.box.depth) }, q)
      else .ret (st, q)
    | .rule b =>
      (hHead box order sign).bind fun hd =>
        let rw := if isInf b.width then hd.box.width else b.width
        if pos (b.height + b.depth) && pos b.depth then
          .ret ({ st with v := st.v + (b.height + b.depth),
                          ops := st.ops ++ [renderRule (st.h + o.h) (st.v + (b.height + b.depth) + o.v) rw (b.height + b.depth)] }, q)
        else .ret (st, q)

/-- The loops: the glue variables and the state go from node to node. -/
def hShipLoop (step : Ref → GlueSt F → ShipSt F → HM F (ShipSt F × GlueSt F)) : List Ref → GlueSt F → ShipSt F → HM F (ShipSt F)
  | [], _, st => .ret st
  | r :: rs, q, st => (step r q st).bind fun p => hShipLoop step rs p.2 p.1

mutual
/-- box.go:988-1078 `hlistOut`; the first argument bounds the nesting, as for `hwalk`. -/
def hHOut (o : Off F) : Nat → Ref → ShipSt F → HM F (ShipSt F)
  | 0, _, _ => .lift .fuel
  | n + 1, box, st =>
    (hGet box).bind fun b =>
      (hShipLoop (hhStep o (hHOut o n) (hVOut o n) box b.head.order b.head.sign st.v) b.refs .zero st.push).bind fun st' => .ret st'.pop
/-- box.go:1080-1170 `vlistOut` -/
def hVOut (o : Off F) : Nat → Ref → ShipSt F → HM F (ShipSt F)
  | 0, _, _ => .lift .fuel
  | n + 1, box, st =>
    (hGet box).bind fun b =>
      (hShipLoop (hvStep o (hHOut o n) (hVOut o n) box b.head.order b.head.sign st.h) b.refs .zero
        { st with v := st.v - b.head.box.height }.push).bind fun st' => .ret st'.pop
end

/-- box.go:978-986 `(*Ship).Call`: the drawing calls are in the state returned. -/
def hShip (ox oy : F) (box : Ref) : HM F (ShipSt F) := fun h =>
  ((hGet box).bind fun b => hHOut ⟨ox, oy + b.head.box.height⟩ h.length box ⟨0, 0, zero, zero, []⟩) h

end Verif
