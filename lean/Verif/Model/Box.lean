import Verif.Model.Float
import Verif.Model.Bytes
/-! # The box model: tex/box.go, tex/state.go, tex/utils.go, font/font.go

Nodes are values here and pointers in Go: a node that occurs twice in a tree is, here, two nodes.
Logging (`log.Printf` in `setGlue`) is not modelled.  `SubSuperCluster` (box.go:906-911, never
built anywhere) embeds an `*HList`: it is packed, shrunk and grown as a list but shipped as neither kind of list, so that it behaves as a
plain `*List` does.  Node types made outside the package are not modelled. -/

namespace Verif

/-- font/font.go:9-13 `Font` -/
structure Font (F : Type) where
  name : GoString
  typ : GoString
  size : F
deriving DecidableEq, Repr

/-- font/font.go:38-54 `Metrics` (`Slanted`, which layout does not read, is left out; Model/Ttf has it) -/
structure Metrics (F : Type) where
  advance : F
  height : F
  width : F
  xmin : F
  xmax : F
  ymin : F
  ymax : F
  iceberg : F
deriving DecidableEq, Repr

/-- font/font.go:16-36 `Backend`: the methods that answer questions.  The two drawing methods are
represented by the operations recorded by `Ship` (Model/Ship.lean).  `known c f dpi math = false`
stands for a call of `Metrics` that panics, `xheight f dpi = none` for a call of `XHeight` that does. -/
structure Backend (F : Type) where
  kern : Font F → GoString → Font F → GoString → F → F
  metrics : GoString → Font F → F → Bool → Metrics F
  known : GoString → Font F → F → Bool → Bool
  xheight : Font F → F → Option F
  underline : Font F → F → F

/-- tex/state.go:11-15 `State`, without the backend, which is a parameter of the model. -/
structure TState (F : Type) where
  font : Font F
  dpi : F
deriving DecidableEq, Repr

/-- box.go:100-105 `Box` -/
structure BoxD (F : Type) where
  size : Int
  width : F
  height : F
  depth : F
deriving DecidableEq, Repr

/-- box.go:177-190 `Char` (the backend field is a parameter of the model) -/
structure CharD (F : Type) where
  c : GoString
  size : Int
  width : F
  height : F
  depth : F
  metrics : Metrics F
  font : Font F
  dpi : F
  math : Bool
deriving DecidableEq, Repr

/-- box.go:346-357 `List` without its children; `glue.ratio`, always 0 and never read, is left
out. -/
structure LHead (F : Type) where
  box : BoxD F
  shift : F
  set : F
  sign : Int
  order : Fin 4
deriving DecidableEq, Repr

/-- box.go:751-758 `Glue`.  The orders index arrays of length 4 (`NewGlue` makes 0 to 3 only). -/
structure GlueD (F : Type) where
  size : Int
  width : F
  stretch : F
  stretchOrder : Fin 4
  shrink : F
  shrinkOrder : Fin 4
deriving DecidableEq, Repr

/-- box.go:861-864 `Kern` -/
structure KernD (F : Type) where
  size : Int
  width : F
deriving DecidableEq, Repr

/-- The three list types: `*List`, `*HList`, `*VList`. -/
inductive LKind where
  | plain | h | v
deriving DecidableEq, Repr

/-- box.go:73-97 `Node`: the types that implement it. -/
inductive TNode (F : Type) where
  /-- `*Box` -/
  | box (b : BoxD F)
  /-- `*Char` -/
  | char (c : CharD F)
  /-- `*Accent` (box.go:277-279), a wrapped `Char` -/
  | accent (c : CharD F)
  /-- `*List`, `*HList` (box.go:457-459), `*VList` (box.go:584-586) with its children -/
  | list (k : LKind) (hd : LHead F) (cs : List (TNode F))
  /-- `*Rule` (box.go:688-691) -/
  | rule (b : BoxD F)
  /-- `*Glue` -/
  | glue (g : GlueD F)
  /-- `*Kern` -/
  | kern (k : KernD F)

variable {F : Type} [GoFloat F]
open GoFloat

namespace TNode

/-- `Width()`: box.go:132, 256, 329, 425, 561, 658, 717, 811, 889 -/
def width : TNode F → F
  | .box b | .rule b => b.width
  | .char c | .accent c => c.width
  | .list _ hd _ => hd.box.width
  | .glue g => g.width
  | .kern k => k.width

/-- `Height()`: box.go:135, 259, 332, 428, 564, 661, 720, 814, 892 -/
def height : TNode F → F
  | .box b | .rule b => b.height
  | .char c | .accent c => c.height
  | .list _ hd _ => hd.box.height
  | .glue _ => zero
  | .kern _ => zero

/-- `Depth()`: box.go:138, 262, 335, 431, 567, 664, 723, 817, 895 -/
def depth : TNode F → F
  | .box b | .rule b => b.depth
  | .char c | .accent c => c.depth
  | .list _ hd _ => hd.box.depth
  | .glue _ => zero
  | .kern _ => zero

end TNode

/-- box.go:18 `shrinkFactor` -/
def shrinkFactor : F := ofRat 7 10
/-- box.go:19 `growFactor`, the constant `1.0 / shrinkFactor`, computed exactly by the compiler -/
def growFactor : F := ofRat 10 7
/-- box.go:23 -/
def numSizeLevels : Int := 6

/-- box.go:107-109 `newBox` -/
def newBox (w h d : F) : BoxD F := ⟨0, w, h, d⟩
/-- box.go:159-161 `VBox` -/
def vbox (h d : F) : TNode F := .box (newBox zero h d)
/-- box.go:164-166 `HBox` -/
def hbox (w : F) : TNode F := .box (newBox w zero zero)
/-- box.go:693-698 `NewRule` -/
def newRule (w h d : F) : TNode F := .rule (newBox w h d)
/-- box.go:866-868 `NewKern` -/
def newKern (w : F) : TNode F := .kern ⟨0, w⟩

/-- box.go:113-120 `(*Box).Shrink` -/
def BoxD.shrink (b : BoxD F) : BoxD F :=
  if b.size - 1 < numSizeLevels then
    ⟨b.size - 1, b.width * shrinkFactor, b.height * shrinkFactor, b.depth * shrinkFactor⟩
  else { b with size := b.size - 1 }

/-- box.go:122-127 `(*Box).Grow` -/
def BoxD.grow (b : BoxD F) : BoxD F :=
  ⟨b.size + 1, b.width * growFactor, b.height * growFactor, b.depth * growFactor⟩

/-- box.go:233-241 `(*Char).Shrink` -/
def CharD.shrink (c : CharD F) : CharD F :=
  if c.size - 1 < numSizeLevels then
    { c with size := c.size - 1, font := { c.font with size := c.font.size * shrinkFactor },
             width := c.width * shrinkFactor, height := c.height * shrinkFactor,
             depth := c.depth * shrinkFactor }
  else { c with size := c.size - 1 }

/-- box.go:243-249 `(*Char).Grow` -/
def CharD.grow (c : CharD F) : CharD F :=
  { c with size := c.size + 1, font := { c.font with size := c.font.size * growFactor },
           width := c.width * growFactor, height := c.height * growFactor,
           depth := c.depth * growFactor }

/-- box.go:204-217 `(*Char).updateMetrics` -/
def CharD.updateMetrics (be : Backend F) (c : CharD F) : CharD F :=
  let m := be.metrics c.c c.font c.dpi c.math
  { c with metrics := m, width := if c.c = bs!" " then m.advance else m.width,
           height := m.iceberg, depth := -(m.iceberg - m.height) }

/-- box.go:295-303 `(*Accent).updateMetrics` -/
def CharD.updateAccent (be : Backend F) (c : CharD F) : CharD F :=
  let m := be.metrics c.c c.font c.dpi c.math
  { c with metrics := m, width := m.xmax - m.xmin, height := m.ymax - m.ymin, depth := zero }

/-- A `Char` as built before its metrics are looked up (box.go:193-199, 282-290); the numbers are
Go's zero values. -/
def rawChar (c : GoString) (st : TState F) (math : Bool) : CharD F :=
  ⟨c, 0, zero, zero, zero, ⟨zero, zero, zero, zero, zero, zero, zero, zero⟩, st.font, st.dpi, math⟩

/-- box.go:192-202 `NewChar`; panics if the backend does. -/
def newChar (be : Backend F) (c : GoString) (st : TState F) (math : Bool) : Res (CharD F) :=
  if be.known c st.font st.dpi math then .ok ((rawChar c st math).updateMetrics be)
  else .panic (.other "Metrics")

/-- box.go:281-293 `NewAccent` -/
def newAccent (be : Backend F) (c : GoString) (st : TState F) (math : Bool) : Res (CharD F) :=
  if be.known c st.font st.dpi math then .ok ((rawChar c st math).updateAccent be)
  else .panic (.other "Metrics")

/-- box.go:760-792 `NewGlue`, `newGlue` -/
def newGlue (typ : GoString) : Res (GlueD F) :=
  let g (w st : F) (sto : Fin 4) (sh : F) (sho : Fin 4) : Res (GlueD F) := .ok ⟨0, w, st, sto, sh, sho⟩
  if typ = bs!"fil" then g zero (ofInt 1) 1 zero 0
  else if typ = bs!"fill" then g zero (ofInt 1) 2 zero 0
  else if typ = bs!"filll" then g zero (ofInt 1) 3 zero 0
  else if typ = bs!"neg_fil" then g zero zero 0 (ofInt 1) 1
  else if typ = bs!"neg_fill" then g zero zero 0 (ofInt 1) 2
  else if typ = bs!"neg_filll" then g zero zero 0 (ofInt 1) 3
  else if typ = bs!"empty" then g zero zero 0 zero 0
  else if typ = bs!"ss" then g zero (ofInt 1) 1 (ofInt (-1)) 1
  else .panic (.other "tex: unknown Glue spec")

/-- The value of `NewGlue("ss")`. -/
def ssGlue : GlueD F := ⟨0, zero, ofInt 1, 1, ofInt (-1), 1⟩

/-- box.go:796-801 `(*Glue).Shrink` -/
def GlueD.shrinkG (g : GlueD F) : GlueD F :=
  if g.size - 1 < numSizeLevels then { g with size := g.size - 1, width := g.width * shrinkFactor }
  else { g with size := g.size - 1 }
/-- box.go:803-806 `(*Glue).Grow` -/
def GlueD.growG (g : GlueD F) : GlueD F := { g with size := g.size + 1, width := g.width * growFactor }
/-- box.go:874-879 `(*Kern).Shrink` -/
def KernD.shrink (k : KernD F) : KernD F :=
  if k.size - 1 < numSizeLevels then ⟨k.size - 1, k.width * shrinkFactor⟩ else ⟨k.size - 1, k.width⟩
/-- box.go:881-884 `(*Kern).Grow` -/
def KernD.grow (k : KernD F) : KernD F := ⟨k.size + 1, k.width * growFactor⟩

/-- box.go:400-409 `(*List).Shrink`, the part after the children -/
def LHead.shrink (l : LHead F) : LHead F :=
  if l.box.size - 1 < numSizeLevels then
    { l with box := l.box.shrink, shift := l.shift * shrinkFactor, set := l.set * shrinkFactor }
  else { l with box := l.box.shrink }
/-- box.go:411-418 `(*List).Grow`, the part after the children -/
def LHead.grow (l : LHead F) : LHead F :=
  { l with box := l.box.grow, shift := l.shift * growFactor, set := l.set * growFactor }

mutual
/-- `Shrink()` of every node type; HList, VList and Rule delegate (box.go:556, 653, 712);
`(*Accent).Shrink` (box.go:308-311) looks the metrics up again. -/
def TNode.shrink (be : Backend F) : TNode F → TNode F
  | .box b => .box b.shrink
  | .char c => .char c.shrink
  | .accent c => .accent (c.shrink.updateAccent be)
  | .list k hd cs => .list k hd.shrink (shrinkAll be cs)
  | .rule b => .rule b.shrink
  | .glue g => .glue g.shrinkG
  | .kern k => .kern k.shrink
/-- The loop of `(*List).Shrink` -/
def shrinkAll (be : Backend F) : List (TNode F) → List (TNode F)
  | [] => []
  | n :: l => n.shrink be :: shrinkAll be l
end

mutual
/-- `Grow()` of every node type (box.go:122, 243, 313, 411, 557, 654, 713, 803, 881). -/
def TNode.grow (be : Backend F) : TNode F → TNode F
  | .box b => .box b.grow
  | .char c => .char c.grow
  | .accent c => .accent (c.grow.updateAccent be)
  | .list k hd cs => .list k hd.grow (growAll be cs)
  | .rule b => .rule b.grow
  | .glue g => .glue g.growG
  | .kern k => .kern k.grow
/-- The loop of `(*List).Grow` -/
def growAll (be : Backend F) : List (TNode F) → List (TNode F)
  | [] => []
  | n :: l => n.grow be :: growAll be l
end

/-- box.go:221-231 `(*Char).Kerning` -/
def CharD.kerning (be : Backend F) (c : CharD F) (next : Option (TNode F)) : F :=
  let adv := c.metrics.advance - c.width
  let kern := match next with
    | some (.char n) => be.kern c.font c.c n.font n.c c.dpi
    | some (.accent n) => be.kern c.font c.c n.font n.c c.dpi
    | _ => zero
  adv + kern

/-- `Kerning(next)`: box.go:111, 221, 306, 396, 555, 652, 711, 794, 872 -/
def TNode.kerning (be : Backend F) : TNode F → Option (TNode F) → F
  | .char c, next => c.kerning be next
  | .accent c, next => c.kerning be next
  | _, _ => zero

/-! ## Packing -/

/-- The accumulators of `HPack` and `VPack`: `x` is the extent along the list, `a` and `b` the
height and depth (HPack) or the width and depth (VPack), `st` and `sh` the totals of stretch and
shrink. -/
structure Dims (F : Type) where
  x : F
  a : F
  b : F
  st : Fin 4 → F
  sh : Fin 4 → F

/-- `make([]float64, 4)` and zero values -/
def Dims.zero : Dims F := ⟨GoFloat.zero, GoFloat.zero, GoFloat.zero, fun _ => GoFloat.zero, fun _ => GoFloat.zero⟩

/-- `t[o] += v` -/
def addAt (t : Fin 4 → F) (o : Fin 4) (v : F) : Fin 4 → F := fun i => if i = o then t i + v else t i

/-- `hpackDims`: box.go:140-147 (Box), 264-268 (Char), 337-339 (Accent), 438-445 (List),
575-577 (HList), 671-673 (VList), 725-727 (Rule), 819-823 (Glue), 897-899 (Kern).
`a` is the height, `b` the depth. -/
def hpackDims (n : TNode F) (p : Dims F) : Dims F :=
  match n with
  | .box b | .rule b =>
    if isInf b.height || isInf b.depth then { p with x := p.x + b.width }
    else { p with x := p.x + b.width, a := GoFloat.max p.a b.height, b := GoFloat.max p.b b.depth }
  | .char c | .accent c =>
    { p with x := p.x + c.width, a := GoFloat.max p.a c.height, b := GoFloat.max p.b c.depth }
  | .list _ hd _ =>
    if isInf hd.box.height || isInf hd.box.depth then { p with x := p.x + hd.box.width }
    else { p with x := p.x + hd.box.width, a := GoFloat.max p.a (hd.box.height - hd.shift),
                  b := GoFloat.max p.b (hd.box.depth + hd.shift) }
  | .glue g => { p with x := p.x + g.width, st := addAt p.st g.stretchOrder g.stretch,
                        sh := addAt p.sh g.shrinkOrder g.shrink }
  | .kern k => { p with x := p.x + k.width }

/-- `vpackDims`: box.go:149-156 (Box), 270-272 (Char), 341-343 (Accent), 447-454 (List),
579-581 (HList), 675-677 (VList), 729-731 (Rule), 825-831 (Glue), 901-904 (Kern).  `a` is the width, `b` the depth. -/
def vpackDims (n : TNode F) (p : Dims F) : Res (Dims F) :=
  match n with
  | .box b | .rule b =>
    .ok { p with x := p.x + (p.b + b.height), b := b.depth,
                 a := if isInf b.width then p.a else GoFloat.max p.a b.width }
  | .char _ => .panic (.other "Char node in VList")
  | .accent _ => .panic (.other "Accent node in VList")
  | .list _ hd _ =>
    .ok { p with x := p.x + (p.b + hd.box.height), b := hd.box.depth,
                 a := if isInf hd.box.width then p.a else GoFloat.max p.a hd.box.width }
  | .glue g => .ok { p with x := p.x + p.b + g.width, b := zero, st := addAt p.st g.stretchOrder g.stretch,
                            sh := addAt p.sh g.shrinkOrder g.shrink }
  | .kern k => .ok { p with x := p.x + (p.b + k.width), b := zero }

/-- box.go:369-376 `determineOrder` -/
def determineOrder (t : Fin 4 → F) : Fin 4 :=
  if !eq (t 3) zero then 3 else if !eq (t 2) zero then 2 else if !eq (t 1) zero then 1 else 0

/-- box.go:378-394 `setGlue` -/
def setGlue (hd : LHead F) (x : F) (sign : Int) (totals : Fin 4 → F) : LHead F :=
  let o := determineOrder totals
  if !eq (totals o) zero then { hd with order := o, sign := sign, set := x / totals o }
  else { hd with order := o, sign := 0 }

/-- box.go:542-552 and 639-649: the end of `HPack` and `VPack` -/
def finishGlue (hd : LHead F) (x : F) (st sh : Fin 4 → F) : LHead F :=
  if eq x zero then { hd with sign := 0, order := 0 }
  else if pos x then setGlue hd x 1 st
  else setGlue hd x (-1) sh

/-- box.go:517-553 `(*HList).HPack`.  Every node type is an `hpacker`, so the panic of box.go:532
cannot happen. -/
def hpack (hd : LHead F) (cs : List (TNode F)) (width : F) (additional : Bool) : LHead F :=
  let p := cs.foldl (fun p n => hpackDims n p) Dims.zero
  let w := if additional then width + p.x else width
  finishGlue { hd with box := { hd.box with height := p.a, depth := p.b, width := w } } (w - p.x) p.st p.sh

/-- box.go:618-623: the loop of `VPack` -/
def vpackAll : List (TNode F) → Dims F → Res (Dims F)
  | [], p => .ok p
  | n :: l, p => vpackDims n p >>= fun p => vpackAll l p

/-- box.go:608-650 `(*VList).VPack` -/
def vpack (hd : LHead F) (cs : List (TNode F)) (height : F) (additional : Bool) (l : F) : Res (LHead F) :=
  vpackAll cs Dims.zero >>= fun p =>
    let (x, d) := if lt l p.b then (p.x + (p.b - l), l) else (p.x, p.b)
    let h := if additional then height + x else height
    .ok (finishGlue { hd with box := { hd.box with width := p.a, depth := d, height := h } } (h - x) p.st p.sh)

/-- box.go:359-363 `ListOf`: the header with Go's zero values -/
def LHead.zero : LHead F := ⟨⟨0, GoFloat.zero, GoFloat.zero, GoFloat.zero⟩, GoFloat.zero, GoFloat.zero, 0, 0⟩

/-- box.go:480-506 `kern` -/
def insertKerns (be : Backend F) : List (TNode F) → List (TNode F)
  | [] => []
  | n :: l =>
    let dist := n.kerning be l.head?
    if !eq dist zero then n :: newKern dist :: insertKerns be l else n :: insertKerns be l

/-- box.go:461-474 `HListOf` -/
def hlistOf (be : Backend F) (elements : List (TNode F)) (doKern : Bool) : TNode F :=
  let cs := if doKern then insertKerns be elements else elements
  .list .h (hpack LHead.zero cs zero true) cs

/-- box.go:590-599 `VListOf` -/
def vlistOf (elements : List (TNode F)) : Res (TNode F) :=
  vpack LHead.zero elements zero true inf >>= fun hd => .ok (.list .v hd elements)

/-- box.go:588 `(*VList).SetShift` -/
def LHead.setShift (hd : LHead F) (s : F) : LHead F := { hd with shift := s }

/-- box.go:835-842 `HCentered` -/
def hcentered (be : Backend F) (elements : List (TNode F)) : TNode F :=
  hlistOf be (.glue ssGlue :: elements ++ [.glue ssGlue]) false

/-- box.go:846-852 `VCentered` -/
def vcentered (elements : List (TNode F)) : Res (TNode F) :=
  vlistOf (.glue ssGlue :: elements ++ [.glue ssGlue])

/-- box.go:734-743 `HRule` -/
def hrule (be : Backend F) (st : TState F) (thickness : F) : TNode F :=
  let t := if lt thickness zero then be.underline st.font st.dpi else thickness
  newRule inf (ofRat 1 2 * t) (ofRat 1 2 * t)

/-- box.go:746-749 `VRule` -/
def vrule (be : Backend F) (st : TState F) : TNode F := newRule (be.underline st.font st.dpi) inf inf

/-- box.go:915-957 `AutoHeightChar`, after the x-height has been asked for (box.go:926).  There is one alternative
only, so the loop and its test (box.go:933-941) have no effect beyond building the first `Char`. -/
def autoHeightBody (be : Backend F) (c : GoString) (height depth : F) (st : TState F) (factor : F) : Res (TNode F) :=
  newChar be c st true >>= fun ch =>
    let target := height + depth
    if st.font.name ≠ [] then
      let factor := if eq factor zero then target / (ch.height + ch.depth) else factor
      newChar be c { st with font := { st.font with size := st.font.size * factor } } true >>= fun ch' =>
        let hd := hpack LHead.zero (insertKerns be [.char ch']) zero true
        .ok (.list .h { hd with shift := depth - ch'.depth } (insertKerns be [.char ch']))
    else
      let hd := hpack LHead.zero (insertKerns be [.char ch]) zero true
      .ok (.list .h { hd with shift := zero } (insertKerns be [.char ch]))

/-- box.go:915-957 `AutoHeightChar`: what `XHeight` answers (box.go:926) is used in the test without effect only, but
it may panic. -/
def autoHeightChar (be : Backend F) (c : GoString) (height depth : F) (st : TState F) (factor : F) : Res (TNode F) :=
  match be.xheight st.font st.dpi with
  | none => .panic (.other "XHeight")
  | some _ => autoHeightBody be c height depth st factor

theorem autoHeightChar_ok {be : Backend F} {c : GoString} {height depth : F} {st : TState F} {factor : F} {n : TNode F}
    (h : autoHeightChar be c height depth st factor = .ok n) : autoHeightBody be c height depth st factor = .ok n := by
  unfold autoHeightChar at h
  split at h
  · cases h
  · exact h

theorem autoHeightChar_eq {be : Backend F} {c : GoString} {height depth : F} {st : TState F} {factor : F}
    (h : be.xheight st.font st.dpi ≠ none) : autoHeightChar be c height depth st factor = autoHeightBody be c height depth st factor := by
  unfold autoHeightChar
  split
  · rename_i e; exact absurd e h
  · rfl

end Verif
