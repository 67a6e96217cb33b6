import Verif.Model.Box
/-! # Boxes as objects

In tex/box.go a node is a pointer: `[]Node` holds addresses, `Shrink`, `Grow`, `HPack`, `VPack` and
`SetShift` write through them, and two lists may hold the same node.  `Verif/Model/Box.lean` treats
nodes as values.  Here the same code is written with the memory made explicit: a heap of objects, in
which an address is a number, a list object holds the addresses of its children, and every function
reads and writes objects.

The addresses at which new objects are put are not those of Go (there they are not observable); the
order in which two objects are made may differ from Go's where no code can tell. -/

namespace Verif

/-- The address of a node object. -/
abbrev Ref := Nat

/-- An object of one of the node types (box.go:99-104 `Box`, 178-190 `Char`, 277-279 `Accent`,
346-357 `List`, 457-459 `HList`, 584-586 `VList`, 688-691 `Rule`, 751-758 `Glue`, 861-864 `Kern`).  The
field `children` of a list (box.go:349) is a slice of addresses.  `HList` and `VList` contain their
`List` by value. -/
inductive Cell (F : Type) where
  | box (b : BoxD F)
  | char (c : CharD F)
  | accent (c : CharD F)
  | list (k : LKind) (hd : LHead F) (rs : List Ref)
  | rule (b : BoxD F)
  | glue (g : GlueD F)
  | kern (k : KernD F)

/-- All objects made so far; the address of an object is its position. -/
abbrev Heap (F : Type) := List (Cell F)

variable {F : Type} [GoFloat F]
open GoFloat

/-- A computation that reads and writes objects. -/
abbrev HM (F α : Type) := Heap F → Res (α × Heap F)

namespace HM
/-- A computation that touches nothing. -/
def ret {α : Type} (a : α) : HM F α := fun h => .ok (a, h)
/-- A computation that touches nothing and may panic. -/
def lift {α : Type} (r : Res α) : HM F α := fun h => r >>= fun a => .ok (a, h)
/-- One after the other. -/
def bind {α β : Type} (m : HM F α) (f : α → HM F β) : HM F β := fun h => m h >>= fun q => f q.1 q.2
end HM

/-- The children of an object. -/
def Cell.refs : Cell F → List Ref
  | .list _ _ rs => rs
  | _ => []

/-- What is stored in the object itself, seen as a node: a list without its children.  The methods
`Width`, `Height`, `Depth`, `Kerning`, `hpackDims` and `vpackDims` read nothing else. -/
def Cell.shell : Cell F → TNode F
  | .box b => .box b
  | .char c => .char c
  | .accent c => .accent c
  | .list k hd _ => .list k hd []
  | .rule b => .rule b
  | .glue g => .glue g
  | .kern k => .kern k

/-- `&T{...}`: a new object -/
def hAlloc (c : Cell F) : HM F Ref := fun h => .ok (h.length, h ++ [c])

/-- Read an object. -/
def hGet (r : Ref) : HM F (Cell F) := fun h =>
  match h[r]? with
  | some c => .ok (c, h)
  | none => .panic (.other "nil pointer")

/-- Write an object. -/
def hSet (r : Ref) (c : Cell F) : HM F Unit := fun h => .ok ((), h.set r c)

/-- The objects at several addresses, for the loops of box.go:488-501, 528-535 and 617-622. -/
def hShells : List Ref → HM F (List (TNode F))
  | [] => .ret []
  | r :: rs => (hGet r).bind fun c => (hShells rs).bind fun l => .ret (c.shell :: l)

/-! ## Shrink and Grow -/

/-- What `Shrink` does to the object itself (box.go:113-120, 233-241, 308-311, 404-408, 556, 653, 712, 796-801,
874-879). -/
def Cell.shrink (be : Backend F) : Cell F → Cell F
  | .box b => .box b.shrink
  | .char c => .char c.shrink
  | .accent c => .accent (c.shrink.updateAccent be)
  | .list k hd rs => .list k hd.shrink rs
  | .rule b => .rule b.shrink
  | .glue g => .glue g.shrinkG
  | .kern k => .kern k.shrink

/-- What `Grow` does to the object itself (box.go:122-127, 243-249, 313-316, 415-417, 557, 654, 713, 803-806, 881-884). -/
def Cell.grow (be : Backend F) : Cell F → Cell F
  | .box b => .box b.grow
  | .char c => .char c.grow
  | .accent c => .accent (c.grow.updateAccent be)
  | .list k hd rs => .list k hd.grow rs
  | .rule b => .rule b.grow
  | .glue g => .glue g.growG
  | .kern k => .kern k.grow

/-- The recursion of `Shrink` and `Grow` (box.go:400-418): first the children, one after the other,
then the object itself.  The first argument bounds the nesting; a list that contains itself exceeds
every bound, as in Go it exceeds the stack. -/
def hwalk (f : Cell F → Cell F) : Nat → Ref → Heap F → Res (Heap F)
  | 0, _, _ => .fuel
  | n + 1, r, h =>
    match h[r]? with
    | none => .panic (.other "nil pointer")
    | some c => c.refs.foldlM (fun h r => hwalk f n r h) h >>= fun h' => .ok (h'.modify r f)

/-- `Shrink()` of the node at `r`; the nesting is at most the number of objects, unless it is infinite. -/
def hShrink (be : Backend F) (r : Ref) : HM F Unit := fun h =>
  hwalk (Cell.shrink be) h.length r h >>= fun h' => .ok ((), h')

/-- `Grow()` of the node at `r` -/
def hGrow (be : Backend F) (r : Ref) : HM F Unit := fun h =>
  hwalk (Cell.grow be) h.length r h >>= fun h' => .ok ((), h')

/-! ## Packing and lists -/

/-- box.go:518-553 `(*HList).HPack` -/
def hHPack (r : Ref) (width : F) (additional : Bool) : HM F Unit :=
  (hGet r).bind fun c =>
    match c with
    | .list k hd rs => (hShells rs).bind fun l => hSet r (.list k (hpack hd l width additional) rs)
    | _ => .lift (.panic (.other "not a list"))

/-- box.go:608-650 `(*VList).VPack` -/
def hVPack (r : Ref) (height : F) (additional : Bool) (lim : F) : HM F Unit :=
  (hGet r).bind fun c =>
    match c with
    | .list k hd rs => (hShells rs).bind fun l => (HM.lift (vpack hd l height additional lim)).bind fun hd' => hSet r (.list k hd' rs)
    | _ => .lift (.panic (.other "not a list"))

/-- box.go:588 `(*VList).SetShift`, and `hlist.lst.shift = shift` (box.go:954) -/
def hSetShift (r : Ref) (s : F) : HM F Unit :=
  (hGet r).bind fun c =>
    match c with
    | .list k hd rs => hSet r (.list k (hd.setShift s) rs)
    | _ => .lift (.panic (.other "not a list"))

/-- box.go:484-506 `kern`: the children with new `Kern` objects in between.  (In Go the list object
exists already when these are made.) -/
def hKern (be : Backend F) : List Ref → HM F (List Ref)
  | [] => .ret []
  | r :: rs =>
    (hGet r).bind fun c => (hShells rs.head?.toList).bind fun nx =>
      let dist := c.shell.kerning be nx.head?
      if !eq dist zero then
        (hAlloc (.kern ⟨0, dist⟩)).bind fun k => (hKern be rs).bind fun l => .ret (r :: k :: l)
      else (hKern be rs).bind fun l => .ret (r :: l)

/-- box.go:461-474 `HListOf`.  `ListOf` copies the slice (box.go:359-363). -/
def hHListOf (be : Backend F) (rs : List Ref) (doKern : Bool) : HM F Ref :=
  (if doKern then hKern be rs else .ret rs).bind fun cs =>
    (hAlloc (.list .h LHead.zero cs)).bind fun r => (hHPack r zero true).bind fun _ => .ret r

/-- box.go:590-599 `VListOf` -/
def hVListOf (rs : List Ref) : HM F Ref :=
  (hAlloc (.list .v LHead.zero rs)).bind fun r => (hVPack r zero true inf).bind fun _ => .ret r

/-- box.go:835-842 `HCentered` -/
def hHCentered (be : Backend F) (rs : List Ref) : HM F Ref :=
  (hAlloc (.glue ssGlue)).bind fun g1 => (hAlloc (.glue ssGlue)).bind fun g2 =>
    hHListOf be (g1 :: rs ++ [g2]) false

/-- box.go:846-852 `VCentered` -/
def hVCentered (rs : List Ref) : HM F Ref :=
  (hAlloc (.glue ssGlue)).bind fun g1 => (hAlloc (.glue ssGlue)).bind fun g2 => hVListOf (g1 :: rs ++ [g2])

/-- box.go:192-202 `NewChar` -/
def hNewChar (be : Backend F) (c : GoString) (st : TState F) (math : Bool) : HM F Ref :=
  (HM.lift (newChar be c st math)).bind fun ch => hAlloc (.char ch)

/-- box.go:866-868 `NewKern` -/
def hNewKern (w : F) : HM F Ref := hAlloc (.kern ⟨0, w⟩)

/-- box.go:159-161 `VBox` -/
def hVBox (h d : F) : HM F Ref := hAlloc (.box (newBox zero h d))

/-- box.go:164-166 `HBox` -/
def hHBox (w : F) : HM F Ref := hAlloc (.box (newBox w zero zero))

/-- box.go:734-743 `HRule` -/
def hHRule (be : Backend F) (st : TState F) (thickness : F) : HM F Ref :=
  let t := if lt thickness zero then be.underline st.font st.dpi else thickness
  hAlloc (.rule (newBox inf (ofRat 1 2 * t) (ofRat 1 2 * t)))

/-- box.go:760-792 `NewGlue` -/
def hNewGlue (typ : GoString) : HM F Ref := (HM.lift (newGlue typ)).bind fun g => hAlloc (.glue g)

/-- box.go:915-957 `AutoHeightChar`.  As in Model/Box.lean the loop over the single alternative builds one `Char`, and the
x-height is asked for and not used. -/
def hAutoHeightChar (be : Backend F) (c : GoString) (height depth : F) (st : TState F) (factor : F) : HM F Ref :=
  match be.xheight st.font st.dpi with
  | none => .lift (.panic (.other "XHeight"))
  | some _ =>
    (hNewChar be c st true).bind fun ch =>
      if st.font.name ≠ [] then
        (hGet ch).bind fun cc =>
          let factor := if eq factor zero then (height + depth) / (cc.shell.height + cc.shell.depth) else factor
          (hNewChar be c { st with font := { st.font with size := st.font.size * factor } } true).bind fun ch' =>
            (hGet ch').bind fun cc' => (hHListOf be [ch'] true).bind fun r =>
              (hSetShift r (depth - cc'.shell.depth)).bind fun _ => .ret r
      else (hHListOf be [ch] true).bind fun r => (hSetShift r zero).bind fun _ => .ret r

end Verif
