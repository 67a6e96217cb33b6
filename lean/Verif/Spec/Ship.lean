import Verif.Spec.Box
import Verif.Model.Ship
import Mathlib.Data.List.Forall2
/-! # Specification vocabulary for drawing -/

namespace Verif.Spec
variable {F : Type} [GoFloat F]
open GoFloat

mutual
/-- The glyphs of a node in depth-first order: font, symbol, resolution.  A plain `*List` (as opposed
to an `HList` or `VList`) is not drawn. -/
def glyphs : TNode F → List (Font F × GoString × F)
  | .char c | .accent c => [(c.font, c.c, c.dpi)]
  | .list .h _ cs | .list .v _ cs => glyphsAll cs
  | _ => []
/-- The glyphs of several nodes. -/
def glyphsAll : List (TNode F) → List (Font F × GoString × F)
  | [] => []
  | n :: l => glyphs n ++ glyphsAll l
end

mutual
/-- The widths and heights of the filled rectangles due for a node of a horizontal list of height `H`,
in depth-first order: a rule shows if its width and height (that of the list, if infinite) are
positive. -/
def barsH (H : F) : TNode F → List (F × F)
  | .rule b =>
    if pos (if isInf b.height then H else b.height) && pos b.width then
      [(b.width, if isInf b.height then H else b.height)]
    else []
  | .list .h hd cs => barsHs hd.box.height cs
  | .list .v hd cs => barsVs hd.box.width cs
  | _ => []
/-- The same for several nodes. -/
def barsHs (H : F) : List (TNode F) → List (F × F)
  | [] => []
  | n :: l => barsH H n ++ barsHs H l
/-- The same in a vertical list of width `W`: a rule shows if its depth and its total of height and
depth are positive; it is as wide as the list if its width is infinite.  Lists inside take the width
of the list. -/
def barsV (W : F) : TNode F → List (F × F)
  | .rule b =>
    if pos (b.height + b.depth) && pos b.depth then
      [(if isInf b.width then W else b.width, b.height + b.depth)]
    else []
  | .list .h hd cs => barsHs hd.box.height cs
  | .list .v _ cs => barsVs W cs
  | _ => []
/-- The same for several nodes. -/
def barsVs (W : F) : List (TNode F) → List (F × F)
  | [] => []
  | n :: l => barsV W n ++ barsVs W l
end

/-- The glyph drawn by an operation. -/
def opGlyph : Draw F → Option (Font F × GoString × F)
  | .glyph _ _ f s d => some (f, s, d)
  | .rect .. => none

/-- The rectangle drawn by an operation. -/
def opRect : Draw F → Option (F × F × F × F)
  | .rect a b c d => some (a, b, c, d)
  | .glyph .. => none

/-- The rectangle has the given width and height. -/
def Sized (r : F × F × F × F) (b : F × F) : Prop := ∃ x y, r = (x, y, x + b.1, y + b.2)

mutual
/-- The node cannot be drawn in a horizontal list of the given height: a `*Box` or plain `*List` with
positive width and height, or a misplaced node inside. -/
def misplacedH (H : F) : TNode F → Bool
  | .box b => pos (if isInf b.height then H else b.height) && pos b.width
  | .list .plain hd _ => pos (if isInf hd.box.height then H else hd.box.height) && pos hd.box.width
  | .list .h hd cs => misplacedHs hd.box.height cs
  | .list .v _ cs => misplacedVs cs
  | _ => false
/-- One of the nodes. -/
def misplacedHs (H : F) : List (TNode F) → Bool
  | [] => false
  | n :: l => misplacedH H n || misplacedHs H l
/-- The node cannot be drawn in a vertical list: a glyph, or a misplaced node inside. -/
def misplacedV : TNode F → Bool
  | .char _ | .accent _ => true
  | .list .h hd cs => misplacedHs hd.box.height cs
  | .list .v _ cs => misplacedVs cs
  | _ => false
/-- One of the nodes. -/
def misplacedVs : List (TNode F) → Bool
  | [] => false
  | n :: l => misplacedV n || misplacedVs l
end

mutual
/-- How deep non-empty horizontal and vertical lists are nested. -/
def nesting : TNode F → Nat
  | .list .h _ cs | .list .v _ cs => if cs.isEmpty then 0 else nestingAll cs + 1
  | _ => 0
/-- The largest nesting. -/
def nestingAll : List (TNode F) → Nat
  | [] => 0
  | n :: l => Nat.max (nesting n) (nestingAll l)
end

mutual
/-- What drawing does to a node of a horizontal list. -/
def settleH : TNode F → TNode F
  | .list .h hd cs => .list .h hd (settleHs cs)
  | .list .v hd cs => .list .v hd (settleVs hd.box.width cs)
  | n => n
/-- All of them. -/
def settleHs : List (TNode F) → List (TNode F)
  | [] => []
  | n :: l => settleH n :: settleHs l
/-- What drawing does to a node of a vertical list of width `W`: non-empty lists get the width `W`. -/
def settleV (W : F) : TNode F → TNode F
  | .list .h hd cs =>
    if cs.isEmpty then .list .h hd cs else .list .h { hd with box := { hd.box with width := W } } (settleHs cs)
  | .list .v hd cs =>
    if cs.isEmpty then .list .v hd cs else .list .v { hd with box := { hd.box with width := W } } (settleVs W cs)
  | n => n
/-- All of them. -/
def settleVs (W : F) : List (TNode F) → List (TNode F)
  | [] => []
  | n :: l => settleV W n :: settleVs W l
end

mutual
/-- The tree with the glue settings of rigid lists reset. -/
def unstale : TNode F → TNode F
  | .list k hd cs => .list k (if hd.sign = 0 then { hd with set := zero } else hd) (unstaleAll cs)
  | n => n
/-- All of them. -/
def unstaleAll : List (TNode F) → List (TNode F)
  | [] => []
  | n :: l => unstale n :: unstaleAll l
end

/-- A drawing operation moved by `(dx, dy)`. -/
def moveOp (dx dy : F) : Draw F → Draw F
  | .glyph x y f s d => .glyph (x + dx) (y + dy) f s d
  | .rect a b c d => .rect (a + dx) (b + dy) (c + dx) (d + dy)

/-- How much the glue among the nodes `a` of a list with the given setting is changed in total, in whole
points: the setting times the total stretch (or shrink) of the glue of the order of the setting,
clamped and rounded; nothing if the list is rigid or has no such glue. -/
def glueOffset (hd : LHead F) (a : List (TNode F)) : Int :=
  if hd.sign = 0 then 0
  else if hd.sign = 1 then
    if (gluesOf a).all (·.stretchOrder ≠ hd.order) then 0 else round (clamp (hd.set * stretchTotal a hd.order))
  else if (gluesOf a).all (·.shrinkOrder ≠ hd.order) then 0 else round (clamp (hd.set * shrinkTotal a hd.order))

/-- How far the pen is moved to the right by the nodes `a` at the beginning of a horizontal list. -/
def advance (hd : LHead F) (a : List (TNode F)) : F := naturalWidth a + ofInt (glueOffset hd a)

/-- The space taken vertically by a node of a vertical list: a box, rule or plain list takes its height
and depth, but only if its depth is positive. -/
def vspace : TNode F → F
  | .glue g => g.width
  | .kern k => k.width
  | .list .h hd _ | .list .v hd _ => hd.box.height + hd.box.depth
  | n => if pos (n.height + n.depth) && pos n.depth then n.height + n.depth else zero

/-- How far the pen is moved down by the nodes `a` at the beginning of a vertical list. -/
def vadvance (hd : LHead F) (a : List (TNode F)) : F :=
  a.foldl (fun x n => x + vspace n) zero + ofInt (glueOffset hd a)

/-- The node is not glue. -/
def isSolid : TNode F → Bool
  | .glue _ => false
  | _ => true

end Verif.Spec
