import Verif.Spec.Ship
import Verif.Model.Exact
/-! # Where everything is drawn

The drawing of a box tree, by coordinates, without pens, stacks or counters.  `y` grows downwards. -/

namespace Verif.Spec
variable {F : Type} [GoFloat F]
open GoFloat

mutual
/-- The drawing of a node of a horizontal list with header `hd`, when its left end is at `x` and the
baseline of the list at `b`. -/
def paintH (hd : LHead F) (x b : F) : TNode F → List (Draw F)
  | .char c => [.glyph x b c.font c.c c.dpi]
  | .accent c => [.glyph (x - c.metrics.xmin) (b + c.metrics.ymin) c.font c.c c.dpi]
  | .rule r =>
    let h := if isInf r.height then hd.box.height else r.height
    let d := if isInf r.depth then hd.box.depth else r.depth
    if pos h && pos r.width then [.rect x (b + d) (x + r.width) (b + d + h)] else []
  | .list .h nd cs => paintHs nd x (b + nd.shift) [] cs
  | .list .v nd cs => paintVs nd x (b + nd.shift - nd.box.height) [] cs
  | _ => []
/-- The drawing of the children of a horizontal list that begins at `x`, of which the first are `pre`. -/
def paintHs (hd : LHead F) (x b : F) (pre : List (TNode F)) : List (TNode F) → List (Draw F)
  | [] => []
  | n :: l => paintH hd (x + advance hd pre) b n ++ paintHs hd x b (pre ++ [n]) l
/-- The drawing of a node of a vertical list with header `hd`, when the list begins at `x` and the top
of the node is at `y`. -/
def paintV (hd : LHead F) (x y : F) : TNode F → List (Draw F)
  | .rule r =>
    if pos (r.height + r.depth) && pos r.depth then
      [.rect x (y + (r.height + r.depth)) (x + (if isInf r.width then hd.box.width else r.width))
        (y + (r.height + r.depth) + (r.height + r.depth))]
    else []
  | .list .h nd cs => paintHs nd (x + nd.shift) (y + nd.box.height) [] cs
  | .list .v nd cs =>
    paintVs { nd with box := { nd.box with width := hd.box.width } } (x + nd.shift) (y + nd.box.height - nd.box.height) [] cs
  | _ => []
/-- The drawing of the children of a vertical list whose top is at `y`, of which the first are `pre`. -/
def paintVs (hd : LHead F) (x y : F) (pre : List (TNode F)) : List (TNode F) → List (Draw F)
  | [] => []
  | n :: l => paintV hd x (y + vadvance hd pre) n ++ paintVs hd x y (pre ++ [n]) l
end

/-- The list `nd` has these dimensions, and is not shifted. -/
structure Measured (nd : LHead XR) (w h d : ℚ) : Prop where
  width : nd.box.width = .fin w
  height : nd.box.height = .fin h
  depth : nd.box.depth = .fin d
  shift : nd.shift = .fin 0
  above : 0 ≤ h
  below : 0 ≤ d

end Verif.Spec
