import Verif.Spec.Box
import Verif.Model.Exact
/-! # Specification vocabulary for sizes -/

namespace Verif.Spec
open GoFloat

section
variable {F : Type} [GoFloat F]

/-- The size level of a node: 0 at creation, one less for each `Shrink`, one more for each `Grow`. -/
def level : TNode F → Int
  | .box b | .rule b => b.size
  | .char c | .accent c => c.size
  | .list _ hd _ => hd.box.size
  | .glue g => g.size
  | .kern k => k.size

/-- The node is an `Accent`. -/
def isAccent : TNode F → Bool
  | .accent _ => true
  | _ => false

/-- A call of `Shrink` or `Grow`. -/
inductive SizeOp where
  | shrink | grow
deriving DecidableEq, Repr

/-- The node after a call. -/
def applyOp (be : Backend F) (n : TNode F) : SizeOp → TNode F
  | .shrink => n.shrink be
  | .grow => n.grow be

/-- The node after a sequence of calls. -/
def applyOps (be : Backend F) (n : TNode F) (ops : List SizeOp) : TNode F := ops.foldl (applyOp be) n

end

/-- The factor by which the dimensions change in a sequence of calls, starting at a size level: each
`Grow` multiplies by 10/7; each `Shrink` multiplies by 7/10, except when the level is above 6. -/
def factor : Int → List SizeOp → ℚ
  | _, [] => 1
  | s, .grow :: l => 10 / 7 * factor (s + 1) l
  | s, .shrink :: l => (if s ≤ 6 then 7 / 10 else 1) * factor (s - 1) l

/-- What the glue of a list adds to its natural size. -/
def glueTaken (hd : LHead XR) (cs : List (TNode XR)) : XR :=
  if hd.sign = 0 then .fin 0
  else if hd.sign = 1 then hd.set * stretchTotal cs hd.order
  else hd.set * shrinkTotal cs hd.order

/-- The dimensions of a list fit its children.  Horizontal: the width is the sum of the widths plus
what the glue adds, the height and depth are the largest reaches (at least 0).  Vertical: height plus
depth is the sum of the sizes plus what the glue adds, the width is the largest finite width. -/
def Fits : LKind → LHead XR → List (TNode XR) → Prop
  | .plain, _, _ => True
  | .h, hd, cs =>
    hd.box.width = naturalWidth cs + glueTaken hd cs ∧
    hd.box.height = ((cs.filterMap reach).map (·.1)).foldl GoFloat.max (.fin 0) ∧
    hd.box.depth = ((cs.filterMap reach).map (·.2)).foldl GoFloat.max (.fin 0)
  | .v, hd, cs =>
    hd.box.height + hd.box.depth = (cs.map vsize).foldl (· + ·) (.fin 0) + glueTaken hd cs ∧
    hd.box.width = (vwidths cs).foldl GoFloat.max (.fin 0)

mutual
/-- Every list in the tree fits its children. -/
def Packed : TNode XR → Prop
  | .list k hd cs => Fits k hd cs ∧ PackedAll cs
  | _ => True
/-- All nodes are packed. -/
def PackedAll : List (TNode XR) → Prop
  | [] => True
  | n :: l => Packed n ∧ PackedAll l
end

mutual
/-- `P` holds of every node of the tree. -/
def Every {F : Type} (P : TNode F → Prop) : TNode F → Prop
  | .list k hd cs => P (.list k hd cs) ∧ EveryAll P cs
  | .box b => P (.box b)
  | .char c => P (.char c)
  | .accent c => P (.accent c)
  | .rule b => P (.rule b)
  | .glue g => P (.glue g)
  | .kern k => P (.kern k)
/-- `P` holds of every node of the trees. -/
def EveryAll {F : Type} (P : TNode F → Prop) : List (TNode F) → Prop
  | [] => True
  | n :: l => Every P n ∧ EveryAll P l
end

/-- Asked at the font size multiplied by `k`, the backend gives the dimensions of the accent
multiplied by `k`. -/
def AccentScales (be : Backend XR) (k : XR) : TNode XR → Prop
  | .accent c =>
    let m := be.metrics c.c { c.font with size := c.font.size * k } c.dpi c.math
    m.xmax - m.xmin = c.width * k ∧ m.ymax - m.ymin = c.height * k ∧ .fin 0 = c.depth * k
  | _ => True

end Verif.Spec
