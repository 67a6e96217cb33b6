import Verif.Model.Ieee
import Verif.Model.Ship
/-! # Floating-point numbers and exact ones -/

namespace Verif.Spec
open Verif GoFloat

/-- The float64 `x` is the number `q`. -/
def Num64 (x : F64) (q : ℚ) : Prop := match x with
  | .fin s a _ => F64.value s a = q
  | _ => False

/-- The unit of rounding of float64: 53 significant bits. -/
def unit64 : ℚ := 1 / 2 ^ 53

/-- A number whose last binary digit, of the 53 (or, for the smallest numbers, the one of `2 ^ -1074`), is 0. -/
def Even64 (s : ℚ) : Prop := ∃ m e : ℤ, s = 2 * m * 2 ^ e ∧ |2 * m| ≤ 2 ^ 53 ∧ -1074 ≤ e

/-- The float64 `z` is the number `r` rounded as IEEE 754 prescribes: no finite float64 is nearer, and of two that are equally near it is the
one with the even last digit; it is infinite if `r` is at least half a last digit above the largest finite float64. -/
def Nearest64 (z : F64) (r : ℚ) : Prop :=
  (|r| < 2 ^ (1024 : ℕ) - 2 ^ (970 : ℕ) ∧ ∃ s, Num64 z s ∧ ∀ w t, Num64 w t → |s - r| ≤ |t - r| ∧ (|s - r| = |t - r| → t = s ∨ Even64 s)) ∨
  (2 ^ (1024 : ℕ) - 2 ^ (970 : ℕ) ≤ |r| ∧ z = .inf (decide (r < 0)))

/-- The float64 `x` is finite and off `q` by at most `e`. -/
def Off64 (e : ℚ) (x : F64) (q : ℚ) : Prop := ∃ p, Num64 x p ∧ |p - q| ≤ e

/-- The number a float64 stands for. -/
def exact64 : F64 → XR
  | .fin s a _ => .fin (F64.value s a)
  | .inf false => .pinf
  | .inf true => .ninf
  | .nan => .nan

/-- The same box, with exact numbers. -/
def exactBox (b : BoxD F64) : BoxD XR := ⟨b.size, exact64 b.width, exact64 b.height, exact64 b.depth⟩
/-- The same font. -/
def exactFont (f : Font F64) : Font XR := ⟨f.name, f.typ, exact64 f.size⟩
/-- The same metrics. -/
def exactMetrics (m : Metrics F64) : Metrics XR :=
  ⟨exact64 m.advance, exact64 m.height, exact64 m.width, exact64 m.xmin, exact64 m.xmax, exact64 m.ymin, exact64 m.ymax, exact64 m.iceberg⟩
/-- The same character. -/
def exactChar (c : CharD F64) : CharD XR :=
  ⟨c.c, c.size, exact64 c.width, exact64 c.height, exact64 c.depth, exactMetrics c.metrics, exactFont c.font, exact64 c.dpi, c.math⟩
/-- The same list. -/
def exactHead (hd : LHead F64) : LHead XR := ⟨exactBox hd.box, exact64 hd.shift, exact64 hd.set, hd.sign, hd.order⟩
/-- The same glue. -/
def exactGlue (g : GlueD F64) : GlueD XR := ⟨g.size, exact64 g.width, exact64 g.stretch, g.stretchOrder, exact64 g.shrink, g.shrinkOrder⟩
/-- The same kern. -/
def exactKern (k : KernD F64) : KernD XR := ⟨k.size, exact64 k.width⟩

mutual
/-- The same tree of boxes. -/
def exactNode : TNode F64 → TNode XR
  | .box b => .box (exactBox b)
  | .char c => .char (exactChar c)
  | .accent c => .accent (exactChar c)
  | .list k hd cs => .list k (exactHead hd) (exactNodes cs)
  | .rule b => .rule (exactBox b)
  | .glue g => .glue (exactGlue g)
  | .kern k => .kern (exactKern k)
/-- The same trees of boxes. -/
def exactNodes : List (TNode F64) → List (TNode XR)
  | [] => []
  | n :: l => exactNode n :: exactNodes l
end

/-- The absolute value of a finite number; 0 for the others. -/
def size64 : F64 → ℚ
  | .fin _ a _ => |a|
  | _ => 0

/-- A finite number. -/
def Fin64 (x : F64) : Prop := ∃ q, Num64 x q

/-- The stretch and the shrink of a glue, added up. -/
def glueSize (g : GlueD F64) : ℚ := size64 g.stretch + size64 g.shrink

/-- The stretch and the shrink of the glue in a list, added up. -/
def glueTotal : List (TNode F64) → ℚ
  | [] => 0
  | .glue g :: l => glueSize g + glueTotal l
  | _ :: l => glueTotal l

/-- A list of finite dimensions whose glue is at its natural size, or stretched or shrunk by `R` at most in all. -/
structure TameList (R : ℚ) (hd : LHead F64) (cs : List (TNode F64)) : Prop where
  width : Fin64 hd.box.width
  height : Fin64 hd.box.height
  depth : Fin64 hd.box.depth
  shift : Fin64 hd.shift
  glue : hd.sign ≠ 0 → Fin64 hd.set ∧ (∀ g, .glue g ∈ cs → Fin64 g.stretch ∧ Fin64 g.shrink) ∧ size64 hd.set * glueTotal cs ≤ R

mutual
/-- A node of a horizontal list with finite lengths and glue stretched or shrunk by `R` at most in each list; rules may be as high or deep as
the list. -/
def TameH (R : ℚ) : TNode F64 → Prop
  | .box b => Fin64 b.width
  | .char c => Fin64 c.width
  | .accent c => Fin64 c.width ∧ Fin64 c.metrics.xmin ∧ Fin64 c.metrics.ymin
  | .rule b => Fin64 b.width ∧ (isInf b.height = true ∨ Fin64 b.height) ∧ (isInf b.depth = true ∨ Fin64 b.depth)
  | .glue g => Fin64 g.width
  | .kern k => Fin64 k.width
  | .list .plain hd _ => Fin64 hd.box.width
  | .list .h hd cs => TameList R hd cs ∧ TameHs R cs
  | .list .v hd cs => TameList R hd cs ∧ TameVs R cs
/-- All of them. -/
def TameHs (R : ℚ) : List (TNode F64) → Prop
  | [] => True
  | n :: l => TameH R n ∧ TameHs R l
/-- The same for a node of a vertical list; rules may be as wide as the list. -/
def TameV (R : ℚ) : TNode F64 → Prop
  | .box b => Fin64 b.height ∧ Fin64 b.depth
  | .char _ => True
  | .accent _ => True
  | .rule b => Fin64 b.height ∧ Fin64 b.depth ∧ (isInf b.width = true ∨ Fin64 b.width)
  | .glue g => Fin64 g.width
  | .kern k => Fin64 k.width
  | .list .plain hd _ => Fin64 hd.box.height ∧ Fin64 hd.box.depth
  | .list .h hd cs => TameList R hd cs ∧ TameHs R cs
  | .list .v hd cs => TameList R hd cs ∧ TameVs R cs
/-- All of them. -/
def TameVs (R : ℚ) : List (TNode F64) → Prop
  | [] => True
  | n :: l => TameV R n ∧ TameVs R l
end

mutual
/-- How many lists whose glue is stretched or shrunk stand one inside another. -/
def setNest : TNode F64 → ℕ
  | .list _ hd cs => (if hd.sign = 0 then 0 else 1) + setNests cs
  | .box _ => 0
  | .char _ => 0
  | .accent _ => 0
  | .rule _ => 0
  | .glue _ => 0
  | .kern _ => 0
/-- The largest such number. -/
def setNests : List (TNode F64) → ℕ
  | [] => 0
  | n :: l => max (setNest n) (setNests l)
end

mutual
/-- How many additions Ship makes for a node, at most. -/
def shipSteps : TNode F64 → ℕ
  | .list _ _ cs => 4 + shipStepsAll cs
  | .box _ => 6
  | .char _ => 6
  | .accent _ => 6
  | .rule _ => 6
  | .glue _ => 6
  | .kern _ => 6
/-- The sum over a list. -/
def shipStepsAll : List (TNode F64) → ℕ
  | [] => 0
  | n :: l => shipSteps n + shipStepsAll l
end

/-- All dimensions of a box, twice. -/
def boxSize (b : BoxD F64) : ℚ := 2 * (size64 b.width + size64 b.height + size64 b.depth)

mutual
/-- All lengths in a tree of boxes, added up (those of boxes twice).  `s` is the sign of the list: if its glue is stretched or shrunk, by `R` at
most, that is added. -/
def shipLengths (R : ℚ) (s : Int) : TNode F64 → ℚ
  | .box b => boxSize b
  | .char c => size64 c.width
  | .accent c => size64 c.width + size64 c.metrics.xmin + size64 c.metrics.ymin
  | .list _ hd cs => boxSize hd.box + size64 hd.shift + shipLengthsAll R hd.sign cs
  | .rule b => boxSize b
  | .glue g => size64 g.width + if s = 0 then 0 else glueSize g + 2 * (R + 1)
  | .kern k => size64 k.width
/-- The sum over a list. -/
def shipLengthsAll (R : ℚ) (s : Int) : List (TNode F64) → ℚ
  | [] => 0
  | n :: l => shipLengths R s n + shipLengthsAll R s l
end

/-- Two drawing calls, one with float64 numbers: the same glyph, or a rectangle, at places that are finite and differ by at most `e`. -/
def SameDraw (e : ℚ) : Draw F64 → Draw XR → Prop
  | .glyph x y f c d, .glyph x' y' f' c' d' =>
    (∃ p q, x' = .fin p ∧ Off64 e x p ∧ y' = .fin q ∧ Off64 e y q) ∧ f' = exactFont f ∧ c' = c ∧ d' = exact64 d
  | .rect x1 y1 x2 y2, .rect x1' y1' x2' y2' =>
    (∃ p q, x1' = .fin p ∧ Off64 e x1 p ∧ y1' = .fin q ∧ Off64 e y1 q) ∧ ∃ p q, x2' = .fin p ∧ Off64 e x2 p ∧ y2' = .fin q ∧ Off64 e y2 q
  | _, _ => False

/-- The left edge of what is drawn (for a glyph: its origin). -/
def drawX {F : Type} : Draw F → F
  | .glyph x _ _ _ _ => x
  | .rect x _ _ _ => x

/-- A character or a space. -/
def isInline {F : Type} : TNode F → Bool
  | .char _ => true
  | .glue _ => true
  | .kern _ => true
  | _ => false

end Verif.Spec
