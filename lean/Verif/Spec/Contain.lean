import Verif.Model.Mtex
import Verif.Spec.Finite
import Verif.Model.Run
/-! # What C76 speaks about -/

namespace Verif.Spec
open Verif GoFloat XR

mutual
/-- How many radicals and overlines stand one inside another in a syntax tree. -/
def barNesting : Node → Nat
  | .macro (some (_, name)) args =>
    if name = bs!"\\sqrt" ∨ name = bs!"\\overline" then barNestings args + 1 else barNestings args
  | .macro none args => barNestings args
  | .list l | .math _ _ l _ | .arg _ l _ | .optArg _ l _ => barNestings l
  | _ => 0
/-- The largest number of bars one inside another. -/
def barNestings : List Node → Nat
  | [] => 0
  | n :: l => Nat.max (barNesting n) (barNestings l)
end

/-- The document has nothing but formulas (between dollars or in one of the other ways to write them). -/
def OnlyMath : Node → Prop
  | .list l => ∀ n ∈ l, ∃ d a m b, n = .math d a m b
  | _ => False

/-- How far a glyph reaches above and below the baseline per point of font size: by symbol, font name, font
type, resolution and mode. -/
abbrev Extents := GoString → GoString → GoString → XR → Bool → ℚ × ℚ

/-- In the modes `G`, the backend answers with these extents: the dimensions of glyphs are proportional to the font
size. -/
structure Metered (be : Backend XR) (M : Extents) (G : Bool → Prop) : Prop where
  above : ∀ c n t s d m, G m → IsNum d → be.known c ⟨n, t, .fin s⟩ d m = true →
    (be.metrics c ⟨n, t, .fin s⟩ d m).iceberg = .fin ((M c n t d m).1 * s)
  total : ∀ c n t s d m, G m → IsNum d → be.known c ⟨n, t, .fin s⟩ d m = true →
    (be.metrics c ⟨n, t, .fin s⟩ d m).height = .fin (((M c n t d m).1 + (M c n t d m).2) * s)

/-- What is drawn lies between the heights `lo` (above) and `hi` (below); the vertical axis points downwards.  A
glyph has the extents it has in one of the modes `G`. -/
def Inside (M : Extents) (G : Bool → Prop) (lo hi : ℚ) : Draw XR → Prop
  | .rect _ y1 _ y2 => ∃ a b : ℚ, y1 = .fin a ∧ y2 = .fin b ∧ lo ≤ a ∧ a ≤ b ∧ b ≤ hi
  | .glyph _ y f c d => ∃ (a s : ℚ) (m : Bool), G m ∧ y = .fin a ∧ f.size = .fin s ∧
      lo ≤ a - (M c f.name f.typ d m).1 * s ∧ a + (M c f.name f.typ d m).2 * s ≤ hi

/-- Lines have some thickness, not an immense one, and the sign of the radical reaches neither entirely below nor
entirely above the baseline. -/
structure Modest (be : Backend XR) (M : Extents) (size dpi : ℚ) : Prop where
  line : ∀ typ, ∃ t : ℚ, be.underline ⟨bs!"default", typ, .fin size⟩ (.fin dpi) = .fin t ∧ 0 < t ∧ 4 * t + size * dpi / 1200 ≤ 1000000000
  radical : ∀ typ, 0 ≤ (M bs!"\\__sqrt__" bs!"default" typ (.fin dpi) true).1 ∧ 0 ≤ (M bs!"\\__sqrt__" bs!"default" typ (.fin dpi) true).2

/-- The sign of the radical, as measured in formulas, reaches neither entirely above nor entirely below the
baseline. -/
def RadicalCrosses {H : Type} (e : TtfEnv H) : Prop :=
  ∀ (typ : GoString) (v : TtfVal XR H), e.load bs!"\\__sqrt__" ⟨bs!"default", typ, .fin 1⟩ (.fin 72) true = .ok v →
    ∃ a b : ℚ, v.metrics.ymin = .fin a ∧ v.metrics.ymax = .fin b ∧ a ≤ 0 ∧ 0 ≤ b

/-- What is painted by an operation on the canvas, a glyph having the extents recorded with it, lies between the
heights `lo` (above) and `hi` (below). -/
def OpInside {H : Type} (lo hi : ℚ) : COp XR H → Prop
  | .rect _ y1 _ y2 => ∃ a b : ℚ, y1 = .fin a ∧ y2 = .fin b ∧ lo ≤ a ∧ a ≤ b ∧ b ≤ hi
  | .glyph _ y g => ∃ a top bot : ℚ, y = .fin a ∧ g.metrics.ymax = .fin top ∧ g.metrics.ymin = .fin bot ∧ lo ≤ a - top ∧ a - bot ≤ hi

end Verif.Spec
