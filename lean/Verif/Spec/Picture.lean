import Verif.Spec.Draw
import Verif.Spec.Across
/-! # The part of an image that is painted (C88) -/

namespace Verif.Spec
open Verif
variable {H : Type}

/-- At `dpi` dots per inch (72 points per inch) the operation paints between the columns `l` and `r` and the rows `t` and
`b`, in pixels: a rectangle between its corners; a glyph from its origin as far as it advances, and from its top to its
bottom, its metrics being those recorded with it. -/
def Paints (dpi : ℚ) (l t r b : ℚ) : COp XR H → Prop
  | .rect x1 y1 x2 y2 => ∃ a a' c c' : ℚ, x1 = .fin a ∧ y1 = .fin c ∧ x2 = .fin a' ∧ y2 = .fin c' ∧
      l = a * dpi / 72 ∧ r = a' * dpi / 72 ∧ t = c * dpi / 72 ∧ b = c' * dpi / 72
  | .glyph x y g => ∃ a c w top bot : ℚ, x = .fin a ∧ y = .fin c ∧ g.metrics.advance = .fin w ∧ g.metrics.ymax = .fin top ∧
      g.metrics.ymin = .fin bot ∧ l = a * dpi / 72 ∧ r = (a + w) * dpi / 72 ∧ t = (c - top) * dpi / 72 ∧ b = (c - bot) * dpi / 72

end Verif.Spec
