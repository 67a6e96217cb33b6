import Verif.Spec.Ttf
import Verif.Spec.Mtex
/-! # What C65 speaks about -/

namespace Verif.Spec
open Verif GoFloat
variable {F H : Type} [GoFloat F]

/-- The glyph of an operation on a canvas. -/
def glyphOf : COp F H → Option (GlyphD F H)
  | .glyph _ _ g => some g
  | .rect _ _ _ _ => none

/-- What a fresh TrueType backend draws for a symbol that has been measured in the given mode. -/
def freshGlyph (e : TtfEnv H) (f : Font F) (c : GoString) (d : F) (m : Bool) : List (COp F H) :=
  (runCalls e [.metrics c f d m, .glyph zero zero f c d] .new).canvas.ops

/-- The operation on the canvas is the one asked for by the drawing call: the same rectangle, or the
glyph of the symbol, as resolved in one of the two modes, at the same place. -/
def DrawnAs (e : TtfEnv H) : Draw F → COp F H → Prop
  | .rect x1 y1 x2 y2, op => op = .rect x1 y1 x2 y2
  | .glyph x y f c d, op => ∃ g, op = .glyph x y g ∧
      (Ordinary f.size → Ordinary d → ∃ m, freshGlyph e f c d m = [.glyph zero zero g])

/-- The glyph is the prescribed one, in one of the two modes, at resolution `d`. -/
def Inks (e : TtfEnv H) (d : F) (g : GlyphD F H) (i : Ink F) : Prop :=
  ∃ f : Font F, f.name = bs!"default" ∧ f.typ = i.typ ∧ (∀ s, i.size = some s → f.size = s) ∧
    (Ordinary f.size → ∃ m, freshGlyph e f i.sym d m = [.glyph zero zero g])

end Verif.Spec
