import Verif.Model.Ttf
import Verif.Model.Exact
/-! # What C78 speaks about -/

namespace Verif.Spec
open Verif
variable {F H : Type}

/-- The face a character is taken from: that of the type asked for, but italic only for letters (characters above
U+FFFF count as letters). -/
def FaceFor (e : TtfEnv H) (typ : GoString) (rn : Nat) (ft : H) : Prop :=
  (typ = bs!"it" ∧ rn < 0x10000 ∧ e.isL rn = false ∧ e.fonts.rm = some ft) ∨
  (¬ (typ = bs!"it" ∧ rn < 0x10000 ∧ e.isL rn = false) ∧
    ((typ = bs!"default" ∧ e.fonts.default = some ft) ∨ ((typ = bs!"rm" ∨ typ = bs!"regular") ∧ e.fonts.rm = some ft) ∨
      (typ = bs!"it" ∧ e.fonts.it = some ft) ∨ (typ = bs!"bf" ∧ e.fonts.bf = some ft)))

/-- Glyphs marked as slanted: those taken from the italic face, and the two integral signs. -/
def Slants (e : TtfEnv H) (c typ : GoString) (rn : Nat) : Prop :=
  (typ = bs!"it" ∧ (0x10000 ≤ rn ∨ e.isL rn = true)) ∨ c = bs!"\\int" ∨ c = bs!"\\oint"

/-- What the font library says about a symbol: the character, its face and glyph, the name of the face, the advance of
the glyph at six pixels per unit, and its bounds at twelve pixels per em, both in 64ths of a pixel, the vertical axis
pointing downwards. -/
structure Glyphed (e : TtfEnv H) (c : GoString) (typ : GoString) (m : Bool) (rn : Nat) (ft : H) (ps : GoString) (idx : Nat)
    (adv left top right bottom : Int) : Prop where
  rune : tex2unicodeIndex c m = .ok rn
  face : FaceFor e typ rn ft
  name : e.lib.name ft = some ps
  index : e.lib.glyphIndex ft rn = some idx
  named : ∃ s, e.lib.glyphName ft idx = some s
  loads : e.lib.loadGlyph ft idx (e.lib.unitsPerEm ft * 6 * 64) = true ∧ e.lib.loadGlyph ft idx (e.lib.unitsPerEm ft) = true
  advance : e.lib.glyphAdvance ft idx (e.lib.unitsPerEm ft * 6 * 64) = some adv
  bounds : e.lib.glyphBounds ft idx (12 * 64) = some (left, top, right, bottom)

/-- The metrics of a glyph at `s` points, when the font is not the one that is treated apart. -/
def PlainMetrics (adv left top right bottom : Int) (s : ℚ) (r : Metrics XR) : Prop :=
  r.advance = .fin (adv / 786432 * s) ∧ r.width = .fin ((right - left) / 64 * (s / 12)) ∧ r.height = .fin ((bottom - top) / 64 * (s / 12)) ∧
  r.xmin = .fin (left / 64 * (s / 12)) ∧ r.xmax = .fin (right / 64 * (s / 12)) ∧
  r.ymin = .fin (-bottom / 64 * (s / 12)) ∧ r.ymax = .fin (-top / 64 * (s / 12)) ∧ r.iceberg = r.ymax

/-- The metrics of a glyph of the font `Cmex10`: those of other fonts moved up by half the height of the glyph and a
third of the font size in pixels. -/
def RaisedMetrics (adv left top right bottom : Int) (s d : ℚ) (r : Metrics XR) : Prop :=
  ∃ r0, PlainMetrics adv left top right bottom s r0 ∧ ∃ up : ℚ, up = (bottom - top) / 64 * (s / 12) / 2 + s / 3 * d / 72 ∧
    r = { r0 with ymin := r0.ymin + .fin up, ymax := r0.ymax + .fin up, iceberg := r0.iceberg + .fin up }

/-- All metrics of `r'` are `k` times those of `r`. -/
def TimesMetrics (k : ℚ) (r r' : Metrics XR) : Prop :=
  ∃ a b c d e f g h : ℚ, r = ⟨.fin a, .fin b, .fin c, .fin d, .fin e, .fin f, .fin g, .fin h⟩ ∧
    r' = ⟨.fin (k * a), .fin (k * b), .fin (k * c), .fin (k * d), .fin (k * e), .fin (k * f), .fin (k * g), .fin (k * h)⟩

/-- The numbers that are characters. -/
def ValidRune (r : Nat) : Prop := r < 0xD800 ∨ (0xE000 ≤ r ∧ r < 0x110000)

end Verif.Spec
