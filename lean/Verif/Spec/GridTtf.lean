import Verif.Spec.Grid
import Verif.Spec.Ttf
/-! # TrueType fonts of bounded dimensions -/

namespace Verif.Spec
open Verif GoFloat

/-- Fonts whose glyphs are, at 12 points, nowhere further than `R` points from their origin and advance by at most `R` points, that are not named
Cmex10 and kern by at most `K`, and of which the parentheses and the radical sign cross the base line and are at least `T` points high. -/
structure Tables64 {H : Type} (e : TtfEnv H) (R T K : ℕ) : Prop where
  name : ∀ h, e.lib.name h ≠ some bs!"Cmex10"
  advance : ∀ h g a, e.lib.glyphAdvance h g (e.lib.unitsPerEm h * 6 * 64) = some a → |a| ≤ 65536 * R
  bounds : ∀ h g b, e.lib.glyphBounds h g (12 * 64) = some b → |b.1| ≤ 64 * R ∧ |b.2.1| ≤ 64 * R ∧ |b.2.2.1| ≤ 64 * R ∧ |b.2.2.2| ≤ 64 * R
  kern : ∀ h a b k, e.lib.kern h a b (e.lib.unitsPerEm h) = .ok k → |k| ≤ 64 * K
  tall : ∀ c ∈ tallChars, ∀ (f : Font F64) h r g b, e.getGlyph c f true = .ok (h, r) → e.lib.glyphIndex h r = some g →
    e.lib.glyphBounds h g (12 * 64) = some b → b.2.1 ≤ 0 ∧ 0 ≤ b.2.2.2 ∧ 64 * T ≤ b.2.2.2 - b.2.1

/-- An operation on the canvas at a finite place. -/
def FinOp {H : Type} : COp F64 H → Prop
  | .glyph x y _ => Fin64 x ∧ Fin64 y
  | .rect x1 y1 x2 y2 => Fin64 x1 ∧ Fin64 y1 ∧ Fin64 x2 ∧ Fin64 y2

/-- What mtex.Render needs to stay within float64: fonts of bounded dimensions, a font size of `s`, the unit of length `2 ^ k`, numbers
of at most `V` in the source, and a source that is not too long for them. -/
structure RenderFits64 {H : Type} (U : Nat → Bool) (e : TtfEnv H) (num : GoString → Option F64) (x : GoString) (s : ℚ) (k : ℤ) (R T K J V : ℕ) : Prop where
  fonts : Tables64 e R T K
  reach : 1 ≤ R ∧ R ≤ 2 ^ 20
  high : 1 ≤ T
  size : 1 / 2 ^ 20 ≤ s ∧ s ≤ 2 ^ 20
  unit : -40 ≤ k ∧ k ≤ 900
  ratio : 1 ≤ J ∧ J ≤ 256
  /-- the glyphs reach no further than a quarter of a unit, -/
  large : R * s / 12 ≤ 2 ^ k / 4
  /-- the kerns no larger than one, -/
  kerns : (K : ℚ) ≤ 2 ^ k ∧ K ≤ 2 ^ 40
  /-- and a unit is, with some margin, no larger than `J` times the parentheses and the radical -/
  small : 13 / 12 * 2 ^ k ≤ J * (T * s / 12)
  numbers : NumbersUpTo U num x V
  short : (8 * J + V) * (x.length + 3) ^ 2 ≤ 2 ^ 36

end Verif.Spec
