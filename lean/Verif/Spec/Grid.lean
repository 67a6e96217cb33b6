import Verif.Spec.Ieee
import Verif.Model.Mtex
import Verif.Spec.Tree
/-! # Backends of bounded dimensions, in float64 -/

namespace Verif.Spec
open Verif GoFloat

/-- A finite number, in absolute value at most `b`. -/
def Within (b : ℚ) (x : F64) : Prop := ∃ q, Num64 x q ∧ |q| ≤ b

/-- The characters that are enlarged to the height of what they enclose. -/
def tallChars : List GoString := [bs!"(", bs!")", bs!"\\__sqrt__"]

/-- Fonts whose characters are no larger than `u` in the font size `size` at the resolution `dpi`, and of which the parentheses and the radical
sign are at least as high as the `J`-th part of `u`, sit on the base line, and grow with the font size. -/
structure Bounded64 (be : Backend F64) (u : ℚ) (J : ℕ) (size dpi : F64) : Prop where
  metrics : ∀ c f m, f.size = size → be.known c f dpi m = true →
    Within u (be.metrics c f dpi m).advance ∧ Within u (be.metrics c f dpi m).width ∧ Within u (be.metrics c f dpi m).height ∧
    Within u (be.metrics c f dpi m).iceberg ∧ Within u (be.metrics c f dpi m).ymax ∧ Within u (be.metrics c f dpi m).ymin
  kern : ∀ f c f' c', f.size = size → f'.size = size → Within u (be.kern f c f' c' dpi)
  underline : ∀ f, f.size = size → ∃ q, Num64 (be.underline f dpi) q ∧ 0 ≤ q ∧ q ≤ u
  gap : ∃ q, Num64 (size * dpi / ofInt 1200) q ∧ 0 ≤ q ∧ q ≤ u
  tall : ∀ c ∈ tallChars, ∀ f, f.size = size → be.known c f dpi true = true → ∀ h, Num64 (be.metrics c f dpi true).height h →
    u ≤ J * h ∧
    ∀ φ p, Num64 φ p → 0 ≤ p → p ≤ 2 ^ 100 → be.known c { f with size := size * φ } dpi true = true →
      Within ((p + 1) * u) (be.metrics c { f with size := size * φ } dpi true).advance ∧
      Within ((p + 1) * u) (be.metrics c { f with size := size * φ } dpi true).width ∧
      ∃ t i, Num64 (be.metrics c { f with size := size * φ } dpi true).height t ∧
        Num64 (be.metrics c { f with size := size * φ } dpi true).iceberg i ∧
        -u ≤ i ∧ i ≤ t + u ∧ t ≤ (1 + 1 / 2 ^ 40) * (p * h) + u

/-- A drawing call at a finite place. -/
def FinDraw : Draw F64 → Prop
  | .glyph x y _ _ _ => Fin64 x ∧ Fin64 y
  | .rect x1 y1 x2 y2 => Fin64 x1 ∧ Fin64 y1 ∧ Fin64 x2 ∧ Fin64 y2

/-- Every number that can be read from a literal of the expression `x` is, in absolute value, at most `V`. -/
def NumbersUpTo (U : Nat → Bool) (num : GoString → Option F64) (x : GoString) (V : ℕ) : Prop :=
  ∀ root p t v, parseExpr U x = .ok root → Node.lit p t ∈ allNodes root → num t = some v → Within V v

/-- What a layout needs to stay within float64: fonts of bounded dimensions, of which the unit is `2 ^ k`; numbers of at most `V` in the source; and
a source that is not too long for them. -/
structure Fits64 (U : Nat → Bool) (be : Backend F64) (num : GoString → Option F64) (x : GoString) (size dpi : F64) (k : ℤ) (J V : ℕ) : Prop where
  unit : -1000 ≤ k ∧ k ≤ 900
  ratio : 1 ≤ J ∧ J ≤ 256
  fonts : Bounded64 be (2 ^ k) J size dpi
  numbers : NumbersUpTo U num x V
  short : (8 * J + V) * (x.length + 3) ^ 2 ≤ 2 ^ 36

end Verif.Spec
