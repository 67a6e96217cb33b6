import Verif.Spec.Contain
/-! # What C82 speaks about -/

namespace Verif.Spec
open Verif GoFloat XR

/-- How far a glyph moves the pen to the right per point of font size: by symbol, font name, font type, resolution
and mode. -/
abbrev Advances := GoString → GoString → GoString → XR → Bool → ℚ

/-- Kerning takes from two glyphs of this size no more than each of them advances. -/
def KernFits (be : Backend XR) (A : Advances) (G : Bool → Prop) (s : ℚ) : Prop :=
  ∀ c n t m c' n' t' m' d, G m → G m' → IsNum d → be.known c ⟨n, t, .fin s⟩ d m = true → be.known c' ⟨n', t', .fin s⟩ d m' = true →
    ∃ k : ℚ, be.kern ⟨n, t, .fin s⟩ c ⟨n', t', .fin s⟩ c' d = .fin k ∧ -(A c n t d m * s) ≤ k ∧ -(A c' n' t' d m' * s) ≤ k

/-- In the modes `G`, the backend answers with these advances, none of which goes back; kerning fits at the size of the
document; the signs that are made to measure have a positive height; lines have no negative thickness. -/
structure Advancing (be : Backend XR) (A : Advances) (G : Bool → Prop) (size : ℚ) : Prop where
  advance : ∀ c n t s d m, G m → IsNum d → be.known c ⟨n, t, .fin s⟩ d m = true →
    (be.metrics c ⟨n, t, .fin s⟩ d m).advance = .fin (A c n t d m * s)
  forth : ∀ c n t d m, 0 ≤ A c n t d m
  kern : KernFits be A G size
  upright : ∀ c n t d, c ∈ [bs!"(", bs!")", bs!"\\__sqrt__"] → IsPos d → be.known c ⟨n, t, .fin size⟩ d true = true →
    ∃ h : ℚ, (be.metrics c ⟨n, t, .fin size⟩ d true).height = .fin h ∧ 0 < h
  line : ∀ n t d, IsPos d → ∃ q : ℚ, be.underline ⟨n, t, .fin size⟩ d = .fin q ∧ 0 ≤ q

/-- What is drawn lies between `lo` (on the left) and `hi` (on the right): lines, and glyphs from their reference point to
where they leave the pen.  A glyph advances as in one of the modes `G`. -/
def Across (A : Advances) (G : Bool → Prop) (lo hi : ℚ) : Draw XR → Prop
  | .rect x1 _ x2 _ => ∃ a b : ℚ, x1 = .fin a ∧ x2 = .fin b ∧ lo ≤ a ∧ a ≤ b ∧ b ≤ hi
  | .glyph x _ f c d => ∃ (a s : ℚ) (m : Bool), G m ∧ x = .fin a ∧ f.size = .fin s ∧ 0 ≤ s ∧
      lo ≤ a ∧ a + A c f.name f.typ d m * s ≤ hi

mutual
/-- Nothing in the document goes back: it has neither the negative blank `\!`, nor `\hspace` with a negative number,
nor a radical with an index, under which the sign is drawn. -/
def Forward (num : GoString → Option XR) : Node → Prop
  | .macro (some (_, name)) args =>
    name ≠ bs!"\\!" ∧ (name = bs!"\\sqrt" → ∀ a l b, .optArg a l b ∉ args) ∧
      (name = bs!"\\hspace" → ∀ a p t l b r v, args = .arg a (.lit p t :: l) b :: r → num t = some v → ∃ q : ℚ, v = .fin q ∧ 0 ≤ q) ∧
      Forwards num args
  | .macro none args => Forwards num args
  | .sym _ t => t ≠ bs!"\\!"
  | .list l | .math _ _ l _ | .arg _ l _ | .optArg _ l _ => Forwards num l
  | _ => True
/-- Nor does any of these nodes. -/
def Forwards (num : GoString → Option XR) : List Node → Prop
  | [] => True
  | n :: l => Forward num n ∧ Forwards num l
end

/-- The tables of the TrueType fonts are such that glyphs do not go back, that the signs which are made to measure have
a positive height (font files measure downwards), and that kerning, which does not depend on the size of the font, takes from
two glyphs of the size of the document no more than each of them advances. -/
structure SoundTables {H : Type} (e : TtfEnv H) (size : ℚ) : Prop where
  forth : ∀ ft idx p a, e.lib.glyphAdvance ft idx p = some a → 0 ≤ a
  upright : ∀ c ∈ [bs!"(", bs!")", bs!"\\__sqrt__"], ∀ (f : Font XR) (m : Bool) (ft : H) (rn idx : Nat) (b : Int × Int × Int × Int),
    e.getGlyph c f m = .ok (ft, rn) → e.lib.glyphIndex ft rn = some idx → e.lib.glyphBounds ft idx (12 * 64) = some b → b.2.1 < b.2.2.2
  kern : ∀ c t c' t' n d (v v' : TtfVal XR H) ft k, e.load c ⟨n, t, .fin size⟩ (.fin d) true = .ok v → e.load c' ⟨n, t', .fin size⟩ (.fin d) true = .ok v' →
    v.font = some ft → e.lib.kern ft v.glyph v'.glyph (e.lib.unitsPerEm ft) = .ok k →
      ∀ a a' : ℚ, v.metrics.advance = .fin a → v'.metrics.advance = .fin a' → -a ≤ (k : ℚ) / 64 ∧ -a' ≤ (k : ℚ) / 64

/-- What is painted by an operation on the canvas, a glyph having the advance recorded with it, lies between `lo` and
`hi`. -/
def OpAcross {H : Type} (lo hi : ℚ) : COp XR H → Prop
  | .rect x1 _ x2 _ => ∃ a b : ℚ, x1 = .fin a ∧ x2 = .fin b ∧ lo ≤ a ∧ a ≤ b ∧ b ≤ hi
  | .glyph x _ g => ∃ a w : ℚ, x = .fin a ∧ g.metrics.advance = .fin w ∧ lo ≤ a ∧ 0 ≤ w ∧ a + w ≤ hi

end Verif.Spec
