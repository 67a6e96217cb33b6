import Verif.Model.Box
import Verif.Model.Exact
import Verif.Model.Ttf
import Verif.Spec.Paint
/-! # Backends that answer with numbers -/

namespace Verif.Spec
open Verif GoFloat XR

/-- A number: neither infinite nor NaN. -/
def IsNum (x : XR) : Prop := ∃ q : ℚ, x = .fin q

/-- A positive number. -/
def IsPos (x : XR) : Prop := ∃ q : ℚ, 0 < q ∧ x = .fin q

/-- The dimensions of glyphs, the kerning and the thickness of lines are numbers whenever the size of the
font and the resolution are, and the parentheses and the radical have some height in any positive size. -/
structure Numeric (be : Backend XR) : Prop where
  advance : ∀ c f d m, IsNum f.size → IsNum d → be.known c f d m = true → IsNum (be.metrics c f d m).advance
  width : ∀ c f d m, IsNum f.size → IsNum d → be.known c f d m = true → IsNum (be.metrics c f d m).width
  height : ∀ c f d m, IsNum f.size → IsNum d → be.known c f d m = true → IsNum (be.metrics c f d m).height
  iceberg : ∀ c f d m, IsNum f.size → IsNum d → be.known c f d m = true → IsNum (be.metrics c f d m).iceberg
  ymax : ∀ c f d m, IsNum f.size → IsNum d → be.known c f d m = true → IsNum (be.metrics c f d m).ymax
  ymin : ∀ c f d m, IsNum f.size → IsNum d → be.known c f d m = true → IsNum (be.metrics c f d m).ymin
  kern : ∀ f c f' c' d, IsNum f.size → IsNum f'.size → IsNum d → IsNum (be.kern f c f' c' d)
  underline : ∀ f d, IsNum f.size → IsNum d → IsNum (be.underline f d)
  tall : ∀ c f d, c ∈ [bs!"(", bs!")", bs!"\\__sqrt__"] → IsPos f.size → IsPos d → be.known c f d true = true →
    (be.metrics c f d true).height ≠ .fin 0

/-- The font library knows no parenthesis and no radical of height 0. -/
def TallGlyphs {H : Type} (e : TtfEnv H) : Prop :=
  ∀ c ∈ [bs!"(", bs!")", bs!"\\__sqrt__"], ∀ (f : Font XR) (m : Bool) (ft : H) (rn idx : Nat) (b : Int × Int × Int × Int),
    e.getGlyph c f m = .ok (ft, rn) → e.lib.glyphIndex ft rn = some idx → e.lib.glyphBounds ft idx (12 * 64) = some b → b.2.1 ≠ b.2.2.2

/-- The drawing call has numbers for arguments. -/
def NumDraw : Draw XR → Prop
  | .glyph x y f _ dpi => IsNum x ∧ IsNum y ∧ IsNum f.size ∧ IsNum dpi
  | .rect x1 y1 x2 y2 => IsNum x1 ∧ IsNum y1 ∧ IsNum x2 ∧ IsNum y2

/-- The operation is at a place given by numbers. -/
def NumOp {H : Type} : COp XR H → Prop
  | .glyph x y _ => IsNum x ∧ IsNum y
  | .rect x1 y1 x2 y2 => IsNum x1 ∧ IsNum y1 ∧ IsNum x2 ∧ IsNum y2

/-- The dimensions of the node are numbers. -/
def NumNode : TNode XR → Prop
  | .box b => IsNum b.width ∧ IsNum b.height ∧ IsNum b.depth
  | .char c => IsNum c.width ∧ IsNum c.height ∧ IsNum c.depth ∧ IsNum c.metrics.advance ∧ IsNum c.font.size ∧ IsNum c.dpi
  | .list _ hd _ => IsNum hd.box.width ∧ IsNum hd.box.height ∧ IsNum hd.box.depth ∧ IsNum hd.shift
  | .kern k => IsNum k.width
  | .glue g => IsNum g.width
  | _ => False

end Verif.Spec
