import Verif.Spec.Metrics
import Verif.Spec.Ttf
/-! # What the answers of Kern (C74) are stated with -/

namespace Verif.Spec
open Verif
variable {F H : Type} [GoFloat F]

/-- What a fresh TrueType backend answers to Kern -/
def freshKern (e : TtfEnv H) (f1 : Font F) (c1 : GoString) (f2 : Font F) (c2 : GoString) (d : F) : Res F := (e.kern f1 c1 f2 c2 d .new).1

/-- In formulas, the symbol is taken from this face, where it has this glyph (and the library answers whatever else is
asked about it). -/
def GlyphOf (e : TtfEnv H) (c typ : GoString) (ft : H) (idx : Nat) : Prop :=
  ∃ rn ps adv left top right bottom, Glyphed e c typ true rn ft ps idx adv left top right bottom

end Verif.Spec
