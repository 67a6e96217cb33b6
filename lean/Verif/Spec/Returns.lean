import Verif.Spec.Render
/-! # What C69 speaks about -/

namespace Verif.Spec
open Verif GoFloat
variable {F H : Type} [GoFloat F]

/-- The symbol stands for a rune: in math mode if it is a single ASCII character or a listed symbol,
in text mode if it starts with a valid character (C31). -/
def resolves (c : GoString) (m : Bool) : Bool :=
  match tex2unicodeIndex c m with
  | .ok _ => true
  | _ => false

/-- The fonts are there, and the font library answers every question about them.  (sfnt answers with
glyph 0 for a rune the font does not have.) -/
structure Complete (e : TtfEnv H) : Prop where
  rm : e.fonts.rm ≠ none
  it : e.fonts.it ≠ none
  name : ∀ h, e.lib.name h ≠ none
  glyphIndex : ∀ h r, e.lib.glyphIndex h r ≠ none
  glyphName : ∀ h i, e.lib.glyphName h i ≠ none
  loadGlyph : ∀ h i s, e.lib.loadGlyph h i s = true
  glyphAdvance : ∀ h i s, e.lib.glyphAdvance h i s ≠ none
  glyphBounds : ∀ h i s, e.lib.glyphBounds h i s ≠ none
  kern : ∀ h a b s, e.lib.kern h a b s ≠ .err
  newFace : ∀ h, e.lib.newFace h = true

/-- The prescribed glyph can be drawn when the text is of the given size: its symbol stands for a rune
in math mode, whatever the mode it is set in; or else it is not in script size. -/
def Inkable (size : F) (i : Ink F) : Prop :=
  resolves i.sym true = true ∨ ∃ s, i.size = some s ∧ eq s size = true

end Verif.Spec
