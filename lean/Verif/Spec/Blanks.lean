import Verif.Model.Box
import Verif.Model.Exact
/-! # What C79 speaks about -/

namespace Verif.Spec
open Verif

/-- The blanks and their widths in eighteenths of an em. -/
def blankMu : List (GoString × Int) := [(bs!"\\,", 3), (bs!"\\thinspace", 3), (bs!"\\/", 3), (bs!"\\>", 4), (bs!"\\:", 4), (bs!"\\;", 5),
  (bs!"\\ ", 6), (bs!"~", 6), (bs!"\\enspace", 9), (bs!"\\quad", 18), (bs!"\\qquad", 36), (bs!"\\!", -3)]

/-- The unit of blanks: the advance of the letter m of the font called `it`, in italics, at the size in use. -/
def emWidth {F : Type} (be : Backend F) (st : TState F) : F := (be.metrics bs!"m" ⟨bs!"it", bs!"it", st.font.size⟩ st.dpi true).advance

/-- The letter m can be measured. -/
def EmKnown {F : Type} (be : Backend F) (st : TState F) : Prop := be.known bs!"m" ⟨bs!"it", bs!"it", st.font.size⟩ st.dpi true = true

/-- Nothing but room of the given width: no height, no depth, nothing to draw, no stretching. -/
def IsRoom {F : Type} (w : F) (n : TNode F) : Prop := n = .kern ⟨0, w⟩

end Verif.Spec
