import Verif.Model.Gui
/-! # What C80 and C81 speak about -/

namespace Verif.Spec
open Verif GoFloat

/-- What happens, as far as formulas are concerned. -/
inductive UiAct where
  /-- the editor has a new text -/
  | typed (t : GoString)
  /-- control-enter, or a click on the button -/
  | commit
  /-- the image is laid out -/
  | image
deriving DecidableEq

/-- What happens while the widgets are laid out. -/
def widActs : List Wid → List UiAct
  | [] => []
  | .editor t :: l => .typed t :: widActs l
  | .button (_ + 1) :: l => .commit :: widActs l
  | .image :: l => .image :: widActs l
  | _ :: l => widActs l

/-- What happens in a sequence of events. -/
def acts {E : Type} : List (UiEv E) → List UiAct
  | [] => []
  | .frame ws :: l => widActs ws ++ acts l
  | .key (.enter true true) :: l => .commit :: acts l
  | _ :: l => acts l

/-- The formula the window starts with. -/
def firstExpr : GoString := bs!"$f(x) = \\frac{\\sqrt{x +20}}{2\\pi} +\\hbar \\sum y\\partial y$"

/-- The text of the editor after some acts: the one typed last. -/
def TextAfter (a : List UiAct) (t : GoString) : Prop :=
  (∃ a1 a2, a = a1 ++ .typed t :: a2 ∧ ∀ t', .typed t' ∉ a2) ∨ ((∀ t', .typed t' ∉ a) ∧ t = firstExpr)

/-- The formula in force after some acts: the text the editor had at the last commit. -/
def ExprAfter (a : List UiAct) (x : GoString) : Prop :=
  (∃ a1 a2, a = a1 ++ .commit :: a2 ∧ .commit ∉ a2 ∧ TextAfter a1 x) ∨ (.commit ∉ a ∧ x = firstExpr)

/-- The picture that drawimg makes of a formula with the fonts and the libraries of the window, if it makes one without an error. -/
def _root_.Verif.UiEnv.picture {F G H E : Type} [GoFloat F] [GoFloat G] (w : UiEnv F G H E) (x : GoString) : Option (List (Gg F H)) :=
  match mtexRenderImg w.U w.e w.num x (w.gio.f64 w.textSize) (ofInt 256) w.img with
  | (.ok none, t) => some t
  | _ => none

/-- The picture shown after some acts, where `draw` says which formulas can be made into a picture, and which: that of the last formula in
force, when the image was laid out, that could. -/
def ImgAfter {P : Type} (draw : GoString → Option P) (a : List UiAct) (im : Option P) : Prop :=
  (∃ a1 a2 x t, a = a1 ++ .image :: a2 ∧ ExprAfter a1 x ∧ draw x = some t ∧ im = some t ∧
    ∀ b1 b2 y, a2 = b1 ++ .image :: b2 → ExprAfter (a1 ++ .image :: b1) y → draw y = none) ∨
  ((∀ b1 b2 y, a = b1 ++ .image :: b2 → ExprAfter b1 y → draw y = none) ∧ im = none)

/-- The event ends the program, with this error. -/
def Ends {E : Type} (ev : UiEv E) (err : Option E) : Prop := ev = .destroy err ∨ (ev = .key .escape ∧ err = none)

/-- The event is a frame. -/
def IsFrame {E : Type} (ev : UiEv E) : Prop := ∃ ws, ev = .frame ws

/-- How many of the widgets show a formula. -/
def shown : List Wid → Nat
  | [] => 0
  | .image :: l => shown l + 1
  | .formula :: l => shown l + 1
  | _ :: l => shown l

/-- A screenshot was asked for since the last frame. -/
def ShotAsked {E : Type} (l : List (UiEv E)) : Prop := ∃ a b, l = a ++ .key (.f11 true) :: b ∧ ∀ ws, .frame ws ∉ b

/-- A mark on the window: a text in black at a place, at a size, in italics or not; or the inside of a polygon. -/
inductive GioMark (G : Type) where
  | text (x y size : G) (s : GoString) (italic : Bool)
  | area (x y : G) (polygon : List (G × G))

/-- The state of the toolkit: the origin, the clip, the path begun, what was saved, the marks made. -/
structure GioSt (G : Type) where
  origin : G × G
  clip : Option (List (G × G))
  path : List (G × G)
  saved : List ((G × G) × Option (List (G × G)))
  marks : List (GioMark G)

/-- What a call does (gioui.org, as documented): `Load` restores the origin and the clip of the last `Save`. -/
def GioSt.step {G : Type} [GoFloat G] (s : GioSt G) : Gio G → GioSt G
  | .save => { s with saved := (s.origin, s.clip) :: s.saved }
  | .load =>
    match s.saved with
    | [] => s
    | q :: l => { s with origin := q.1, clip := q.2, saved := l }
  | .offset x y => { s with origin := (s.origin.1 + x, s.origin.2 + y) }
  | .label size t italic => { s with marks := s.marks ++ [.text s.origin.1 s.origin.2 size t italic] }
  | .begin => { s with path := [] }
  | .moveTo x y => { s with path := [(x, y)] }
  | .lineTo x y => { s with path := s.path ++ [(x, y)] }
  | .close => s
  | .outline => { s with clip := some s.path, path := [] }
  | .fill =>
    match s.clip with
    | some p => { s with marks := s.marks ++ [.area s.origin.1 s.origin.2 p] }
    | none => s

/-- The mark of an operation on a canvas, for an origin: a glyph as a text whose upper left corner is above its place by its size, a
rectangle by its four corners moved by `off`; lengths are scaled by `k`. -/
def gioMark {F G H : Type} [GoFloat F] [GoFloat G] (f32 : F → G) (origin off : G × G) (k : F) : COp F H → GioMark G
  | .glyph x y g => .text (origin.1 + f32 (x * k)) (origin.2 + f32 ((y - g.size) * k)) (f32 (g.size * k)) g.symbol g.slanted
  | .rect x1 y1 x2 y2 => .area origin.1 origin.2 [(f32 (x1 * k) + off.1, f32 (y1 * k) + off.2), (f32 (x2 * k) + off.1, f32 (y1 * k) + off.2),
      (f32 (x2 * k) + off.1, f32 (y2 * k) + off.2), (f32 (x1 * k) + off.1, f32 (y2 * k) + off.2)]

/-- No event of the list ends the program. -/
def NoEnd {E : Type} (l : List (UiEv E)) : Prop := ∀ ev ∈ l, ∀ err, ¬ Ends ev err

/-- Laying out the widget panics, if `x` is the formula in force. -/
def WidCrash {F G H E : Type} [GoFloat F] [GoFloat G] (w : UiEnv F G H E) (x : GoString) : Wid → Prop
  | .image => ∀ err, (mtexRenderImg w.U w.e w.num x (w.gio.f64 w.textSize) (ofInt 256) w.img).1 ≠ .ok err
  | .formula => (∀ off, gioOffset w.gio w.textSize ≠ .ok off) ∨ ∀ c, renderT w.U w.e w.num x (w.gio.f64 w.textSize) (ofInt 256) ≠ .ok c
  | _ => False

/-- The operations differ at most in what the glyphs were taken from: the face, the glyph number, the metrics. -/
def SameButFace {F H : Type} : COp F H → COp F H → Prop
  | .glyph x y g, .glyph x' y' g' => x = x' ∧ y = y' ∧ g.size = g'.size ∧ g.symbol = g'.symbol ∧ g.slanted = g'.slanted
  | .rect x1 y1 x2 y2, .rect x1' y1' x2' y2' => x1 = x1' ∧ y1 = y1' ∧ x2 = x2' ∧ y2 = y2'
  | _, _ => False

end Verif.Spec
