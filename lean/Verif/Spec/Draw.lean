import Verif.Model.Draw
/-! # What C75 and C77 speak about: what a drawing library does with its calls -/

namespace Verif.Spec
variable {F H E : Type} [GoFloat F]
open Verif GoFloat

/-- A mark on an image, in pixels: a string written in a font at a resolution and a size, or the inside of a polygon given by its
corners.  `black` tells whether the colour was set to black. -/
inductive Mark (F H : Type) where
  | text (black : Bool) (font : Option H) (dpi size : F) (s : GoString) (x y : F)
  | area (black : Bool) (polygons : List (List (F × F)))

/-- An image that has been written: width and height in pixels, as asked for, and the marks on it, in order. -/
structure Image (F H : Type) where
  w : F
  h : F
  marks : List (Mark F H)

/-- A drawing context: its size, the colour, the face, the polygons begun and the marks made; and the images written. -/
structure GgSt (F H : Type) where
  size : Option (F × F)
  black : Bool
  face : Option (Option H × F × F)
  path : List (List (F × F))
  marks : List (Mark F H)
  out : List (Image F H)

/-- Nothing yet. -/
def GgSt.start : GgSt F H := ⟨none, false, none, [], [], []⟩

/-- Add a corner to the last polygon. -/
def corner (p : F × F) : List (List (F × F)) → List (List (F × F))
  | [] => [[p]]
  | [q] => [q ++ [p]]
  | q :: l => q :: corner p l

/-- What a call does (gg, as documented). -/
def GgSt.step (s : GgSt F H) : Gg F H → GgSt F H
  | .newContext w h => ⟨some (w, h), false, none, [], [], s.out⟩
  | .setBlack => { s with black := true }
  | .setFace f d z => { s with face := some (f, d, z) }
  | .drawString t x y =>
    match s.face with
    | some (f, d, z) => { s with marks := s.marks ++ [.text s.black f d z t x y] }
    | none => s
  | .newSubPath => s
  | .moveTo x y => { s with path := s.path ++ [[(x, y)]] }
  | .lineTo x y => { s with path := corner (x, y) s.path }
  | .closePath => s
  | .fill => { s with marks := s.marks ++ [.area s.black s.path], path := [] }
  | .encode =>
    match s.size with
    | some (w, h) => { s with out := s.out ++ [⟨w, h, s.marks⟩] }
    | none => s

/-- The images written by a sequence of calls. -/
def images (l : List (Gg F H)) : List (Image F H) := (l.foldl GgSt.step .start).out

/-- From points to pixels. -/
def px (dpi a : F) : F := a * (dpi / ofInt 72)

/-- The mark of an operation on a canvas: a glyph in its own font and size at its place, a rectangle by its four corners (and the
first once more), in black. -/
def markOf (dpi : F) : COp F H → Mark F H
  | .glyph x y g => .text true g.font dpi g.size g.symbol (px dpi x) (px dpi y)
  | .rect x1 y1 x2 y2 => .area true [[(px dpi x1, px dpi y1), (px dpi x2, px dpi y1), (px dpi x2, px dpi y2), (px dpi x1, px dpi y2),
      (px dpi x1, px dpi y1)]]

/-- Every glyph of the canvas has a face. -/
def Faces (lib : ImgLib F H E) (dpi : F) (ops : List (COp F H)) : Prop :=
  ∀ x y g, .glyph x y g ∈ ops → lib.newFace g.font dpi g.size = true

/-- The libraries can draw the canvas: an image of the size asked for can be made, and every glyph has a face. -/
def CanDraw (lib : ImgLib F H E) (c : RenderCall F H) : Prop :=
  lib.newContext (ceil (c.w * c.dpi)) (ceil (c.h * c.dpi)) = true ∧ Faces lib c.dpi c.ops

/-- The call is a line in the log. -/
def isLog : Pdf F H → Bool
  | .log _ => true
  | _ => false

/-- What is in a file after some events, given what was in it (`none`: no file).  A PNG is given by the images written. -/
def contents : Option (List (Image F H)) → List (FileEv F H) → Option (List (Image F H))
  | c, [] => c
  | _, .create :: l => contents (some []) l
  | c, .png t :: l => contents (some (c.getD [] ++ images t)) l
  | c, .close :: l => contents c l

end Verif.Spec
