import Verif.Model.Ship
import Verif.Model.Symbols
/-! # font/ttf/ttf.go and drawtex/canvas.go

The font library (golang.org/x/image/font/sfnt) is a parameter: each method used is a function of
its arguments, `none` standing for an error.  Font handles (`*sfnt.Font`) are of an abstract type
`H`; a nil pointer is `none`.  `isL` is `unicode.Is(unicode.L, r)`.  The scratch buffers of sfnt and
the hinting argument, which is always the same, are not modelled; nor is the overflow of the 26.6
fixed-point sizes, which needs more than 87000 units per em. -/

namespace Verif
variable {F H : Type} [GoFloat F]
open GoFloat

/-- The outcome of `(*sfnt.Font).Kern`. -/
inductive KernAns where
  | ok (k : Int)
  | notFound
  | err
deriving DecidableEq, Repr

/-- The methods of `*sfnt.Font` used by ttf.go (sizes in 26.6 fixed point). -/
structure Sfnt (H : Type) where
  /-- `Name(&buf, sfnt.NameIDPostScript)` -/
  name : H → Option GoString
  glyphIndex : H → Nat → Option Nat
  glyphName : H → Nat → Option GoString
  /-- whether `LoadGlyph` succeeds -/
  loadGlyph : H → Nat → Int → Bool
  glyphAdvance : H → Nat → Int → Option Int
  /-- `GlyphBounds`: Min.X, Min.Y, Max.X, Max.Y -/
  glyphBounds : H → Nat → Int → Option (Int × Int × Int × Int)
  unitsPerEm : H → Int
  kern : H → Nat → Nat → Int → KernAns
  /-- whether `opentype.NewFace` makes a face of the font, whatever the resolution and the size (as far as we know it always does) -/
  newFace : H → Bool := fun _ => true

/-- ttf.go:27-34 `Fonts` -/
structure TtfFonts (H : Type) where
  default : Option H
  rm : Option H
  it : Option H
  bf : Option H
  bfIt : Option H

/-- ttf.go:51-57 the map built by `NewFrom`, and ttf.go:230-232 `getFont` -/
def TtfFonts.get (f : TtfFonts H) (t : GoString) : Option H :=
  if t = bs!"default" then f.default
  else if t = bs!"regular" then f.rm
  else if t = bs!"rm" then f.rm
  else if t = bs!"it" then f.it
  else if t = bs!"bf" then f.bf
  else none

/-- ttf.go:278-287 `ttfVal` -/
structure TtfVal (F H : Type) where
  font : Option H
  size : F
  postscript : GoString
  metrics : Metrics F
  symbolName : GoString
  rune : Nat
  glyph : Nat
  offset : F
  /-- `metrics.Slanted` -/
  slanted : Bool

/-- The zero value of `ttfVal` -/
def TtfVal.zero : TtfVal F H :=
  ⟨none, GoFloat.zero, [], ⟨GoFloat.zero, GoFloat.zero, GoFloat.zero, GoFloat.zero, GoFloat.zero, GoFloat.zero,
    GoFloat.zero, GoFloat.zero⟩, [], 0, 0, GoFloat.zero, false⟩

/-- ttf.go:272-276 `ttfKey` -/
structure TtfKey (F : Type) where
  symbol : GoString
  font : Font F
  dpi : F

/-- `==` of keys, as used by the map: numbers are compared as numbers, so a NaN equals nothing. -/
def TtfKey.same (a b : TtfKey F) : Bool :=
  a.symbol == b.symbol && a.font.name == b.font.name && a.font.typ == b.font.typ && eq a.font.size b.font.size
    && eq a.dpi b.dpi

/-- drawtex/canvas.go:46-54 `Glyph` -/
structure GlyphD (F H : Type) where
  font : Option H
  size : F
  postscript : GoString
  metrics : Metrics F
  symbol : GoString
  num : Nat
  offset : F
  /-- `Metrics.Slanted` -/
  slanted : Bool

/-- drawtex/canvas.go:30-44 `Op`, `GlyphOp`, `RectOp` -/
inductive COp (F H : Type) where
  | glyph (x y : F) (g : GlyphD F H)
  | rect (x1 y1 x2 y2 : F)

/-- drawtex/canvas.go:13-15 `Canvas`: its operations -/
abbrev Canvas (F H : Type) := List (COp F H)

/-- drawtex/canvas.go:17-19 `New` -/
def Canvas.new : Canvas F H := []
/-- drawtex/canvas.go:21-23 `RenderGlyph` -/
def Canvas.renderGlyph (c : Canvas F H) (x y : F) (g : GlyphD F H) : Canvas F H := c ++ [.glyph x y g]
/-- drawtex/canvas.go:25-27 `RenderRectFilled` -/
def Canvas.renderRect (c : Canvas F H) (x1 y1 x2 y2 : F) : Canvas F H := c ++ [.rect x1 y1 x2 y2]
/-- drawtex/canvas.go:29 `Ops` -/
def Canvas.ops (c : Canvas F H) : List (COp F H) := c

/-- ttf.go:36-40 `Backend`, the part that changes: the canvas and the map of glyphs (newest entry
first). -/
structure TtfSt (F H : Type) where
  canvas : Canvas F H
  glyphs : List (TtfKey F × TtfVal F H)

/-- ttf.go:42-59 `New`, `NewFrom` -/
def TtfSt.new : TtfSt F H := ⟨.new, []⟩

/-- `val, ok := be.glyphs[key]` -/
def TtfSt.find (s : TtfSt F H) (k : TtfKey F) : Option (TtfVal F H) := (s.glyphs.find? fun q => q.1.same k).map (·.2)

/-- What does not change: the font library, the fonts, the letters. -/
structure TtfEnv (H : Type) where
  lib : Sfnt H
  fonts : TtfFonts H
  isL : Nat → Bool

/-- ttf.go:196-219 `getGlyph`: the font and the rune (`slanted` is apart, the symbol, which nothing uses, is
left out). -/
def TtfEnv.getGlyph (e : TtfEnv H) (symbol : GoString) (font : Font F) (math : Bool) : Res (H × Nat) :=
  tex2unicodeIndex symbol math >>= fun idx =>
    let fontType := if font.typ = bs!"it" ∧ idx < 0x10000 ∧ e.isL idx = false then bs!"rm" else font.typ
    match e.fonts.get fontType with
    | none => .panic (.other "could not find TTF font")
    | some ft => .ok (ft, idx)

/-- ttf.go:205-212 `slanted` in `getGlyph` for a symbol that stands for the rune `idx`, and ttf.go:225-232 `isSlanted` -/
def TtfEnv.slanted (e : TtfEnv H) (symbol : GoString) (font : Font F) (idx : Nat) : Bool :=
  let fontType := if font.typ = bs!"it" ∧ idx < 0x10000 ∧ e.isL idx = false then bs!"rm" else font.typ
  fontType == bs!"it" || symbol == bs!"\\int" || symbol == bs!"\\oint"

/-- ttf.go:120-136 the numbers of `getInfo`: `adv` the advance, `b` the bounds at 12 points, `size`
the font size. -/
def ttfMetrics (postscript : GoString) (adv : Int) (b : Int × Int × Int × Int) (size dpi : F) : Metrics F × F :=
  let scale := size / ofInt 12
  let xmin := scale * ofInt b.1 / ofInt 64
  let xmax := scale * ofInt b.2.2.1 / ofInt 64
  let ymin := scale * ofInt (-b.2.2.2) / ofInt 64
  let ymax := scale * ofInt (-b.2.1) / ofInt 64
  let width := xmax - xmin
  let height := ymax - ymin
  let offset := if postscript = bs!"Cmex10" then height / ofInt 2 + size / ofInt 3 * dpi / ofInt 72 else zero
  (⟨ofInt adv / ofInt 65536 * size / ofInt 12, height, width, xmin, xmax, ymin + offset, ymax + offset,
    ymax + offset⟩, offset)

/-- ttf.go:92-165 `getInfo` after the map lookup: what is stored. -/
def TtfEnv.load (e : TtfEnv H) (symbol : GoString) (fnt : Font F) (dpi : F) (math : Bool) : Res (TtfVal F H) :=
  e.getGlyph symbol fnt math >>= fun (ft, rn) =>
    match e.lib.name ft with
    | none => .panic (.other "could not retrieve postscript name of font")
    | some postscript =>
    match e.lib.glyphIndex ft rn with
    | none => .panic (.other "could not retrieve glyph index")
    | some idx =>
    match e.lib.glyphName ft idx with
    | none => .panic (.other "could not retrieve glyph name")
    | some symName =>
    if e.lib.loadGlyph ft idx (e.lib.unitsPerEm ft * 6 * 64) = false then .panic (.other "could not load glyph")
    else
    match e.lib.glyphAdvance ft idx (e.lib.unitsPerEm ft * 6 * 64) with
    | none => .panic (.other "could not retrieve glyph advance")
    | some adv =>
    if e.lib.loadGlyph ft idx (e.lib.unitsPerEm ft) = false then .panic (.other "could not load glyph")
    else
    match e.lib.glyphBounds ft idx (12 * 64) with
    | none => .panic (.other "GlyphBounds")
    | some b =>
      let m := ttfMetrics postscript adv b fnt.size dpi
      .ok ⟨some ft, fnt.size, postscript, m.1, symName, rn, idx, m.2, e.slanted symbol fnt rn⟩

/-- ttf.go:84-166 `getInfo`.  The value returned is looked up again (line 165): the zero value if
the key is not equal to itself. The state is returned in any case: a panic may be recovered from. -/
def TtfEnv.getInfo (e : TtfEnv H) (symbol : GoString) (fnt : Font F) (dpi : F) (math : Bool) (s : TtfSt F H) :
    Res (TtfVal F H) × TtfSt F H :=
  match s.find ⟨symbol, fnt, dpi⟩ with
  | some v => (.ok v, s)
  | none =>
    match e.load symbol fnt dpi math with
    | .ok v =>
      let s' : TtfSt F H := { s with glyphs := (⟨symbol, fnt, dpi⟩, v) :: s.glyphs }
      (.ok ((s'.find ⟨symbol, fnt, dpi⟩).getD .zero), s')
    | .panic p => (.panic p, s)
    | .fuel => (.fuel, s)

/-- ttf.go:80-82 `Metrics` -/
def TtfEnv.metrics (e : TtfEnv H) (symbol : GoString) (fnt : Font F) (dpi : F) (math : Bool) (s : TtfSt F H) :
    Res (Metrics F) × TtfSt F H :=
  match e.getInfo symbol fnt dpi math s with
  | (.ok v, s') => (.ok v.metrics, s')
  | (.panic p, s') => (.panic p, s')
  | (.fuel, s') => (.fuel, s')

/-- ttf.go:245-266 `Kern`.  A font handle that is nil (it can only come from a key that is not
equal to itself) makes `UnitsPerEm` panic. -/
def TtfEnv.kern (e : TtfEnv H) (ft1 : Font F) (sym1 : GoString) (ft2 : Font F) (sym2 : GoString) (dpi : F)
    (s : TtfSt F H) : Res F × TtfSt F H :=
  if ft1.name = ft2.name ∧ eq ft1.size ft2.size = true then
    match e.getInfo sym1 ft1 dpi true s with
    | (.ok v1, s1) =>
      match e.getInfo sym2 ft2 dpi true s1 with
      | (.ok v2, s2) =>
        match v1.font with
        | none => (.panic (.other "nil pointer dereference"), s2)
        | some h =>
          match e.lib.kern h v1.glyph v2.glyph (e.lib.unitsPerEm h) with
          | .ok k => (.ok (ofInt k / ofInt 64), s2)
          | .notFound => (.ok zero, s2)
          | .err => (.panic (.other "could not compute kerning"), s2)
      | (.panic p, s2) => (.panic p, s2)
      | (.fuel, s2) => (.fuel, s2)
    | (.panic p, s1) => (.panic p, s1)
    | (.fuel, s1) => (.fuel, s1)
  else (.ok zero, s)

/-- `string(r)` for a rune: its UTF-8 encoding (U+FFFD for a number that is no rune). -/
def encodeRune (r : Nat) : GoString :=
  if r < 0x80 then [r]
  else if r < 0x800 then [0xC0 + r / 64, 0x80 + r % 64]
  else if 0xD800 ≤ r ∧ r < 0xE000 then [0xEF, 0xBF, 0xBD]
  else if r < 0x10000 then [0xE0 + r / 4096, 0x80 + r / 64 % 64, 0x80 + r % 64]
  else if r < 0x110000 then [0xF0 + r / 262144, 0x80 + r / 4096 % 64, 0x80 + r / 64 % 64, 0x80 + r % 64]
  else [0xEF, 0xBF, 0xBD]

/-- ttf.go:62-72: the `drawtex.Glyph` made of a `ttfVal` -/
def TtfVal.glyphD (v : TtfVal F H) : GlyphD F H :=
  ⟨v.font, v.size, v.postscript, v.metrics, encodeRune v.rune, v.glyph, v.offset, v.slanted⟩

/-- ttf.go:62-73 `RenderGlyph` -/
def TtfEnv.renderGlyph (e : TtfEnv H) (x y : F) (fnt : Font F) (symbol : GoString) (dpi : F) (s : TtfSt F H) :
    Res Unit × TtfSt F H :=
  match e.getInfo symbol fnt dpi true s with
  | (.ok v, s') => (.ok (), { s' with canvas := s'.canvas.renderGlyph x y v.glyphD })
  | (.panic p, s') => (.panic p, s')
  | (.fuel, s') => (.fuel, s')

/-- ttf.go:75-78 `RenderRectFilled` -/
def TtfSt.renderRect (x1 y1 x2 y2 : F) (s : TtfSt F H) : TtfSt F H :=
  { s with canvas := s.canvas.renderRect x1 y1 x2 y2 }

/-- ttf.go:236-242 `UnderlineThickness`.  `0.75 / 12` is a constant. -/
def ttfUnderline (fnt : Font F) (dpi : F) : F := ofRat 1 16 * fnt.size * dpi / ofInt 72

end Verif
