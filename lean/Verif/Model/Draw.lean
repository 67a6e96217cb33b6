import Verif.Model.Run
/-! # drawtex/drawimg, drawtex/drawpdf and cmd/mtex-render

The drawing library (gg), the font faces (golang.org/x/image/font/opentype), the PNG encoder, the PDF library (fpdf) and
the file system are not modelled: the model gives the calls made on them, in order, and takes their answers as parameters.
The conversion of the size of the image to `int` is left to the library: the model passes the number `math.Ceil` returns. -/

namespace Verif
variable {F H E : Type} [GoFloat F]
open GoFloat

/-- The calls made by drawimg.go on its libraries. -/
inductive Gg (F H : Type) where
  /-- `gg.NewContext(int(w), int(h))` -/
  | newContext (w h : F)
  /-- `SetColor(color.Black)` -/
  | setBlack
  /-- `SetFontFace` with the face `opentype.NewFace(font, DPI: dpi, Size: size)` -/
  | setFace (font : Option H) (dpi size : F)
  | drawString (s : GoString) (x y : F)
  | newSubPath
  | moveTo (x y : F)
  | lineTo (x y : F)
  | closePath
  | fill
  /-- `png.Encode(r.w, ctx.Image())` -/
  | encode

/-- The answers of the libraries used by drawimg. -/
structure ImgLib (F H E : Type) where
  /-- whether `opentype.NewFace` succeeds, for a font, a resolution and a size -/
  newFace : Option H → F → F → Bool
  /-- what `png.Encode` returns, for the width and the height in pixels (it refuses an empty image) -/
  encode : F → F → Option E
  /-- whether `gg.NewContext` makes an image of this width and height, in pixels (it panics if the image would be too large) -/
  newContext : F → F → Bool := fun _ _ => true

/-- drawimg.go:60-83 `drawGlyph` -/
def drawGlyphI (lib : ImgLib F H E) (dpi x y : F) (g : GlyphD F H) : Res Unit × List (Gg F H) :=
  if lib.newFace g.font dpi g.size = false then (.panic (.other "could not open font face for glyph"), [])
  else (.ok (), [.setFace g.font dpi g.size, .drawString g.symbol (x * (dpi / ofInt 72)) (y * (dpi / ofInt 72))])

/-- drawimg.go:85-96 `drawRect` -/
def drawRectI (dpi x1 y1 x2 y2 : F) : List (Gg F H) :=
  let s := dpi / ofInt 72
  [.newSubPath, .moveTo (x1 * s) (y1 * s), .lineTo (x2 * s) (y1 * s), .lineTo (x2 * s) (y2 * s), .lineTo (x1 * s) (y2 * s),
    .lineTo (x1 * s) (y1 * s), .closePath, .fill]

/-- drawimg.go:46-55 the loop of `Render` -/
def drawOpsI (lib : ImgLib F H E) (dpi : F) : List (COp F H) → Res Unit × List (Gg F H)
  | [] => (.ok (), [])
  | .rect x1 y1 x2 y2 :: l =>
    let r := drawOpsI lib dpi l
    (r.1, drawRectI dpi x1 y1 x2 y2 ++ r.2)
  | .glyph x y g :: l =>
    match drawGlyphI lib dpi x y g with
    | (.ok (), t) =>
      let r := drawOpsI lib dpi l
      (r.1, t ++ r.2)
    | (p, t) => (p, t)

/-- drawimg.go:32-58 `(*Renderer).Render`: what it returns, and the calls it has made by then. -/
def drawimgRender (lib : ImgLib F H E) (c : RenderCall F H) : Res (Option E) × List (Gg F H) :=
  let start : List (Gg F H) := [.newContext (ceil (c.w * c.dpi)) (ceil (c.h * c.dpi)), .setBlack]
  if lib.newContext (ceil (c.w * c.dpi)) (ceil (c.h * c.dpi)) = false then (.panic (.other "NewRGBA"), [])
  else
  match drawOpsI lib c.dpi c.ops with
  | (.ok (), t) => (.ok (lib.encode (ceil (c.w * c.dpi)) (ceil (c.h * c.dpi))), start ++ t ++ [.encode])
  | (.panic p, t) => (.panic p, start ++ t)
  | (.fuel, t) => (.fuel, start ++ t)

/-- The calls made by drawpdf.go on the PDF library; `log` is a line in the log. -/
inductive Pdf (F H : Type) where
  /-- `NewCustom` with the given page size in points -/
  | newCustom (w h : F)
  | addPage
  | log (op : COp F H)
  | outputFileAndClose (name : GoString)

/-- drawpdf.go:37 `drawGlyph` -/
def drawGlyphP (_x _y : F) (_g : GlyphD F H) : List (Pdf F H) := []
/-- drawpdf.go:38 `drawRect` -/
def drawRectP (_x1 _y1 _x2 _y2 : F) : List (Pdf F H) := []

/-- drawpdf.go:22-33 the body of the loop of `Write` -/
def writeOpP (op : COp F H) : List (Pdf F H) :=
  match op with
  | .glyph x y g => .log op :: drawGlyphP x y g
  | .rect x1 y1 x2 y2 => .log op :: drawRectP x1 y1 x2 y2

/-- drawpdf.go:15-35 `Write`: the calls made; it returns what the last one does. -/
def drawpdfWrite (name : GoString) (w h : F) (ops : List (COp F H)) : List (Pdf F H) :=
  [.newCustom w h, .addPage] ++
    ops.flatMap writeOpP ++
    [.outputFileAndClose name]

/-- mtex/render.go:21-50 with a drawimg renderer: what `Render` returns and the calls made on the libraries. -/
def mtexRenderImg (U : Nat → Bool) (e : TtfEnv H) (num : GoString → Option F) (x : GoString) (size dpi : F) (lib : ImgLib F H E) :
    Res (Option E) × List (Gg F H) :=
  match renderT U e num x size dpi with
  | .ok c => drawimgRender lib c
  | .panic p => (.panic p, [])
  | .fuel => (.fuel, [])

/-- What cmd/mtex-render does to its output file. -/
inductive FileEv (F H : Type) where
  /-- `os.Create`: the file is made, or emptied -/
  | create
  /-- the PNG of the image drawn by these calls is written -/
  | png (calls : List (Gg F H))
  | close

/-- How the command ends. -/
inductive Exit where
  | success
  /-- `log.Fatalf` -/
  | fatal
  /-- a panic -/
  | crash
deriving DecidableEq, Repr

/-- The world of the command: whether the output file can be created and closed. -/
structure OsLib where
  create : Bool
  close : Bool

/-- cmd/mtex-render/main.go:21-70 `main`, without `-gui`: the arguments after the flags, the values of `-font-size` and `-dpi`.  `e` is the
backend with the fonts of the command.  A PNG is written as a whole or, if `png.Encode` fails, in part.  The deferred
`Close` after the explicit one (it fails, and its error is dropped) is left out. -/
def mtexRenderMain (U : Nat → Bool) (e : TtfEnv H) (num : GoString → Option F) (lib : ImgLib F H E) (os : OsLib) (args : List GoString)
    (size dpi : F) : Exit × List (FileEv F H) :=
  match args with
  | [expr] =>
    if os.create = false then (.fatal, [])
    else
      match mtexRenderImg U e num expr size dpi lib with
      | (.ok none, t) => if os.close then (.success, [.create, .png t, .close]) else (.fatal, [.create, .png t, .close])
      | (.ok (some _), t) => (.fatal, [.create, .png t])
      | (.panic _, _) => (.crash, [.create, .close])
      | (.fuel, _) => (.crash, [.create, .close])
  | _ => (.fatal, [])

end Verif
