import Verif.Model.Draw
/-! # cmd/mtex-render/gio.go

The toolkit (gioui.org) is not modelled: the window gives a list of events (the end of the list is the closing of the channel), and for
every frame the widgets its list lays out, in the order it does so (it leaves out those that cannot be seen).  With the layout of the
editor comes the text it has after it, with that of the button the number of clicks.  Calls on the toolkit that draw a formula are
recorded; window decoration, themes, borders and headings are left out.  Numbers of type float32 are of a type `G`, the conversions are
parameters. -/

namespace Verif
variable {F G H E : Type} [GoFloat F] [GoFloat G]
open GoFloat

/-- The calls made by `gioRenderer` on the toolkit. -/
inductive Gio (G : Type) where
  /-- `op.Save` -/
  | save
  /-- `Load` -/
  | load
  /-- `op.Offset(p).Add` -/
  | offset (x y : G)
  /-- `material.Label(...).Layout` in black, starting at the left -/
  | label (size : G) (s : GoString) (italic : Bool)
  /-- `clip.Path.Begin` -/
  | begin
  | moveTo (x y : G)
  | lineTo (x y : G)
  | close
  /-- `clip.Outline{Path: p.End()}.Op().Add` -/
  | outline
  /-- `paint.Fill` in black -/
  | fill

/-- What the toolkit and the font library say: the conversions between float32 and float64, the units per em of the roman font and
its height and ascent at that size (26.6 numbers; `none`: an error). -/
structure GioLib (F G : Type) where
  f32 : F → G
  f64 : G → F
  unitsPerEm : Int
  metrics : Option (Int × Int)

/-- gio.go:287-293 the offset computed by `newGioRenderer`, for the text size of the theme. -/
def gioOffset (lib : GioLib F G) (textSize : G) : Res (G × G) :=
  match lib.metrics with
  | none => .panic (.other "could not extract font extents")
  | some (height, ascent) =>
    let scale := textSize / ofInt lib.unitsPerEm
    .ok (ofInt (-1), -scale * ofInt (height - ascent) - ofInt 1)

/-- gio.go:332-348 `drawGlyph` -/
def drawGlyphG (lib : GioLib F G) (dpi x y : F) (g : GlyphD F H) : List (Gio G) :=
  [.save, .offset (lib.f32 (x * dpi)) (lib.f32 ((y - g.size) * dpi)), .label (lib.f32 (g.size * dpi)) g.symbol g.slanted, .load]

/-- gio.go:350-365 `drawRect` -/
def drawRectG (lib : GioLib F G) (off : G × G) (dpi x1 y1 x2 y2 : F) : List (Gio G) :=
  [.save, .begin,
    .moveTo (lib.f32 (x1 * dpi) + off.1) (lib.f32 (y1 * dpi) + off.2),
    .lineTo (lib.f32 (x2 * dpi) + off.1) (lib.f32 (y1 * dpi) + off.2),
    .lineTo (lib.f32 (x2 * dpi) + off.1) (lib.f32 (y2 * dpi) + off.2),
    .lineTo (lib.f32 (x1 * dpi) + off.1) (lib.f32 (y2 * dpi) + off.2),
    .close, .outline, .fill, .load]

/-- gio.go:319-328 one round of the loop of `Render` -/
def drawOpG (lib : GioLib F G) (off : G × G) (dpi : F) : COp F H → List (Gio G)
  | .glyph x y g => drawGlyphG lib dpi x y g
  | .rect x1 y1 x2 y2 => drawRectG lib off dpi x1 y1 x2 y2

/-- gio.go:297-330 `(*gioRenderer).Render`; the part under `if false` is left out. -/
def gioRender (lib : GioLib F G) (off : G × G) (c : RenderCall F H) : List (Gio G) :=
  c.ops.flatMap (drawOpG lib off (c.dpi / ofInt 72))

/-- The keys `Run` looks for. -/
inductive UiKey where
  | escape
  /-- enter or return: whether control is held, whether it is a press -/
  | enter (ctrl press : Bool)
  | f11 (press : Bool)
  | other

/-- The widgets of the window; the headings are left out. -/
inductive Wid where
  /-- the editor, and its text after the layout -/
  | editor (text : GoString)
  /-- the button, and how often it was clicked -/
  | button (clicks : Nat)
  /-- the image made by drawimg -/
  | image
  /-- the formula drawn by gioRenderer -/
  | formula

/-- The events of the window. -/
inductive UiEv (E : Type) where
  | destroy (err : Option E)
  | key (k : UiKey)
  | frame (ws : List Wid)
  | other

/-- What can be seen of the program. -/
inductive UiOut (F G H : Type) where
  /-- an image is laid out: the one drawn by these calls (`none`: the blank image of the start) -/
  | image (calls : Option (List (Gg F H)))
  /-- a formula is laid out by these calls -/
  | formula (calls : List (Gio G))
  /-- `e.Frame` -/
  | frame
  /-- `screenshot`: the frame is written to a file (if the libraries succeed) -/
  | screenshot
  /-- `win.Invalidate` -/
  | invalidate

/-- gio.go:58-71 `UI`: the part that changes.  `text` is the text of the editor. -/
structure UiSt (F H : Type) where
  expr : GoString
  text : GoString
  screen : Bool
  image : Option (List (Gg F H))

/-- gio.go:73-84 `NewUI` -/
def UiSt.new : UiSt F H :=
  let expr := bs!"$f(x) = \\frac{\\sqrt{x +20}}{2\\pi} +\\hbar \\sum y\\partial y$"
  ⟨expr, expr, false, none⟩

/-- The world of the window: what does not change. `e` is the backend with the fonts of the command. -/
structure UiEnv (F G H E : Type) where
  U : Nat → Bool
  e : TtfEnv H
  num : GoString → Option F
  img : ImgLib F H E
  gio : GioLib F G
  textSize : G

/-- gio.go:219-242 `imgRender`; the decoder gives back the image that was encoded. -/
def UiEnv.imgRender (w : UiEnv F G H E) (s : UiSt F H) : Res (UiSt F H) :=
  match mtexRenderImg w.U w.e w.num s.expr (w.gio.f64 w.textSize) (ofInt 256) w.img with
  | (.ok none, t) => .ok { s with image := some t }
  | (.ok (some _), _) => .ok s
  | (.panic p, _) => .panic p
  | (.fuel, _) => .fuel

/-- gio.go:244-260 `gioRender` with gio.go:269-295 `newGioRenderer` -/
def UiEnv.gioDraw (w : UiEnv F G H E) (s : UiSt F H) : Res (List (Gio G)) :=
  gioOffset w.gio w.textSize >>= fun off =>
    renderT w.U w.e w.num s.expr (w.gio.f64 w.textSize) (ofInt 256) >>= fun c => .ok (gioRender w.gio off c)

/-- gio.go:161-213 the layout of one widget -/
def UiEnv.widget (w : UiEnv F G H E) (s : UiSt F H) : Wid → Res (UiSt F H × List (UiOut F G H))
  | .editor t => .ok ({ s with text := t }, [])
  | .button n => if n = 0 then .ok (s, []) else .ok ({ s with expr := s.text }, [])
  | .image => w.imgRender s >>= fun s' => .ok (s', [.image s'.image])
  | .formula => w.gioDraw s >>= fun l => .ok (s, [.formula l])

/-- gio.go:161-213 `Layout` -/
def UiEnv.layout (w : UiEnv F G H E) (s : UiSt F H) : List Wid → Res (UiSt F H × List (UiOut F G H))
  | [] => .ok (s, [])
  | d :: l => w.widget s d >>= fun q => w.layout q.1 l >>= fun r => .ok (r.1, q.2 ++ r.2)

/-- What an event leads to: the program goes on, returns, or crashes. -/
inductive UiStep (F G H E : Type) where
  | go (s : UiSt F H) (out : List (UiOut F G H))
  | stop (err : Option E)
  | crash

/-- gio.go:90-120 one round of the loop of `Run` -/
def UiEnv.step (w : UiEnv F G H E) (s : UiSt F H) : UiEv E → UiStep F G H E
  | .destroy err => .stop err
  | .key .escape => .stop none
  | .key (.enter ctrl press) => if ctrl && press then .go { s with expr := s.text } [.invalidate] else .go s []
  | .key (.f11 press) => if press then .go { s with screen := true } [.invalidate] else .go s []
  | .key .other => .go s []
  | .frame ws =>
    match w.layout s ws with
    | .ok (s', out) =>
      if s'.screen then .go { s' with screen := false } (out ++ [.frame, .screenshot]) else .go s' (out ++ [.frame])
    | .panic _ => .crash
    | .fuel => .crash
  | .other => .go s []

/-- How `Run` ends. -/
inductive UiEnd (E : Type) where
  | returned (err : Option E)
  | crash
deriving DecidableEq

/-- gio.go:86-123 `Run`: how it ends and what could be seen, event by event. -/
def UiEnv.run (w : UiEnv F G H E) (s : UiSt F H) : List (UiEv E) → UiEnd E × List (List (UiOut F G H))
  | [] => (.returned none, [])
  | ev :: l =>
    match w.step s ev with
    | .go s' out => ((w.run s' l).1, out :: (w.run s' l).2)
    | .stop err => (.returned err, [])
    | .crash => (.crash, [])

end Verif
