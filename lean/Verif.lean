import Verif.Model.Parser
import Verif.Conformance.Parser
import Verif.Props.Parse
import Verif.Props.Context
import Verif.Props.Doc
import Verif.Props.Walk
import Verif.Props.Misc
import Verif.Model.Exact
import Verif.Model.Ship
import Verif.Model.Mtex
import Verif.Props.Box
import Verif.Props.Scale
import Verif.Props.Ship
import Verif.Props.Mtex
import Verif.Props.Geometry
import Verif.Props.Ttf
import Verif.Props.Render
import Verif.Props.Shippable
import Verif.Props.Returns
import Verif.Props.Paint
import Verif.Props.Finite
import Verif.Props.Radical
import Verif.Props.Operators
import Verif.Props.Kern
import Verif.Props.Draw
import Verif.Props.Contain
import Verif.Props.ContainRender
import Verif.Props.Metrics
import Verif.Props.Blanks
import Verif.Props.Gui
import Verif.Props.Across
import Verif.Props.AcrossRender
import Verif.Props.Kerning
import Verif.Props.Grammar
import Verif.Props.Fonts
import Verif.Props.Zoom
import Verif.Props.ZoomRender
import Verif.Props.Vertical
import Verif.Props.Ieee
import Verif.Props.Picture
import Verif.Props.Concat
import Verif.Props.Errors
import Verif.Props.Depends
import Verif.Props.Size
import Verif.Props.Template
import Verif.Props.Grid
import Verif.Props.GridRender
import Verif.Props.Heap
import Verif.Props.Accent
import Verif.Props.Excerpt
import Verif.Props.Groups
import Verif.Props.Edit
import Verif.Props.Messages
import Verif.Props.Final
import Verif.Props.Beside
