import Verif.Model.Ttf
/-! # What C63 and C64 speak about -/

namespace Verif
variable {H : Type}

/-- The font library never fails to answer about kerning, other than for want of data. -/
def TtfEnv.KernFine (e : TtfEnv H) : Prop := ∀ h a b k, e.lib.kern h a b k ≠ .err

end Verif

namespace Verif.Spec
open Verif GoFloat
variable {F H : Type} [GoFloat F]

/-- Laws of `==` on `float64`, NaN included. -/
class EqLaws (F : Type) [GoFloat F] : Prop where
  symm (a b : F) : eq a b = true → eq b a = true
  trans (a b c : F) : eq a b = true → eq b c = true → eq a c = true
  /-- equal numbers are identical unless they are zeros -/
  ident (a b : F) : eq a b = true → a = b ∨ eq a zero = true

/-- A number that is neither NaN nor zero. -/
def Ordinary (a : F) : Prop := eq a a = true ∧ eq a zero = false

/-- The calls a program can make on a TrueType backend that touch its state. -/
inductive TtfCall (F : Type) where
  | metrics (symbol : GoString) (fnt : Font F) (dpi : F) (math : Bool)
  | kern (ft1 : Font F) (sym1 : GoString) (ft2 : Font F) (sym2 : GoString) (dpi : F)
  | glyph (x y : F) (fnt : Font F) (symbol : GoString) (dpi : F)
  | rect (x1 y1 x2 y2 : F)

/-- The state after a call.  A call that panics may leave something behind; a program can recover
from it and go on. -/
def TtfCall.run (e : TtfEnv H) : TtfCall F → TtfSt F H → TtfSt F H
  | .metrics c f d m, s => (e.metrics c f d m s).2
  | .kern f1 c1 f2 c2 d, s => (e.kern f1 c1 f2 c2 d s).2
  | .glyph x y f c d, s => (e.renderGlyph x y f c d s).2
  | .rect a b c d, s => s.renderRect a b c d

/-- The state after a history of calls. -/
def runCalls (e : TtfEnv H) (l : List (TtfCall F)) (s : TtfSt F H) : TtfSt F H := l.foldl (fun s c => c.run e s) s

/-- What a fresh backend answers to `Metrics`. -/
def freshMetrics (e : TtfEnv H) (c : GoString) (f : Font F) (d : F) (m : Bool) : Res (Metrics F) :=
  (e.metrics c f d m .new).1

/-- The modes in which a call asks for glyphs: `Kern` and `RenderGlyph` ask in math mode. -/
def TtfCall.asks : TtfCall F → Bool → Prop
  | .metrics _ _ _ m', m => m = m'
  | .kern _ _ _ _ _, m => m = true
  | .glyph _ _ _ _ _, m => m = true
  | .rect _ _ _ _, _ => False

end Verif.Spec
