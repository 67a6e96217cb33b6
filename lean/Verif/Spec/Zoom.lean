import Verif.Model.Ttf
import Verif.Lemmas.ExactZoom
import Verif.Spec.Contain
/-! # What C85 speaks about: the same document at another size or resolution -/

namespace Verif.Spec
open Verif GoFloat

/-- A change of scale: what becomes of lengths, of font sizes and of resolutions.  Products of a font size and a
resolution are lengths; pure numbers do not change.  `Zoom.by` is the example: multiplication by positive numbers. -/
structure Zoom (F : Type) [GoFloat F] where
  len : F → F
  siz : F → F
  res : F → F
  add : ∀ a b, len a + len b = len (a + b)
  sub : ∀ a b, len a - len b = len (a - b)
  neg : ∀ a, -len a = len (-a)
  mulr : ∀ a b, len a * b = len (a * b)
  mull : ∀ a b, a * len b = len (a * b)
  div : ∀ a b, len a / b = len (a / b)
  ratio : ∀ a b, len a / len b = a / b
  max : ∀ a b, GoFloat.max (len a) (len b) = len (GoFloat.max a b)
  lt : ∀ a b, GoFloat.lt (len a) (len b) = GoFloat.lt a b
  eqz : ∀ a, eq (len a) zero = eq a zero
  zero : len zero = zero
  inf : len inf = inf
  isInf : ∀ a, isInf (len a) = isInf a
  size : ∀ a b, siz a * b = siz (a * b)
  area : ∀ a b, siz a * res b = len (a * b)

variable {F : Type} [GoFloat F]

/-- A computation that gives something else. -/
def Res.as {α β : Type} (r : Res α) (f : α → β) : Res β := r >>= fun a => .ok (f a)

/-- A font at another size. -/
def Zoom.font (z : Zoom F) (f : Font F) : Font F := { f with size := z.siz f.size }
/-- Metrics at another scale: all of them are lengths. -/
def Zoom.metrics (z : Zoom F) (m : Metrics F) : Metrics F :=
  ⟨z.len m.advance, z.len m.height, z.len m.width, z.len m.xmin, z.len m.xmax, z.len m.ymin, z.len m.ymax, z.len m.iceberg⟩
/-- A box at another scale. -/
def Zoom.box (z : Zoom F) (b : BoxD F) : BoxD F := ⟨b.size, z.len b.width, z.len b.height, z.len b.depth⟩
/-- A character at another scale. -/
def Zoom.char (z : Zoom F) (c : CharD F) : CharD F :=
  ⟨c.c, c.size, z.len c.width, z.len c.height, z.len c.depth, z.metrics c.metrics, z.font c.font, z.res c.dpi, c.math⟩
/-- The header of a list at another scale.  The stretch of glue is a pure number, so what a unit of it is set to is a length. -/
def Zoom.head (z : Zoom F) (hd : LHead F) : LHead F := ⟨z.box hd.box, z.len hd.shift, z.len hd.set, hd.sign, hd.order⟩
/-- Glue at another scale. -/
def Zoom.glue (z : Zoom F) (g : GlueD F) : GlueD F := { g with width := z.len g.width }
/-- A kern at another scale. -/
def Zoom.kern (z : Zoom F) (k : KernD F) : KernD F := ⟨k.size, z.len k.width⟩

mutual
/-- A tree of boxes at another scale. -/
def Zoom.node (z : Zoom F) : TNode F → TNode F
  | .box b => .box (z.box b)
  | .char c => .char (z.char c)
  | .accent c => .accent (z.char c)
  | .list k hd cs => .list k (z.head hd) (z.nodes cs)
  | .rule b => .rule (z.box b)
  | .glue g => .glue (z.glue g)
  | .kern k => .kern (z.kern k)
/-- Trees of boxes at another scale. -/
def Zoom.nodes (z : Zoom F) : List (TNode F) → List (TNode F)
  | [] => []
  | n :: l => z.node n :: z.nodes l
end

/-- In the modes `G`, the second backend answers for fonts at the other scale what the first one answers, at that
scale. -/
structure Zoomed (z : Zoom F) (be be' : Backend F) (G : Bool → Prop) : Prop where
  kern : ∀ f c f' c' d, be'.kern (z.font f) c (z.font f') c' (z.res d) = z.len (be.kern f c f' c' d)
  metrics : ∀ c f d m, G m → be'.metrics c (z.font f) (z.res d) m = z.metrics (be.metrics c f d m)
  known : ∀ c f d m, G m → be'.known c (z.font f) (z.res d) m = be.known c f d m
  xheight : ∀ f d, (be'.xheight (z.font f) (z.res d)).isSome = (be.xheight f d).isSome
  underline : ∀ f d, be'.underline (z.font f) (z.res d) = z.len (be.underline f d)

/-- Whether a node is glue. -/
def isGlue : TNode F → Bool
  | .glue _ => true
  | _ => false

mutual
/-- How many lists that hold glue stand one inside another in a tree of boxes. -/
def glueNest : TNode F → Nat
  | .list _ _ cs => glueNests cs + if cs.any isGlue then 1 else 0
  | _ => 0
/-- The largest such number. -/
def glueNests : List (TNode F) → Nat
  | [] => 0
  | n :: l => Nat.max (glueNest n) (glueNests l)
end

mutual
/-- How many fractions, binomials, radicals and overlines stand one inside another in a syntax tree. -/
def stackNest : Node → Nat
  | .macro (some (_, name)) args =>
    if name ∈ [bs!"\\frac", bs!"\\dfrac", bs!"\\tfrac", bs!"\\binom", bs!"\\sqrt", bs!"\\overline"] then stackNests args + 1 else stackNests args
  | .macro none args => stackNests args
  | .list l | .math _ _ l _ | .arg _ l _ | .optArg _ l _ => stackNests l
  | _ => 0
/-- The largest such number. -/
def stackNests : List Node → Nat
  | [] => 0
  | n :: l => Nat.max (stackNest n) (stackNests l)
end

/-- Multiplication of the font size by `k`, and of the resolution by `l`. -/
def Zoom.by {k l : ℚ} (hk : 0 < k) (hl : 0 < l) : Zoom XR where
  len a := a * .fin (k * l)
  siz a := a * .fin k
  res a := a * .fin l
  add a b := (XR.add_mul_pos a b (mul_pos hk hl)).symm
  sub a b := (XR.sub_mul_pos a b (mul_pos hk hl)).symm
  neg a := (XR.neg_mul' a (mul_pos hk hl)).symm
  mulr a b := XR.mul_swap' a b (mul_pos hk hl)
  mull a b := XR.mul_left' a b (mul_pos hk hl)
  div a b := XR.div_left' a b (mul_pos hk hl)
  ratio a b := XR.ratio' a b (mul_pos hk hl)
  max a b := (XR.max_mul_pos a b (mul_pos hk hl)).symm
  lt a b := XR.lt_mul' a b (mul_pos hk hl)
  eqz a := XR.eqz_mul' a (mul_pos hk hl)
  zero := by simp
  inf := XR.inf_mul' (mul_pos hk hl)
  isInf a := XR.isInf_mul_pos a (mul_pos hk hl)
  size a b := XR.mul_swap' a b hk
  area a b := XR.mul_area' a b hk hl

/-- Two computations end alike: with the same panic, or with results that are related. -/
def Alike {α β : Type} (P : α → β → Prop) : Res α → Res β → Prop
  | .ok a, .ok b => P a b
  | .panic p, .panic q => p = q
  | .fuel, .fuel => True
  | _, _ => False

/-- `b` is `k` times `a`, up to `e`; what is no finite number is exactly so. -/
def Near (k e : ℚ) (a b : XR) : Prop := b = a * .fin k ∨ ∃ p q : ℚ, a = .fin p ∧ b = .fin q ∧ |q - k * p| ≤ e

/-- A drawing call and the one made instead when lengths are multiplied by `k`, font sizes by `s`, the resolution by `r`: the
same glyph at the other size and resolution, or a rectangle, at the place expected up to `e` in both directions. -/
def NearDraw (k s r e : ℚ) : Draw XR → Draw XR → Prop
  | .glyph x y f c d, .glyph x' y' f' c' d' => Near k e x x' ∧ Near k e y y' ∧ f' = { f with size := f.size * .fin s } ∧ c' = c ∧ d' = d * .fin r
  | .rect x1 y1 x2 y2, .rect x1' y1' x2' y2' => Near k e x1 x1' ∧ Near k e y1 y1' ∧ Near k e x2 x2' ∧ Near k e y2 y2'
  | _, _ => False

/-- What the glue of a list can take up, all in all, per unit. -/
def glueSum : List (TNode XR) → XR
  | [] => .fin 0
  | .glue g :: l => GoFloat.max g.stretch (-g.stretch) + GoFloat.max g.shrink (-g.shrink) + glueSum l
  | _ :: l => glueSum l

mutual
/-- In every list of a tree that has glue, the glue takes up at most `L`. -/
def GlueWithin (L : ℚ) : TNode XR → Prop
  | .list _ hd cs => GluesWithin L cs ∧ (cs.any isGlue = true → ∃ s t : ℚ, hd.set = .fin s ∧ glueSum cs = .fin t ∧ |s| * t ≤ L)
  | _ => True
/-- So in all of the trees. -/
def GluesWithin (L : ℚ) : List (TNode XR) → Prop
  | [] => True
  | n :: l => GlueWithin L n ∧ GluesWithin L l
end

/-- A glyph of the canvas at `k` times the size. -/
def glyphTimes {H : Type} (k : ℚ) (g : GlyphD XR H) : GlyphD XR H :=
  { g with size := g.size * .fin k, offset := g.offset * .fin k, metrics :=
    ⟨g.metrics.advance * .fin k, g.metrics.height * .fin k, g.metrics.width * .fin k, g.metrics.xmin * .fin k, g.metrics.xmax * .fin k,
      g.metrics.ymin * .fin k, g.metrics.ymax * .fin k, g.metrics.iceberg * .fin k⟩ }

/-- An operation on the canvas and the one made instead at `k` times the size. -/
def NearOp {H : Type} (k e : ℚ) : COp XR H → COp XR H → Prop
  | .glyph x y g, .glyph x' y' g' => Near k e x x' ∧ Near k e y y' ∧ g' = glyphTimes k g
  | .rect x1 y1 x2 y2, .rect x1' y1' x2' y2' => Near k e x1 x1' ∧ Near k e y1 y1' ∧ Near k e x2 x2' ∧ Near k e y2 y2'
  | _, _ => False

/-- The fonts have no kerning. -/
def Unkerned {H : Type} (e : TtfEnv H) : Prop := ∀ h a b n, e.lib.kern h a b n = .notFound ∨ e.lib.kern h a b n = .ok 0

end Verif.Spec
