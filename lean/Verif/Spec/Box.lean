import Verif.Model.Box
/-! # Specification vocabulary for boxes

Nothing here uses the packing functions of the model. -/

namespace Verif.Spec
variable {F : Type} [GoFloat F]
open GoFloat

/-- The sum of the widths, added from left to right. -/
def naturalWidth (cs : List (TNode F)) : F := cs.foldl (fun x n => x + n.width) zero

/-- How far a node reaches above and below the baseline of the horizontal list that contains it.
Spaces have no reach, nor do boxes, rules and lists with an infinite height or depth, which adapt to
the list; a list is lowered by its shift. -/
def reach : TNode F → Option (F × F)
  | .box b | .rule b => if isInf b.height || isInf b.depth then none else some (b.height, b.depth)
  | .char c | .accent c => some (c.height, c.depth)
  | .list _ hd _ =>
    if isInf hd.box.height || isInf hd.box.depth then none
    else some (hd.box.height - hd.shift, hd.box.depth + hd.shift)
  | .glue _ | .kern _ => none

/-- The glues directly in a list. -/
def gluesOf (cs : List (TNode F)) : List (GlueD F) := cs.filterMap fun n => match n with | .glue g => some g | _ => none

/-- The total stretch at an order of infinity. -/
def stretchTotal (cs : List (TNode F)) (o : Fin 4) : F :=
  ((gluesOf cs).filter (·.stretchOrder = o)).foldl (fun t g => t + g.stretch) zero

/-- The total shrink at an order of infinity. -/
def shrinkTotal (cs : List (TNode F)) (o : Fin 4) : F :=
  ((gluesOf cs).filter (·.shrinkOrder = o)).foldl (fun t g => t + g.shrink) zero

/-- `o` is the highest order at which the totals `t` do not vanish. -/
def Highest (t : Fin 4 → F) (o : Fin 4) : Prop :=
  eq (t o) zero = false ∧ ∀ o', o < o' → eq (t o') zero = true

/-- A list with the given sign, order and set value is set in direction `s` to take up a slack `x`,
the totals being `t`: at the highest order at which there is anything to stretch (shrink), each
unit taking `x / total`; rigid if there is nothing. -/
def SetFor (r : LHead F) (s : Int) (x : F) (t : Fin 4 → F) : Prop :=
  (r.sign = s ∧ Highest t r.order ∧ r.set = x / t r.order) ∨
  (r.sign = 0 ∧ r.order = 0 ∧ ∀ o, eq (t o) zero = true)

/-- The rule for glue: rigid if there is no slack, stretched for a positive slack, else shrunk. -/
def GlueRule (r : LHead F) (x : F) (cs : List (TNode F)) : Prop :=
  if eq x zero then r.sign = 0 ∧ r.order = 0
  else if lt zero x then SetFor r 1 x (stretchTotal cs)
  else SetFor r (-1) x (shrinkTotal cs)

/-- Adding a node below a stack with height `q.1` and depth `q.2`: the old depth becomes height. -/
def stack (q : F × F) : TNode F → F × F
  | .glue g => (q.1 + q.2 + g.width, zero)
  | .kern k => (q.1 + (q.2 + k.width), zero)
  | n => (q.1 + (q.2 + n.height), n.depth)

/-- The height of a vertical list whose last node hangs below the baseline; numbers are added in
the order of the nodes. -/
def naturalHeight (cs : List (TNode F)) : F := (cs.foldl stack (zero, zero)).1

/-- The depth of the last node of a vertical list (0 if it is glue or a kern, or if there is none). -/
def lastDepth (cs : List (TNode F)) : F := match cs.getLast? with | some n => n.depth | none => zero

/-- The finite widths of the boxes of a vertical list; glue and kerns do not count. -/
def vwidths (cs : List (TNode F)) : List F := cs.filterMap fun n => match n with
  | .glue _ | .kern _ => none
  | n => if isInf n.width then none else some n.width

/-- A `Char` or `Accent` cannot stand directly in a vertical list. -/
def isGlyph : TNode F → Bool
  | .char _ | .accent _ => true
  | _ => false

/-- The sizes of the nodes of a vertical list, all counted: height plus depth of boxes, width of
glue and kerns. -/
def vsize : TNode F → F
  | .glue g => g.width
  | .kern k => k.width
  | n => n.height + n.depth

/-- The nodes of a horizontal list with the kerns due between them: after each element, its kerning
with the next one (`none` after the last) if that is not zero. -/
inductive Kerned (kerning : TNode F → Option (TNode F) → F) : List (TNode F) → List (TNode F) → Prop
  | nil : Kerned kerning [] []
  | same {n l l'} : eq (kerning n l.head?) zero = true → Kerned kerning l l' → Kerned kerning (n :: l) (n :: l')
  | kern {n l l'} : eq (kerning n l.head?) zero = false → Kerned kerning l l' →
      Kerned kerning (n :: l) (n :: .kern ⟨0, kerning n l.head?⟩ :: l')

end Verif.Spec
