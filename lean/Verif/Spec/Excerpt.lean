import Verif.Spec.Template
/-! # What C97 speaks about: places of formulas in a tree, and trees with another formula in such a place -/

namespace Verif.Spec
open Verif

mutual
/-- The nodes of a tree between whose delimiters formulas stand: every MathExpr and, in math, every argument. (`math`: the tree is in math.) -/
def places (math : Bool) : Node → List Node
  | .list l => placesL math l
  | .macro _ l => placesL math l
  | .arg a l b => (if math then [.arg a l b] else []) ++ placesL math l
  | .optArg a l b => (if math then [.optArg a l b] else []) ++ placesL math l
  | .math d a l b => .math d a l b :: placesL true l
  | .sub _ n => places math n
  | .sup _ n => places math n
  | _ => []
def placesL (math : Bool) : List Node → List Node
  | [] => []
  | n :: l => places math n ++ placesL math l
end

/-- The node has its delimiters at `a` and `b`, and the trees `l` between them; `c` is the character that opens it. -/
def Delimits (c a : Nat) (l : List Node) (b : Nat) : Node → Prop
  | .math _ a' l' b' => c = ch!"$" ∧ a = a' ∧ l = l' ∧ b = b'
  | .arg a' l' b' => c = ch!"{" ∧ a = a' ∧ l = l' ∧ b = b'
  | .optArg a' l' b' => c = ch!"[" ∧ a = a' ∧ l = l' ∧ b = b'
  | _ => False

/-- What becomes of a position in the source when what is between positions `a` and `b` is replaced by `n` bytes. -/
def movePos (a b n p : Nat) : Nat := if p < b then p else p - b + (a + 1 + n)

mutual
/-- The tree with other trees in the node that begins at `a` and ends at `b`; what is after it has moved. -/
def edit (a b n : Nat) (new : List Node) : Node → Node
  | .nil => .nil
  | .list l => .list (editL a b n new l)
  | .macro name l => .macro (name.map fun q => (movePos a b n q.1, q.2)) (editL a b n new l)
  | .arg o l e => .arg (movePos a b n o) (if o = a then new else editL a b n new l) (movePos a b n e)
  | .optArg o l e => .optArg (movePos a b n o) (if o = a then new else editL a b n new l) (movePos a b n e)
  | .ident p t => .ident (movePos a b n p) t
  | .math d o l e => .math d (movePos a b n o) (if o = a then new else editL a b n new l) (movePos a b n e)
  | .word p t => .word (movePos a b n p) t
  | .lit p t => .lit (movePos a b n p) t
  | .sym p t => .sym (movePos a b n p) t
  | .sub p m => .sub (movePos a b n p) (edit a b n new m)
  | .sup p m => .sup (movePos a b n p) (edit a b n new m)
def editL (a b n : Nat) (new : List Node) : List Node → List Node
  | [] => []
  | m :: l => edit a b n new m :: editL a b n new l
end

end Verif.Spec
