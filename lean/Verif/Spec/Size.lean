import Verif.Model.Ship
import Verif.Model.Ast
/-! # What C92 speaks about: the sizes of trees and of boxes -/

namespace Verif.Spec
open Verif
variable {F : Type}

mutual
/-- The number of nodes of a syntax tree: every node counts, also a nil operand and the identifier of a macro. -/
def nodeCount : Node → Nat
  | .list l => 1 + nodeCounts l
  | .macro none l => 1 + nodeCounts l
  | .macro (some _) l => 2 + nodeCounts l
  | .arg _ l _ => 1 + nodeCounts l
  | .optArg _ l _ => 1 + nodeCounts l
  | .math _ _ l _ => 1 + nodeCounts l
  | .sub _ n => 1 + nodeCount n
  | .sup _ n => 1 + nodeCount n
  | _ => 1
/-- The same for several trees. -/
def nodeCounts : List Node → Nat
  | [] => 0
  | n :: l => nodeCount n + nodeCounts l
end

mutual
/-- The number of bytes of the texts and names in a syntax tree. -/
def textLen : Node → Nat
  | .list l => textLens l
  | .macro none l => textLens l
  | .macro (some (_, t)) l => t.length + textLens l
  | .arg _ l _ => textLens l
  | .optArg _ l _ => textLens l
  | .math _ _ l _ => textLens l
  | .sub _ n => textLen n
  | .sup _ n => textLen n
  | .word _ t | .lit _ t | .sym _ t | .ident _ t => t.length
  | .nil => 0
/-- The same for several trees. -/
def textLens : List Node → Nat
  | [] => 0
  | n :: l => textLen n + textLens l
end

mutual
/-- How deep a syntax tree is nested: 1 for a leaf. -/
def treeDepth : Node → Nat
  | .list l => 1 + treeDepths l
  | .macro _ l => 1 + treeDepths l
  | .arg _ l _ => 1 + treeDepths l
  | .optArg _ l _ => 1 + treeDepths l
  | .math _ _ l _ => 1 + treeDepths l
  | .sub _ n => 1 + treeDepth n
  | .sup _ n => 1 + treeDepth n
  | _ => 1
/-- The deepest of several trees. -/
def treeDepths : List Node → Nat
  | [] => 0
  | n :: l => max (treeDepth n) (treeDepths l)
end

mutual
/-- The number of nodes of a tree of boxes. -/
def boxCount : TNode F → Nat
  | .list _ _ cs => 1 + boxCounts cs
  | _ => 1
/-- The same for several trees. -/
def boxCounts : List (TNode F) → Nat
  | [] => 0
  | n :: l => boxCount n + boxCounts l
end

/-- A visitor that counts the calls of its `Visit` method, in front of any visitor. -/
def counting {V S : Type} (visit : Visit V S) : Visit V (S × Nat) := fun v n s =>
  visit v n s.1 >>= fun r => .ok (r.1, (r.2, s.2 + 1))

end Verif.Spec
