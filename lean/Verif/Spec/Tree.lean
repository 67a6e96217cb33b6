import Verif.Model.Ast
/-!
# Vocabulary for the statements about syntax trees

Nothing here refers to the parser: these are the notions a reader needs in order to read the
theorems of `Verif/Props`.
-/

namespace Verif.Spec
open Verif

/-- The source text `x[a:b]`. -/
def slice (x : GoString) (a b : Nat) : GoString := (x.drop a).take (b - a)

mutual
/-- All nodes of a tree, in depth-first order, the node itself first.  (The `Ident` of a macro is
not listed separately.) -/
def allNodes : Node → List Node
  | .nil => [.nil]
  | .list l => .list l :: allNodesL l
  | .macro n args => .macro n args :: allNodesL args
  | .arg a l b => .arg a l b :: allNodesL l
  | .optArg a l b => .optArg a l b :: allNodesL l
  | .ident p t => [.ident p t]
  | .math d a l b => .math d a l b :: allNodesL l
  | .word p t => [.word p t]
  | .lit p t => [.lit p t]
  | .sym p t => [.sym p t]
  | .sub p n => .sub p n :: allNodes n
  | .sup p n => .sup p n :: allNodes n
/-- All nodes of the trees of a list. -/
def allNodesL : List Node → List Node
  | [] => []
  | n :: l => allNodes n ++ allNodesL l
end

mutual
/-- The leaves of a tree in depth-first order, with their recorded positions: words, literals,
symbols and macro names. -/
def leaves : Node → List (Nat × GoString)
  | .nil => []
  | .list l => leavesL l
  | .macro none args => leavesL args
  | .macro (some (p, name)) args => (p, name) :: leavesL args
  | .arg _ l _ => leavesL l
  | .optArg _ l _ => leavesL l
  | .ident p t => [(p, t)]
  | .math _ _ l _ => leavesL l
  | .word p t => [(p, t)]
  | .lit p t => [(p, t)]
  | .sym p t => [(p, t)]
  | .sub _ n => leaves n
  | .sup _ n => leaves n
/-- The leaves of a list of trees. -/
def leavesL : List Node → List (Nat × GoString)
  | [] => []
  | n :: l => leaves n ++ leavesL l
end

/-- The one-byte extent of a recorded closing delimiter; none if the recorded position is 0. -/
def closer (p : Nat) : List (Nat × Nat) := if p = 0 then [] else [(p, p + 1)]

mutual
/-- The source extents `(start, end)` recorded in a tree, in depth-first order: leaves, opening
and closing delimiters, script characters. -/
def marks : Node → List (Nat × Nat)
  | .nil => []
  | .list l => marksL l
  | .macro none args => marksL args
  | .macro (some (p, name)) args => (p, p + name.length) :: marksL args
  | .arg a l b => (a, a + 1) :: (marksL l ++ closer b)
  | .optArg a l b => (a, a + 1) :: (marksL l ++ closer b)
  | .ident p t => [(p, p + t.length)]
  | .math _ a l b => (a, a + 1) :: (marksL l ++ closer b)
  | .word p t => [(p, p + t.length)]
  | .lit p t => [(p, p + t.length)]
  | .sym p t => [(p, p + t.length)]
  | .sub p n => (p, p + 1) :: marks n
  | .sup p n => (p, p + 1) :: marks n
/-- The extents recorded in a list of trees. -/
def marksL : List Node → List (Nat × Nat)
  | [] => []
  | n :: l => marks n ++ marksL l
end

mutual
/-- The tree with every recorded position increased by `d`, except the closing position 0 that
stands for a missing closing delimiter. -/
def shift (d : Nat) : Node → Node
  | .nil => .nil
  | .list l => .list (shiftL d l)
  | .macro n args => .macro (n.map fun q => (q.1 + d, q.2)) (shiftL d args)
  | .arg a l b => .arg (a + d) (shiftL d l) (if b = 0 then 0 else b + d)
  | .optArg a l b => .optArg (a + d) (shiftL d l) (if b = 0 then 0 else b + d)
  | .ident p t => .ident (p + d) t
  | .math dl a l b => .math dl (a + d) (shiftL d l) (if b = 0 then 0 else b + d)
  | .word p t => .word (p + d) t
  | .lit p t => .lit (p + d) t
  | .sym p t => .sym (p + d) t
  | .sub p n => .sub (p + d) (shift d n)
  | .sup p n => .sup (p + d) (shift d n)
/-- `shift` on lists. -/
def shiftL (d : Nat) : List Node → List Node
  | [] => []
  | n :: l => shift d n :: shiftL d l
end

mutual
/-- The tree with all positions set to 0 and the delimiters of math expressions forgotten. -/
def bare : Node → Node
  | .nil => .nil
  | .list l => .list (bareL l)
  | .macro n args => .macro (n.map fun q => (0, q.2)) (bareL args)
  | .arg _ l _ => .arg 0 (bareL l) 0
  | .optArg _ l _ => .optArg 0 (bareL l) 0
  | .ident _ t => .ident 0 t
  | .math _ _ l _ => .math [] 0 (bareL l) 0
  | .word _ t => .word 0 t
  | .lit _ t => .lit 0 t
  | .sym _ t => .sym 0 t
  | .sub _ n => .sub 0 (bare n)
  | .sup _ n => .sup 0 (bare n)
/-- `bare` on lists. -/
def bareL : List Node → List Node
  | [] => []
  | n :: l => bare n :: bareL l
end

/-- Every text in the tree is a sequence of bytes, as every Go string is. -/
def ByteTexts (n : Node) : Prop := ∀ q ∈ leaves n, ∀ b ∈ q.2, b < 256

end Verif.Spec
