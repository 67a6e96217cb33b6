import Verif.Spec.Tree
/-!
# Vocabulary for the statements about `ast.Walk` and `ast.Inspect`

A call `v.Visit(n)` is recorded as `⟨v, n, w⟩` where `w` is the visitor returned (`none` for
nil); `n = Node.nil` is the closing call `v.Visit(nil)`.
-/

namespace Verif.Spec
open Verif

/-- The children of a node in source order; the first child of a named macro is its name, as an
`Ident`.  (ast/walk.go doc: "for each of the non-nil children of node") -/
def kids : Node → List Node
  | .list l => l
  | .macro none args => args
  | .macro (some (p, name)) args => .ident p name :: args
  | .arg _ l _ => l
  | .optArg _ l _ => l
  | .math _ _ l _ => l
  | .sub _ n => [n]
  | .sup _ n => [n]
  | _ => []

/-- One call of `Visit` and its answer. -/
structure Call (V : Type) where
  visitor : V
  node : Node
  answer : Option V

mutual
/-- `Trace v n log`: `log` is the sequence of calls prescribed for walking `n` with `v`. Either
`v.Visit(n)` declines, and that is the only call; or it answers `w`, `n` is not nil, the children
are walked in order with `w`, and `w.Visit(nil)` closes. -/
inductive Trace {V : Type} : V → Node → List (Call V) → Prop where
  | declined {v n} : Trace v n [⟨v, n, none⟩]
  | accepted {v n w log r} : n ≠ .nil → TraceL w (kids n) log →
      Trace v n (⟨v, n, some w⟩ :: (log ++ [⟨w, .nil, r⟩]))
/-- The calls for a list of siblings. -/
inductive TraceL {V : Type} : V → List Node → List (Call V) → Prop where
  | nil {v} : TraceL v [] []
  | cons {v n l a b} : Trace v n a → TraceL v l b → TraceL v (n :: l) (a ++ b)
end

/-- The calls of `log`, made in order from state `s`, get the recorded answers and leave the
state `s'`. -/
inductive Replay {V S : Type} (visit : Visit V S) : List (Call V) → S → S → Prop where
  | nil {s} : Replay visit [] s s
  | cons {c log s s1 s'} : visit c.visitor c.node s = .ok (c.answer, s1) → Replay visit log s1 s' →
      Replay visit (c :: log) s s'

mutual
/-- The depth-first sequence of calls for a visitor that accepts everything: the node, then its
children, then nil.  Macro names appear as `Ident` nodes. -/
def dfs : Node → List Node
  | .nil => [.nil]
  | .list l => .list l :: (dfsL l ++ [.nil])
  | .macro none args => .macro none args :: (dfsL args ++ [.nil])
  | .macro (some (p, x)) args => .macro (some (p, x)) args :: .ident p x :: .nil :: (dfsL args ++ [.nil])
  | .arg a l b => .arg a l b :: (dfsL l ++ [.nil])
  | .optArg a l b => .optArg a l b :: (dfsL l ++ [.nil])
  | .ident p t => [.ident p t, .nil]
  | .math d a l b => .math d a l b :: (dfsL l ++ [.nil])
  | .word p t => [.word p t, .nil]
  | .lit p t => [.lit p t, .nil]
  | .sym p t => [.sym p t, .nil]
  | .sub p n => .sub p n :: (dfs n ++ [.nil])
  | .sup p n => .sup p n :: (dfs n ++ [.nil])
/-- The sequence for a list of siblings. -/
def dfsL : List Node → List Node
  | [] => []
  | n :: l => dfs n ++ dfsL l
end

mutual
/-- Every node of a tree in depth-first order (macro names included), each with the list of its
proper ancestors, nearest first; `up` are the ancestors of the root. -/
def lineage (up : List Node) : Node → List (List Node × Node)
  | .nil => [(up, .nil)]
  | .list l => (up, .list l) :: lineageL (.list l :: up) l
  | .macro none args => (up, .macro none args) :: lineageL (.macro none args :: up) args
  | .macro (some (p, x)) args =>
      (up, .macro (some (p, x)) args) :: (.macro (some (p, x)) args :: up, .ident p x) ::
        lineageL (.macro (some (p, x)) args :: up) args
  | .arg a l b => (up, .arg a l b) :: lineageL (.arg a l b :: up) l
  | .optArg a l b => (up, .optArg a l b) :: lineageL (.optArg a l b :: up) l
  | .ident p t => [(up, .ident p t)]
  | .math d a l b => (up, .math d a l b) :: lineageL (.math d a l b :: up) l
  | .word p t => [(up, .word p t)]
  | .lit p t => [(up, .lit p t)]
  | .sym p t => [(up, .sym p t)]
  | .sub p n => (up, .sub p n) :: lineage (.sub p n :: up) n
  | .sup p n => (up, .sup p n) :: lineage (.sup p n :: up) n
/-- The same for a list of siblings. -/
def lineageL (up : List Node) : List Node → List (List Node × Node)
  | [] => []
  | n :: l => lineage up n ++ lineageL up l
end

mutual
/-- The nodes of a tree in post-order (children before their parent), macro names included. -/
def postorder : Node → List Node
  | .nil => [.nil]
  | .list l => postorderL l ++ [.list l]
  | .macro none args => postorderL args ++ [.macro none args]
  | .macro (some (p, x)) args => .ident p x :: (postorderL args ++ [.macro (some (p, x)) args])
  | .arg a l b => postorderL l ++ [.arg a l b]
  | .optArg a l b => postorderL l ++ [.optArg a l b]
  | .ident p t => [.ident p t]
  | .math d a l b => postorderL l ++ [.math d a l b]
  | .word p t => [.word p t]
  | .lit p t => [.lit p t]
  | .sym p t => [.sym p t]
  | .sub p n => postorder n ++ [.sub p n]
  | .sup p n => postorder n ++ [.sup p n]
/-- The same for a list of siblings. -/
def postorderL : List Node → List Node
  | [] => []
  | n :: l => postorder n ++ postorderL l
end

/-- Remove bracketing: the non-nil entries of a sequence of calls. -/
def opens (log : List Node) : List Node := log.filter fun n => !n.isNil

/-- Read a sequence of calls with a stack of the nodes that are open: a non-nil call accepted by
`acc` is pushed, a declined one is not, a nil call pops.  The result lists each accepted node at
the moment its closing call is made; `none` if a closing call has no partner or a node stays
open. -/
def closings (acc : Node → Bool) : List Node → List Node → Option (List Node)
  | [], [] => some []
  | _ :: _, [] => none
  | stack, n :: log =>
    if n.isNil then
      match stack with
      | [] => none
      | m :: stack => (closings acc stack log).map (m :: ·)
    else if acc n then closings acc (n :: stack) log
    else closings acc stack log

/-- The visitor `visit`, with a record of the nodes it is called with. -/
def logged {V S : Type} (visit : Visit V S) : Visit V (S × List Node) := fun v n s =>
  (visit v n s.1).map fun r => (r.1, (r.2, s.2 ++ [n]))

/-- A visitor that neither panics nor declines. -/
def Willing {V S : Type} (visit : Visit V S) : Prop := ∀ v n s, ∃ w s', visit v n s = .ok (some w, s')

end Verif.Spec
