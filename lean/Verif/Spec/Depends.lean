import Verif.Spec.Tree
import Verif.Spec.Doc
import Verif.Spec.Mtex
import Verif.Spec.Operators
import Mathlib.Data.List.Forall2
/-! # What C91 speaks about -/

namespace Verif.Spec
open Verif

/-- There is a number with a full stop in the tree. -/
def HasDecimal (n : Node) : Prop := ∃ p t, .lit p t ∈ allNodes n ∧ ch!"." ∈ t

/-- The tree `n` of the source `x` and the tree `m` of the source `y` differ in positions only; the binary operators
right after an opening brace, parenthesis or bracket (or `<`) are the same in both; and, if there is a decimal number in them,
the first full stops of the two sources are both between digits or both not. -/
structure DrawnAlike (x y : GoString) (n m : Node) : Prop where
  same : bare n = bare m
  tight : List.Forall₂ (fun a b => Tight x a.1 a.2 ↔ Tight y b.1 b.2) (leaves n) (leaves m)
  dots : HasDecimal n → (FirstDotDecimal x ↔ FirstDotDecimal y)

/-- The source has no full stop, or its first one is between digits. -/
def PlainDots (x : GoString) : Prop := ch!"." ∉ x ∨ FirstDotDecimal x

mutual
/-- The item without the blanks of its formulas (in a formula: without its blanks). -/
def tidy (math : Bool) : Item → Item
  | .macro name args => .macro name (tidyL math args)
  | .arg l => .arg (tidyL math l)
  | .optArg l => .optArg (tidyL math l)
  | .math l => .math (tidyL true l)
  | .group l => .group (tidyL math l)
  | .subGroup l => .subGroup (tidyL math l)
  | .sub i => .sub (tidy math i)
  | .supGroup l => .supGroup (tidyL math l)
  | .sup i => .sup (tidy math i)
  | .word t => .word t
  | .num a f => .num a f
  | .sym c => .sym c
  | .blank => .blank
  | .escBlank => .escBlank
  | .breaks w => .breaks w
  | .comment body => .comment body
/-- The document without the blanks of its formulas. -/
def tidyL (math : Bool) : List Item → List Item
  | [] => []
  | i :: l =>
    match math, i with
    | true, .blank => tidyL math l
    | _, _ => tidy math i :: tidyL math l
end

end Verif.Spec
