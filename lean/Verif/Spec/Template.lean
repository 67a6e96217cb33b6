import Verif.Spec.Grammar
import Verif.Spec.Tree
import Verif.Model.Parser
/-! # What C93 speaks about: formulas as parts of other formulas -/

namespace Verif.Spec
open Verif

/-- Between two dollar signs, `x` is a whole formula, and its trees are `l` (with positions counted from the first dollar sign). -/
def Formula (U : Nat → Bool) (x : GoString) (l : List Node) : Prop :=
  parseExpr U (bs!"$" ++ x ++ bs!"$") = .ok (.list [.math bs!"$" 0 l (x.length + 1)])

/-- The characters that can follow any formula without becoming part of its last word or number. -/
def neutral : GoString := bs!" \t\n\r\\%{}$^[]()=<>/*!?':,;"

/-- `{x}` -/
def braced (x : GoString) : GoString := bs!"{" ++ x ++ bs!"}"

/-- The arguments `{a}{b}..` written from position `o` on, for formulas and their trees. -/
def argNodes (o : Nat) : List (GoString × List Node) → List Node
  | [] => []
  | a :: r => .arg o (shiftL o a.2) (o + 1 + a.1.length) :: argNodes (o + 2 + a.1.length) r

end Verif.Spec
