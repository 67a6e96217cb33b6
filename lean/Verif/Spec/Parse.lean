import Verif.Spec.Tree
import Verif.Model.TextScanner
/-! # Vocabulary for the statements about parse results -/

namespace Verif.Spec
open Verif

/-- Tab, newline, carriage return: the characters skipped between tokens. -/
def isBreak (b : Nat) : Bool := b == 9 || b == 10 || b == 13

/-- What follows position `p` of `x`, after tabs, newlines and carriage returns. -/
def afterBreaks (x : GoString) (p : Nat) : GoString := (x.drop p).dropWhile isBreak

/-- A run of letters (`U` decides which non-ASCII runes are letters). -/
def WordText (U : Nat → Bool) (t : GoString) : Prop :=
  t ≠ [] ∧ ∀ c ∈ decode t, isLetter U c.r = true

/-- A literal starts with a digit, or with a dot and a digit. -/
def LitText (t : GoString) : Prop :=
  ∃ d rest, isDecimal d = true ∧ (t = d :: rest ∨ t = ch!"." :: d :: rest)

/-- The text of a symbol: a punctuation or operator character, a parenthesis or bracket, or,
outside math, a blank or an escaped blank. -/
def SymText (math : Bool) (t : GoString) : Prop :=
  (∃ c ∈ bs!"=<>/*-+!?':,;.()[]", t = [c]) ∨ math = false ∧ (t = bs!" " ∨ t = bs!"\\ ")

/-- After position `p` (and line breaks) comes a comment or, in math, a blank or escaped blank. -/
def BlankOrComment (x : GoString) (math : Bool) (p : Nat) : Prop :=
  bs!"%" <+: afterBreaks x p ∨
    math = true ∧ (bs!" " <+: afterBreaks x p ∨ bs!"\\ " <+: afterBreaks x p)

mutual
/-- The shape of a node that is an element of a parsed list, inside (`math = true`) or outside
math. -/
def Shape (U : Nat → Bool) (x : GoString) (math : Bool) : Node → Prop
  | .nil => False
  | .list l => math = true ∧ ShapeL U x math l
  | .macro none _ => False
  | .macro (some _) args => ShapeArgs U x math args
  | .arg _ _ _ => False
  | .optArg _ _ _ => False
  | .ident _ _ => False
  | .math d _ l _ => d = bs!"$" ∧ ShapeL U x true l
  | .word _ t => WordText U t
  | .lit _ t => LitText t
  | .sym _ t => SymText math t
  | .sub p n => n = .nil ∧ BlankOrComment x math (p + 1) ∨ Operand U x math n
  | .sup p n => n = .nil ∧ BlankOrComment x math (p + 1) ∨ Operand U x math n
/-- The operand of a script, when present: a group or an ordinary element. -/
def Operand (U : Nat → Bool) (x : GoString) (math : Bool) : Node → Prop
  | .list l => ShapeL U x math l
  | .nil => False
  | .macro none _ => False
  | .macro (some _) args => ShapeArgs U x math args
  | .arg _ _ _ => False
  | .optArg _ _ _ => False
  | .ident _ _ => False
  | .math d _ l _ => d = bs!"$" ∧ ShapeL U x true l
  | .word _ t => WordText U t
  | .lit _ t => LitText t
  | .sym _ t => SymText math t
  | .sub p n => n = .nil ∧ BlankOrComment x math (p + 1) ∨ Operand U x math n
  | .sup p n => n = .nil ∧ BlankOrComment x math (p + 1) ∨ Operand U x math n
/-- Every element has the right shape. -/
def ShapeL (U : Nat → Bool) (x : GoString) (math : Bool) : List Node → Prop
  | [] => True
  | n :: l => Shape U x math n ∧ ShapeL U x math l
/-- Macro arguments are `Arg`s and `OptArg`s. -/
def ShapeArgs (U : Nat → Bool) (x : GoString) (math : Bool) : List Node → Prop
  | [] => True
  | .arg _ l _ :: as => ShapeL U x math l ∧ ShapeArgs U x math as
  | .optArg _ l _ :: as => ShapeL U x math l ∧ ShapeArgs U x math as
  | _ :: _ => False
end

/-- The argument list prescribed by a macro signature: one mandatory argument per `A`, at most
one optional argument per `O`. -/
inductive ArgsMatch : GoString → List Node → Prop where
  | nil : ArgsMatch [] []
  | arg {sig as} (a l b) : ArgsMatch sig as → ArgsMatch (ch!"A" :: sig) (.arg a l b :: as)
  | opt {sig as} (a l b) : ArgsMatch sig as → ArgsMatch (ch!"O" :: sig) (.optArg a l b :: as)
  | noOpt {sig as} : ArgsMatch sig as → ArgsMatch (ch!"O" :: sig) as

/-- Unterminated math expression or argument: the recorded closing position is 0. -/
def isOpen : Node → Bool
  | .arg _ _ 0 => true
  | .optArg _ _ 0 => true
  | .math _ _ _ 0 => true
  | _ => false

/-- No nil, no empty group, no unterminated construct, no nameless macro. -/
def Plain (k : Node) : Prop :=
  k ≠ .nil ∧ k ≠ .list [] ∧ isOpen k = false ∧ ∀ args, k ≠ .macro none args

/-- The children of a node, other than a script's operand. -/
def elements : Node → List Node
  | .list l => l
  | .macro _ l => l
  | .arg _ l _ => l
  | .optArg _ l _ => l
  | .math _ _ l _ => l
  | _ => []

/-- The macros with one mandatory argument. -/
def oneArg : List GoString := [bs!"\\exp", bs!"\\mathbf", bs!"\\mathit", bs!"\\mathsf", bs!"\\mathtt",
  bs!"\\mathcal", bs!"\\mathdefault", bs!"\\mathbb", bs!"\\mathfrak", bs!"\\mathscr",
  bs!"\\mathregular", bs!"\\textbf", bs!"\\textit", bs!"\\textsf", bs!"\\texttt", bs!"\\textcal",
  bs!"\\textdefault", bs!"\\textbb", bs!"\\textfrak", bs!"\\textscr", bs!"\\textregular",
  bs!"\\hspace", bs!"\\overline", bs!"\\operatorname"]

/-- The macros with two mandatory arguments. -/
def twoArg : List GoString := [bs!"\\binom", bs!"\\dfrac", bs!"\\frac", bs!"\\stackrel", bs!"\\tfrac"]

/-- The argument lists allowed for a macro: `\sqrt` takes an optional argument and a mandatory
one, the macros of `oneArg` and `twoArg` one and two mandatory ones, every other macro none. -/
def ArgsOf (name : GoString) (args : List Node) : Prop :=
  if name = bs!"\\sqrt" then
    (∃ a l b, args = [.arg a l b]) ∨ ∃ a l b a' l' b', args = [.optArg a l b, .arg a' l' b']
  else if name ∈ twoArg then ∃ a l b a' l' b', args = [.arg a l b, .arg a' l' b']
  else if name ∈ oneArg then ∃ a l b, args = [.arg a l b]
  else args = []

/-- The bytes that carry content: everything but blanks, line breaks, brackets, braces, dollar,
caret and underscore. -/
def content (x : GoString) : GoString := x.filter fun b => !(bs!" \t\n\r{}[]$^_").contains b

/-- The concatenation of the leaf texts. -/
def leafText (n : Node) : GoString := (leaves n).flatMap Prod.snd

/-- A leading UTF-8 byte-order mark removed. -/
def stripBom (x : GoString) : GoString :=
  match x with
  | 0xEF :: 0xBB :: 0xBF :: y => y
  | x => x

mutual
/-- The nodes of a tree that are not inside a math expression. -/
def textNodes : Node → List Node
  | .nil => [.nil]
  | .list l => .list l :: textNodesL l
  | .macro n args => .macro n args :: textNodesL args
  | .arg a l b => .arg a l b :: textNodesL l
  | .optArg a l b => .optArg a l b :: textNodesL l
  | .ident p t => [.ident p t]
  | .math d a l b => [.math d a l b]
  | .word p t => [.word p t]
  | .lit p t => [.lit p t]
  | .sym p t => [.sym p t]
  | .sub p n => .sub p n :: textNodes n
  | .sup p n => .sup p n :: textNodes n
/-- `textNodes` of a list. -/
def textNodesL : List Node → List Node
  | [] => []
  | n :: l => textNodes n ++ textNodesL l
end

end Verif.Spec
