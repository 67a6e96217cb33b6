import Verif.Spec.Parse
import Verif.Model.Parser
/-!
# The supported language: documents, their source text and their syntax trees

Used by the statements of C10, C12, C16 and C17.  Nothing here refers to how the parser works;
`macroLookup` is the table of known macros with their signatures.
-/

namespace Verif.Spec
open Verif

/-- An item of a document. -/
inductive Item where
  /-- a run of letters -/
  | word (t : GoString)
  /-- a number: digits, and optionally a dot and digits -/
  | num (a : GoString) (frac : Option GoString)
  /-- a symbol, parenthesis or bracket -/
  | sym (c : Nat)
  | blank
  /-- backslash blank -/
  | escBlank
  /-- tabs, newlines and carriage returns -/
  | breaks (w : GoString)
  /-- `%body` and a newline -/
  | comment (body : GoString)
  /-- a macro with its arguments, which are `arg`s and `optArg`s -/
  | macro (name : GoString) (args : List Item)
  /-- `{...}` after a macro -/
  | arg (l : List Item)
  /-- `[...]` after a macro -/
  | optArg (l : List Item)
  /-- `$...$` -/
  | math (l : List Item)
  /-- `{...}` in math -/
  | group (l : List Item)
  /-- `_{...}` -/
  | subGroup (l : List Item)
  /-- `_` and a single item -/
  | sub (i : Item)
  /-- `^{...}` -/
  | supGroup (l : List Item)
  /-- `^` and a single item -/
  | sup (i : Item)

/-- The source text of a number. -/
def numText (a : GoString) : Option GoString → GoString
  | none => a
  | some b => a ++ bs!"." ++ b

mutual
/-- The source text of an item. -/
def src : Item → GoString
  | .word t => t
  | .num a f => numText a f
  | .sym c => [c]
  | .blank => bs!" "
  | .escBlank => bs!"\\ "
  | .breaks w => w
  | .comment body => bs!"%" ++ body ++ bs!"\n"
  | .macro name args => name ++ srcL args
  | .arg l => bs!"{" ++ (srcL l ++ bs!"}")
  | .optArg l => bs!"[" ++ (srcL l ++ bs!"]")
  | .math l => bs!"$" ++ (srcL l ++ bs!"$")
  | .group l => bs!"{" ++ (srcL l ++ bs!"}")
  | .subGroup l => bs!"_{" ++ (srcL l ++ bs!"}")
  | .sub i => bs!"_" ++ src i
  | .supGroup l => bs!"^{" ++ (srcL l ++ bs!"}")
  | .sup i => bs!"^" ++ src i
/-- The source text of a document. -/
def srcL : List Item → GoString
  | [] => []
  | i :: l => src i ++ srcL l
end

mutual
/-- The syntax tree of an item whose source starts at position `o`, inside (`math = true`) or
outside math; `.nil` if it leaves no trace in the tree. -/
def node (math : Bool) (o : Nat) : Item → Node
  | .word t => .word o t
  | .num a f => .lit o (numText a f)
  | .sym c => .sym o [c]
  | .blank => if math then .nil else .sym o bs!" "
  | .escBlank => if math then .nil else .sym o bs!"\\ "
  | .breaks _ => .nil
  | .comment _ => .nil
  | .macro name args => .macro (some (o, name)) (nodesL math (o + name.length) args)
  | .arg l => .arg o (nodesL math (o + 1) l) (o + 1 + (srcL l).length)
  | .optArg l => .optArg o (nodesL math (o + 1) l) (o + 1 + (srcL l).length)
  | .math l => .math bs!"$" o (nodesL true (o + 1) l) (o + 1 + (srcL l).length)
  | .group l => .list (nodesL math (o + 1) l)
  | .subGroup l => .sub o (.list (nodesL math (o + 2) l))
  | .sub i => .sub o (node math (o + 1) i)
  | .supGroup l => .sup o (.list (nodesL math (o + 2) l))
  | .sup i => .sup o (node math (o + 1) i)
/-- The syntax trees of a document starting at position `o`. -/
def nodesL (math : Bool) (o : Nat) : List Item → List Node
  | [] => []
  | i :: l =>
    if (node math o i).isNil then nodesL math (o + (src i).length) l
    else node math o i :: nodesL math (o + (src i).length) l
end

/-- What closes the list an item belongs to. -/
inductive Ctx where
  /-- the end of the input -/
  | top
  /-- `$` -/
  | dollar
  /-- `}` -/
  | brace
  /-- `]` -/
  | bracket
deriving DecidableEq

/-- The source continues with nothing or with a byte satisfying `p`. -/
def Next (y : GoString) (p : Nat → Prop) : Prop := ∀ b, y.head? = some b → p b

/-- An ASCII byte that is not a letter. -/
def notLetter (b : Nat) : Prop := b < 128 ∧ ¬ (65 ≤ b ∧ b ≤ 90) ∧ ¬ (97 ≤ b ∧ b ≤ 122)

/-- Bytes that would be absorbed by a preceding number with no dot. -/
def fusesInt (a : GoString) : GoString :=
  bs!"0123456789_eEpP." ++ (if a = bs!"0" then bs!"xXoObB" else [])

/-- Bytes that would be absorbed by a preceding number with a dot. -/
def fusesFloat : GoString := bs!"0123456789_eEpP"

/-- A digit string. -/
def Digits (a : GoString) : Prop := ∀ d ∈ a, isDecimal d = true

/-- The characters that can follow a backslash to form a one-character macro name. -/
def macroChar (c : Nat) : Prop := 32 < c ∧ c < 127 ∧ notLetter c ∧ ¬ isDecimal c ∧ c ≠ ch!"\"" ∧ c ≠ ch!"."

/-- A macro name: a backslash and a run of letters, or a backslash and one other character. -/
def MacroName (U : Nat → Bool) (name : GoString) : Prop :=
  (∃ t, name = ch!"\\" :: t ∧ WordText U t) ∨ ∃ c, name = [ch!"\\", c] ∧ macroChar c

/-- May be the operand of `_` or `^` without braces. -/
def single (math : Bool) : Item → Bool
  | .breaks _ => false
  | .comment _ => false
  | .blank => !math
  | .escBlank => !math
  | .group _ => false
  | _ => true

/-- The arguments fit the signature. -/
inductive FitsSig : GoString → List Item → Prop where
  | nil : FitsSig [] []
  | arg {sig as l} : FitsSig sig as → FitsSig (ch!"A" :: sig) (.arg l :: as)
  | opt {sig as l} : FitsSig sig as → FitsSig (ch!"O" :: sig) (.optArg l :: as)
  | noOpt {sig l as} : FitsSig (ch!"A" :: sig) (.arg l :: as) →
      FitsSig (ch!"O" :: ch!"A" :: sig) (.arg l :: as)

mutual
/-- `Ok U ctx math i y`: the item belongs to the supported language, in a list closed by `ctx`,
inside or outside math, and does not fuse with the following source text `y`. -/
def Ok (U : Nat → Bool) (ctx : Ctx) (math : Bool) : Item → GoString → Prop
  | .word t, y => WordText U t ∧ Next y notLetter
  | .num a none, y => a ≠ [] ∧ Digits a ∧ Next y (· ∉ fusesInt a)
  | .num a (some b), y => (a ≠ [] ∨ b ≠ []) ∧ Digits a ∧ Digits b ∧ Next y (· ∉ fusesFloat)
  | .sym c, y => c ∈ bs!"=<>/*-+!?':,;.()[]" ∧ (c = ch!"." → Next y fun b => ¬ isDecimal b) ∧
      (ctx = .bracket → c ≠ ch!"]")
  | .blank, _ => True
  | .escBlank, _ => True
  | .breaks w, _ => ∀ b ∈ w, isBreak b = true
  | .comment body, _ => ch!"\n" ∉ body ∧ ch!"\"" ∉ body
  | .macro name args, y => ∃ sig, macroLookup name = some (some sig) ∧ FitsSig sig args ∧
      OkArgs U math args y ∧
      ((∃ t, name = ch!"\\" :: t ∧ WordText U t ∧ (args = [] → Next y notLetter)) ∨
        ∃ c, name = [ch!"\\", c] ∧ macroChar c)
  | .arg _, _ => False
  | .optArg _, _ => False
  | .math l, y => ctx ≠ .dollar ∧ OkL U .dollar true l (bs!"$" ++ y)
  | .group l, y => math = true ∧ OkL U .brace math l (bs!"}" ++ y)
  | .subGroup l, y => OkL U .brace math l (bs!"}" ++ y)
  | .sub i, y => single math i = true ∧ Ok U .top math i y
  | .supGroup l, y => OkL U .brace math l (bs!"}" ++ y)
  | .sup i, y => single math i = true ∧ Ok U .top math i y
/-- All items of a document, which is followed by `y`. -/
def OkL (U : Nat → Bool) (ctx : Ctx) (math : Bool) : List Item → GoString → Prop
  | [], _ => True
  | i :: l, y => Ok U ctx math i (srcL l ++ y) ∧ OkL U ctx math l y
/-- The arguments of a macro, which is followed by `y`. -/
def OkArgs (U : Nat → Bool) (math : Bool) : List Item → GoString → Prop
  | [], _ => True
  | .arg l :: as, y => OkL U .brace math l (bs!"}" ++ (srcL as ++ y)) ∧ OkArgs U math as y
  | .optArg l :: as, y => OkL U .bracket math l (bs!"]" ++ (srcL as ++ y)) ∧ OkArgs U math as y
  | _ :: _, _ => False
end

/-! ## Documents with unclosed constructs -/

/-- The beginning of a document, up to a point where some constructs are still open. -/
inductive Open where
  /-- a document -/
  | here (d : List Item)
  /-- a document, then `$` and more -/
  | math (d : List Item) (rest : Open)
  /-- a document, then `{` (in math) and more -/
  | group (d : List Item) (rest : Open)
  /-- a document, then `_{` and more -/
  | sub (d : List Item) (rest : Open)
  /-- a document, then `^{` and more -/
  | sup (d : List Item) (rest : Open)
  /-- a document, then a macro name, some complete arguments, `{` and more -/
  | arg (d : List Item) (name : GoString) (args : List Item) (rest : Open)
  /-- a document, then a macro name, some complete arguments, `[` and more -/
  | opt (d : List Item) (name : GoString) (args : List Item) (rest : Open)

/-- The source text. -/
def srcO : Open → GoString
  | .here d => srcL d
  | .math d r => srcL d ++ (bs!"$" ++ srcO r)
  | .group d r => srcL d ++ (bs!"{" ++ srcO r)
  | .sub d r => srcL d ++ (bs!"_{" ++ srcO r)
  | .sup d r => srcL d ++ (bs!"^{" ++ srcO r)
  | .arg d name args r => srcL d ++ (name ++ (srcL args ++ (bs!"{" ++ srcO r)))
  | .opt d name args r => srcL d ++ (name ++ (srcL args ++ (bs!"[" ++ srcO r)))

/-- Supported, and not fusing with the following text `y`. -/
def OkO (U : Nat → Bool) (ctx : Ctx) (math : Bool) : Open → GoString → Prop
  | .here d, y => OkL U ctx math d y
  | .math d r, y => OkL U ctx math d (bs!"$" ++ srcO r ++ y) ∧ ctx ≠ .dollar ∧ OkO U .dollar true r y
  | .group d r, y => math = true ∧ OkL U ctx math d (bs!"{" ++ srcO r ++ y) ∧ OkO U .brace math r y
  | .sub d r, y => OkL U ctx math d (bs!"_{" ++ srcO r ++ y) ∧ OkO U .brace math r y
  | .sup d r, y => OkL U ctx math d (bs!"^{" ++ srcO r ++ y) ∧ OkO U .brace math r y
  | .arg d name args r, y => MacroName U name ∧
      (∃ sig more, macroLookup name = some (some sig) ∧ FitsSig sig (args ++ .arg [] :: more)) ∧
      OkL U ctx math d (name ++ srcL args ++ bs!"{" ++ srcO r ++ y) ∧
      OkArgs U math args (bs!"{" ++ srcO r ++ y) ∧ OkO U .brace math r y
  | .opt d name args r, y => MacroName U name ∧
      (∃ sig more, macroLookup name = some (some sig) ∧ FitsSig sig (args ++ .optArg [] :: more)) ∧
      OkL U ctx math d (name ++ srcL args ++ bs!"[" ++ srcO r ++ y) ∧
      OkArgs U math args (bs!"[" ++ srcO r ++ y) ∧ OkO U .bracket math r y

/-- What would close the innermost open construct. -/
def endCtx (ctx : Ctx) : Open → Ctx
  | .here _ => ctx
  | .math _ r => endCtx .dollar r
  | .group _ r => endCtx .brace r
  | .sub _ r => endCtx .brace r
  | .sup _ r => endCtx .brace r
  | .arg _ _ _ r => endCtx .brace r
  | .opt _ _ _ r => endCtx .bracket r

/-- Whether the innermost point is inside math. -/
def endMath (math : Bool) : Open → Bool
  | .here _ => math
  | .math _ r => endMath true r
  | .group _ r => endMath math r
  | .sub _ r => endMath math r
  | .sup _ r => endMath math r
  | .arg _ _ _ r => endMath math r
  | .opt _ _ _ r => endMath math r

/-- No argument is missing after the unclosed ones: every unclosed argument is the last one of
its macro (an unclosed optional argument never is). -/
def LastArgs : Open → Prop
  | .here _ => True
  | .math _ r => LastArgs r
  | .group _ r => LastArgs r
  | .sub _ r => LastArgs r
  | .sup _ r => LastArgs r
  | .arg _ name args r =>
    (∃ sig, macroLookup name = some (some sig) ∧ FitsSig sig (args ++ [.arg []])) ∧ LastArgs r
  | .opt _ _ _ _ => False

/-- The syntax trees of unclosed constructs: the closing positions are 0. -/
def nodesO (math : Bool) (o : Nat) : Open → List Node
  | .here d => nodesL math o d
  | .math d r => nodesL math o d ++
      [.math bs!"$" (o + (srcL d).length) (nodesO true (o + (srcL d).length + 1) r) 0]
  | .group d r => nodesL math o d ++ [.list (nodesO math (o + (srcL d).length + 1) r)]
  | .sub d r => nodesL math o d ++
      [.sub (o + (srcL d).length) (.list (nodesO math (o + (srcL d).length + 2) r))]
  | .sup d r => nodesL math o d ++
      [.sup (o + (srcL d).length) (.list (nodesO math (o + (srcL d).length + 2) r))]
  | .arg d name args r => nodesL math o d ++
      [.macro (some (o + (srcL d).length, name))
        (nodesL math (o + (srcL d).length + name.length) args ++
          [.arg (o + (srcL d).length + name.length + (srcL args).length)
            (nodesO math (o + (srcL d).length + name.length + (srcL args).length + 1) r) 0])]
  | .opt _ _ _ _ => []

end Verif.Spec
