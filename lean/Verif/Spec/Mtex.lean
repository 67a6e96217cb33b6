import Verif.Spec.Ship
import Verif.Model.Symbols
import Verif.Model.Ast
/-! # Specification vocabulary for math expressions

The meaning of the macro names known to package mtex, by enumeration; nothing here refers to the
parser or the visitor of the model. -/

namespace Verif.Spec
variable {F : Type} [GoFloat F]
open GoFloat

/-- The names that stand for a blank of fixed width. -/
def blankNames : List GoString := [bs!"\\,", bs!"\\thinspace", bs!"\\/", bs!"\\>", bs!"\\:", bs!"\\;", bs!"\\ ",
  bs!"~", bs!"\\enspace", bs!"\\quad", bs!"\\qquad", bs!"\\!"]

/-- What a macro or a math symbol stands for. -/
inductive Role where
  /-- a blank of fixed width -/
  | blank
  /-- a blank whose width is the argument -/
  | hspace
  /-- the name of a function, set in roman -/
  | function
  /-- a fraction; whether its parts are set in script size -/
  | fraction (script : Bool)
  | binomial
  | root
  | overline
  /-- a single glyph -/
  | glyph
  | unknown
deriving DecidableEq

/-- The symbols, operators and relations that stand for a glyph. -/
def IsGlyphName (name : GoString) : Bool :=
  symBinaryOperators.contains name || symRelationSymbols.contains name || symArrowSymbols.contains name ||
  symPunctuationSymbols.contains name || (mtexMacros.map Prod.fst).contains name ||
  name.take 1 == bs!"\\" && (tex2uni.map Prod.fst).contains (name.drop 1)

/-- The role of a name. -/
def role (name : GoString) : Role :=
  if name = bs!"\\frac" ∨ name = bs!"\\tfrac" then .fraction true
  else if name = bs!"\\dfrac" then .fraction false
  else if name = bs!"\\binom" then .binomial
  else if name = bs!"\\sqrt" then .root
  else if name = bs!"\\overline" then .overline
  else if name = bs!"\\hspace" then .hspace
  else if blankNames.contains name then .blank
  else if symFunctionNames.contains (name.drop 1) then .function
  else if IsGlyphName name then .glyph
  else .unknown

/-- The characters of a string, invalid bytes counting as U+FFFD. -/
def chars (t : GoString) : List GoString :=
  (decode t).map fun c => if c.r = runeError then [0xEF, 0xBF, 0xBD] else c.b

/-- A glyph prescribed by an expression: font type, symbol, and font size where it is not adapted to
the size of something else. -/
structure Ink (F : Type) where
  typ : GoString
  sym : GoString
  size : Option F

/-- In script size. -/
def Ink.script (i : Ink F) : Ink F := { i with size := i.size.map (· * ofRat 7 10) }

/-- What a macro with the given role, name and arguments prescribes, in a font of the given type and
size, when `ks` is what its arguments prescribe. -/
def inkMacro (typ : GoString) (size : F) (name : GoString) (ks : List (List (Ink F))) : Role → List (Ink F)
  | .blank | .hspace | .unknown => []
  | .function => (chars (name.drop 1)).map fun c => ⟨bs!"rm", c, some size⟩
  | .glyph => [⟨typ, name, some size⟩]
  | .fraction script => if script then (ks.take 2).flatten.map Ink.script else (ks.take 2).flatten
  | .binomial => ⟨typ, bs!"(", none⟩ :: (ks.take 2).flatten.map Ink.script ++ [⟨typ, bs!")", none⟩]
  | .root =>
    match ks with
    | [body] => ⟨typ, bs!"\\__sqrt__", none⟩ :: body
    | index :: body :: _ => (index.map Ink.script).map Ink.script ++ ⟨typ, bs!"\\__sqrt__", none⟩ :: body
    | [] => []
  | .overline => (ks.take 1).flatten

mutual
/-- The glyphs prescribed by a syntax tree, in a font of the given type and size: words and numbers
character by character, symbols and symbol macros by name, functions letter by letter in roman,
fractions numerator first and in script size (except `\dfrac`), binomials in parentheses, roots index
first (in script size of script size), then the radical sign, then the body.  `math`: inside `$..$`;
`direct`: directly inside, where a braced group counts for nothing. -/
def ink (typ : GoString) (size : F) (math direct : Bool) : Node → List (Ink F)
  | .list l => if direct then [] else inkAll typ size math false l
  | .sym _ t => if math && blankNames.contains t then [] else [⟨typ, t, some size⟩]
  | .word _ t => (chars t).map fun c => ⟨typ, c, some size⟩
  | .lit _ t => (chars t).map fun c => ⟨typ, c, some size⟩
  | .math _ _ l _ => inkAll bs!"it" size true true l
  | .macro (some (_, name)) args => inkMacro typ size name (inkArgs typ size math args) (role name)
  | _ => []
/-- The same for several trees. -/
def inkAll (typ : GoString) (size : F) (math direct : Bool) : List Node → List (Ink F)
  | [] => []
  | n :: l => ink typ size math direct n ++ inkAll typ size math direct l
/-- What each macro argument prescribes. -/
def inkArgs (typ : GoString) (size : F) (math : Bool) : List Node → List (List (Ink F))
  | [] => []
  | .arg _ l _ :: as => inkAll typ size math false l :: inkArgs typ size math as
  | .optArg _ l _ :: as => inkAll typ size math false l :: inkArgs typ size math as
  | _ :: as => [] :: inkArgs typ size math as
end

/-- The glyph is the prescribed one, in the font family `name` at resolution `dpi`. -/
def Prints (name : GoString) (dpi : F) (g : Font F × GoString × F) (i : Ink F) : Prop :=
  g.1.name = name ∧ g.1.typ = i.typ ∧ (∀ s, i.size = some s → g.1.size = s) ∧ g.2.1 = i.sym ∧ g.2.2 = dpi

/-- Punctuation other than a full stop. -/
def isPunct (t : GoString) : Bool := symPunctuationSymbols.contains t && t != bs!"."

/-- The sign can be made to measure: the font has it, and its x-height can be told. -/
def fits (K : GoString → GoString → Bool → Bool) (X : GoString → Bool) (c typ : GoString) : Bool := X typ && K c typ true

/-- A macro with the given role can be drawn: `os` says which arguments can. -/
def drawableMacro (K : GoString → GoString → Bool → Bool) (X : GoString → Bool) (num : GoString → Option F) (typ : GoString) (math : Bool)
    (name : GoString) (args : List Node) (os : List Bool) : Role → Bool
  | .blank => true
  | .unknown => false
  | .hspace => match args with
    | .arg _ (.lit _ t :: _) _ :: _ => (num t).isSome
    | _ => false
  | .function => (chars (name.drop 1)).all fun c => K c bs!"rm" math
  | .glyph => K name typ math && !isPunct name
  | .fraction _ => match args, os with
    | .arg .. :: .arg .. :: _, a :: b :: _ => a && b
    | _, _ => false
  | .binomial => match args, os with
    | .arg .. :: .arg .. :: _, a :: b :: _ => a && b && fits K X bs!"(" typ && fits K X bs!")" typ
    | _, _ => false
  | .root => match args, os with
    | [.optArg .., .arg ..], a :: b :: _ => a && b && fits K X bs!"\\__sqrt__" typ
    | [.arg ..], b :: _ => b && fits K X bs!"\\__sqrt__" typ
    | _, _ => false
  | .overline => match args, os with
    | .arg .. :: _, b :: _ => b
    | _, _ => false

mutual
/-- The tree can be turned into boxes, when `K c typ math` says which symbols the font has, `X typ` whether its x-height can be told, and `num t`
is the value of a decimal numeral: there are no scripts, in math every symbol has a glyph or is a
blank, there is no punctuation other than a full stop, the macros have the right arguments, and the
font has everything.  `math` and `direct` as for `ink`. -/
def drawable (K : GoString → GoString → Bool → Bool) (X : GoString → Bool) (num : GoString → Option F) (typ : GoString) (math direct : Bool) :
    Node → Bool
  | .list l => direct || drawableAll K X num typ math false l
  | .nil => direct
  | .sym _ t =>
    if math then role t == .blank || role t == .glyph && K t typ math && !isPunct t else K t typ math
  | .word _ t => (chars t).all fun c => K c typ math
  | .lit _ t => (chars t).all fun c => K c typ math && !isPunct c
  | .math _ _ l _ => drawableAll K X num bs!"it" true true l
  | .macro (some (_, name)) args =>
    drawableMacro K X num typ math name args (drawableArgs K X num typ math args) (role name)
  | _ => false
/-- All of them. -/
def drawableAll (K : GoString → GoString → Bool → Bool) (X : GoString → Bool) (num : GoString → Option F) (typ : GoString)
    (math direct : Bool) : List Node → Bool
  | [] => true
  | n :: l => drawable K X num typ math direct n && drawableAll K X num typ math direct l
/-- Each macro argument. -/
def drawableArgs (K : GoString → GoString → Bool → Bool) (X : GoString → Bool) (num : GoString → Option F) (typ : GoString) (math : Bool) :
    List Node → List Bool
  | [] => []
  | .arg _ l _ :: as => drawableAll K X num typ math false l :: drawableArgs K X num typ math as
  | .optArg _ l _ :: as => drawableAll K X num typ math false l :: drawableArgs K X num typ math as
  | _ :: as => false :: drawableArgs K X num typ math as
end

end Verif.Spec

namespace Verif.Spec
variable {F : Type} [GoFloat F]
open GoFloat

/-- The first full stop of the text stands between two digits. -/
def FirstDotDecimal (x : GoString) : Prop :=
  ∃ a d e b, x = a ++ [d, ch!".", e] ++ b ∧ ch!"." ∉ a ∧ 48 ≤ d ∧ d ≤ 57 ∧ 48 ≤ e ∧ e ≤ 57

/-- A full stop without extra space. -/
def DotBare (n : TNode F) : Prop := ∃ c, n = .char c ∧ c.c = bs!"."

/-- A full stop followed by a blank of one fifth of an em. -/
def DotSpaced (be : Backend F) (st : TState F) (n : TNode F) : Prop :=
  ∃ hd cs c k, n = .list .h hd cs ∧ [.char c, .kern k].Sublist cs ∧ c.c = bs!"." ∧
    k.width = (be.metrics bs!"m" ⟨bs!"it", bs!"it", st.font.size⟩ st.dpi true).advance * ofRat 2 10

end Verif.Spec
