import Verif.Model.Tables
import Verif.Model.Utf8
/-! # mtex/symbols and internal/tex2unicode -/

namespace Verif

/-- mtex/symbols/set.go:11 `Set`, a `map[string]struct{}`: its keys, without repetition.  The
order stands for no order: Go's iteration order is an argument wherever it could matter. -/
abbrev SymSet := List GoString

/-- `o[k] = struct{}{}` -/
def setAdd (o : SymSet) (k : GoString) : SymSet := if o.contains k then o else o ++ [k]

/-- mtex/symbols/set.go:13-19 `NewSet` -/
def newSet (vs : List GoString) : SymSet := vs.foldl setAdd []

/-- mtex/symbols/set.go:21-24 `Has` -/
def setHas (s : SymSet) (k : GoString) : Bool := s.contains k

/-- Byte-wise comparison of strings, `a <= b`. -/
def strLe : GoString → GoString → Bool
  | [], _ => true
  | _ :: _, [] => false
  | a :: s, b :: t => a < b || (a == b && strLe s t)

/-- Insert into a sorted list. -/
def insertSorted (k : GoString) : List GoString → List GoString
  | [] => [k]
  | a :: l => if strLe k a then k :: a :: l else a :: insertSorted k l

/-- `sort.Strings` (as insertion sort: the result of sorting strings does not depend on the
algorithm). -/
def sortStrings (l : List GoString) : List GoString := l.foldr insertSorted []

/-- mtex/symbols/set.go:26-33 `Keys`, where `order` is the order in which `range` yields the
keys. -/
def setKeys (order : List GoString) : List GoString := sortStrings order

/-- mtex/symbols/set.go:35-43 `UnionOf`, where `orders` are the orders in which the sets are
ranged over. -/
def unionOf (orders : List (List GoString)) : SymSet := orders.foldl (fun o s => s.foldl setAdd o) []

/-- mtex/symbols/symbols.go:11-13 `SpacedSymbols` -/
def spacedSymbols : SymSet := unionOf [newSet symBinaryOperators, newSet symRelationSymbols, newSet symArrowSymbols]

/-- mtex/symbols/symbols.go:15-17 `IsSpaced` -/
def isSpaced (s : GoString) : Bool := setHas spacedSymbols s

/-- `strings.Replace(v, "\\", "", 1)`: the first backslash removed. -/
def dropBackslash : GoString → GoString
  | [] => []
  | c :: s => if c = ch!"\\" then s else c :: dropBackslash s

/-- `utf8.DecodeRune([]byte(v))`, the rune only (`RuneError` for the empty string). -/
def firstRune : GoString → Nat
  | [] => runeError
  | b :: t => (decodeRune b t).1

/-- internal/tex2unicode/utf8.go:17-47 `Index` -/
def tex2unicodeIndex (v : GoString) (math : Bool) : Res Nat :=
  if math then
    if v = bs!"-" then .ok 0x2212
    else if v.length = 1 ∧ firstRune v ≠ runeError then .ok (firstRune v)
    else
      match tex2uni.lookup (dropBackslash v) with
      | some r => .ok r
      | none => .panic (.other "tex2unicode: not a valid unicode character nor a known TeX symbol")
  else if firstRune v = runeError then .panic (.other "tex: invalid rune")
  else .ok (firstRune v)

/-- internal/tex2unicode/utf8.go:49-52 `HasSymbol` -/
def hasSymbol (v : GoString) : Bool := (tex2uni.lookup v).isSome

end Verif
