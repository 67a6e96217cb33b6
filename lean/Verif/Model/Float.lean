/-! # Floating-point numbers

The code computes with `float64`.  The model is written over any type with the operations it
uses, without any law: whatever is proved for every `GoFloat` holds for IEEE arithmetic.
Theorems that need laws name them (`MaxLaws`, true of IEEE arithmetic) or are stated for the
exact numbers of `Verif/Model/Exact.lean`. -/

namespace Verif

/-- The operations of `float64` used by the code. -/
class GoFloat (F : Type) extends Add F, Sub F, Mul F, Div F, Neg F where
  /-- `math.Max` -/
  max : F → F → F
  /-- `a < b` -/
  lt : F → F → Bool
  /-- `a == b` -/
  eq : F → F → Bool
  /-- `math.IsInf(a, 0)` -/
  isInf : F → Bool
  /-- `math.Inf(+1)` -/
  inf : F
  /-- an exact constant `num/den`, rounded once, as the Go compiler does; also `float64(n)` -/
  ofRat : Int → Nat → F
  /-- `int(math.Round(a))` -/
  round : F → Int
  /-- `math.Ceil` -/
  ceil : F → F

namespace GoFloat
variable {F : Type} [GoFloat F]

/-- `float64(n)`, and integer constants -/
def ofInt (n : Int) : F := ofRat n 1

/-- `0.0` -/
def zero : F := ofInt 0

/-- `a > 0` -/
def pos (a : F) : Bool := lt zero a

end GoFloat

/-- Laws of `math.Max` and `<` that hold for all `float64` values, NaN included: a number not less
than `c` stays so when passed through `Max`; `Max` returns one of its arguments (NaN counting as
one value); nothing is less than itself. -/
class MaxLaws (F : Type) [GoFloat F] : Prop where
  max_left (a b c : F) : GoFloat.lt a c = false → GoFloat.lt (GoFloat.max a b) c = false
  max_right (a b c : F) : GoFloat.lt b c = false → GoFloat.lt (GoFloat.max a b) c = false
  max_or (a b : F) : GoFloat.max a b = a ∨ GoFloat.max a b = b
  lt_self (a : F) : GoFloat.lt a a = false

end Verif
