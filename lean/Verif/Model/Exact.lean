import Verif.Model.Float
import Mathlib.Data.Rat.Floor
import Mathlib.Tactic.Linarith
import Mathlib.Tactic.Ring
import Mathlib.Tactic.FieldSimp
/-! # Exact numbers

The instance of `GoFloat` used for the theorems that need arithmetic: rational numbers, two
infinities and NaN, with the rules of IEEE 754 for the special values and no rounding.  Signed
zeros are not distinguished: a division by zero takes the zero to be positive. -/

namespace Verif

/-- A rational, an infinity, or NaN. -/
inductive XR where
  | fin (q : ℚ)
  | pinf
  | ninf
  | nan
deriving DecidableEq

namespace XR

/-- Addition. -/
protected def add : XR → XR → XR
  | fin a, fin b => fin (a + b)
  | nan, _ => nan
  | _, nan => nan
  | pinf, ninf => nan
  | ninf, pinf => nan
  | pinf, _ => pinf
  | _, pinf => pinf
  | ninf, _ => ninf
  | _, ninf => ninf

/-- Negation. -/
protected def neg : XR → XR
  | fin a => fin (-a)
  | pinf => ninf
  | ninf => pinf
  | nan => nan

/-- The infinity with the sign of a rational; NaN for 0. -/
def signInf (a : ℚ) : XR := if a = 0 then nan else if a < 0 then ninf else pinf

/-- Multiplication. -/
protected def mul : XR → XR → XR
  | fin a, fin b => fin (a * b)
  | nan, _ => nan
  | _, nan => nan
  | fin a, pinf => signInf a
  | fin a, ninf => signInf (-a)
  | pinf, fin a => signInf a
  | ninf, fin a => signInf (-a)
  | pinf, pinf => pinf
  | ninf, ninf => pinf
  | _, _ => ninf

/-- Division. -/
protected def div : XR → XR → XR
  | fin a, fin b => if b = 0 then signInf a else fin (a / b)
  | nan, _ => nan
  | _, nan => nan
  | fin _, _ => fin 0
  | pinf, fin b => if b < 0 then ninf else pinf
  | ninf, fin b => if b < 0 then pinf else ninf
  | _, _ => nan

/-- The order; NaN is not comparable. -/
protected def lt : XR → XR → Bool
  | fin a, fin b => decide (a < b)
  | fin _, pinf => true
  | ninf, fin _ => true
  | ninf, pinf => true
  | _, _ => false

/-- Equality; NaN differs from itself. -/
protected def eq : XR → XR → Bool
  | fin a, fin b => decide (a = b)
  | pinf, pinf => true
  | ninf, ninf => true
  | _, _ => false

/-- `math.Max` and its special cases. -/
protected def max : XR → XR → XR
  | pinf, _ => pinf
  | _, pinf => pinf
  | nan, _ => nan
  | _, nan => nan
  | fin a, fin b => if a < b then fin b else fin a
  | ninf, b => b
  | a, ninf => a

/-- `math.Round`: half away from zero. -/
def roundQ (a : ℚ) : ℤ := if 0 ≤ a then ⌊a + 1 / 2⌋ else -⌊-a + 1 / 2⌋

/-- Conversion of a rounded number to an integer; what Go leaves to the implementation (infinities
and NaN) is 0 here and never used. -/
protected def round : XR → ℤ
  | fin a => roundQ a
  | _ => 0

/-- `math.Ceil` -/
protected def ceil : XR → XR
  | fin a => fin ⌈a⌉
  | x => x

instance : GoFloat XR where
  add := XR.add
  sub a b := XR.add a (XR.neg b)
  mul := XR.mul
  div := XR.div
  neg := XR.neg
  max := XR.max
  lt := XR.lt
  eq := XR.eq
  isInf x := x == pinf || x == ninf
  inf := pinf
  ofRat n d := fin (n / d)
  round := XR.round
  ceil := XR.ceil

end XR
end Verif
