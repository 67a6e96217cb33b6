import Verif.Model.Ieee
/-! Compares the model of float64 with the hardware (Lean's `Float` is a C double): random bit patterns,
additions, subtractions, products, quotients, comparisons and `Ceil`.  Run by run.sh with `lake env lean --run`. -/
open Verif

/-- sign, exponent and mantissa of the bits -/
def parts (b : UInt64) : Bool × Nat × Nat := (b >>> 63 == 1, (b >>> 52).toNat % 2048, b.toNat % 2 ^ 52)

/-- what the bits of a model number are -/
def same (x : F64) (b : UInt64) : Bool :=
  let (s, e, m) := parts b
  match x with
  | .nan => e == 2047 && m != 0
  | .inf n => e == 2047 && m == 0 && n == s
  | .fin n a _ => e != 2047 && n == s && decide (a = if e = 0 then (m : ℚ) * 2 ^ (-1074 : ℤ) else ((2 ^ 52 + m : Nat) : ℚ) * 2 ^ ((e : ℤ) - 1075))

def ofBits (b : UInt64) : F64 :=
  let (s, e, m) := parts b
  if e = 2047 then (if m = 0 then .inf s else .nan)
  else F64.pack s (if e = 0 then (m : ℚ) * 2 ^ (-1074 : ℤ) else ((2 ^ 52 + m : Nat) : ℚ) * 2 ^ ((e : ℤ) - 1075))

def rnd (n : Nat) : IO Nat := IO.rand 0 (n - 1)

/-- bit patterns: all kinds of exponents, few bits or many, special values -/
def sample (near : Nat) : IO UInt64 := do
  let k ← rnd 12
  let s ← rnd 2
  let m1 ← rnd (2 ^ 26)
  let m2 ← rnd (2 ^ 26)
  let j ← rnd 5
  let m := match j with | 0 => 0 | 1 => 1 | 2 => 2 ^ 52 - 1 | 3 => m1 * 2 ^ 26 | _ => m1 * 2 ^ 26 + m2
  let d ← rnd 110
  let r ← rnd 2047
  let e := match k with | 0 => 0 | 1 => 2047 | 2 => 2046 | 3 => 1 | 4 => r | 5 => r | _ => (near + d) % 2047
  return UInt64.ofNat (s * 2 ^ 63 + e * 2 ^ 52 + m)

def main : IO UInt32 := do
  let mut bad := 0
  let mut n := 0
  for _ in List.range 20000 do
    let near ← rnd 2047
    let a ← sample near
    let b ← sample near
    let fa := Float.ofBits a
    let fb := Float.ofBits b
    let x := ofBits a
    let y := ofBits b
    let checks : List (String × Bool) := [
      ("in", same x a), ("in", same y b),
      ("+", same (x + y) (fa + fb).toBits), ("-", same (x - y) (fa - fb).toBits),
      ("*", same (x * y) (fa * fb).toBits), ("/", same (x / y) (fa / fb).toBits),
      ("neg", same (-x) (-fa).toBits), ("<", GoFloat.lt x y == (fa < fb)), ("==", GoFloat.eq x y == (fa == fb)),
      ("ceil", same (GoFloat.ceil x) fa.ceil.toBits)]
    for (o, c) in checks do
      n := n + 1
      if !c then
        bad := bad + 1
        IO.println s!"{o} {fa} {fb} {a} {b}"
  IO.println s!"{n} comparisons, {bad} differ"
  return if bad = 0 then 0 else 1
