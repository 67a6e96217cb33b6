import Verif.Model.Exact
import Mathlib.Data.Int.Log
import Mathlib.Algebra.Order.Round
/-! # float64

The arithmetic of IEEE 754 binary64 with rounding to nearest, ties to even, as Go's `float64` on
amd64: every operation is the exact one followed by one rounding.  Zeros and infinities are signed,
there is one NaN.  This is the instance of `GoFloat` that the code runs on; the law classes (`MaxLaws`,
`EqLaws`, `ZeroLaws`) are proved for it in `Props/Ieee.lean`. -/

namespace Verif

/-- The nearest integer to `x ≥ 0`, the even one of two. -/
def roundEven (x : ℚ) : ℤ :=
  if x - ⌊x⌋ < 1 / 2 then ⌊x⌋ else if 1 / 2 < x - ⌊x⌋ then ⌊x⌋ + 1 else if ⌊x⌋ % 2 = 0 then ⌊x⌋ else ⌊x⌋ + 1

/-- The exponent of the last bit of a number of magnitude `a`: 53 significant bits, but no bit below
`2 ^ -1074`. -/
def lastBit (a : ℚ) : ℤ := max (Int.log 2 a - 52) (-1074)

/-- Rounding of a magnitude `a ≥ 0` to 53 bits, without a bound above. -/
def rne (a : ℚ) : ℚ := roundEven (a / 2 ^ lastBit a) * 2 ^ lastBit a

/-- The magnitudes of finite numbers. -/
def Rep (a : ℚ) : Prop := (∃ k : ℕ, ∃ e : ℤ, k ≤ 2 ^ 53 ∧ -1074 ≤ e ∧ a = k * 2 ^ e) ∧ a < 2 ^ (1024 : ℕ)

/-- A binary64 number. -/
inductive F64 where
  | fin (neg : Bool) (mag : ℚ) (h : Rep mag)
  | inf (neg : Bool)
  | nan
deriving DecidableEq

theorem roundEven_bounds (x : ℚ) : ⌊x⌋ ≤ roundEven x ∧ roundEven x ≤ ⌊x⌋ + 1 := by
  unfold roundEven
  split
  · omega
  · split
    · omega
    · split <;> omega

theorem roundEven_le_int {x : ℚ} {n : ℤ} (h : x ≤ n) : roundEven x ≤ n := by
  by_cases he : x = n
  · subst he
    have : roundEven (n : ℚ) = n := by unfold roundEven; simp
    omega
  · have : ⌊x⌋ < n := Int.floor_lt.2 (lt_of_le_of_ne h he)
    have := roundEven_bounds x
    omega

theorem int_le_roundEven {x : ℚ} {n : ℤ} (h : (n : ℚ) ≤ x) : n ≤ roundEven x :=
  le_trans (Int.le_floor.2 h) (roundEven_bounds x).1

theorem two_zpow_pos (e : ℤ) : (0 : ℚ) < 2 ^ e := zpow_pos (by norm_num) e

/-- A positive magnitude has at most 53 bits at and above its last one. -/
theorem div_lastBit_lt (a : ℚ) : a / 2 ^ lastBit a < 2 ^ (53 : ℕ) := by
  rw [div_lt_iff₀ (two_zpow_pos _)]
  have h1 := Int.lt_zpow_succ_log_self (b := 2) (by norm_num) a
  push_cast at h1
  refine lt_of_lt_of_le h1 ?_
  rw [← zpow_natCast, ← zpow_add₀ (by norm_num)]
  apply zpow_le_zpow_right₀ (by norm_num)
  have : Int.log 2 a - 52 ≤ lastBit a := le_max_left _ _
  push_cast; omega

theorem rne_nonneg {a : ℚ} (h : 0 ≤ a) : 0 ≤ rne a := by
  have : (0 : ℤ) ≤ roundEven (a / 2 ^ lastBit a) := int_le_roundEven (by push_cast; exact div_nonneg h (two_zpow_pos _).le)
  unfold rne
  have : (0 : ℚ) ≤ (roundEven (a / 2 ^ lastBit a) : ℚ) := by exact_mod_cast this
  exact mul_nonneg this (two_zpow_pos _).le

theorem rne_zero : rne 0 = 0 := by
  unfold rne roundEven; simp

/-- A rounded magnitude that is not too large is that of a finite number. -/
theorem rep_rne {a : ℚ} (h : 0 ≤ a) (hb : rne a < 2 ^ (1024 : ℕ)) : Rep (rne a) := by
  refine ⟨?_, hb⟩
  rcases h.eq_or_lt with rfl | h
  · exact ⟨0, 0, by norm_num, by norm_num, by rw [rne_zero]; norm_num⟩
  · have h0 : (0 : ℤ) ≤ roundEven (a / 2 ^ lastBit a) := int_le_roundEven (by push_cast; exact div_nonneg h.le (two_zpow_pos _).le)
    have h1 : roundEven (a / 2 ^ lastBit a) ≤ 2 ^ 53 := roundEven_le_int (by push_cast; exact (div_lastBit_lt a).le)
    refine ⟨(roundEven (a / 2 ^ lastBit a)).toNat, lastBit a, by omega, le_max_right _ _, ?_⟩
    rw [rne]
    congr 1
    exact_mod_cast (Int.toNat_of_nonneg h0).symm

theorem rep_zero : Rep 0 := ⟨⟨0, 0, by norm_num, by norm_num, by norm_num⟩, by norm_num⟩

namespace F64

/-- The rounded number with the given sign and exact magnitude; infinite if it is too large. -/
def pack (neg : Bool) (a : ℚ) : F64 :=
  if h : 0 ≤ a ∧ rne a < 2 ^ (1024 : ℕ) then fin neg (rne a) (rep_rne h.1 h.2) else inf neg

/-- The value of a sign and a magnitude. -/
def value (neg : Bool) (a : ℚ) : ℚ := if neg then -a else a

/-- The rounded number of an exact value; `zeroNeg` is the sign if that is zero. -/
def ofQ (q : ℚ) (zeroNeg : Bool) : F64 := pack (if q = 0 then zeroNeg else decide (q < 0)) |q|

/-- `a + b` -/
protected def add : F64 → F64 → F64
  | fin s a _, fin t b _ => ofQ (value s a + value t b) (s && t)
  | nan, _ => nan
  | _, nan => nan
  | inf s, inf t => if s = t then inf s else nan
  | inf s, _ => inf s
  | _, inf t => inf t

/-- `-a` -/
protected def neg : F64 → F64
  | fin s a h => fin (!s) a h
  | inf s => inf (!s)
  | nan => nan

/-- `a * b` -/
protected def mul : F64 → F64 → F64
  | fin s a _, fin t b _ => pack (s != t) (a * b)
  | nan, _ => nan
  | _, nan => nan
  | inf s, inf t => inf (s != t)
  | inf s, fin t b _ => if b = 0 then nan else inf (s != t)
  | fin s a _, inf t => if a = 0 then nan else inf (s != t)

/-- `a / b` -/
protected def div : F64 → F64 → F64
  | fin s a _, fin t b _ => if b = 0 then (if a = 0 then nan else inf (s != t)) else pack (s != t) (a / b)
  | nan, _ => nan
  | _, nan => nan
  | inf _, inf _ => nan
  | inf s, fin t _ _ => inf (s != t)
  | fin s _ _, inf t => fin (s != t) 0 rep_zero

/-- `a < b` -/
protected def lt : F64 → F64 → Bool
  | fin s a _, fin t b _ => decide (value s a < value t b)
  | fin _ _ _, inf t => !t
  | inf s, fin _ _ _ => s
  | inf s, inf t => s && !t
  | _, _ => false

/-- `a == b` -/
protected def eq : F64 → F64 → Bool
  | fin s a _, fin t b _ => decide (value s a = value t b)
  | inf s, inf t => s == t
  | _, _ => false

/-- `math.Max`: `+Inf` first, then NaN, then the sign of zeros -/
protected def max (x y : F64) : F64 :=
  if x = inf false ∨ y = inf false then inf false
  else if x = nan ∨ y = nan then nan
  else if F64.eq x (fin false 0 rep_zero) && F64.eq x y then (match x with | fin true _ _ => y | _ => x)
  else if F64.lt y x then x else y

/-- `int(math.Round(a))`: half away from zero; what Go leaves to the implementation (infinities and NaN)
is 0 here and never used, and neither are integers beyond 64 bits -/
protected def round : F64 → ℤ
  | fin s a _ => XR.roundQ (value s a)
  | _ => 0

/-- `math.Ceil` (the rounding in `ofQ` does nothing here) -/
protected def ceil : F64 → F64
  | fin s a _ => ofQ ⌈value s a⌉ s
  | x => x

instance : GoFloat F64 where
  add := F64.add
  sub a b := F64.add a (F64.neg b)
  mul := F64.mul
  div := F64.div
  neg := F64.neg
  max := F64.max
  lt := F64.lt
  eq := F64.eq
  isInf x := match x with | inf _ => true | _ => false
  inf := inf false
  ofRat n d := ofQ (n / d) false
  round := F64.round
  ceil := F64.ceil

end F64
end Verif
