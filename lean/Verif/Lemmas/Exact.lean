import Verif.Model.Exact
/-! # Laws of the exact numbers -/

namespace Verif
namespace XR
open GoFloat

theorem add_def (a b : XR) : a + b = XR.add a b := rfl
theorem sub_def (a b : XR) : a - b = XR.add a (XR.neg b) := rfl
theorem mul_def (a b : XR) : a * b = XR.mul a b := rfl
theorem div_def (a b : XR) : a / b = XR.div a b := rfl
theorem neg_def (a : XR) : -a = XR.neg a := rfl
theorem lt_def (a b : XR) : GoFloat.lt a b = XR.lt a b := rfl
theorem eq_def (a b : XR) : GoFloat.eq a b = XR.eq a b := rfl
theorem max_def (a b : XR) : GoFloat.max a b = XR.max a b := rfl

@[simp] theorem zero_fin : (GoFloat.zero : XR) = fin 0 := by simp [zero, ofInt, ofRat]
@[simp] theorem ofInt_fin (n : Int) : (GoFloat.ofInt n : XR) = fin n := by simp [ofInt, ofRat]
@[simp] theorem fin_add (a b : ℚ) : (fin a + fin b : XR) = fin (a + b) := rfl
@[simp] theorem fin_neg (a : ℚ) : (-fin a : XR) = fin (-a) := rfl
@[simp] theorem fin_sub (a b : ℚ) : (fin a - fin b : XR) = fin (a - b) := by
  rw [sub_eq_add_neg]; rfl
@[simp] theorem fin_mul (a b : ℚ) : (fin a * fin b : XR) = fin (a * b) := rfl
theorem fin_div (a b : ℚ) (h : b ≠ 0) : (fin a / fin b : XR) = fin (a / b) := by
  rw [div_def]; simp [XR.div, h]
@[simp] theorem fin_lt (a b : ℚ) : GoFloat.lt (fin a : XR) (fin b) = decide (a < b) := rfl
@[simp] theorem fin_eq (a b : ℚ) : GoFloat.eq (fin a : XR) (fin b) = decide (a = b) := rfl
@[simp] theorem fin_isInf (a : ℚ) : GoFloat.isInf (fin a : XR) = false := rfl
@[simp] theorem fin_max (a b : ℚ) : GoFloat.max (fin a : XR) (fin b) = fin (Max.max a b) := by
  rw [max_def]
  simp only [XR.max]
  split
  · rw [max_eq_right (le_of_lt ‹_›)]
  · rw [max_eq_left (not_lt.1 ‹_›)]

theorem add_comm' (a b : XR) : a + b = b + a := by
  cases a <;> cases b <;> simp [add_def, XR.add, add_comm]
theorem add_assoc' (a b c : XR) : a + b + c = a + (b + c) := by
  cases a <;> cases b <;> cases c <;> simp [add_def, XR.add, add_assoc]
theorem sub_add' (a b : XR) : a - b = a + -b := rfl
theorem neg_add' (a b : XR) : -(a + b) = -a + -b := by
  cases a <;> cases b <;> simp [add_def, neg_def, XR.add, XR.neg, neg_add_rev, add_comm]
theorem zero_add' (a : XR) : fin 0 + a = a := by cases a <;> simp [add_def, XR.add]
theorem add_zero' (a : XR) : a + fin 0 = a := by cases a <;> simp [add_def, XR.add]

instance : Std.Associative (α := XR) (· + ·) := ⟨add_assoc'⟩
instance : Std.Commutative (α := XR) (· + ·) := ⟨add_comm'⟩

theorem max_cases (a b : XR) : GoFloat.max a b = a ∨ GoFloat.max a b = b := by
  cases a <;> cases b <;> first | (left; rfl) | (right; rfl) | skip
  rename_i p q
  rcases le_total p q with h | h
  · right; simp [h]
  · left; simp [h]

instance : MaxLaws XR where
  max_left a b c := by
    cases a <;> cases b <;> cases c <;>
      first | (rw [fin_max, fin_lt, fin_lt, decide_eq_false_iff_not, decide_eq_false_iff_not, not_lt, not_lt]; intro h; exact le_trans h (le_max_left _ _)) | simp [max_def, lt_def, XR.max, XR.lt]
  max_right a b c := by
    cases a <;> cases b <;> cases c <;>
      first | (rw [fin_max, fin_lt, fin_lt, decide_eq_false_iff_not, decide_eq_false_iff_not, not_lt, not_lt]; intro h; exact le_trans h (le_max_right _ _)) | simp [max_def, lt_def, XR.max, XR.lt]
  max_or := max_cases
  lt_self a := by cases a <;> simp [lt_def, XR.lt]

/-- Multiplication by a positive number. -/
theorem add_mul_pos (a b : XR) {k : ℚ} (hk : 0 < k) : (a + b) * fin k = a * fin k + b * fin k := by
  have h0 : k ≠ 0 := hk.ne'
  have h1 : ¬ k < 0 := not_lt.2 hk.le
  cases a <;> cases b <;> simp [add_def, mul_def, XR.add, XR.mul, signInf, h0, h1, hk, add_mul]

theorem neg_mul' (a : XR) {k : ℚ} (hk : 0 < k) : (-a) * fin k = -(a * fin k) := by
  have h0 : k ≠ 0 := hk.ne'
  have h1 : ¬ k < 0 := not_lt.2 hk.le
  cases a <;> simp [neg_def, mul_def, XR.neg, XR.mul, signInf, h0, h1, hk]

theorem sub_mul_pos (a b : XR) {k : ℚ} (hk : 0 < k) : (a - b) * fin k = a * fin k - b * fin k := by
  rw [sub_add', add_mul_pos _ _ hk, neg_mul' _ hk]; rfl

theorem max_mul_pos (a b : XR) {k : ℚ} (hk : 0 < k) :
    GoFloat.max a b * fin k = GoFloat.max (a * fin k) (b * fin k) := by
  have h0 : k ≠ 0 := hk.ne'
  have h1 : ¬ k < 0 := not_lt.2 hk.le
  cases a <;> cases b <;> simp [max_def, mul_def, XR.mul, signInf, h0, h1, hk, XR.max]

theorem isInf_mul_pos (a : XR) {k : ℚ} (hk : 0 < k) : GoFloat.isInf (a * fin k) = GoFloat.isInf a := by
  have h0 : k ≠ 0 := hk.ne'
  have h1 : ¬ k < 0 := not_lt.2 hk.le
  cases a <;> simp [mul_def, XR.mul, signInf, h0, h1, hk, GoFloat.isInf]
  rfl

theorem mul_mul' (a : XR) {k l : ℚ} (hk : 0 < k) (hl : 0 < l) : a * fin k * fin l = a * fin (k * l) := by
  have h0 : k ≠ 0 := hk.ne'
  have h1 : ¬ k < 0 := not_lt.2 hk.le
  have h2 : l ≠ 0 := hl.ne'
  have h3 : ¬ l < 0 := not_lt.2 hl.le
  have h5 : 0 < k * l := mul_pos hk hl
  have h6 : ¬ k * l < 0 := not_lt.2 h5.le
  cases a <;> simp [mul_def, XR.mul, signInf, h0, h1, hk, h2, h3, hl, h5, h6, mul_assoc]

@[simp] theorem mul_one' (a : XR) : a * fin 1 = a := by
  cases a <;> simp [mul_def, XR.mul, signInf]

/-- `XR.fin` sums. -/
theorem foldl_add_fin (l : List XR) (a : XR) : l.foldl (· + ·) a = a + l.foldl (· + ·) (fin 0) := by
  induction l generalizing a with
  | nil => simp [add_zero']
  | cons b l ih => rw [List.foldl_cons, ih, List.foldl_cons, ih (fin 0 + b), zero_add', add_assoc']

theorem roundQ_near (a : ℚ) : |(XR.roundQ a : ℚ) - a| ≤ 1 / 2 := by
  unfold XR.roundQ
  split
  · have h1 := Int.floor_le (a + 1 / 2)
    have h2 := Int.lt_floor_add_one (a + 1 / 2)
    rw [abs_le]; constructor <;> linarith
  · have h1 := Int.floor_le (-a + 1 / 2)
    have h2 := Int.lt_floor_add_one (-a + 1 / 2)
    push_cast
    rw [abs_le]; constructor <;> linarith

end XR
end Verif
