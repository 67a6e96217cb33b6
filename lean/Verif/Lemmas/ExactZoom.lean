import Verif.Lemmas.Exact
/-! # Multiplication of exact numbers by a positive number -/

namespace Verif.XR
open Verif GoFloat

theorem signInf_mul (a : ℚ) {k : ℚ} (hk : 0 < k) : signInf (a * k) = signInf a := by
  have h0 : k ≠ 0 := hk.ne'
  unfold signInf
  simp only [mul_eq_zero, h0, or_false, mul_neg_iff, hk, hk.le, not_lt.2 hk.le, and_true, and_false, false_or]

theorem mul_comm' (a b : XR) : a * b = b * a := by
  cases a <;> cases b <;> simp [mul_def, XR.mul, mul_comm]

theorem signInf_mul_pos (a : ℚ) {k : ℚ} (hk : 0 < k) : signInf a * fin k = signInf a := by
  unfold signInf
  split
  · simp [mul_def, XR.mul]
  · split <;> simp [mul_def, XR.mul, signInf, hk.ne', hk, not_lt.2 hk.le]

theorem mul_left' (a b : XR) {k : ℚ} (hk : 0 < k) : a * (b * fin k) = a * b * fin k := by
  have h0 : k ≠ 0 := hk.ne'
  have h1 : ¬ k < 0 := not_lt.2 hk.le
  cases a <;> cases b <;> simp [mul_def, XR.mul, h0, h1, hk, mul_assoc]
  all_goals first
    | (rw [← neg_mul, signInf_mul _ hk, ← mul_def, signInf_mul_pos _ hk])
    | (rw [signInf_mul _ hk, ← mul_def, signInf_mul_pos _ hk])
    | (rw [← mul_def, signInf_mul_pos _ hk]; simp [signInf, h0, h1, hk]; done)
    | (simp [signInf, h0, h1, hk, XR.mul]; done)
    | skip
  all_goals
    rename_i q
    by_cases hq : q = 0
    · subst hq; simp [signInf, h0, h1, hk, XR.mul]
    · rcases lt_or_gt_of_ne hq with hq' | hq' <;> simp [signInf, h0, h1, hk, hk.le, XR.mul, hq, hq', not_lt.2 hq'.le]

theorem mul_swap' (a b : XR) {k : ℚ} (hk : 0 < k) : a * fin k * b = a * b * fin k := by
  rw [mul_comm' (a * fin k) b, mul_left' b a hk, mul_comm' b a]

theorem mul_area' (a b : XR) {k l : ℚ} (hk : 0 < k) (hl : 0 < l) : a * fin k * (b * fin l) = a * b * fin (k * l) := by
  rw [mul_left' _ _ hl, mul_swap' _ _ hk, mul_mul' _ hk hl]

theorem div_left' (a b : XR) {k : ℚ} (hk : 0 < k) : a * fin k / b = a / b * fin k := by
  have h0 : k ≠ 0 := hk.ne'
  have h1 : ¬ k < 0 := not_lt.2 hk.le
  cases a <;> cases b <;> simp [div_def, mul_def, XR.mul, XR.div, h0, h1, hk, signInf]
  all_goals rename_i q
  case fin.fin =>
    rename_i p
    by_cases hq : q = 0
    · subst hq
      by_cases hp : p = 0
      · subst hp; simp [XR.mul]
      · rcases lt_or_gt_of_ne hp with hp' | hp' <;> simp [h0, h1, hk, XR.mul, hp, hp', not_lt.2 hp'.le, mul_neg_iff, signInf]
    · simp [hq, XR.mul, mul_div_right_comm]
  all_goals
    by_cases hq : q < 0 <;> simp [hq, XR.mul, signInf, h0, h1, hk]

theorem ratio' (a b : XR) {k : ℚ} (hk : 0 < k) : a * fin k / (b * fin k) = a / b := by
  have h0 : k ≠ 0 := hk.ne'
  have h1 : ¬ k < 0 := not_lt.2 hk.le
  cases a <;> cases b <;> simp [div_def, mul_def, XR.mul, XR.div, h0, h1, hk, signInf, mul_neg_iff, hk.le]
  rename_i p q
  by_cases hq : q = 0
  · simp [hq]
  · simp only [hq, if_false]; rw [mul_div_mul_right _ _ h0]

theorem lt_mul' (a b : XR) {k : ℚ} (hk : 0 < k) : GoFloat.lt (a * fin k) (b * fin k) = GoFloat.lt a b := by
  have h0 : k ≠ 0 := hk.ne'
  have h1 : ¬ k < 0 := not_lt.2 hk.le
  cases a <;> cases b <;> simp [lt_def, mul_def, XR.mul, XR.lt, h0, h1, hk, signInf]

theorem eqz_mul' (a : XR) {k : ℚ} (hk : 0 < k) : GoFloat.eq (a * fin k) zero = GoFloat.eq a zero := by
  have h0 : k ≠ 0 := hk.ne'
  have h1 : ¬ k < 0 := not_lt.2 hk.le
  cases a <;> simp [eq_def, mul_def, XR.mul, XR.eq, h0, h1, hk, signInf]

theorem eq_mul' (a b : XR) {k : ℚ} (hk : 0 < k) : GoFloat.eq (a * fin k) (b * fin k) = GoFloat.eq a b := by
  have h0 : k ≠ 0 := hk.ne'
  have h1 : ¬ k < 0 := not_lt.2 hk.le
  cases a <;> cases b <;> simp [eq_def, mul_def, XR.mul, XR.eq, h0, h1, hk, signInf]

theorem inf_mul' {k : ℚ} (hk : 0 < k) : (GoFloat.inf : XR) * fin k = GoFloat.inf := by
  have h0 : k ≠ 0 := hk.ne'
  have h1 : ¬ k < 0 := not_lt.2 hk.le
  show XR.mul .pinf (fin k) = .pinf
  simp [XR.mul, signInf, h0, h1]

end Verif.XR
