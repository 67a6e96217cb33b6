import Verif.Lemmas.IeeeOps
import Verif.Lemmas.ZoomShip
import Verif.Lemmas.IeeeNear
/-! # Rounding errors: sums -/

namespace Verif
open GoFloat Spec

theorem unit64_nonneg : 0 ≤ unit64 := by unfold unit64; norm_num

/-- `x` is `y` after `n` roundings of numbers of size `S` at most. -/
def ErrX (n : ℕ) (S : ℚ) (x : F64) (y : XR) : Prop :=
  ∃ p q, Num64 x p ∧ y = .fin q ∧ |p - q| ≤ ((1 + unit64) ^ n - 1) * S ∧ |q| ≤ S

theorem one_le_pow_unit (n : ℕ) : 1 ≤ (1 + unit64) ^ n := one_le_pow₀ (by linarith [unit64_nonneg])

theorem err_mono {n m : ℕ} {S T : ℚ} {x : F64} {y : XR} (h : ErrX n S x y) (hn : n ≤ m) (hS : S ≤ T) : ErrX m T x y := by
  obtain ⟨p, q, h1, h2, h3, h4⟩ := h
  have hp : (1 + unit64) ^ n ≤ (1 + unit64) ^ m := pow_le_pow_right₀ (by linarith [unit64_nonneg]) hn
  have h0 := one_le_pow_unit n
  exact ⟨p, q, h1, h2, h3.trans (mul_le_mul (by linarith) hS ((abs_nonneg q).trans h4) (by linarith)), h4.trans hS⟩

theorem err_size {n : ℕ} {S : ℚ} {x : F64} {y : XR} (h : ErrX n S x y) : 0 ≤ S := by
  obtain ⟨p, q, h1, h2, h3, h4⟩ := h
  exact (abs_nonneg q).trans h4

theorem size64_num {x : F64} {q : ℚ} (h : Num64 x q) : size64 x = |q| := by
  cases x with
  | fin s a r => rw [← show F64.value s a = q from h, value_abs (rep_nonneg r)]; exact abs_of_nonneg (rep_nonneg r)
  | inf => exact h.elim
  | nan => exact h.elim

theorem size64_nonneg (x : F64) : 0 ≤ size64 x := by
  cases x with
  | fin s a r => exact abs_nonneg a
  | inf => exact le_rfl
  | nan => exact le_rfl

theorem exact_num {x : F64} {q : ℚ} (h : Num64 x q) : exact64 x = .fin q := by
  cases x with
  | fin s a r => exact congrArg XR.fin h
  | inf => exact h.elim
  | nan => exact h.elim

/-- A number of the tree has no error. -/
theorem err_num {x : F64} (h : Fin64 x) (n : ℕ) : ErrX n (size64 x) x (exact64 x) := by
  obtain ⟨q, h⟩ := h
  refine ⟨q, q, h, exact_num h, ?_, (size64_num h).ge⟩
  rw [sub_self, abs_zero]
  exact mul_nonneg (by linarith [one_le_pow_unit n]) (size64_nonneg x)

theorem neg_err {n : ℕ} {S : ℚ} {x : F64} {y : XR} (h : ErrX n S x y) : ErrX n S (-x) (-y) := by
  obtain ⟨p, q, h1, rfl, h3, h4⟩ := h
  refine ⟨-p, -q, neg_num h1, rfl, ?_, by rwa [abs_neg]⟩
  rw [show -p - -q = -(p - q) by ring, abs_neg]; exact h3

variable {N : ℕ} {T : ℚ}

theorem add_err (hT : (1 + unit64) ^ N * T < 2 ^ (1024 : ℕ)) {n : ℕ} {S S' : ℚ} {x x' : F64} {y y' : XR} (h : ErrX n S x y) (h' : ErrX n S' x' y')
    (hn : n + 1 ≤ N) (hS : S + S' ≤ T) : ErrX (n + 1) (S + S') (x + x') (y + y') := by
  obtain ⟨p, q, h1, rfl, h3, h4⟩ := h
  obtain ⟨p', q', h1', rfl, h3', h4'⟩ := h'
  have hu := unit64_nonneg
  have hr := add_rel h1 h1'
  have ha : |q + q'| ≤ S + S' := (abs_add_le _ _).trans (add_le_add h4 h4')
  have hd : |(p + p') - (q + q')| ≤ ((1 + unit64) ^ n - 1) * (S + S') := by
    rw [show (p + p') - (q + q') = (p - q) + (p' - q') by ring, mul_add]
    exact (abs_add_le _ _).trans (add_le_add h3 h3')
  have hm : |p + p'| ≤ (1 + unit64) ^ n * (S + S') := by
    have := abs_add_le ((p + p') - (q + q')) (q + q')
    rw [sub_add_cancel] at this
    linarith
  have hm' : unit64 * |p + p'| ≤ unit64 * ((1 + unit64) ^ n * (S + S')) := mul_le_mul_of_nonneg_left hm hu
  have hbig : |rnd (p + p')| ≤ (1 + unit64) ^ N * T := by
    have h5 : |rnd (p + p')| ≤ (1 + unit64) ^ (n + 1) * (S + S') := by
      have := abs_add_le (rnd (p + p') - (p + p')) (p + p')
      rw [sub_add_cancel] at this
      rw [pow_succ]
      calc _ ≤ unit64 * ((1 + unit64) ^ n * (S + S')) + (1 + unit64) ^ n * (S + S') := by linarith
        _ = _ := by ring
    refine h5.trans (mul_le_mul (pow_le_pow_right₀ (by linarith) hn) hS ?_ (by linarith [one_le_pow_unit N]))
    exact (abs_nonneg _).trans ha
  refine ⟨rnd (p + p'), q + q', add_num h1 h1' (lt_of_le_of_lt hbig hT), rfl, ?_, ha⟩
  have := abs_add_le (rnd (p + p') - (p + p')) ((p + p') - (q + q'))
  rw [show rnd (p + p') - (p + p') + ((p + p') - (q + q')) = rnd (p + p') - (q + q') by ring] at this
  calc _ ≤ unit64 * ((1 + unit64) ^ n * (S + S')) + ((1 + unit64) ^ n - 1) * (S + S') := by linarith
    _ = _ := by rw [pow_succ]; ring

theorem sub_err (hT : (1 + unit64) ^ N * T < 2 ^ (1024 : ℕ)) {n : ℕ} {S S' : ℚ} {x x' : F64} {y y' : XR} (h : ErrX n S x y) (h' : ErrX n S' x' y')
    (hn : n + 1 ≤ N) (hS : S + S' ≤ T) : ErrX (n + 1) (S + S') (x - x') (y - y') := by
  rw [sub_def64, XR.sub_add']
  exact add_err hT h (neg_err h') hn hS

theorem off_err {n : ℕ} {S : ℚ} {x : F64} {y : XR} (h : ErrX n S x y) (hn : n ≤ N) (hS : S ≤ T) :
    ∃ q, y = .fin q ∧ Off64 (((1 + unit64) ^ N - 1) * T) x q := by
  obtain ⟨p, q, h1, h2, h3, -⟩ := err_mono h hn hS
  exact ⟨q, h2, p, h1, h3⟩

/-- The sign of a sum is that of the exact sum. -/
theorem pos_sum (x y : F64) (hx : Fin64 x) (hy : Fin64 y) (hb : size64 x + size64 y ≤ T) (hT : (1 + unit64) ^ N * T < 2 ^ (1024 : ℕ)) (hN : 1 ≤ N) :
    pos (x + y) = pos (exact64 x + exact64 y) := by
  obtain ⟨p, hx⟩ := hx
  obtain ⟨q, hy⟩ := hy
  have hs := add_err hT (err_num ⟨p, hx⟩ 0) (err_num ⟨q, hy⟩ 0) hN hb
  have hr := add_rel hx hy
  have hbd : |rnd (p + q)| < 2 ^ (1024 : ℕ) := by
    rw [size64_num hx, size64_num hy] at hb
    have h1 := abs_add_le p q
    have h2 := abs_add_le (rnd (p + q) - (p + q)) (p + q)
    rw [sub_add_cancel] at h2
    have hu := unit64_nonneg
    have h3 : |rnd (p + q)| ≤ (1 + unit64) * (|p| + |q|) := by nlinarith
    refine lt_of_le_of_lt (h3.trans ?_) hT
    have h4 : (1 + unit64) ≤ (1 + unit64) ^ N := by
      calc (1 + unit64) = (1 + unit64) ^ 1 := (pow_one _).symm
        _ ≤ _ := pow_le_pow_right₀ (by linarith) hN
    exact mul_le_mul h4 hb (by positivity) (by linarith)
  rw [pos, pos, ← exact64_zero, ← exact64_lt, exact_num (add_num hx hy hbd), exact_num hx, exact_num hy, exact64_zero, XR.zero_fin, XR.fin_add, XR.fin_lt,
    XR.fin_lt]
  congr 1
  apply propext
  have hu1 : unit64 < 1 := by unfold unit64; norm_num
  constructor
  · intro h
    by_contra hn
    have := rnd_mono (not_lt.1 hn)
    rw [show rnd 0 = 0 by simp [rnd, rne_zero]] at this
    linarith
  · intro h
    rw [abs_of_pos h] at hr
    have := (abs_le.1 hr).1
    nlinarith
theorem fin_zero64 : Fin64 (zero : F64) := ⟨0, by rw [zero64]; rfl⟩
theorem size_zero64 : size64 (zero : F64) = 0 := by rw [zero64]; exact abs_zero

/-- A dimension of a rule, or that of the list if it is infinite. -/
theorem running_err {x y : F64} (h : isInf x = true ∨ Fin64 x) (hy : Fin64 y) (k : ℕ) :
    ∃ A, ErrX k A (if isInf x then y else x) (if isInf (exact64 x) then exact64 y else exact64 x) ∧ A ≤ size64 x + size64 y ∧
      (isInf x = true → A = size64 y) := by
  rw [exact64_isInf]
  by_cases hc : isInf x = true
  · rw [if_pos hc, if_pos hc]
    exact ⟨size64 y, err_num hy k, by linarith [size64_nonneg x], fun _ => rfl⟩
  · rw [if_neg hc, if_neg hc]
    exact ⟨size64 x, err_num (h.resolve_left hc) k, by linarith [size64_nonneg y], fun h => absurd h hc⟩

theorem exact64_pos (x : F64) : pos (exact64 x) = pos x := by rw [pos, pos, ← exact64_lt, exact64_zero]

/-- Few roundings are a small error. -/
theorem pow_unit64 (n : ℕ) (h : n ≤ 2 ^ 52) : (1 + unit64) ^ n - 1 ≤ n / 2 ^ 52 := by
  induction n with
  | zero => simp
  | succ n ih =>
    have ih := ih (by omega)
    have hn : (n : ℚ) / 2 ^ 52 ≤ 1 := by
      rw [div_le_one (by positivity)]; exact_mod_cast (by omega : n ≤ 2 ^ 52)
    have e : unit64 = 1 / 2 ^ 52 / 2 := by unfold unit64; norm_num
    have e2 : ((n + 1 : ℕ) : ℚ) / 2 ^ 52 = n / 2 ^ 52 + 1 / 2 ^ 52 := by push_cast; ring
    have hu : (0 : ℚ) < 1 / 2 ^ 52 := by positivity
    rw [e2, pow_succ, e]
    rw [e] at ih
    generalize (1 : ℚ) / 2 ^ 52 = U at hu ih ⊢
    generalize (1 + U / 2) ^ n = P at ih ⊢
    generalize (n : ℚ) / 2 ^ 52 = x at hn ih ⊢
    nlinarith

theorem num_zero64 : Num64 (zero : F64) 0 := by rw [zero64]; rfl

end Verif
