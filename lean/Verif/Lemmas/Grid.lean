import Verif.Lemmas.IeeeSet
import Verif.Spec.Grid
/-! # Arithmetic of float64 on a grid

Whole multiples of a power of two are numbers of the format, so that rounding does not cross them: sums, differences and products keep within
the bounds they have without rounding, as long as these are on the grid. -/

namespace Verif
open Spec GoFloat

/-- The number lies between two points of the grid of `2 ^ k`. -/
def In (k a b : ℤ) (x : F64) : Prop := ∃ q, Num64 x q ∧ a * 2 ^ k ≤ q ∧ q ≤ b * 2 ^ k

/-- The exponents of the units for which the grid is wide enough. -/
def MidExp (k : ℤ) : Prop := -1000 ≤ k ∧ k ≤ 900

variable {k : ℤ}

theorem grid_rep (hk : MidExp k) {m : ℕ} (hm : m ≤ 2 ^ 53) : Rep ((m : ℚ) * 2 ^ k) := by
  refine ⟨⟨m, k, hm, by have := hk.1; omega, rfl⟩, ?_⟩
  have h1 : ((m : ℚ)) ≤ 2 ^ (53 : ℤ) := by exact_mod_cast hm
  have h2 : (2 : ℚ) ^ k ≤ 2 ^ (900 : ℤ) := zpow_le_zpow_right₀ (by norm_num) hk.2
  have h3 : (m : ℚ) * 2 ^ k ≤ 2 ^ (53 : ℤ) * 2 ^ (900 : ℤ) := mul_le_mul h1 h2 (two_zpow_pos _).le (two_zpow_pos _).le
  refine lt_of_le_of_lt h3 ?_
  rw [← zpow_add₀ (by norm_num), ← zpow_natCast]
  exact zpow_lt_zpow_right₀ (by norm_num) (by norm_num)

theorem rne_rep' {a : ℚ} (h : Rep a) : rne a = a := rne_rep h

theorem rnd_grid (hk : MidExp k) {a : ℤ} (ha : |a| ≤ 2 ^ 53) : rnd ((a : ℚ) * 2 ^ k) = a * 2 ^ k := by
  have hp : (0 : ℚ) < 2 ^ k := two_zpow_pos k
  have key : ∀ m : ℕ, m ≤ 2 ^ 53 → rnd ((m : ℚ) * 2 ^ k) = m * 2 ^ k := by
    intro m hm
    have h1 := rnd_abs ((m : ℚ) * 2 ^ k)
    have h0 : 0 ≤ (m : ℚ) * 2 ^ k := by positivity
    rw [abs_of_nonneg h0, rne_rep (grid_rep hk hm)] at h1
    have h2 : 0 ≤ rnd ((m : ℚ) * 2 ^ k) := by
      have := rnd_mono h0
      rwa [rnd_zero] at this
    rwa [abs_of_nonneg h2] at h1
  rcases Int.le_total 0 a with h | h
  · obtain ⟨m, rfl⟩ := Int.eq_ofNat_of_zero_le h
    have : m ≤ 2 ^ 53 := by rw [abs_of_nonneg h] at ha; exact_mod_cast ha
    exact_mod_cast key m this
  · obtain ⟨m, hm⟩ := Int.eq_ofNat_of_zero_le (Int.neg_nonneg.2 h)
    have hm' : a = -(m : ℤ) := by omega
    subst hm'
    have : m ≤ 2 ^ 53 := by rw [abs_of_nonpos h, neg_neg] at ha; exact_mod_cast ha
    have e := key m this
    push_cast
    rw [neg_mul, rnd_neg, e]

theorem rnd_between (hk : MidExp k) {a b : ℤ} (ha : |a| ≤ 2 ^ 53) (hb : |b| ≤ 2 ^ 53) {q : ℚ} (h1 : a * 2 ^ k ≤ q) (h2 : q ≤ b * 2 ^ k) :
    a * 2 ^ k ≤ rnd q ∧ rnd q ≤ b * 2 ^ k := by
  have e1 := rnd_mono h1
  have e2 := rnd_mono h2
  rw [rnd_grid hk ha] at e1
  rw [rnd_grid hk hb] at e2
  exact ⟨e1, e2⟩

theorem between_fin (hk : MidExp k) {a b : ℤ} (ha : |a| ≤ 2 ^ 53) (hb : |b| ≤ 2 ^ 53) {q : ℚ} (h1 : a * 2 ^ k ≤ q) (h2 : q ≤ b * 2 ^ k) :
    |q| < 2 ^ (1024 : ℕ) := by
  have hp : (0 : ℚ) < 2 ^ k := two_zpow_pos k
  have h3 := (grid_rep hk (m := 2 ^ 53) le_rfl).2
  refine lt_of_le_of_lt ?_ h3
  have a1 : -((2 ^ 53 : ℕ) : ℚ) ≤ a := by have := (abs_le.1 ha).1; exact_mod_cast this
  have b1 : (b : ℚ) ≤ ((2 ^ 53 : ℕ) : ℚ) := by have := (abs_le.1 hb).2; exact_mod_cast this
  have a2 := mul_le_mul_of_nonneg_right a1 hp.le
  have b2 := mul_le_mul_of_nonneg_right b1 hp.le
  exact abs_le.2 ⟨by linarith only [a2, h1], by linarith only [b2, h2]⟩

theorem In.mono {a b a' b' : ℤ} {x : F64} (h : In k a b x) (ha : a' ≤ a) (hb : b ≤ b') : In k a' b' x := by
  obtain ⟨q, h1, h2, h3⟩ := h
  have hp : (0 : ℚ) < 2 ^ k := two_zpow_pos k
  have e1 : (a' : ℚ) * 2 ^ k ≤ a * 2 ^ k := mul_le_mul_of_nonneg_right (by exact_mod_cast ha) hp.le
  have e2 : (b : ℚ) * 2 ^ k ≤ b' * 2 ^ k := mul_le_mul_of_nonneg_right (by exact_mod_cast hb) hp.le
  exact ⟨q, h1, e1.trans h2, h3.trans e2⟩

/-- The result of an operation: the exact value is within the bounds, and so is the rounded one. -/
theorem in_of {a b : ℤ} (hk : MidExp k) (ha : |a| ≤ 2 ^ 53) (hb : |b| ≤ 2 ^ 53) {q : ℚ} (h1 : a * 2 ^ k ≤ q) (h2 : q ≤ b * 2 ^ k) {z : F64}
    (hz : |rnd q| < 2 ^ (1024 : ℕ) → Num64 z (rnd q)) : In k a b z := by
  obtain ⟨e1, e2⟩ := rnd_between hk ha hb h1 h2
  exact ⟨_, hz (between_fin hk ha hb e1 e2), e1, e2⟩

theorem In.add {a b c d : ℤ} {x y : F64} (hk : MidExp k) (hx : In k a b x) (hy : In k c d y) (h1 : |a + c| ≤ 2 ^ 53) (h2 : |b + d| ≤ 2 ^ 53) :
    In k (a + c) (b + d) (x + y) := by
  obtain ⟨p, hp, p1, p2⟩ := hx
  obtain ⟨q, hq, q1, q2⟩ := hy
  exact in_of hk h1 h2 (q := p + q) (by push_cast; linarith) (by push_cast; linarith) (add_num hp hq)

theorem In.neg {a b : ℤ} {x : F64} (hx : In k a b x) : In k (-b) (-a) (-x) := by
  obtain ⟨p, hp, p1, p2⟩ := hx
  exact ⟨-p, neg_num hp, by push_cast; linarith, by push_cast; linarith⟩

theorem In.sub {a b c d : ℤ} {x y : F64} (hk : MidExp k) (hx : In k a b x) (hy : In k c d y) (h1 : |a - d| ≤ 2 ^ 53) (h2 : |b - c| ≤ 2 ^ 53) :
    In k (a - d) (b - c) (x - y) := by
  obtain ⟨p, hp, p1, p2⟩ := hx
  obtain ⟨q, hq, q1, q2⟩ := hy
  exact in_of hk h1 h2 (q := p - q) (by push_cast; linarith) (by push_cast; linarith) (sub_num hp hq)

/-- A product with a number between 0 and 1. -/
theorem In.scale {a b : ℤ} {x y : F64} {r : ℚ} (hk : MidExp k) (hx : In k a b x) (hy : Num64 y r) (r0 : 0 ≤ r) (r1 : r ≤ 1)
    (ha : |a| ≤ 2 ^ 53) (hb : |b| ≤ 2 ^ 53) (ha0 : a ≤ 0) (hb0 : 0 ≤ b) : In k a b (x * y) := by
  obtain ⟨p, hp, p1, p2⟩ := hx
  have hg : (0 : ℚ) < 2 ^ k := two_zpow_pos k
  have a0 : (a : ℚ) * 2 ^ k ≤ 0 := mul_nonpos_of_nonpos_of_nonneg (by exact_mod_cast ha0) hg.le
  have b0 : 0 ≤ (b : ℚ) * 2 ^ k := mul_nonneg (by exact_mod_cast hb0) hg.le
  exact in_of hk ha hb (q := p * r) (by nlinarith) (by nlinarith) (mul_num hp hy)

/-- A product with a whole number. -/
theorem In.times {a b : ℤ} {x y : F64} {m : ℕ} (hk : MidExp k) (hx : In k a b x) (hy : Num64 y m)
    (ha : |m * a| ≤ 2 ^ 53) (hb : |m * b| ≤ 2 ^ 53) : In k (m * a) (m * b) (y * x) := by
  obtain ⟨p, hp, p1, p2⟩ := hx
  have m0 : (0 : ℚ) ≤ m := Nat.cast_nonneg m
  exact in_of hk ha hb (q := m * p) (by push_cast; nlinarith) (by push_cast; nlinarith) (mul_num hy hp)

theorem max_num {x y : F64} {p q : ℚ} (hx : Num64 x p) (hy : Num64 y q) : Num64 (GoFloat.max x y) (Max.max p q) := by
  have h := exact64_max x y
  rw [exact_num hx, exact_num hy] at h
  have e : GoFloat.max (XR.fin p) (XR.fin q) = .fin (Max.max p q) := XR.fin_max p q
  rw [e] at h
  cases hm : GoFloat.max x y with
  | fin s a ha => rw [hm] at h; simpa [exact64, Num64] using h
  | inf s => rw [hm] at h; cases s <;> cases h
  | nan => rw [hm] at h; cases h

theorem In.max {a b c d : ℤ} {x y : F64} (hx : In k a b x) (hy : In k c d y) : In k (Max.max a c) (Max.max b d) (GoFloat.max x y) := by
  obtain ⟨p, hp, p1, p2⟩ := hx
  obtain ⟨q, hq, q1, q2⟩ := hy
  have hg : (0 : ℚ) < 2 ^ k := two_zpow_pos k
  refine ⟨_, max_num hp hq, ?_, ?_⟩
  · push_cast
    rw [max_mul_of_nonneg _ _ hg.le]
    exact max_le_max p1 q1
  · push_cast
    rw [max_mul_of_nonneg _ _ hg.le]
    exact max_le_max p2 q2

theorem In.num {a b : ℤ} {x : F64} (h : In k a b x) : Fin64 x := by obtain ⟨q, h, -⟩ := h; exact ⟨q, h⟩

theorem in_zero : In k 0 0 (zero : F64) := ⟨0, num_zero64, by simp, by simp⟩

theorem In.isInf {a b : ℤ} {x : F64} (h : In k a b x) : isInf x = false := by
  obtain ⟨q, h, -⟩ := h
  cases x with
  | fin => rfl
  | inf => exact h.elim
  | nan => exact h.elim

/-- The size of a number on the grid. -/
theorem In.size {m : ℤ} {x : F64} (h : In k (-m) m x) : size64 x ≤ m * 2 ^ k := by
  obtain ⟨q, h, h1, h2⟩ := h
  rw [size64_num h]
  push_cast at h1
  exact abs_le.2 ⟨by linarith, h2⟩

/-- Rounding moves a number that is not too large by less than half a unit. -/
theorem rnd_half (hk : MidExp k) {q : ℚ} (h : |q| ≤ 2 ^ 51 * 2 ^ k) : |rnd q - q| ≤ 2 ^ k / 2 := by
  have h1 := rnd_err' q
  have hg : (0 : ℚ) < 2 ^ k := two_zpow_pos k
  have h2 : unit64 * |q| ≤ unit64 * (2 ^ 51 * 2 ^ k) := mul_le_mul_of_nonneg_left h unit64_nonneg
  have h3 : unit64 * (2 ^ 51 * 2 ^ k) = 2 ^ k / 4 := by unfold unit64; ring
  have h4 : (2 : ℚ) ^ (-1075 : ℤ) ≤ 2 ^ k / 4 := by
    rw [show (2 : ℚ) ^ k / 4 = 2 ^ (k - 2) by rw [zpow_sub₀ (by norm_num)]; norm_num]
    exact zpow_le_zpow_right₀ (by norm_num) (by have := hk.1; omega)
  linarith

end Verif
