import Verif.Spec.Ieee
/-! # Rounding to binary64 -/

namespace Verif
open Spec

theorem roundEven_int (n : ℤ) : roundEven (n : ℚ) = n := by unfold roundEven; simp

theorem roundEven_mono {x y : ℚ} (h : x ≤ y) : roundEven x ≤ roundEven y := by
  have hf : ⌊x⌋ ≤ ⌊y⌋ := Int.floor_le_floor h
  rcases hf.lt_or_eq with hf | hf
  · have := (roundEven_bounds x).2
    have := (roundEven_bounds y).1
    omega
  · unfold roundEven
    rw [hf]
    have : x - ⌊y⌋ ≤ y - ⌊y⌋ := by linarith
    split_ifs <;> first | omega | (exfalso; linarith)

theorem roundEven_err (x : ℚ) : |(roundEven x : ℚ) - x| ≤ 1 / 2 := by
  have h0 := Int.floor_le x
  have h1 := Int.lt_floor_add_one x
  unfold roundEven
  rw [abs_le]
  split_ifs <;> push_cast <;> constructor <;> linarith

theorem lastBit_mono {a b : ℚ} (h : 0 < a) (hab : a ≤ b) : lastBit a ≤ lastBit b :=
  max_le_max (by have := Int.log_mono_right (b := 2) h hab; omega) le_rfl

theorem div_zpow_zpow (k : ℤ) (e f : ℤ) (h : f ≤ e) : (k : ℚ) * 2 ^ e / 2 ^ f = ((k * 2 ^ (e - f).toNat : ℤ) : ℚ) := by
  rw [mul_div_assoc, ← zpow_sub₀ (by norm_num)]
  push_cast
  congr 1
  rw [← zpow_natCast, Int.toNat_of_nonneg (by omega)]

/-- Multiples of the last bit are not changed. -/
theorem rne_multiple {a : ℚ} {k e : ℤ} (ha : a = k * 2 ^ e) (h : lastBit a ≤ e) : rne a = a := by
  unfold rne
  rw [show a / 2 ^ lastBit a = ((k * 2 ^ (e - lastBit a).toNat : ℤ) : ℚ) by rw [← div_zpow_zpow k e _ h, ← ha], roundEven_int, ← div_zpow_zpow k e _ h, ← ha,
    div_mul_cancel₀ _ (two_zpow_pos _).ne']

/-- Finite numbers are not changed. -/
theorem rne_rep {a : ℚ} (h : Rep a) : rne a = a := by
  obtain ⟨⟨k, e, hk, he, rfl⟩, -⟩ := h
  rcases Nat.eq_zero_or_pos k with rfl | hk0
  · simp [rne_zero]
  have hpos : (0 : ℚ) < k * 2 ^ e := mul_pos (by exact_mod_cast hk0) (two_zpow_pos e)
  by_cases hle : lastBit ((k : ℚ) * 2 ^ e) ≤ e
  · exact rne_multiple (k := k) (e := e) (by push_cast; rfl) hle
  · have hlog : e + 53 ≤ Int.log 2 ((k : ℚ) * 2 ^ e) := by
      have : lastBit ((k : ℚ) * 2 ^ e) = max (Int.log 2 ((k : ℚ) * 2 ^ e) - 52) (-1074) := rfl
      omega
    rw [← Int.zpow_le_iff_le_log (by norm_num) hpos] at hlog
    push_cast at hlog
    have hk' : k = 2 ^ 53 := by
      refine le_antisymm hk ?_
      rw [zpow_add₀ (by norm_num), mul_comm] at hlog
      have := le_of_mul_le_mul_right hlog (two_zpow_pos e)
      exact_mod_cast this
    subst hk'
    have e1 : (((2 ^ 53 : ℕ) : ℚ)) * 2 ^ e = ((2 : ℕ) : ℚ) ^ (e + 53) := by
      rw [zpow_add₀ (by norm_num)]; push_cast; ring
    refine rne_multiple (k := 1) (e := e + 53) (by rw [e1]; push_cast; ring) ?_
    rw [e1]
    unfold lastBit
    rw [Int.log_zpow (by norm_num)]
    omega

theorem rne_le_zpow {a : ℚ} {e : ℤ} (h : a ≤ 2 ^ e) (he : lastBit a ≤ e) : rne a ≤ 2 ^ e := by
  have : roundEven (a / 2 ^ lastBit a) ≤ ((1 * 2 ^ (e - lastBit a).toNat : ℤ)) := by
    apply roundEven_le_int
    rw [← div_zpow_zpow 1 e _ he, Int.cast_one, one_mul]
    exact div_le_div_of_nonneg_right h (two_zpow_pos _).le
  unfold rne
  have h2 : ((roundEven (a / 2 ^ lastBit a) : ℤ) : ℚ) ≤ ((1 * 2 ^ (e - lastBit a).toNat : ℤ) : ℚ) := by exact_mod_cast this
  rw [← div_zpow_zpow 1 e _ he, Int.cast_one, one_mul, le_div_iff₀ (two_zpow_pos _)] at h2
  exact h2

theorem zpow_le_rne {a : ℚ} {e : ℤ} (h : 2 ^ e ≤ a) (he : lastBit a ≤ e) : 2 ^ e ≤ rne a := by
  have : ((1 * 2 ^ (e - lastBit a).toNat : ℤ)) ≤ roundEven (a / 2 ^ lastBit a) := by
    apply int_le_roundEven
    rw [← div_zpow_zpow 1 e _ he, Int.cast_one, one_mul]
    exact div_le_div_of_nonneg_right h (two_zpow_pos _).le
  unfold rne
  have h2 : ((1 * 2 ^ (e - lastBit a).toNat : ℤ) : ℚ) ≤ ((roundEven (a / 2 ^ lastBit a) : ℤ) : ℚ) := by exact_mod_cast this
  rw [← div_zpow_zpow 1 e _ he, Int.cast_one, one_mul, div_le_iff₀ (two_zpow_pos _)] at h2
  exact h2

/-- Rounding keeps the order. -/
theorem rne_mono {a b : ℚ} (h : 0 ≤ a) (hab : a ≤ b) : rne a ≤ rne b := by
  rcases h.eq_or_lt with rfl | h
  · rw [rne_zero]; exact rne_nonneg hab
  rcases (lastBit_mono h hab).lt_or_eq with hl | hl
  · have hl' : lastBit b = Int.log 2 b - 52 := by
      have := le_max_right (Int.log 2 a - 52) (-1074 : ℤ)
      change -1074 ≤ lastBit a at this
      unfold lastBit at hl ⊢
      unfold lastBit at this
      omega
    have hla : Int.log 2 a - 52 ≤ lastBit a := le_max_left _ _
    have h1 := Int.lt_zpow_succ_log_self (b := 2) (by norm_num) a
    have h2 := Int.zpow_log_le_self (b := 2) (by norm_num) (lt_of_lt_of_le h hab)
    push_cast at h1 h2
    refine le_trans (rne_le_zpow (e := Int.log 2 b) ?_ ?_) (zpow_le_rne h2 (by omega))
    · exact le_trans h1.le (zpow_le_zpow_right₀ (by norm_num) (by omega))
    · omega
  · unfold rne
    rw [hl]
    apply mul_le_mul_of_nonneg_right _ (two_zpow_pos _).le
    exact_mod_cast roundEven_mono (div_le_div_of_nonneg_right hab (two_zpow_pos _).le)

/-- The error is at most half of the last bit. -/
theorem rne_err (a : ℚ) : |rne a - a| ≤ 2 ^ lastBit a / 2 := by
  have h := roundEven_err (a / 2 ^ lastBit a)
  have hp := two_zpow_pos (lastBit a)
  have : rne a - a = (roundEven (a / 2 ^ lastBit a) - a / 2 ^ lastBit a) * 2 ^ lastBit a := by
    rw [sub_mul, div_mul_cancel₀ _ hp.ne']; rfl
  rw [this, abs_mul, abs_of_pos hp]
  nlinarith

/-- The relative error of a number that is not subnormal. -/
theorem rne_rel {a : ℚ} (h : 0 < a) (hb : -1074 ≤ Int.log 2 a - 52) : |rne a - a| ≤ unit64 * a := by
  refine le_trans (rne_err a) ?_
  have h2 := Int.zpow_log_le_self (b := 2) (by norm_num) h
  push_cast at h2
  rw [lastBit, max_eq_left hb, zpow_sub₀ (by norm_num), unit64]
  have : (2 : ℚ) ^ (52 : ℤ) = 2 ^ 52 := by norm_cast
  rw [this]
  have e : (2 : ℚ) ^ Int.log 2 a / 2 ^ 52 / 2 = 1 / 2 ^ 53 * 2 ^ Int.log 2 a := by ring
  rw [e]
  exact mul_le_mul_of_nonneg_left h2 (by norm_num)

theorem rep_multiple {a : ℚ} (h : Rep a) : ∃ k : ℤ, a = k * 2 ^ (-1074 : ℤ) := by
  obtain ⟨⟨k, e, -, he, rfl⟩, -⟩ := h
  refine ⟨k * 2 ^ (e - -1074).toNat, ?_⟩
  rw [← div_zpow_zpow k e _ he, div_mul_cancel₀ _ (two_zpow_pos _).ne']
  push_cast; rfl

/-- The relative error of a multiple of the smallest number: none if it is subnormal. -/
theorem rne_rel_multiple {a : ℚ} (h : 0 ≤ a) (k : ℤ) (hk : a = k * 2 ^ (-1074 : ℤ)) : |rne a - a| ≤ unit64 * a := by
  rcases h.eq_or_lt with rfl | h
  · simp [rne_zero]
  by_cases hb : -1074 ≤ Int.log 2 a - 52
  · exact rne_rel h hb
  · rw [rne_multiple hk (by unfold lastBit; omega), sub_self, abs_zero]
    exact mul_nonneg (by norm_num [unit64]) h.le

theorem roundEven_nearest (x : ℚ) (j : ℤ) : |(roundEven x : ℚ) - x| ≤ |(j : ℚ) - x| := by
  have h0 := Int.floor_le x
  have h1 := Int.lt_floor_add_one x
  rcases le_or_gt j ⌊x⌋ with h | h
  · have hj : (j : ℚ) ≤ ⌊x⌋ := by exact_mod_cast h
    rw [abs_of_nonpos (show (j : ℚ) - x ≤ 0 by linarith), abs_le]
    unfold roundEven
    split_ifs <;> push_cast <;> constructor <;> linarith
  · have hj : (⌊x⌋ : ℚ) + 1 ≤ j := by exact_mod_cast h
    rw [abs_of_nonneg (show 0 ≤ (j : ℚ) - x by linarith), abs_le]
    unfold roundEven
    split_ifs <;> push_cast <;> constructor <;> linarith

theorem rne_nearest_multiple (a : ℚ) (j : ℤ) (e : ℤ) (h : lastBit a ≤ e) : |rne a - a| ≤ |(j : ℚ) * 2 ^ e - a| := by
  have hp := two_zpow_pos (lastBit a)
  have h1 : rne a - a = (roundEven (a / 2 ^ lastBit a) - a / 2 ^ lastBit a) * 2 ^ lastBit a := by
    rw [sub_mul, div_mul_cancel₀ _ hp.ne']; rfl
  have h2 : (j : ℚ) * 2 ^ e - a = (((j * 2 ^ (e - lastBit a).toNat : ℤ) : ℚ) - a / 2 ^ lastBit a) * 2 ^ lastBit a := by
    rw [sub_mul, div_mul_cancel₀ _ hp.ne', ← div_zpow_zpow j e _ h, div_mul_cancel₀ _ hp.ne']
  rw [h1, h2, abs_mul, abs_mul]
  exact mul_le_mul_of_nonneg_right (roundEven_nearest _ _) (abs_nonneg _)

/-- No finite number is nearer. -/
theorem rne_nearest {a r : ℚ} (ha : 0 ≤ a) (hr : Rep r) (h0 : 0 ≤ r) : |rne a - a| ≤ |r - a| := by
  rcases ha.eq_or_lt with rfl | ha
  · rw [rne_zero, sub_self, abs_zero]; exact abs_nonneg _
  rcases h0.eq_or_lt with rfl | h0
  · have := rne_nearest_multiple a 0 (lastBit a) le_rfl
    simpa using this
  have hr' : r = (roundEven (r / 2 ^ lastBit r) : ℚ) * 2 ^ lastBit r := (rne_rep hr).symm
  by_cases hl : lastBit a ≤ lastBit r
  · have := rne_nearest_multiple a (roundEven (r / 2 ^ lastBit r)) _ hl
    rwa [← hr'] at this
  · have h1 := Int.lt_zpow_succ_log_self (b := 2) (by norm_num) r
    have h2 := Int.zpow_log_le_self (b := 2) (by norm_num) ha
    push_cast at h1 h2
    have hlog : Int.log 2 r + 1 ≤ Int.log 2 a ∧ lastBit a ≤ Int.log 2 a := by unfold lastBit at hl ⊢; omega
    have h3 : (2 : ℚ) ^ (Int.log 2 r + 1) ≤ 2 ^ Int.log 2 a := zpow_le_zpow_right₀ (by norm_num) hlog.1
    have := rne_nearest_multiple a 1 _ hlog.2
    rw [Int.cast_one, one_mul, abs_of_nonpos (a := (2 : ℚ) ^ Int.log 2 a - a) (by linarith)] at this
    rw [abs_of_nonpos (a := r - a) (by linarith)]
    linarith

/-- Of two finite numbers that are equally near, the one with the even last digit is taken. -/
theorem rne_even {a : ℚ} (h : |rne a - a| = 2 ^ lastBit a / 2) : ∃ k : ℤ, rne a = (2 * k) * 2 ^ lastBit a := by
  have hp := two_zpow_pos (lastBit a)
  have h1 : rne a - a = (roundEven (a / 2 ^ lastBit a) - a / 2 ^ lastBit a) * 2 ^ lastBit a := by
    rw [sub_mul, div_mul_cancel₀ _ hp.ne']; rfl
  rw [h1, abs_mul, abs_of_pos hp] at h
  have h2 : |(roundEven (a / 2 ^ lastBit a) : ℚ) - a / 2 ^ lastBit a| = 1 / 2 := by
    apply mul_right_cancel₀ hp.ne'; linarith
  unfold rne
  generalize a / 2 ^ lastBit a = x at h2 ⊢
  have h3 := Int.floor_le x
  have h4 := Int.lt_floor_add_one x
  have : roundEven x % 2 = 0 := by
    unfold roundEven at h2 ⊢
    split_ifs at h2 ⊢ with c1 c2 c3
    · rw [abs_of_nonpos (by linarith)] at h2; exfalso; linarith
    · rw [abs_of_nonneg (by push_cast; linarith)] at h2; push_cast at h2; exfalso; linarith
    · exact c3
    · omega
  refine ⟨roundEven x / 2, ?_⟩
  congr 1
  have h5 : roundEven x = 2 * (roundEven x / 2) := by omega
  exact_mod_cast h5

end Verif
