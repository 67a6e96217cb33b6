import Verif.Lemmas.IeeeOps
/-! # The nearest float64 -/

namespace Verif
open GoFloat Spec F64

/-- A finite magnitude in a binade is a multiple of its last bit. -/
theorem lastBit_of_bounds {a : ℚ} {e : ℤ} (h : 2 ^ e ≤ a) (h' : a < 2 ^ (e + 1)) : Int.log 2 a = e := by
  have h0 : 0 < a := lt_of_lt_of_le (two_zpow_pos e) h
  have h1 : e ≤ Int.log 2 a := (Int.zpow_le_iff_le_log (b := 2) (by norm_num) h0).1 (by exact_mod_cast h)
  have h2 : Int.log 2 a < e + 1 := (Int.lt_zpow_iff_log_lt (b := 2) (by norm_num) h0).1 (by exact_mod_cast h')
  omega

/-- A tie: the rounded magnitude has an even last digit. -/
theorem rne_tie {a r : ℚ} (ha : 0 ≤ a) (hr : Rep r) (h0 : 0 ≤ r) (h : |rne a - a| = |r - a|) (hne : r ≠ rne a) :
    ∃ k : ℤ, rne a = (2 * k) * 2 ^ lastBit a := by
  rcases ha.eq_or_lt with rfl | ha
  · exfalso; rw [rne_zero] at h hne; simp at h; exact hne (abs_eq_zero.1 h.symm)
  apply rne_even
  have hp := two_zpow_pos (lastBit a)
  -- the distance to a different multiple of the last bit is at least half of it
  have key : ∀ j : ℤ, r = j * 2 ^ lastBit a → |rne a - a| = 2 ^ lastBit a / 2 := by
    intro j hj
    refine le_antisymm (rne_err a) ?_
    have hj' : j ≠ roundEven (a / 2 ^ lastBit a) := by
      rintro rfl; exact hne hj
    have h1 : (2 : ℚ) ^ lastBit a ≤ |r - rne a| := by
      rw [hj, rne, ← sub_mul, abs_mul, abs_of_pos hp]
      have : (1 : ℤ) ≤ |j - roundEven (a / 2 ^ lastBit a)| := Int.one_le_abs (sub_ne_zero.2 hj')
      have : (1 : ℚ) ≤ |(j : ℚ) - roundEven (a / 2 ^ lastBit a)| := by exact_mod_cast this
      nlinarith
    have h2 : |r - rne a| ≤ |r - a| + |rne a - a| := by
      have := abs_sub_le r a (rne a)
      rwa [abs_sub_comm a] at this
    linarith
  rcases h0.eq_or_lt with rfl | h0
  · exact key 0 (by simp)
  have hr' : r = (roundEven (r / 2 ^ lastBit r) : ℚ) * 2 ^ lastBit r := (rne_rep hr).symm
  by_cases hl : lastBit a ≤ lastBit r
  · refine key (roundEven (r / 2 ^ lastBit r) * 2 ^ (lastBit r - lastBit a).toNat) ?_
    rw [← div_zpow_zpow _ _ _ hl, div_mul_cancel₀ _ hp.ne']
    exact hr'
  · exfalso
    have h1 := Int.lt_zpow_succ_log_self (b := 2) (by norm_num) r
    have h2 := Int.zpow_log_le_self (b := 2) (by norm_num) ha
    push_cast at h1 h2
    have hlog : Int.log 2 r + 1 ≤ Int.log 2 a ∧ lastBit a ≤ Int.log 2 a := by unfold lastBit at hl ⊢; omega
    have h3 : (2 : ℚ) ^ (Int.log 2 r + 1) ≤ 2 ^ Int.log 2 a := zpow_le_zpow_right₀ (by norm_num) hlog.1
    have := rne_nearest_multiple a 1 _ hlog.2
    rw [Int.cast_one, one_mul, abs_of_nonpos (a := (2 : ℚ) ^ Int.log 2 a - a) (by linarith)] at this
    rw [h, abs_of_nonpos (a := r - a) (by linarith)] at this
    linarith

/-- Where overflow begins. -/
theorem rne_overflow {a : ℚ} (ha : 0 ≤ a) : rne a < 2 ^ (1024 : ℕ) ↔ a < 2 ^ (1024 : ℕ) - 2 ^ (970 : ℕ) := by
  have e1 : (2 : ℚ) ^ (1023 + 1 : ℤ) = 2 ^ (1024 : ℕ) := by rw [← zpow_natCast]; norm_num
  have e2 : (2 : ℚ) ^ (1024 : ℕ) = 2 ^ (54 : ℕ) * 2 ^ (970 : ℕ) := by rw [← pow_add]
  have e3 : (2 : ℚ) ^ (1023 : ℤ) = 2 ^ (53 : ℕ) * 2 ^ (970 : ℕ) := by rw [← pow_add]; exact_mod_cast rfl
  have e4 : (2 : ℚ) ^ (971 : ℤ) = 2 * 2 ^ (970 : ℕ) := by rw [← pow_succ']; exact_mod_cast rfl
  have hU : (0 : ℚ) < 2 ^ (970 : ℕ) := by positivity
  generalize (2 : ℚ) ^ (970 : ℕ) = U at e2 e3 e4 hU ⊢
  generalize (2 : ℚ) ^ (1024 : ℕ) = M at e1 e2 ⊢
  norm_num only at e2 e3
  have hlast : ∀ b : ℚ, M - 2 * U ≤ b → b < M → lastBit b = 971 := by
    intro b h1 h2
    have : Int.log 2 b = 1023 := lastBit_of_bounds (by rw [e3]; linarith only [h1, e2, hU]) (by rw [e1]; exact h2)
    unfold lastBit; rw [this]; norm_num
  constructor
  · intro h
    by_contra hc
    have hc := not_lt.1 hc
    have hm := rne_mono (a := M - U) (b := a) (by linarith only [e2, hU]) hc
    have hb : lastBit (M - U) = 971 := hlast _ (by linarith only [hU]) (by linarith only [hU])
    have hq : (M - U) / 2 ^ (971 : ℤ) = 2 ^ 53 - 1 / 2 := by
      rw [e2, e4, div_eq_iff (by linarith only [hU])]; ring
    have hf : ⌊((2 : ℚ) ^ 53 - 1 / 2)⌋ = 2 ^ 53 - 1 := by rw [Int.floor_eq_iff]; norm_num
    have hr : roundEven ((2 : ℚ) ^ 53 - 1 / 2) = 2 ^ 53 := by unfold roundEven; rw [hf]; norm_num
    have : rne (M - U) = M := by
      unfold rne
      rw [hb, hq, hr, e2, e4]; push_cast; ring
    rw [this] at hm
    exact absurd h (not_lt.2 hm)
  · intro h
    by_cases hc : a ≤ M - 2 * U
    · have hb : lastBit (M - 2 * U) = 971 := hlast _ le_rfl (by linarith only [hU])
      have hm := rne_mono ha hc
      rw [rne_multiple (k := 2 ^ 53 - 1) (e := 971) (by rw [e2, e4]; push_cast; ring) hb.le] at hm
      linarith only [hm, hU]
    · have hc := not_le.1 hc
      have hb := hlast a hc.le (by linarith only [h, hU])
      have h1 := rne_nearest_multiple a (2 ^ 53 - 1) 971 hb.le
      rw [show (((2 ^ 53 - 1 : ℤ) : ℚ)) * 2 ^ (971 : ℤ) = M - 2 * U by rw [e2, e4]; push_cast; ring] at h1
      rw [abs_of_nonpos (a := M - 2 * U - a) (by linarith only [hc])] at h1
      have := (abs_le.1 h1).2
      linarith only [this, h]

/-- The result of an operation with the exact result `r`. -/
def Rounded (z : F64) (r : ℚ) : Prop := (|rnd r| < 2 ^ (1024 : ℕ) → Num64 z (rnd r)) ∧ (¬ |rnd r| < 2 ^ (1024 : ℕ) → z = .inf (decide (r < 0)))

theorem rnd_nearest {w : F64} {t : ℚ} (r : ℚ) (hw : Num64 w t) : |rnd r - r| ≤ |t - r| ∧ (|rnd r - r| = |t - r| → t = rnd r ∨ Even64 (rnd r)) := by
  -- for magnitudes
  have key : ∀ a t : ℚ, Rep |t| → 0 ≤ a → |rne a - a| ≤ |t - a| ∧ (|rne a - a| = |t - a| → t = rne a ∨ Even64 (rne a)) := by
    intro a t ht ha
    have hE : ∀ k : ℤ, rne a = (2 * k) * 2 ^ lastBit a → Even64 (rne a) := by
      intro k hk
      refine ⟨k, lastBit a, hk, ?_, le_max_right _ _⟩
      have h0 : (0 : ℤ) ≤ roundEven (a / 2 ^ lastBit a) := int_le_roundEven (by push_cast; exact div_nonneg ha (two_zpow_pos _).le)
      have h1 : roundEven (a / 2 ^ lastBit a) ≤ 2 ^ 53 := roundEven_le_int (by push_cast; exact (div_lastBit_lt a).le)
      have h2 : ((2 * k : ℤ) : ℚ) = roundEven (a / 2 ^ lastBit a) := by
        rw [rne] at hk
        push_cast
        exact (mul_right_cancel₀ (two_zpow_pos _).ne' hk).symm
      have h3 : 2 * k = roundEven (a / 2 ^ lastBit a) := by exact_mod_cast h2
      rw [h3, abs_of_nonneg h0]; exact h1
    rcases le_or_gt 0 t with h | h
    · rw [abs_of_nonneg h] at ht
      refine ⟨rne_nearest ha ht h, fun he => ?_⟩
      by_cases hne : t = rne a
      · exact .inl hne
      · obtain ⟨k, hk⟩ := rne_tie ha ht h he hne
        exact .inr (hE k hk)
    · have h0 := rne_nearest ha rep_zero le_rfl
      have h1 : |0 - a| < |t - a| := by
        rw [abs_of_nonpos (a := 0 - a) (by linarith), abs_of_neg (a := t - a) (by linarith)]; linarith
      exact ⟨h0.trans h1.le, fun he => absurd he (lt_of_le_of_lt h0 h1).ne⟩
  have ht := isNum_abs hw
  unfold rnd
  by_cases hr : r < 0
  · rw [if_pos hr]
    have h := key (-r) (-t) (by rwa [abs_neg]) (by linarith)
    have e1 : |-rne (-r) - r| = |rne (-r) - -r| := by rw [← abs_neg]; congr 1; ring
    have e2 : |t - r| = |-t - -r| := by rw [← abs_neg]; congr 1; ring
    rw [e1, e2]
    refine ⟨h.1, fun he => ?_⟩
    rcases h.2 he with h | ⟨m, e, h1, h2, h3⟩
    · left; linarith
    · right; exact ⟨-m, e, by rw [h1]; push_cast; ring, by rw [mul_neg, abs_neg]; exact h2, h3⟩
  · rw [if_neg hr]
    exact key r t ht (not_lt.1 hr)

theorem Rounded.nearest {z : F64} {r : ℚ} (h : Rounded z r) : Nearest64 z r := by
  have ho := rne_overflow (abs_nonneg r)
  rw [← rnd_abs] at ho
  by_cases hc : |rnd r| < 2 ^ (1024 : ℕ)
  · exact .inl ⟨ho.1 hc, _, h.1 hc, fun w t hw => rnd_nearest r hw⟩
  · exact .inr ⟨not_lt.1 (fun h => hc (ho.2 h)), h.2 hc⟩

theorem rnd_zero : rnd 0 = 0 := by unfold rnd; simp [rne_zero]

theorem ofQ_rounded (q : ℚ) (z : Bool) : Rounded (ofQ q z) q := by
  refine ⟨ofQ_num, fun h => ?_⟩
  rw [ofQ_inf h]
  by_cases hq : q = 0
  · subst hq; exfalso; apply h; rw [rnd_zero, abs_zero]; positivity
  · rw [if_neg hq]

theorem pack_rounded {s : Bool} {a : ℚ} (ha : 0 ≤ a) : Rounded (pack s a) (value s a) := by
  refine ⟨pack_num ha, fun h => ?_⟩
  have h' := h
  rw [rnd_abs, value_abs ha] at h
  unfold pack
  rw [dif_neg (fun hc => h hc.2)]
  congr 1
  have ha : 0 < a := by
    rcases ha.eq_or_lt with rfl | ha
    · exfalso; apply h; rw [rne_zero]; positivity
    · exact ha
  cases s
  · exact (decide_eq_false (not_lt.2 (show (0 : ℚ) ≤ a from ha.le))).symm
  · exact (decide_eq_true (show -a < 0 by linarith)).symm

theorem add_rounded {x y : F64} {p q : ℚ} (hx : Num64 x p) (hy : Num64 y q) : Rounded (x + y) (p + q) := by
  cases x with
  | fin s a ha =>
    cases y with
    | fin t b hb => rw [← show value s a = p from hx, ← show value t b = q from hy]; exact ofQ_rounded _ _
    | inf => exact hy.elim
    | nan => exact hy.elim
  | inf => exact hx.elim
  | nan => exact hx.elim

theorem sub_rounded {x y : F64} {p q : ℚ} (hx : Num64 x p) (hy : Num64 y q) : Rounded (x - y) (p - q) := by
  rw [sub_def64, sub_eq_add_neg]; exact add_rounded hx (neg_num hy)

theorem mul_rounded {x y : F64} {p q : ℚ} (hx : Num64 x p) (hy : Num64 y q) : Rounded (x * y) (p * q) := by
  cases x with
  | fin s a ha =>
    cases y with
    | fin t b hb =>
      rw [← show value s a = p from hx, ← show value t b = q from hy, value_mul]
      exact pack_rounded (mul_nonneg (rep_nonneg ha) (rep_nonneg hb))
    | inf => exact hy.elim
    | nan => exact hy.elim
  | inf => exact hx.elim
  | nan => exact hx.elim

theorem div_rounded {x y : F64} {p q : ℚ} (hx : Num64 x p) (hy : Num64 y q) (hq : q ≠ 0) : Rounded (x / y) (p / q) := by
  cases x with
  | fin s a ha =>
    cases y with
    | fin t b hb =>
      have e1 : value s a = p := hx
      have e2 : value t b = q := hy
      have hb0 : b ≠ 0 := by
        rintro rfl; apply hq; rw [← e2]; cases t <;> simp [value]
      have e : p / q = value (s != t) (a / b) := by
        rw [← e1, ← e2]; cases s <;> cases t <;> simp [value, div_neg, neg_div]
      rw [e]
      show Rounded (if b = 0 then _ else pack (s != t) (a / b)) _
      rw [if_neg hb0]
      exact pack_rounded (div_nonneg (rep_nonneg ha) (rep_nonneg hb))
    | inf => exact hy.elim
    | nan => exact hy.elim
  | inf => exact hx.elim
  | nan => exact hx.elim

end Verif
