import Verif.Lemmas.Ieee
import Verif.Spec.Ieee
import Verif.Lemmas.Exact
import Verif.Spec.Ttf
/-! # Operations on float64 -/

namespace Verif
open GoFloat Spec F64

/-- Rounding of a signed number. -/
def rnd (q : ℚ) : ℚ := if q < 0 then -rne (-q) else rne q

theorem rnd_neg (q : ℚ) : rnd (-q) = -rnd q := by
  unfold rnd
  rcases lt_trichotomy q 0 with h | h | h
  · rw [if_neg (by linarith), if_pos h, neg_neg]
  · subst h; simp [rne_zero]
  · rw [if_pos (by linarith), if_neg (by linarith), neg_neg]

theorem rnd_abs (q : ℚ) : |rnd q| = rne |q| := by
  unfold rnd
  by_cases h : q < 0
  · rw [if_pos h, abs_neg, abs_of_neg h, abs_of_nonneg (rne_nonneg (by linarith))]
  · rw [if_neg h, abs_of_nonneg (not_lt.1 h), abs_of_nonneg (rne_nonneg (by linarith))]

theorem rnd_mono {p q : ℚ} (h : p ≤ q) : rnd p ≤ rnd q := by
  unfold rnd
  by_cases h1 : p < 0 <;> by_cases h2 : q < 0
  · rw [if_pos h1, if_pos h2]
    have := rne_mono (a := -q) (b := -p) (by linarith) (by linarith)
    linarith
  · rw [if_pos h1, if_neg h2]
    have := rne_nonneg (a := -p) (by linarith)
    have := rne_nonneg (a := q) (by linarith)
    linarith
  · linarith
  · rw [if_neg h1, if_neg h2]; exact rne_mono (by linarith) h

theorem rnd_sub (q : ℚ) : |rnd q - q| = abs (rne |q| - |q|) := by
  unfold rnd
  by_cases h : q < 0
  · rw [if_pos h, abs_of_neg h, ← abs_neg]; congr 1; ring
  · rw [if_neg h, abs_of_nonneg (not_lt.1 h)]

theorem rep_nonneg {a : ℚ} (h : Rep a) : 0 ≤ a := by
  obtain ⟨⟨k, e, -, -, rfl⟩, -⟩ := h
  exact mul_nonneg (by exact_mod_cast k.zero_le) (two_zpow_pos e).le

theorem value_abs {s : Bool} {a : ℚ} (h : 0 ≤ a) : |value s a| = a := by
  cases s
  · exact abs_of_nonneg h
  · show |-a| = a
    rw [abs_neg, abs_of_nonneg h]

theorem isNum_abs {x : F64} {q : ℚ} (h : Num64 x q) : Rep |q| := by
  cases x with
  | fin s a r => rw [← show value s a = q from h, value_abs (rep_nonneg r)]; exact r
  | inf => exact h.elim
  | nan => exact h.elim

theorem rnd_num {x : F64} {q : ℚ} (h : Num64 x q) : rnd q = q := by
  have := rne_rep (isNum_abs h)
  unfold rnd
  by_cases hq : q < 0
  · rw [abs_of_neg hq] at this; rw [if_pos hq, this, neg_neg]
  · rw [abs_of_nonneg (not_lt.1 hq)] at this; rw [if_neg hq, this]

theorem isNum_unique {x : F64} {p q : ℚ} (h : Num64 x p) (h' : Num64 x q) : p = q := by
  cases x with
  | fin s a r => exact (show value s a = p from h).symm.trans h'
  | inf => exact h.elim
  | nan => exact h.elim

theorem ofQ_num {q : ℚ} {z : Bool} (h : |rnd q| < 2 ^ (1024 : ℕ)) : Num64 (ofQ q z) (rnd q) := by
  rw [rnd_abs] at h
  unfold ofQ pack
  rw [dif_pos ⟨abs_nonneg q, h⟩]
  show value _ _ = _
  unfold rnd
  rcases lt_trichotomy q 0 with hq | hq | hq
  · rw [if_neg hq.ne, if_pos hq, decide_eq_true hq, abs_of_neg hq]; rfl
  · subst hq; cases z <;> simp [value, rne_zero]
  · rw [if_neg hq.ne', if_neg (by linarith), abs_of_pos hq]
    simp [value, hq.le]

theorem ofQ_inf {q : ℚ} {z : Bool} (h : ¬ |rnd q| < 2 ^ (1024 : ℕ)) : ofQ q z = .inf (if q = 0 then z else decide (q < 0)) := by
  rw [rnd_abs] at h
  unfold ofQ pack
  rw [dif_neg (fun hc => h hc.2)]

theorem add_num {x y : F64} {p q : ℚ} (hx : Num64 x p) (hy : Num64 y q) (h : |rnd (p + q)| < 2 ^ (1024 : ℕ)) :
    Num64 (x + y) (rnd (p + q)) := by
  cases x with
  | fin s a ha =>
    cases y with
    | fin t b hb =>
      have e1 : value s a = p := hx
      have e2 : value t b = q := hy
      show Num64 (ofQ (value s a + value t b) _) _
      rw [e1, e2]; exact ofQ_num h
    | inf => exact hy.elim
    | nan => exact hy.elim
  | inf => exact hx.elim
  | nan => exact hx.elim

theorem neg_num {x : F64} {p : ℚ} (hx : Num64 x p) : Num64 (-x) (-p) := by
  cases x with
  | fin s a ha =>
    have e1 : value s a = p := hx
    show value (!s) a = -p
    rw [← e1]; cases s <;> simp [value]
  | inf => exact hx.elim
  | nan => exact hx.elim

theorem sub_def64 (x y : F64) : x - y = x + -y := rfl

theorem sub_num {x y : F64} {p q : ℚ} (hx : Num64 x p) (hy : Num64 y q) (h : |rnd (p - q)| < 2 ^ (1024 : ℕ)) :
    Num64 (x - y) (rnd (p - q)) := by
  rw [sub_def64, sub_eq_add_neg]
  exact add_num hx (neg_num hy) (by rwa [← sub_eq_add_neg])

theorem value_mul (s t : Bool) (a b : ℚ) : value s a * value t b = value (s != t) (a * b) := by
  cases s <;> cases t <;> simp [value]

theorem pack_num {s : Bool} {a : ℚ} (ha : 0 ≤ a) (h : |rnd (value s a)| < 2 ^ (1024 : ℕ)) : Num64 (pack s a) (rnd (value s a)) := by
  have h' := h
  rw [rnd_abs, value_abs ha] at h'
  unfold pack
  rw [dif_pos ⟨ha, h'⟩]
  show value s (rne a) = _
  cases s
  · show rne a = rnd a
    unfold rnd; rw [if_neg (by linarith)]
  · show -rne a = rnd (-a)
    rw [rnd_neg]; unfold rnd; rw [if_neg (by linarith)]

theorem mul_num {x y : F64} {p q : ℚ} (hx : Num64 x p) (hy : Num64 y q) (h : |rnd (p * q)| < 2 ^ (1024 : ℕ)) :
    Num64 (x * y) (rnd (p * q)) := by
  cases x with
  | fin s a ha =>
    cases y with
    | fin t b hb =>
      have e1 : value s a = p := hx
      have e2 : value t b = q := hy
      show Num64 (pack (s != t) (a * b)) _
      rw [← e1, ← e2, value_mul] at h ⊢
      exact pack_num (mul_nonneg (rep_nonneg ha) (rep_nonneg hb)) h
    | inf => exact hy.elim
    | nan => exact hy.elim
  | inf => exact hx.elim
  | nan => exact hx.elim

theorem div_num {x y : F64} {p q : ℚ} (hx : Num64 x p) (hy : Num64 y q) (hq : q ≠ 0) (h : |rnd (p / q)| < 2 ^ (1024 : ℕ)) :
    Num64 (x / y) (rnd (p / q)) := by
  cases x with
  | fin s a ha =>
    cases y with
    | fin t b hb =>
      have e1 : value s a = p := hx
      have e2 : value t b = q := hy
      have hb0 : b ≠ 0 := by rintro rfl; apply hq; rw [← e2]; cases t <;> simp [value]
      have hd : value s a / value t b = value (s != t) (a / b) := by
        cases s <;> cases t <;> simp [value, neg_div, div_neg]
      show Num64 (if b = 0 then _ else pack (s != t) (a / b)) _
      rw [if_neg hb0]
      rw [← e1, ← e2, hd] at h ⊢
      exact pack_num (div_nonneg (rep_nonneg ha) (rep_nonneg hb)) h
    | inf => exact hy.elim
    | nan => exact hy.elim
  | inf => exact hx.elim
  | nan => exact hx.elim

/-- Sums of finite numbers are multiples of the smallest one, so their relative error is small even if they are. -/
theorem isNum_multiple {x : F64} {p : ℚ} (hx : Num64 x p) : ∃ k : ℤ, p = k * 2 ^ (-1074 : ℤ) := by
  obtain ⟨k, hk⟩ := rep_multiple (isNum_abs hx)
  rcases abs_choice p with h | h
  · exact ⟨k, by rw [← hk, h]⟩
  · exact ⟨-k, by push_cast; rw [neg_mul, ← hk, h, neg_neg]⟩

theorem add_rel {x y : F64} {p q : ℚ} (hx : Num64 x p) (hy : Num64 y q) : |rnd (p + q) - (p + q)| ≤ unit64 * |p + q| := by
  obtain ⟨k, hk⟩ := isNum_multiple hx
  obtain ⟨j, hj⟩ := isNum_multiple hy
  have hkj : p + q = ((k + j : ℤ) : ℚ) * 2 ^ (-1074 : ℤ) := by rw [Int.cast_add, add_mul, ← hk, ← hj]
  generalize p + q = s at hkj ⊢
  rw [rnd_sub]
  rcases abs_choice s with h | h
  · exact rne_rel_multiple (abs_nonneg _) (k + j) (by rw [h, hkj])
  · exact rne_rel_multiple (abs_nonneg _) (-(k + j)) (by rw [h, Int.cast_neg, neg_mul, ← hkj])

/-! ## Comparisons are exact -/

theorem exact64_lt (x y : F64) : lt (exact64 x) (exact64 y) = lt x y := by
  cases x with
  | fin s a h => cases y with
    | fin t b h' => rfl
    | inf t => cases t <;> rfl
    | nan => rfl
  | inf s => cases y with
    | fin t b h' => cases s <;> rfl
    | inf t => cases s <;> cases t <;> rfl
    | nan => cases s <;> rfl
  | nan => cases y with
    | fin t b h' => rfl
    | inf t => cases t <;> rfl
    | nan => rfl

theorem exact64_eq (x y : F64) : GoFloat.eq (exact64 x) (exact64 y) = GoFloat.eq x y := by
  cases x with
  | fin s a h => cases y with
    | fin t b h' => rfl
    | inf t => cases t <;> rfl
    | nan => rfl
  | inf s => cases y with
    | fin t b h' => cases s <;> rfl
    | inf t => cases s <;> cases t <;> rfl
    | nan => cases s <;> rfl
  | nan => cases y with
    | fin t b h' => rfl
    | inf t => cases t <;> rfl
    | nan => rfl

theorem exact64_isInf (x : F64) : isInf (exact64 x) = isInf x := by
  cases x with
  | fin s a h => rfl
  | inf s => cases s <;> rfl
  | nan => rfl

theorem max_fin64 (s t : Bool) (a b : ℚ) (ha : Rep a) (hb : Rep b) :
    GoFloat.max (F64.fin s a ha) (.fin t b hb) =
      if F64.value s a = 0 ∧ F64.value s a = F64.value t b then (if s then .fin t b hb else .fin s a ha)
      else if F64.value t b < F64.value s a then .fin s a ha else .fin t b hb := by
  show F64.max _ _ = _
  unfold F64.max
  rw [if_neg (by simp), if_neg (by simp)]
  have h0 : F64.value false 0 = 0 := rfl
  simp only [F64.eq, F64.lt, h0, Bool.and_eq_true, decide_eq_true_eq]
  cases s <;> rfl

theorem exact64_max (x y : F64) : exact64 (GoFloat.max x y) = GoFloat.max (exact64 x) (exact64 y) := by
  cases x with
  | fin s a h => cases y with
    | fin t b h' =>
      rw [max_fin64]
      show _ = (if F64.value s a < F64.value t b then XR.fin (F64.value t b) else XR.fin (F64.value s a))
      split_ifs with c1 c2 c3 c4 c5
      · linarith [c1.2]
      · exact congrArg XR.fin c1.2.symm
      · linarith [c1.2]
      · rfl
      · linarith
      · rfl
      · rfl
      · exact congrArg XR.fin (le_antisymm (not_lt.1 ‹_›) (not_lt.1 ‹_›))
    | inf t =>
      cases t
      · rfl
      · show exact64 (F64.max _ _) = _
        unfold F64.max
        simp only [F64.eq, F64.lt, Bool.and_false]
        simp; rfl
    | nan => rfl
  | inf s => cases y with
    | fin t b h' => cases s <;> rfl
    | inf t => cases s <;> cases t <;> rfl
    | nan => cases s <;> rfl
  | nan => cases y with
    | fin t b h' => rfl
    | inf t => cases t <;> rfl
    | nan => rfl

theorem zero64 : (zero : F64) = .fin false 0 rep_zero := by
  show F64.ofQ ((0 : ℤ) / (1 : ℕ) : ℚ) false = _
  have h : ((0 : ℤ) / (1 : ℕ) : ℚ) = 0 := by norm_num
  rw [h]
  unfold F64.ofQ F64.pack
  simp [rne_zero]

theorem exact64_zero : exact64 (zero : F64) = (zero : XR) := by
  rw [zero64, XR.zero_fin]; rfl

end Verif
