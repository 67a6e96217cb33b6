import Verif.Lemmas.GridBox
import Verif.Lemmas.Ttf
/-! # The metrics of the TrueType backend in float64 -/

namespace Verif
open Spec GoFloat

theorem rnd_err240 (r : ℚ) : |rnd r - r| ≤ 1 / 2 ^ 53 * |r| + 1 / 2 ^ 240 := by
  have h := rnd_err' r
  have h2 : (2 : ℚ) ^ (-1075 : ℤ) ≤ 2 ^ (-240 : ℤ) := zpow_le_zpow_right₀ (by norm_num) (by norm_num)
  have h3 : (2 : ℚ) ^ (-240 : ℤ) = 1 / 2 ^ 240 := by rw [zpow_neg, one_div]; norm_cast
  rw [h3] at h2
  unfold unit64 at h
  linarith only [h, h2]

theorem lt_max64 {r : ℚ} (h : |r| ≤ 2 ^ 250) : |r| < 2 ^ (1024 : ℕ) :=
  lt_of_le_of_lt h (pow_lt_pow_right₀ (by norm_num) (by norm_num))

/-- The value `v` is `q` up to `n` roundings and `d`. -/
def Apx (n : ℕ) (d v q : ℚ) : Prop := |v - q| ≤ n / 2 ^ 52 * |q| + d

theorem apx_core {n : ℕ} {d v q b : ℚ} (hn : n ≤ 2 ^ 50) (hd : 0 ≤ d) (h : Apx n d v q) (hq : |q * b| ≤ 2 ^ 230) (hb : d * |b| ≤ 1) :
    |rnd (v * b)| < 2 ^ (1024 : ℕ) ∧ Apx (n + 1) (2 * d * |b| + 1 / 2 ^ 240) (rnd (v * b)) (q * b) := by
  unfold Apx at h ⊢
  have e := rnd_err240 (v * b)
  have hb0 := abs_nonneg b
  have h1 : |v * b - q * b| ≤ n / 2 ^ 52 * |q * b| + d * |b| := by
    rw [← sub_mul, abs_mul, abs_mul]
    have := mul_le_mul_of_nonneg_right h hb0
    linarith only [this]
  have h2 : |v * b| ≤ |q * b| + (n / 2 ^ 52 * |q * b| + d * |b|) := by
    have := abs_sub_abs_le_abs_sub (v * b) (q * b)
    linarith only [this, h1]
  have hn' : (n : ℚ) / 2 ^ 52 ≤ 1 := by
    rw [div_le_one (by positivity)]
    have : (n : ℚ) ≤ 2 ^ 50 := by exact_mod_cast hn
    linarith only [this, show (2 : ℚ) ^ 50 ≤ 2 ^ 52 by norm_num]
  have hn0 : 0 ≤ (n : ℚ) / 2 ^ 52 := by positivity
  have hq0 := abs_nonneg (q * b)
  have h3 : (n : ℚ) / 2 ^ 52 * |q * b| ≤ |q * b| := by nlinarith only [hn', hq0]
  have hdb : 0 ≤ d * |b| := mul_nonneg hd hb0
  have h4 : |rnd (v * b) - q * b| ≤ |rnd (v * b) - v * b| + |v * b - q * b| := by
    have := abs_add_le (rnd (v * b) - v * b) (v * b - q * b)
    rwa [sub_add_sub_cancel] at this
  have h5 : |rnd (v * b) - q * b| ≤ ((n + 1 : ℕ) : ℚ) / 2 ^ 52 * |q * b| + (2 * d * |b| + 1 / 2 ^ 240) := by
    push_cast
    rw [add_div]
    linarith only [h1, h2, h3, h4, e, hdb, hq0]
  refine ⟨lt_max64 ?_, h5⟩
  have h6 : |rnd (v * b)| ≤ |q * b| + |rnd (v * b) - q * b| := by
    have := abs_sub_abs_le_abs_sub (rnd (v * b)) (q * b)
    linarith only [this]
  have h7 : ((n + 1 : ℕ) : ℚ) / 2 ^ 52 * |q * b| ≤ 2 * |q * b| := by
    push_cast
    rw [add_div]
    linarith only [h3, hq0]
  have h8 : (4 : ℚ) * 2 ^ 230 + 4 ≤ 2 ^ 250 := by norm_num
  have h9 : (1 : ℚ) / 2 ^ 240 ≤ 1 := by norm_num
  linarith only [h5, h6, h7, h8, h9, hq, hb]

theorem Apx.mono {n m : ℕ} {d d' v q : ℚ} (h : Apx n d v q) (hn : n ≤ m) (hd : d ≤ d') : Apx m d' v q := by
  unfold Apx at h ⊢
  have : (n : ℚ) / 2 ^ 52 * |q| ≤ m / 2 ^ 52 * |q| :=
    mul_le_mul_of_nonneg_right (div_le_div_of_nonneg_right (by exact_mod_cast hn) (by positivity)) (abs_nonneg q)
  linarith only [h, this, hd]

theorem apx_mul {n : ℕ} {d v q b c d' : ℚ} {x y : F64} (hx : Num64 x v) (hy : Num64 y b) (h : Apx n d v q) (hn : n ≤ 2 ^ 50) (hd : 0 ≤ d) (hq : |q| ≤ 2 ^ 150)
    (hb : |b| ≤ c) (hc : c ≤ 2 ^ 80) (hdc : d * c ≤ 1) (hd' : 2 * d * c + 1 / 2 ^ 240 ≤ d') :
    Num64 (x * y) (rnd (v * b)) ∧ Apx (n + 1) d' (rnd (v * b)) (q * b) := by
  have e1 : d * |b| ≤ d * c := mul_le_mul_of_nonneg_left hb hd
  have hqb : |q * b| ≤ 2 ^ 230 := by
    rw [abs_mul]
    exact (mul_le_mul hq (hb.trans hc) (abs_nonneg _) (by positivity)).trans (by norm_num)
  obtain ⟨h1, h2⟩ := apx_core hn hd h hqb (e1.trans hdc)
  exact ⟨mul_num hx hy h1, h2.mono le_rfl (by linarith only [e1, hd'])⟩

theorem apx_div {n : ℕ} {d v q b c d' : ℚ} {x y : F64} (hx : Num64 x v) (hy : Num64 y b) (b0 : b ≠ 0) (h : Apx n d v q) (hn : n ≤ 2 ^ 50) (hd : 0 ≤ d)
    (hq : |q| ≤ 2 ^ 150) (hb : |1 / b| ≤ c) (hc : c ≤ 2 ^ 80) (hdc : d * c ≤ 1) (hd' : 2 * d * c + 1 / 2 ^ 240 ≤ d') :
    Num64 (x / y) (rnd (v / b)) ∧ Apx (n + 1) d' (rnd (v / b)) (q / b) := by
  have e1 : d * |1 / b| ≤ d * c := mul_le_mul_of_nonneg_left hb hd
  have hqb : |q * (1 / b)| ≤ 2 ^ 230 := by
    rw [abs_mul]
    exact (mul_le_mul hq (hb.trans hc) (abs_nonneg _) (by positivity)).trans (by norm_num)
  obtain ⟨h1, h2⟩ := apx_core hn hd h hqb (e1.trans hdc)
  rw [mul_one_div] at h1 h2
  rw [mul_one_div] at h2
  exact ⟨div_num hx hy b0 h1, h2.mono le_rfl (by linarith only [e1, hd'])⟩

theorem rnd_nonneg {r : ℚ} (h : 0 ≤ r) : 0 ≤ rnd r := by have := rnd_mono h; rwa [rnd_zero] at this
theorem rnd_nonpos {r : ℚ} (h : r ≤ 0) : rnd r ≤ 0 := by have := rnd_mono h; rwa [rnd_zero] at this

/-- One coordinate of the bounds of a glyph: `scale * ofInt b / ofInt 64`. -/
theorem ttf_coord {S : F64} {v σ : ℚ} {R : ℕ} (hS : Num64 S v) (hv : 0 ≤ v) (ha : Apx 1 (1 / 2 ^ 240) v σ) (s0 : 0 ≤ σ) (s1 : σ ≤ 2 ^ 123)
    (hR : R ≤ 2 ^ 20) (b : ℤ) (hb : |b| ≤ 64 * R) :
    ∃ w, Num64 (S / ofInt 12 * ofInt b / ofInt 64) w ∧ Apx 4 (1 / 2 ^ 207) w (σ / 12 * b / 64) ∧ |w| ≤ R * σ / 11 + 1 / 2 ^ 206 ∧
      (0 ≤ b → 0 ≤ w) ∧ (b ≤ 0 → w ≤ 0) := by
  have n12 : Num64 (ofInt 12 : F64) 12 := by have := num_int (n := 12) (by norm_num); simpa using this
  have n64 : Num64 (ofInt 64 : F64) 64 := by have := num_int (n := 64) (by norm_num); simpa using this
  have hRq : (R : ℚ) ≤ 2 ^ 20 := by exact_mod_cast hR
  have hR0 : (0 : ℚ) ≤ R := Nat.cast_nonneg R
  have hbq : |(b : ℚ)| ≤ 64 * R := by have : ((|b| : ℤ) : ℚ) ≤ ((64 * R : ℤ) : ℚ) := by exact_mod_cast hb
                                      push_cast at this; exact this
  have hb26 : |(b : ℚ)| ≤ 2 ^ 26 := by linarith only [hbq, hRq, show (64 : ℚ) * 2 ^ 20 = 2 ^ 26 by norm_num]
  have nb : Num64 (ofInt b : F64) b := num_int (by
    have : (64 * R : ℤ) ≤ 2 ^ 26 := by have : (R : ℤ) ≤ 2 ^ 20 := by exact_mod_cast hR
                                       omega
    have h2 : (2 : ℤ) ^ 26 ≤ 2 ^ 53 := by norm_num
    omega)
  have hσ : |σ| = σ := abs_of_nonneg s0
  obtain ⟨a1, a2⟩ := apx_div hS n12 (by norm_num) ha (by norm_num) (by positivity) (by rw [hσ]; exact s1.trans (by norm_num)) (c := 1) (d' := 1 / 2 ^ 238)
    (by rw [abs_of_pos (by norm_num)]; norm_num) (by norm_num) (by norm_num) (by norm_num)
  obtain ⟨b1, b2⟩ := apx_mul a1 nb a2 (by norm_num) (by positivity) (by rw [abs_of_nonneg (by positivity)]; linarith only [s0, s1, show (2 : ℚ) ^ 123 ≤ 2 ^ 150 by norm_num])
    (c := 2 ^ 26) (d' := 1 / 2 ^ 210) hb26 (by norm_num) (by norm_num) (by norm_num)
  have hq3 : |σ / 12 * b| ≤ 2 ^ 150 := by
    rw [abs_mul, abs_of_nonneg (by positivity : 0 ≤ σ / 12)]
    have : σ / 12 * |(b : ℚ)| ≤ 2 ^ 123 * 2 ^ 26 := mul_le_mul (by linarith only [s0, s1]) hb26 (abs_nonneg _) (by positivity)
    exact this.trans (by norm_num)
  obtain ⟨c1, c2⟩ := apx_div b1 n64 (by norm_num) b2 (by norm_num) (by positivity) hq3 (c := 1) (d' := 1 / 2 ^ 207)
    (by rw [abs_of_pos (by norm_num)]; norm_num) (by norm_num) (by norm_num) (by norm_num)
  have v12 : 0 ≤ rnd (v / 12) := rnd_nonneg (by positivity)
  refine ⟨_, c1, c2, ?_, fun h0 => ?_, fun h0 => ?_⟩
  · unfold Apx at c2
    have e1 : |σ / 12 * b / 64| ≤ R * σ / 12 := by
      rw [abs_div, abs_mul, abs_of_nonneg (by positivity : 0 ≤ σ / 12), abs_of_pos (by norm_num : (0 : ℚ) < 64), div_le_iff₀ (by norm_num)]
      have := mul_le_mul_of_nonneg_left hbq (by positivity : 0 ≤ σ / 12)
      linarith only [this]
    have e2 := abs_sub_abs_le_abs_sub (rnd (rnd (rnd (v / 12) * b) / 64)) (σ / 12 * b / 64)
    have e3 : (1 : ℚ) / 2 ^ 207 ≤ 1 / 2 ^ 206 := by norm_num
    have e4 : 0 ≤ R * σ := by positivity
    have e5 : ((3 + 1 : ℕ) : ℚ) / 2 ^ 52 * |σ / 12 * b / 64| ≤ 1 / 1000 * |σ / 12 * b / 64| :=
      mul_le_mul_of_nonneg_right (by norm_num) (abs_nonneg _)
    linarith only [c2, e1, e2, e3, e4, e5]
  · exact rnd_nonneg (div_nonneg (rnd_nonneg (mul_nonneg v12 (by exact_mod_cast h0))) (by norm_num))
  · exact rnd_nonpos (div_nonpos_of_nonpos_of_nonneg (rnd_nonpos (mul_nonpos_of_nonneg_of_nonpos v12 (by exact_mod_cast h0))) (by norm_num))

/-- The difference of two coordinates. -/
theorem ttf_diff {x y : F64} {p q B : ℚ} (hx : Num64 x p) (hy : Num64 y q) (hp : |p| ≤ B) (hq : |q| ≤ B) (hB : B ≤ 2 ^ 200) :
    Num64 (x - y) (rnd (p - q)) ∧ |rnd (p - q)| ≤ 2 * B + 1 / 2 ^ 50 * B + 1 / 2 ^ 240 ∧ |rnd (p - q) - (p - q)| ≤ 1 / 2 ^ 53 * |p - q| + 1 / 2 ^ 240 := by
  have e := rnd_err240 (p - q)
  have h1 : |p - q| ≤ 2 * B := by
    have := abs_sub p q
    linarith only [this, hp, hq]
  have h2 : |rnd (p - q)| ≤ |p - q| + |rnd (p - q) - (p - q)| := by
    have := abs_sub_abs_le_abs_sub (rnd (p - q)) (p - q)
    linarith only [this]
  have hB0 : 0 ≤ B := (abs_nonneg p).trans hp
  have h3 : |rnd (p - q)| ≤ 2 * B + 1 / 2 ^ 50 * B + 1 / 2 ^ 240 := by
    have h4 : (1 : ℚ) / 2 ^ 53 * |p - q| ≤ 1 / 2 ^ 50 * B := by
      have h5 : (1 : ℚ) / 2 ^ 53 * |p - q| ≤ 1 / 2 ^ 53 * (2 * B) := mul_le_mul_of_nonneg_left h1 (by norm_num)
      have h6 : (1 : ℚ) / 2 ^ 53 * (2 * B) = 1 / 2 ^ 52 * B := by ring
      have h7 : (1 : ℚ) / 2 ^ 52 * B ≤ 1 / 2 ^ 50 * B := mul_le_mul_of_nonneg_right (by norm_num) hB0
      linarith only [h5, h6, h7]
    linarith only [e, h1, h2, h4]
  refine ⟨sub_num hx hy (lt_max64 ?_), h3, e⟩
  have h8 : (2 : ℚ) * 2 ^ 200 + 1 / 2 ^ 50 * 2 ^ 200 + 1 / 2 ^ 240 ≤ 2 ^ 250 := by norm_num
  have h9 : (1 : ℚ) / 2 ^ 50 * B ≤ 1 / 2 ^ 50 * 2 ^ 200 := mul_le_mul_of_nonneg_left hB (by norm_num)
  linarith only [h3, h8, h9, hB]

theorem add_zero_num {x : F64} {q : ℚ} (h : Num64 x q) (hq : |q| ≤ 2 ^ 250) : Num64 (x + zero) q := by
  have e : rnd (q + 0) = q := by rw [add_zero]; exact rnd_num h
  have := add_num h num_zero64 (by rw [e]; exact lt_max64 hq)
  rwa [e] at this

/-- The metrics of a glyph whose bounds, at 12 points, are at most `R` points, at a size that is `σ` up to rounding. -/
theorem ttf_metrics64 {S dpi : F64} {v σ : ℚ} {R : ℕ} (hS : Num64 S v) (hv : 0 ≤ v) (ha : Apx 1 (1 / 2 ^ 240) v σ) (s0 : 0 ≤ σ) (s1 : σ ≤ 2 ^ 123)
    (hR : R ≤ 2 ^ 20) {ps : GoString} (hps : ps ≠ bs!"Cmex10") {adv : ℤ} (hadv : |adv| ≤ 65536 * R) {b : ℤ × ℤ × ℤ × ℤ}
    (hb : |b.1| ≤ 64 * R ∧ |b.2.1| ≤ 64 * R ∧ |b.2.2.1| ≤ 64 * R ∧ |b.2.2.2| ≤ 64 * R) :
    (Within (R * σ / 4 + 1 / 2 ^ 110) (ttfMetrics ps adv b S dpi).1.advance ∧ Within (R * σ / 4 + 1 / 2 ^ 110) (ttfMetrics ps adv b S dpi).1.width ∧
      Within (R * σ / 4 + 1 / 2 ^ 110) (ttfMetrics ps adv b S dpi).1.height ∧ Within (R * σ / 4 + 1 / 2 ^ 110) (ttfMetrics ps adv b S dpi).1.iceberg ∧
      Within (R * σ / 4 + 1 / 2 ^ 110) (ttfMetrics ps adv b S dpi).1.ymax ∧ Within (R * σ / 4 + 1 / 2 ^ 110) (ttfMetrics ps adv b S dpi).1.ymin) ∧
    (b.2.1 ≤ 0 → 0 ≤ b.2.2.2 → ∃ t i, Num64 (ttfMetrics ps adv b S dpi).1.height t ∧ Num64 (ttfMetrics ps adv b S dpi).1.iceberg i ∧ 0 ≤ i ∧ i ≤ t ∧
      |t - σ * (b.2.2.2 - b.2.1) / 768| ≤ 6 / 2 ^ 52 * (σ * (b.2.2.2 - b.2.1) / 768) + 1 / 2 ^ 200) := by
  obtain ⟨b1, b2, b3, b4⟩ := hb
  obtain ⟨x1, nx1, -, wx1, -, -⟩ := ttf_coord hS hv ha s0 s1 hR b.1 b1
  obtain ⟨x2, nx2, -, wx2, -, -⟩ := ttf_coord hS hv ha s0 s1 hR b.2.2.1 b3
  obtain ⟨y1, ny1, ay1, wy1, -, zy1⟩ := ttf_coord hS hv ha s0 s1 hR (-b.2.2.2) (by rwa [abs_neg])
  obtain ⟨y2, ny2, ay2, wy2, zy2, -⟩ := ttf_coord hS hv ha s0 s1 hR (-b.2.1) (by rwa [abs_neg])
  have hRq : (R : ℚ) ≤ 2 ^ 20 := by exact_mod_cast hR
  have hR0 : (0 : ℚ) ≤ R := Nat.cast_nonneg R
  have hRs : R * σ ≤ 2 ^ 143 := (mul_le_mul hRq s1 s0 (by positivity)).trans (by norm_num)
  have hRs0 : 0 ≤ R * σ := mul_nonneg hR0 s0
  have hB : R * σ / 11 + 1 / 2 ^ 206 ≤ 2 ^ 200 := by
    have : (2 : ℚ) ^ 143 + 1 / 2 ^ 206 ≤ 2 ^ 200 := by norm_num
    linarith only [hRs, hRs0, this]
  have hτ : (1 : ℚ) / 2 ^ 206 ≤ 1 / 2 ^ 110 := by norm_num
  have hfit : R * σ / 11 + 1 / 2 ^ 206 ≤ R * σ / 4 + 1 / 2 ^ 110 := by linarith only [hRs0, hτ]
  have hfit2 : 2 * (R * σ / 11 + 1 / 2 ^ 206) + 1 / 2 ^ 50 * (R * σ / 11 + 1 / 2 ^ 206) + 1 / 2 ^ 240 ≤ R * σ / 4 + 1 / 2 ^ 110 := by
    have h1 : (1 : ℚ) / 2 ^ 50 * (R * σ / 11 + 1 / 2 ^ 206) ≤ 1 / 100 * (R * σ / 11 + 1 / 2 ^ 206) :=
      mul_le_mul_of_nonneg_right (by norm_num) (by positivity)
    have h2 : (2 : ℚ) * (1 / 2 ^ 206) + 1 / 100 * (1 / 2 ^ 206) + 1 / 2 ^ 240 ≤ 1 / 2 ^ 110 := by norm_num
    linarith only [h1, h2, hRs0]
  have big : R * σ / 11 + 1 / 2 ^ 206 ≤ 2 ^ 250 := hB.trans (by norm_num)
  obtain ⟨nw, ww, -⟩ := ttf_diff nx2 nx1 wx2 wx1 hB
  obtain ⟨nh, wh, eh⟩ := ttf_diff ny2 ny1 wy2 wy1 hB
  have hy2 := add_zero_num ny2 (wy2.trans big)
  have hy1 := add_zero_num ny1 (wy1.trans big)
  have off : (ttfMetrics ps adv b S dpi).2 = zero := by simp [ttfMetrics, hps]
  refine ⟨⟨?_, ⟨_, nw, ww.trans hfit2⟩, ⟨_, nh, wh.trans hfit2⟩, ⟨y2, ?_, wy2.trans hfit⟩, ⟨y2, ?_, wy2.trans hfit⟩, ⟨y1, ?_, wy1.trans hfit⟩⟩, fun t1 t2 => ?_⟩
  · have n12 : Num64 (ofInt 12 : F64) 12 := by have := num_int (n := 12) (by norm_num); simpa using this
    have nK : Num64 (ofInt 65536 : F64) 65536 := by have := num_int (n := 65536) (by norm_num); simpa using this
    have hadvq : |(adv : ℚ)| ≤ 65536 * R := by
      have : ((|adv| : ℤ) : ℚ) ≤ ((65536 * R : ℤ) : ℚ) := by exact_mod_cast hadv
      push_cast at this; exact this
    have na : Num64 (ofInt adv : F64) adv := num_int (by
      have h1 : (R : ℤ) ≤ 2 ^ 20 := by exact_mod_cast hR
      have h2 : (65536 : ℤ) * 2 ^ 20 ≤ 2 ^ 53 := by norm_num
      omega)
    have a0 : Apx 0 0 (adv : ℚ) adv := by unfold Apx; simp
    obtain ⟨c1, c2⟩ := apx_div na nK (by norm_num) a0 (by norm_num) le_rfl
      (hadvq.trans (by linarith only [hRq, show (65536 : ℚ) * 2 ^ 20 ≤ 2 ^ 150 by norm_num])) (c := 1) (d' := 1 / 2 ^ 240)
      (by rw [abs_of_pos (by norm_num)]; norm_num) (by norm_num) (by norm_num) (by norm_num)
    have hva : |v - σ| ≤ 1 / 2 ^ 52 * σ + 1 / 2 ^ 240 := by unfold Apx at ha; rw [abs_of_nonneg s0] at ha; simpa using ha
    have hv' : v ≤ σ + 1 / 1000 * σ + 1 / 2 ^ 240 := by
      have h1 := (abs_le.1 hva).2
      have h2 : (1 : ℚ) / 2 ^ 52 * σ ≤ 1 / 1000 * σ := mul_le_mul_of_nonneg_right (by norm_num) s0
      linarith only [h1, h2]
    have hv2 : v ≤ 2 ^ 124 := by
      have h3 : (2 : ℚ) ^ 123 + 1 / 1000 * 2 ^ 123 + 1 / 2 ^ 240 ≤ 2 ^ 124 := by norm_num
      linarith only [h3, hv', s1]
    have hq : |(adv : ℚ) / 65536| ≤ R := by
      rw [abs_div, abs_of_pos (by norm_num : (0 : ℚ) < 65536), div_le_iff₀ (by norm_num)]
      linarith only [hadvq]
    have hqv : |(adv : ℚ) / 65536 * v| ≤ R * v := by
      rw [abs_mul, abs_of_nonneg hv]
      exact mul_le_mul_of_nonneg_right hq hv
    have hRv : R * v ≤ 2 ^ 144 := (mul_le_mul hRq hv2 hv (by positivity)).trans (by norm_num)
    have hvd : (1 : ℚ) / 2 ^ 240 * |v| ≤ 1 / 2 ^ 240 * 2 ^ 124 := by
      rw [abs_of_nonneg hv]; exact mul_le_mul_of_nonneg_left hv2 (by norm_num)
    obtain ⟨d1, d2⟩ := apx_core (b := v) (by norm_num) (by norm_num) c2 (hqv.trans (hRv.trans (by norm_num))) (hvd.trans (by norm_num))
    have nv := mul_num c1 hS d1
    have d3 := d2.mono (m := 2) (d' := 1 / 2 ^ 114) (by norm_num) (by
      have h5 : (2 : ℚ) * (1 / 2 ^ 240 * 2 ^ 124) + 1 / 2 ^ 240 ≤ 1 / 2 ^ 114 := by norm_num
      linarith only [hvd, h5])
    obtain ⟨e1, e2⟩ := apx_div nv n12 (by norm_num) d3 (by norm_num) (by norm_num) (hqv.trans (hRv.trans (by norm_num))) (c := 1) (d' := 1 / 2 ^ 112)
      (by rw [abs_of_pos (by norm_num)]; norm_num) (by norm_num) (by norm_num) (by norm_num)
    refine ⟨_, e1, ?_⟩
    unfold Apx at e2
    have f1 : |(adv : ℚ) / 65536 * v / 12| ≤ R * v / 12 := by
      rw [abs_div, abs_of_pos (by norm_num : (0 : ℚ) < 12)]
      linarith only [hqv]
    have f2 : R * v ≤ R * (σ + 1 / 1000 * σ + 1 / 2 ^ 240) := mul_le_mul_of_nonneg_left hv' hR0
    have f3 : R * (1 / 2 ^ 240 : ℚ) ≤ 1 / 2 ^ 220 := by
      have : R * (1 / 2 ^ 240 : ℚ) ≤ 2 ^ 20 * (1 / 2 ^ 240) := mul_le_mul_of_nonneg_right hRq (by norm_num)
      exact this.trans (by norm_num)
    have f4 : ((2 + 1 : ℕ) : ℚ) / 2 ^ 52 * |(adv : ℚ) / 65536 * v / 12| ≤ 1 / 1000 * |(adv : ℚ) / 65536 * v / 12| :=
      mul_le_mul_of_nonneg_right (by norm_num) (abs_nonneg _)
    have f5 := abs_sub_abs_le_abs_sub (rnd (rnd (rnd ((adv : ℚ) / 65536) * v) / 12)) ((adv : ℚ) / 65536 * v / 12)
    have f6 : (2 : ℚ) * (1 / 2 ^ 220) + 1 / 2 ^ 112 ≤ 1 / 2 ^ 110 := by norm_num
    linarith only [e2, f1, f2, f3, f4, f5, f6, hRs0]
  · show Num64 (_ + (ttfMetrics ps adv b S dpi).2) _
    rw [off]; exact hy2
  · show Num64 (_ + (ttfMetrics ps adv b S dpi).2) _
    rw [off]; exact hy2
  · show Num64 (_ + (ttfMetrics ps adv b S dpi).2) _
    rw [off]; exact hy1
  · have i0 : 0 ≤ y2 := zy2 (by omega)
    have j0 : y1 ≤ 0 := zy1 (by omega)
    refine ⟨_, y2, nh, by show Num64 (_ + (ttfMetrics ps adv b S dpi).2) _; rw [off]; exact hy2, i0, ?_, ?_⟩
    · have := rnd_mono (show y2 ≤ y2 - y1 by linarith only [j0])
      rwa [rnd_num ny2] at this
    · have p1 : (0 : ℚ) ≤ -b.2.1 := by exact_mod_cast (by omega : (0 : ℤ) ≤ -b.2.1)
      have p2 : (0 : ℚ) ≤ b.2.2.2 := by exact_mod_cast t2
      unfold Apx at ay1 ay2
      push_cast at ay1 ay2
      have q1 : |σ / 12 * -(b.2.2.2 : ℚ) / 64| = σ * b.2.2.2 / 768 := by
        rw [show σ / 12 * -(b.2.2.2 : ℚ) / 64 = -(σ * b.2.2.2 / 768) by ring, abs_neg, abs_of_nonneg (by positivity)]
      have q2 : |σ / 12 * -(b.2.1 : ℚ) / 64| = σ * -b.2.1 / 768 := by
        rw [show σ / 12 * -(b.2.1 : ℚ) / 64 = σ * -b.2.1 / 768 by ring, abs_of_nonneg (by positivity)]
      rw [q1] at ay1
      rw [q2] at ay2
      have A0 : 0 ≤ σ * b.2.2.2 / 768 := by positivity
      have B0 : 0 ≤ σ * -b.2.1 / 768 := by positivity
      have E : σ * ((b.2.2.2 : ℚ) - b.2.1) / 768 = σ * b.2.2.2 / 768 + σ * -b.2.1 / 768 := by ring
      rw [E]
      have E1 : σ / 12 * -(b.2.2.2 : ℚ) / 64 = -(σ * b.2.2.2 / 768) := by ring
      have E2 : σ / 12 * -(b.2.1 : ℚ) / 64 = σ * -b.2.1 / 768 := by ring
      rw [E1] at ay1
      rw [E2] at ay2
      generalize σ * (b.2.2.2 : ℚ) / 768 = A at *
      generalize σ * -(b.2.1 : ℚ) / 768 = B at *
      have a1 := abs_le.1 ay1
      have a2 := abs_le.1 ay2
      have a3 := abs_le.1 eh
      rw [abs_of_nonneg (by linarith only [i0, j0] : 0 ≤ y2 - y1)] at a3
      have c1 : (4 : ℚ) / 2 ^ 52 ≤ 1 := by norm_num
      have c2 : (4 : ℚ) / 2 ^ 52 * A ≤ A := by nlinarith only [c1, A0]
      have c3 : (4 : ℚ) / 2 ^ 52 * B ≤ B := by nlinarith only [c1, B0]
      have c4 : (2 : ℚ) / 2 ^ 52 = 2 * (1 / 2 ^ 52) := by norm_num
      have c5 : y2 - y1 ≤ 2 * A + 2 * B + 2 / 2 ^ 207 := by linarith only [a1.1, a2.2, c2, c3]
      have c6 : (1 : ℚ) / 2 ^ 53 * (y2 - y1) ≤ 1 / 2 ^ 53 * (2 * A + 2 * B + 2 / 2 ^ 207) := mul_le_mul_of_nonneg_left c5 (by norm_num)
      have c7 : (1 : ℚ) / 2 ^ 53 * (2 * A + 2 * B + 2 / 2 ^ 207) ≤ 2 / 2 ^ 52 * A + 2 / 2 ^ 52 * B + 1 / 2 ^ 210 := by
        have : (1 : ℚ) / 2 ^ 53 * (2 / 2 ^ 207) ≤ 1 / 2 ^ 210 := by norm_num
        have h1 : (1 : ℚ) / 2 ^ 53 * 2 * A ≤ 2 / 2 ^ 52 * A := mul_le_mul_of_nonneg_right (by norm_num) A0
        have h2 : (1 : ℚ) / 2 ^ 53 * 2 * B ≤ 2 / 2 ^ 52 * B := mul_le_mul_of_nonneg_right (by norm_num) B0
        linarith only [this, h1, h2]
      have c8 : (2 : ℚ) * (1 / 2 ^ 207) + 1 / 2 ^ 210 + 1 / 2 ^ 240 ≤ 1 / 2 ^ 200 := by norm_num
      exact abs_le.2 ⟨by linarith only [a1.1, a1.2, a2.1, a2.2, a3.1, c6, c7, c8], by linarith only [a1.1, a1.2, a2.1, a2.2, a3.2, c6, c7, c8]⟩

end Verif
