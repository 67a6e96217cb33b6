import Verif.Lemmas.GridBox
/-! # Characters enlarged to a height, on a grid -/

set_option linter.unusedSectionVars false

namespace Verif
open Spec GoFloat

variable {k : ℤ} {M J : ℕ} {size dpi : F64} {be : Backend F64}

/-- The font size and the resolution of the state are the ones the layout began with. -/
structure St (size dpi : F64) (st : TState F64) : Prop where
  size : st.font.size = size
  dpi : st.dpi = dpi
  name : st.font.name ≠ []

theorem newChar_grid (hk : MidExp k) (hb : Bounded64 be (2 ^ k) J size dpi) (hM : 4 ≤ M) {c : GoString} {st : TState F64} (hs : St size dpi st) {m : Bool}
    {ch : CharD F64} (h : newChar be c st m = .ok ch) : Nd k M size dpi 3 1 2 4 (.char ch) := by
  unfold newChar at h
  split at h
  · rename_i hkn
    simp only [Res.ok.injEq] at h
    subst h
    rw [hs.dpi] at hkn
    obtain ⟨h1, h2, h3, h4, -, -⟩ := hb.metrics c st.font m hs.size hkn
    have e : ((rawChar c st m).updateMetrics be).metrics = be.metrics c st.font dpi m := by
      show be.metrics c st.font st.dpi m = _; rw [hs.dpi]
    have ew : Near k 1 ((rawChar c st m).updateMetrics be).width := by
      show Near k 1 (if c = bs!" " then (be.metrics c st.font st.dpi m).advance else (be.metrics c st.font st.dpi m).width)
      rw [hs.dpi]
      split
      · exact within_near h1
      · exact within_near h2
    have eh : Near k 1 ((rawChar c st m).updateMetrics be).height := by
      show Near k 1 (be.metrics c st.font st.dpi m).iceberg
      rw [hs.dpi]; exact within_near h4
    have ed : Near k 2 ((rawChar c st m).updateMetrics be).depth := by
      show Near k 2 (-((be.metrics c st.font st.dpi m).iceberg - (be.metrics c st.font st.dpi m).height))
      rw [hs.dpi]
      exact ((within_near h4).sub hk (within_near h3) (abs_le_of (by norm_num) (by norm_num)) (abs_le_of (by norm_num) (by norm_num))).neg.mono
        (by norm_num) (by norm_num)
    refine ⟨?_, eh.mono (by omega) le_rfl, ed.mono (by omega) le_rfl, by omega, ew, fun _ => ⟨ew, by rw [e]; exact within_near h1, hs.size, hs.dpi⟩⟩
    simp only [GT]
    exact ⟨trivial, ew.le (by omega)⟩
  · cases h

/-- Rounding, relative to the number and to the unit. -/
theorem rnd_rel (hk : MidExp k) (q : ℚ) : |rnd q - q| ≤ unit64 * |q| + 2 ^ k / 2 ^ 75 := by
  have h1 := rnd_err' q
  have h4 : (2 : ℚ) ^ (-1075 : ℤ) ≤ 2 ^ k / 2 ^ 75 := by
    rw [show (2 : ℚ) ^ k / 2 ^ 75 = 2 ^ (k - 75) by rw [zpow_sub₀ (by norm_num)]; norm_num]
    exact zpow_le_zpow_right₀ (by norm_num) (by have := hk.1; omega)
  linarith

/-- What `AutoHeightChar` needs to know of the character in its natural size: the sum of its height and depth is nearly what the metrics say. -/
theorem char_height (hk : MidExp k) {i h s r : ℚ} (hi : |i| ≤ 2 ^ k) (hh : |h| ≤ 2 ^ k) (hr : r = rnd (i - h)) (hs : s = rnd (i + -r)) :
    |s - h| ≤ 2 ^ k / 2 ^ 49 := by
  have hg : (0 : ℚ) < 2 ^ k := two_zpow_pos k
  have h1 := rnd_rel hk (i - h)
  have h2 := rnd_rel hk (i + -r)
  rw [← hr] at h1
  rw [← hs] at h2
  have a1 : |i - h| ≤ 2 * 2 ^ k := by
    have := abs_sub i h
    linarith
  have u : unit64 = 1 / 2 ^ 53 := rfl
  have b1 : |r - (i - h)| ≤ 2 ^ k / 2 ^ 51 := by
    refine h1.trans ?_
    rw [u]
    linarith
  obtain ⟨c1, c2⟩ := abs_le.1 b1
  obtain ⟨d1, d2⟩ := abs_le.1 hh
  have a2 : |i + -r| ≤ 2 * 2 ^ k := abs_le.2 ⟨by linarith, by linarith⟩
  have b2 : |s - (i + -r)| ≤ 2 ^ k / 2 ^ 51 := by
    refine h2.trans ?_
    rw [u]
    linarith
  obtain ⟨e1, e2⟩ := abs_le.1 b2
  exact abs_le.2 ⟨by linarith, by linarith⟩

/-- The factor, and the height it gives. -/
theorem factor_bound (hk : MidExp k) (hJ : 1 ≤ J) (hJ' : J ≤ 256) {h s τ : ℚ} {T : ℕ} (hJT : J * T ≤ 2 ^ 36) (h0 : 2 ^ k ≤ J * h) (h1 : h ≤ 2 ^ k)
    (hs : |s - h| ≤ 2 ^ k / 2 ^ 49) (t0 : 0 ≤ τ) (t1 : τ ≤ T * 2 ^ k) :
    0 < s ∧ 0 ≤ rnd (τ / s) ∧ rnd (τ / s) + 1 ≤ J * T + 3 ∧ (1 + 1 / 2 ^ 40) * (rnd (τ / s) * h) ≤ τ + 2 ^ k / 2 := by
  have hg : (0 : ℚ) < 2 ^ k := two_zpow_pos k
  have hJq : (1 : ℚ) ≤ J := by exact_mod_cast hJ
  have hJq' : (J : ℚ) ≤ 256 := by exact_mod_cast hJ'
  have hTq : (T : ℚ) ≤ 2 ^ 36 := by exact_mod_cast (Nat.le_mul_of_pos_left T hJ).trans hJT
  have hT0 : (0 : ℚ) ≤ T := Nat.cast_nonneg T
  obtain ⟨s1, s2⟩ := abs_le.1 hs
  have hh : 2 ^ k ≤ 256 * h := by nlinarith
  have hpos : 0 < h := by linarith
  have hs' : h * (1 - 1 / 2 ^ 41) ≤ s := by nlinarith
  have spos : 0 < s := lt_of_lt_of_le (by nlinarith) hs'
  have r0 : 0 ≤ τ / s := div_nonneg t0 spos.le
  have q0 : 0 ≤ rnd (τ / s) := by have := rnd_mono r0; rwa [rnd_zero] at this
  have e := rnd_err' (τ / s)
  rw [abs_of_nonneg r0] at e
  have tiny : (2 : ℚ) ^ (-1075 : ℤ) ≤ 1 / 2 ^ 100 := by
    rw [show (1 : ℚ) / 2 ^ 100 = 2 ^ (-100 : ℤ) by norm_num [zpow_neg]]
    exact zpow_le_zpow_right₀ (by norm_num) (by norm_num)
  have u : unit64 = 1 / 2 ^ 53 := rfl
  rw [u] at e
  have e2 := (abs_le.1 e).2
  have up : rnd (τ / s) ≤ (1 + 1 / 2 ^ 53) * (τ / s) + 1 / 2 ^ 100 := by linarith
  -- τ / s against τ / h
  have d1 : τ / s * h ≤ τ * (1 + 1 / 2 ^ 40) := by
    rw [div_mul_eq_mul_div, div_le_iff₀ spos]
    have : h ≤ (1 + 1 / 2 ^ 40) * s := by nlinarith
    nlinarith
  refine ⟨spos, q0, ?_, ?_⟩
  · -- the factor itself
    have d2 : τ / s ≤ J * T * (1 + 1 / 2 ^ 40) := by
      rw [div_le_iff₀ spos]
      have a1 : 2 ^ k ≤ J * ((1 + 1 / 2 ^ 40) * s) := by
        have : h ≤ (1 + 1 / 2 ^ 40) * s := by nlinarith
        have := mul_le_mul_of_nonneg_left this (by linarith : (0 : ℚ) ≤ J)
        linarith
      have a2 := mul_le_mul_of_nonneg_left a1 hT0
      nlinarith
    have jt0 : (0 : ℚ) ≤ J * T := by positivity
    have jt : (J : ℚ) * T ≤ 2 ^ 36 := by exact_mod_cast hJT
    have d3 : (1 + 1 / 2 ^ 53) * (τ / s) ≤ (1 + 1 / 2 ^ 53) * (J * T * (1 + 1 / 2 ^ 40)) := mul_le_mul_of_nonneg_left d2 (by norm_num)
    nlinarith
  · have m1 : rnd (τ / s) * h ≤ ((1 + 1 / 2 ^ 53) * (τ / s) + 1 / 2 ^ 100) * h := mul_le_mul_of_nonneg_right up hpos.le
    have m2 : (1 + 1 / 2 ^ 53) * (τ / s * h) ≤ (1 + 1 / 2 ^ 53) * (τ * (1 + 1 / 2 ^ 40)) := mul_le_mul_of_nonneg_left d1 (by norm_num)
    have m3 : rnd (τ / s) * h ≤ (1 + 1 / 2 ^ 53) * (τ * (1 + 1 / 2 ^ 40)) + 2 ^ k / 2 ^ 100 := by nlinarith
    have tk : τ ≤ 2 ^ 36 * 2 ^ k := t1.trans (mul_le_mul_of_nonneg_right hTq hg.le)
    have m4 : (1 + 1 / 2 ^ 40) * (rnd (τ / s) * h) ≤ (1 + 1 / 2 ^ 40) * ((1 + 1 / 2 ^ 53) * (τ * (1 + 1 / 2 ^ 40)) + 2 ^ k / 2 ^ 100) :=
      mul_le_mul_of_nonneg_left m3 (by norm_num)
    refine m4.trans ?_
    nlinarith

theorem num_autoFactor {x y : F64} : (if GoFloat.eq (zero : F64) (zero : F64) then x else y) = x := by rw [eq_zero_zero]; rfl

set_option maxHeartbeats 2000000 in
/-- `AutoHeightChar`: a shifted list that reaches at most five units above, two below what was asked for. -/
theorem auto_grid (hk : MidExp k) (hb : Bounded64 be (2 ^ k) J size dpi) (hJ : 1 ≤ J) (hJ' : J ≤ 256) {c : GoString} (hc : c ∈ tallChars) {x y : F64} {a b : ℕ}
    (hx : In k 0 a x) (hy : In k 0 b y) {st : TState F64} (hs : St size dpi st) {n : TNode F64} (hM : 3 * (J * (a + b) + 3) ≤ M) (hM' : M ≤ 2 ^ 36)
    (e : autoHeightChar be c x y st zero = .ok n) :
    ∃ hd cs, n = .list .h hd cs ∧ Nd k M size dpi 3 (a + 5) (b + 2) (3 * (J * (a + b) + 3)) n ∧
      In k (-(b + 1)) (a + 5) (hd.box.height - hd.shift) ∧ In k (-(a + b + 3)) (b + 2) (hd.box.depth + hd.shift) := by
  have hg : (0 : ℚ) < 2 ^ k := two_zpow_pos k
  have hJT : a + b ≤ J * (a + b) := Nat.le_mul_of_pos_left _ hJ
  replace e := autoHeightChar_ok e
  unfold autoHeightBody at e
  obtain ⟨ch, hch, e⟩ := Res.bind_eq_ok.1 e
  dsimp only at e
  rw [if_pos hs.name] at e
  obtain ⟨ch', hch', e⟩ := Res.bind_eq_ok.1 e
  rw [num_autoFactor] at hch'
  simp only [Res.ok.injEq] at e
  -- the character in its natural size
  have hkn : be.known c st.font dpi true = true := by
    unfold newChar at hch
    split at hch
    · rw [← hs.dpi]; assumption
    · cases hch
  have ech : ch.height = (be.metrics c st.font dpi true).iceberg ∧
      ch.depth = -((be.metrics c st.font dpi true).iceberg - (be.metrics c st.font dpi true).height) := by
    unfold newChar at hch
    rw [hs.dpi, if_pos hkn] at hch
    simp only [Res.ok.injEq] at hch
    subst hch
    have : be.metrics c st.font st.dpi true = be.metrics c st.font dpi true := by rw [hs.dpi]
    exact ⟨congrArg Metrics.iceberg this, by show -((be.metrics c st.font st.dpi true).iceberg - (be.metrics c st.font st.dpi true).height) = _; rw [this]⟩
  obtain ⟨-, -, ⟨h, hh, hh1⟩, ⟨i, hi, hi1⟩, -, -⟩ := hb.metrics c st.font true hs.size hkn
  obtain ⟨hh2, tall⟩ := hb.tall c hc st.font hs.size hkn h hh
  have smallfin : ∀ q : ℚ, |q| ≤ 4 * 2 ^ k → |rnd q| < 2 ^ (1024 : ℕ) := by
    intro q hq
    obtain ⟨q1, q2⟩ := abs_le.1 hq
    have := rnd_between hk (a := -4) (b := 4) (q := q) (by norm_num) (by norm_num) (by push_cast; linarith) (by push_cast; linarith)
    exact between_fin hk (by norm_num) (by norm_num) this.1 this.2
  obtain ⟨hh3, hh4⟩ := abs_le.1 hh1
  obtain ⟨hi3, hi4⟩ := abs_le.1 hi1
  have n1 := sub_num hi hh (smallfin _ (abs_le.2 ⟨by linarith, by linarith⟩))
  have r1 : |rnd (i - h)| ≤ 2 * 2 ^ k := by
    have := rnd_between hk (a := -2) (b := 2) (q := i - h) (by norm_num) (by norm_num) (by push_cast; linarith) (by push_cast; linarith)
    push_cast at this
    exact abs_le.2 ⟨by linarith, by linarith⟩
  obtain ⟨r2, r3⟩ := abs_le.1 r1
  have n2 := add_num hi (neg_num n1) (smallfin _ (abs_le.2 ⟨by linarith, by linarith⟩))
  rw [← ech.2, ← ech.1] at n2
  have hs0 := char_height hk hi1 hh1 rfl rfl
  -- the target and the factor
  have bnd : ∀ z : ℤ, -2 ^ 50 ≤ z → z ≤ 2 ^ 50 → |z| ≤ 2 ^ 53 := fun z h1 h2 => abs_le_of (by omega) (by omega)
  obtain ⟨X, hX, X0, X1⟩ := id hx
  obtain ⟨Y, hY, Y0, Y1⟩ := id hy
  push_cast at X0 X1 Y0 Y1
  rw [zero_mul] at X0 Y0
  have hT := hx.add hk hy (bnd _ (by omega) (by omega)) (bnd _ (by omega) (by omega))
  obtain ⟨τ, hτ, τ0, τ1⟩ := hT
  push_cast at τ0 τ1
  have τ0' : 0 ≤ τ := by simpa using τ0
  have τe : τ = rnd (X + Y) := by
    have f := between_fin hk (a := 0) (b := a + b) (q := rnd (X + Y)) (by norm_num) (bnd _ (by omega) (by omega))
      (rnd_between hk (a := 0) (b := a + b) (q := X + Y) (by norm_num) (bnd _ (by omega) (by omega)) (by push_cast; linarith) (by push_cast; linarith)).1
      (rnd_between hk (a := 0) (b := a + b) (q := X + Y) (by norm_num) (bnd _ (by omega) (by omega)) (by push_cast; linarith) (by push_cast; linarith)).2
    exact isNum_unique hτ (add_num hX hY f)
  have abq : ((a : ℚ) + b) ≤ 2 ^ 36 := by exact_mod_cast (by omega : a + b ≤ 2 ^ 36)
  have half : ∀ q : ℚ, -(2 ^ 40 * 2 ^ k) ≤ q → q ≤ 2 ^ 40 * 2 ^ k → q - 2 ^ k / 2 ≤ rnd q ∧ rnd q ≤ q + 2 ^ k / 2 := by
    intro q h1 h2
    have := abs_le.1 (rnd_half hk (q := q) (abs_le.2 ⟨by linarith, by linarith⟩))
    exact ⟨by linarith, by linarith⟩
  have abk : ((a : ℚ) + b) * 2 ^ k ≤ 2 ^ 36 * 2 ^ k := mul_le_mul_of_nonneg_right abq hg.le
  have ak0 : (0 : ℚ) ≤ a * 2 ^ k := by positivity
  have bk0 : (0 : ℚ) ≤ b * 2 ^ k := by positivity
  have τ2 : τ ≤ X + Y + 2 ^ k / 2 := by rw [τe]; exact (half _ (by linarith) (by linarith)).2
  obtain ⟨spos, p0, p1, p2⟩ := factor_bound hk hJ hJ' (T := a + b) (by omega) hh2 hh4 hs0 τ0' (by push_cast; exact τ1)
  have pP : rnd (τ / rnd (i + -rnd (i - h))) ≤ 2 ^ 100 := by
    have : ((J * (a + b) : ℕ) : ℚ) ≤ 2 ^ 36 := by exact_mod_cast (by omega : J * (a + b) ≤ 2 ^ 36)
    push_cast at this p1
    linarith
  have n3 := div_num hτ n2 spos.ne' (by
    rw [abs_of_nonneg p0]; exact lt_of_le_of_lt pP (pow_lt_pow_right₀ (by norm_num) (by norm_num)))
  generalize hp : rnd (τ / rnd (i + -rnd (i - h))) = p at p0 p1 p2 pP n3
  generalize (x + y) / (ch.height + ch.depth) = φ at hch' n3
  -- the enlarged character
  have hkn' : be.known c { st.font with size := size * φ } dpi true = true := by
    unfold newChar at hch'
    rw [hs.dpi, hs.size] at hch'
    split at hch'
    · assumption
    · cases hch'
  obtain ⟨⟨A, hA, hA1⟩, ⟨w, hw, hw1⟩, t, i', ht, hi', i1, i2, t1⟩ := tall φ p n3 p0 pP hkn'
  have ech' : ch'.height = (be.metrics c { st.font with size := size * φ } dpi true).iceberg ∧
      ch'.depth = -((be.metrics c { st.font with size := size * φ } dpi true).iceberg - (be.metrics c { st.font with size := size * φ } dpi true).height) ∧
      (ch'.width = (be.metrics c { st.font with size := size * φ } dpi true).advance ∨ ch'.width = (be.metrics c { st.font with size := size * φ } dpi true).width) ∧
      ch'.metrics.advance = (be.metrics c { st.font with size := size * φ } dpi true).advance := by
    unfold newChar at hch'
    rw [hs.dpi, hs.size, if_pos hkn'] at hch'
    simp only [Res.ok.injEq] at hch'
    subst hch'
    refine ⟨rfl, rfl, ?_, rfl⟩
    show (if c = bs!" " then _ else _) = _ ∨ (if c = bs!" " then _ else _) = _
    split
    · exact .inl rfl
    · exact .inr rfl
  generalize hP : J * (a + b) + 3 = P at *
  have p1' : p + 1 ≤ P := by rw [← hP]; push_cast at p1 ⊢; linarith
  have wide : ∀ z v, Num64 z v → |v| ≤ (p + 1) * 2 ^ k → Near k P z := by
    intro z v hz hv
    have := mul_le_mul_of_nonneg_right p1' hg.le
    obtain ⟨v1, v2⟩ := abs_le.1 hv
    exact ⟨v, hz, by push_cast; linarith, by push_cast; linarith⟩
  have nA : Near k P ch'.metrics.advance := by rw [ech'.2.2.2]; exact wide _ _ hA hA1
  have nW : Near k P ch'.width := by
    rcases ech'.2.2.1 with e1 | e1
    · rw [e1]; exact wide _ _ hA hA1
    · rw [e1]; exact wide _ _ hw hw1
  -- its height and depth
  have tU : t ≤ τ + 2 * 2 ^ k := by linarith
  have tL : -2 * 2 ^ k ≤ t := by linarith
  have gi : In k (-1) (a + b + 3) ch'.height := by rw [ech'.1]; exact ⟨i', hi', by push_cast; linarith, by push_cast; linarith⟩
  have hd1 := half (i' - t) (by linarith) (by linarith)
  have rb := rnd_between hk (a := -(a + b + 3)) (b := 1) (q := i' - t) (bnd _ (by omega) (by omega)) (by norm_num) (by push_cast; linarith) (by push_cast; linarith)
  have n4 := sub_num hi' ht (between_fin hk (bnd _ (by omega) (by omega)) (by norm_num) rb.1 rb.2)
  have n5 := neg_num n4
  rw [← ech'.2.1] at n5
  generalize hδ : -rnd (i' - t) = δ at n5
  have gd : In k (-1) (a + b + 3) ch'.depth := ⟨δ, n5, by push_cast at rb ⊢; linarith, by push_cast at rb ⊢; linarith⟩
  have δ1 : δ ≤ t - i' + 2 ^ k / 2 := by linarith
  have δ2 : -2 ^ k ≤ δ := by push_cast at rb; linarith
  -- the list
  have hMab : a + b + 3 ≤ M := by omega
  have kids : Nds k M size dpi 0 (a + b + 3) (a + b + 3) (3 * P) (insertKerns be [.char ch']) := by
    have n0 : Nd k M size dpi 0 (a + b + 3) (a + b + 3) P (.char ch') := by
      refine ⟨?_, gi.mono (by omega) (by push_cast; omega), gd.mono (by omega) (by push_cast; omega), by omega, nW, fun h => absurd rfl h⟩
      simp only [GT]
      exact ⟨trivial, nW.le (by omega)⟩
    have hkn2 : Near k (2 * P) (ch'.metrics.advance - ch'.width + zero) :=
      (add_zero_in (nA.sub hk nW (bnd _ (by omega) (by omega)) (bnd _ (by omega) (by omega))) num_zero64).mono (by push_cast; omega) (by push_cast; omega)
    have e1 : (TNode.char ch').kerning be (List.head? []) = ch'.metrics.advance - ch'.width + zero := rfl
    rw [insertKerns, e1]
    split
    · exact ⟨P, 2 * P, by omega, n0, 2 * P, 0, by omega, nd_kern hkn2 (by omega) 0, trivial⟩
    · exact ⟨P, 0, by omega, n0, trivial⟩
  obtain ⟨g1, g2, g3, g4, g5⟩ := hpack_grid hk kids (by omega)
  -- its exact height and depth
  have gh : Num64 (hpack LHead.zero (insertKerns be [.char ch']) zero true).box.height (max 0 i') ∧
      Num64 (hpack LHead.zero (insertKerns be [.char ch']) zero true).box.depth (max 0 δ) := by
    have m1 : Num64 (GoFloat.max zero ch'.height) (max 0 i') := max_num num_zero64 (by rw [ech'.1]; exact hi')
    have m2 : Num64 (GoFloat.max zero ch'.depth) (max 0 δ) := max_num num_zero64 n5
    unfold hpack
    rw [(finishGlue_box _ _ _ _).1]
    have e2 : (∃ z, insertKerns be [.char ch'] = [.char ch', newKern z]) ∨ insertKerns be [.char ch'] = [.char ch'] := by
      rw [insertKerns]
      split
      · exact .inl ⟨_, rfl⟩
      · exact .inr rfl
    rcases e2 with ⟨z, e2⟩ | e2 <;> rw [e2] <;> exact ⟨m1, m2⟩
  generalize hpack LHead.zero (insertKerns be [.char ch']) zero true = hd at e g1 g2 g3 g4 g5 gh
  have hsh := hy.sub hk gd (bnd _ (by omega) (by omega)) (bnd _ (by omega) (by omega))
  have rs := rnd_between hk (a := -(a + b + 3)) (b := b + 1) (q := Y - δ) (bnd _ (by omega) (by omega)) (bnd _ (by omega) (by omega))
    (by push_cast at rb ⊢; linarith) (by push_cast; linarith)
  have n6 := sub_num hY n5 (between_fin hk (bnd _ (by omega) (by omega)) (bnd _ (by omega) (by omega)) rs.1 rs.2)
  have hσ := half (Y - δ) (by push_cast at rb; linarith) (by linarith)
  generalize rnd (Y - δ) = σ at n6 hσ rs
  push_cast at rs
  have mi : max 0 i' ≤ i' + 2 ^ k := max_le (by linarith) (by linarith)
  have mi0 : 0 ≤ max 0 i' := le_max_left _ _
  have md : max 0 δ ≤ δ + 2 ^ k := max_le (by linarith) (by linarith)
  have md0 : 0 ≤ max 0 δ := le_max_left _ _
  have E1 : In k (-(b + 1)) (a + 5) (hd.box.height - (y - ch'.depth)) :=
    in_of hk (bnd _ (by omega) (by omega)) (bnd _ (by omega) (by omega)) (q := max 0 i' - σ) (by push_cast; linarith) (by push_cast; linarith) (sub_num gh.1 n6)
  have E2 : In k (-(a + b + 3)) (b + 2) (hd.box.depth + (y - ch'.depth)) :=
    in_of hk (bnd _ (by omega) (by omega)) (bnd _ (by omega) (by omega)) (q := max 0 δ + σ) (by push_cast; linarith) (by push_cast; linarith) (add_num gh.2 n6)
  have hsM : Near k M (y - ch'.depth) := ⟨σ, n6, by
    have : ((a + b + 3 : ℕ) : ℚ) ≤ M := by exact_mod_cast hMab
    push_cast at this ⊢
    nlinarith, by
    have : ((a + b + 3 : ℕ) : ℚ) ≤ M := by exact_mod_cast hMab
    push_cast at this ⊢
    have : ((b : ℚ) + 1) * 2 ^ k ≤ M * 2 ^ k := mul_le_mul_of_nonneg_right (by linarith [Nat.cast_nonneg (α := ℚ) a]) hg.le
    linarith⟩
  subst e
  refine ⟨_, _, rfl, ⟨?_, E1.mono (by omega) (by push_cast; omega), E2.mono (by omega) (by push_cast; omega), g1⟩, E1, E2⟩
  simp only [GT]
  exact ⟨(by intro h; cases h), ⟨g1.le (by omega), g2.mono (by omega) (by push_cast; omega), g3.mono (by omega) (by push_cast; omega), hsM, fun h => absurd g4 h⟩, kids.trees⟩

end Verif
