import Verif.Props.Grid
import Verif.Props.ContainRender
import Verif.Lemmas.GridTtf
import Verif.Spec.GridTtf
/-! # C94 for mtex.Render -/

namespace Verif.Props
open Verif Spec GoFloat
variable {H : Type} {e : TtfEnv H}

theorem load_at {c : GoString} {f : Font F64} {d : F64} {m : Bool} {v : TtfVal F64 H} (h : e.load c f d m = .ok v) :
    ∃ ft rn ps g adv b, e.getGlyph c f m = .ok (ft, rn) ∧ e.lib.name ft = some ps ∧ e.lib.glyphIndex ft rn = some g ∧
      e.lib.glyphAdvance ft g (e.lib.unitsPerEm ft * 6 * 64) = some adv ∧ e.lib.glyphBounds ft g (12 * 64) = some b ∧
      v.metrics = (ttfMetrics ps adv b f.size d).1 := by
  unfold TtfEnv.load at h
  obtain ⟨⟨ft, rn⟩, hg, h⟩ := Res.bind_eq_ok.1 h
  dsimp only at h
  split at h
  · cases h
  rename_i ps hps
  split at h
  · cases h
  rename_i g hgi
  split at h
  · cases h
  split at h
  · cases h
  split at h
  · cases h
  rename_i adv hadv
  split at h
  · cases h
  split at h
  · cases h
  rename_i b hbd
  simp only [Res.ok.injEq] at h
  subst h
  exact ⟨ft, rn, ps, g, adv, b, hg, hps, hgi, hadv, hbd, rfl⟩

theorem eq_num64 {x y : F64} {q : ℚ} (hy : Num64 y q) (h : GoFloat.eq x y = true) : Num64 x q := by
  cases x with
  | fin s a ha =>
    have hx : Num64 (.fin s a ha) (F64.value s a) := rfl
    have := (((C87_compare _ _).1 _ _ hx hy).2).1 h
    rw [← this]; exact hx
  | inf b => cases y with
    | fin => cases h
    | inf => exact hy.elim
    | nan => exact hy.elim
  | nan => cases y <;> cases h

theorem key_num64 {c : GoString} {f : Font F64} {d : F64} {q r : ℚ} (hs : Num64 f.size q) (hd : Num64 d r) :
    TtfKey.same ⟨c, f, d⟩ ⟨c, f, d⟩ = true := by
  unfold TtfKey.same
  simp [(((C87_compare _ _).1 _ _ hs hs).2).2 rfl, (((C87_compare _ _).1 _ _ hd hd).2).2 rfl]

theorem getInfo_at {B : TextAt F64} {s : TtfSt F64 H} (hS : e.Sound B s) {c : GoString} {f : Font F64} {d : F64} {m : Bool} {q r : ℚ}
    {v : TtfVal F64 H} {s' : TtfSt F64 H} (hs : Num64 f.size q) (hd : Num64 d r) (h : e.getInfo c f d m s = (.ok v, s')) :
    ∃ f' d' m', f'.typ = f.typ ∧ Num64 f'.size q ∧ (m = true → m' = true ∨ c ≠ radicalSign) ∧ e.load c f' d' m' = .ok v := by
  rcases getInfo_cases e c f d m s with ⟨v', h1, h2⟩ | ⟨h0, v', hl, h2⟩ | ⟨-, p, -, h2⟩ | ⟨-, -, h2⟩ <;> rw [h2] at h
  · cases h
    obtain ⟨k, hk, hks⟩ := TtfSt.find_some h1
    unfold TtfKey.same at hks
    simp only [Bool.and_eq_true, beq_iff_eq] at hks
    obtain ⟨⟨⟨⟨h1, h2⟩, h3⟩, h4⟩, h5⟩ := hks
    rcases hS.base k _ hk with hv | ⟨-, -, hne⟩
    · rw [h1] at hv
      exact ⟨k.font, k.dpi, true, h3, eq_num64 hs h4, fun _ => .inl rfl, hv⟩
    · obtain ⟨m', -, hv⟩ := hS.loaded k _ hk
      rw [h1] at hv
      exact ⟨k.font, k.dpi, m', h3, eq_num64 hs h4, fun _ => .inr (h1 ▸ hne), hv⟩
  · simp only [answer, key_num64 hs hd, if_true] at h
    cases h
    exact ⟨f, d, m, rfl, hs, .inl, hl⟩
  · cases h
  · cases h

theorem getGlyph_typ {c : GoString} {f f' : Font F64} (h : f'.typ = f.typ) (m : Bool) : e.getGlyph c f' m = e.getGlyph c f m := by
  unfold TtfEnv.getGlyph
  rw [h]

/-- The parentheses are the same glyphs in text and in a formula. -/
theorem tall_mode {c : GoString} {f : Font F64} {m : Bool} (hc : c ∈ tallChars) (h : m = true ∨ c ≠ radicalSign) : e.getGlyph c f m = e.getGlyph c f true := by
  rcases h with rfl | h
  · rfl
  · cases m
    · simp only [tallChars, List.mem_cons, List.not_mem_nil, or_false] at hc
      rcases hc with rfl | rfl | rfl
      · rfl
      · rfl
      · exact absurd rfl h
    · rfl

/-- What Metrics answers was made of the tables. -/
theorem metrics_at {B : TextAt F64} {s : TtfSt F64 H} (hS : e.Sound B s) {c : GoString} {f : Font F64} {d : F64} {m : Bool} {q r : ℚ}
    (hs : Num64 f.size q) (hd : Num64 d r) (hk : (e.backend (false, s)).known c f d m = true) :
    ∃ m' S d' ft rn ps g adv b, (m = true → m' = true ∨ c ≠ radicalSign) ∧ Num64 S q ∧ e.getGlyph c f m' = .ok (ft, rn) ∧ e.lib.name ft = some ps ∧
      e.lib.glyphIndex ft rn = some g ∧ e.lib.glyphAdvance ft g (e.lib.unitsPerEm ft * 6 * 64) = some adv ∧
      e.lib.glyphBounds ft g (12 * 64) = some b ∧ (e.backend (false, s)).metrics c f d m = (ttfMetrics ps adv b S d').1 := by
  simp only [TtfEnv.backend, Bool.and_eq_true] at hk
  simp only [TtfEnv.backend]
  unfold TtfEnv.metrics at hk ⊢
  cases hg : e.getInfo c f d m s with
  | mk r s' =>
    rw [hg] at hk
    cases r with
    | ok v =>
      obtain ⟨f', d', m', h1, h2, h3, h4⟩ := getInfo_at hS hs hd hg
      obtain ⟨ft, rn, ps, g, adv, b, a1, a2, a3, a4, a5, a6⟩ := load_at h4
      exact ⟨m', f'.size, d', ft, rn, ps, g, adv, b, h3, h2, by rw [← getGlyph_typ h1]; exact a1, a2, a3, a4, a5, a6⟩
    | panic p => simp at hk
    | fuel => simp at hk

theorem kern_at {s : TtfSt F64 H} (f f' : Font F64) (c c' : GoString) (d : F64) :
    (e.backend (false, s)).kern f c f' c' d = zero ∨
    ∃ h a b k, e.lib.kern h a b (e.lib.unitsPerEm h) = .ok k ∧ (e.backend (false, s)).kern f c f' c' d = ofInt k / ofInt 64 := by
  simp only [TtfEnv.backend]
  unfold TtfEnv.kern
  split
  · rename_i r x hk
    revert hk
    repeat' split
    all_goals intro hk
    all_goals cases hk
    all_goals first | exact .inl rfl | skip
    all_goals exact .inr ⟨_, _, _, _, by assumption, rfl⟩
  · exact .inl rfl

theorem apx_self {v : ℚ} : Apx 1 (1 / 2 ^ 240) v v := by
  unfold Apx
  rw [sub_self, abs_zero]
  positivity

theorem apx_times {s p : ℚ} : Apx 1 (1 / 2 ^ 240) (rnd (s * p)) (s * p) := by
  unfold Apx
  have h := rnd_err240 (s * p)
  have h2 : (1 : ℚ) / 2 ^ 53 * |s * p| ≤ ((1 : ℕ) : ℚ) / 2 ^ 52 * |s * p| := mul_le_mul_of_nonneg_right (by norm_num) (abs_nonneg _)
  linarith only [h, h2]

/-- How high an enlarged character is at most, from how high it is at the size of the text. -/
theorem tall_growth {s p D h t u : ℚ} (D0 : 0 ≤ s * D / 768) (p0 : 0 ≤ p) (p1 : p ≤ 2 ^ 100) (hu : 1 / 2 ^ 40 ≤ u)
    (hh : |h - s * D / 768| ≤ 6 / 2 ^ 52 * (s * D / 768) + 1 / 2 ^ 200) (ht : |t - s * p * D / 768| ≤ 6 / 2 ^ 52 * (s * p * D / 768) + 1 / 2 ^ 200) :
    t ≤ (1 + 1 / 2 ^ 40) * (p * h) + u := by
  have e : s * p * D / 768 = p * (s * D / 768) := by ring
  rw [e] at ht
  generalize s * D / 768 = A at *
  have h1 := (abs_le.1 hh).1
  have h2 := (abs_le.1 ht).2
  have h3 : p * (A - (6 / 2 ^ 52 * A + 1 / 2 ^ 200)) ≤ p * h := mul_le_mul_of_nonneg_left (by linarith only [h1]) p0
  have h4 : (1 + 1 / 2 ^ 40 : ℚ) * (p * (A - (6 / 2 ^ 52 * A + 1 / 2 ^ 200))) ≤ (1 + 1 / 2 ^ 40) * (p * h) := mul_le_mul_of_nonneg_left h3 (by norm_num)
  have hpA : 0 ≤ p * A := mul_nonneg p0 D0
  have h5 : (1 + 1 / 2 ^ 40 : ℚ) * (p * (A - (6 / 2 ^ 52 * A + 1 / 2 ^ 200))) =
      ((1 + 1 / 2 ^ 40) * (1 - 6 / 2 ^ 52)) * (p * A) - (1 + 1 / 2 ^ 40) * (1 / 2 ^ 200) * p := by ring
  have h6 : (1 + 6 / 2 ^ 52 : ℚ) * (p * A) ≤ ((1 + 1 / 2 ^ 40) * (1 - 6 / 2 ^ 52)) * (p * A) := mul_le_mul_of_nonneg_right (by norm_num) hpA
  have h7 : (1 + 1 / 2 ^ 40 : ℚ) * (1 / 2 ^ 200) * p ≤ (1 + 1 / 2 ^ 40) * (1 / 2 ^ 200) * 2 ^ 100 := mul_le_mul_of_nonneg_left p1 (by norm_num)
  have h8 : (1 + 1 / 2 ^ 40 : ℚ) * (1 / 2 ^ 200) * 2 ^ 100 + 1 / 2 ^ 200 ≤ 1 / 2 ^ 40 := by norm_num
  linarith only [h2, h4, h5, h6, h7, h8, hu]

theorem ttf_bounded {U : Nat → Bool} {num : GoString → Option F64} {x : GoString} {q : ℚ} {k : ℤ} {R T K J V : ℕ}
    (hf : RenderFits64 U e num x q k R T K J V) {size : F64} (hs : Num64 size q) {B : TextAt F64} {s : TtfSt F64 H} (hS : e.Sound B s) :
    Bounded64 (e.backend (false, s)) (2 ^ k) J size (ofInt 72) := by
  have hk : MidExp k := ⟨by have := hf.unit.1; omega, hf.unit.2⟩
  have hg := two_zpow_pos k
  have n72 : Num64 (ofInt 72 : F64) 72 := by have := num_int (n := 72) (by norm_num); simpa using this
  have n64 : Num64 (ofInt 64 : F64) 64 := by have := num_int (n := 64) (by norm_num); simpa using this
  have n1200 : Num64 (ofInt 1200 : F64) 1200 := by have := num_int (n := 1200) (by norm_num); simpa using this
  have hu : 1 / 2 ^ 40 ≤ (2 : ℚ) ^ k := by
    have h1 : (2 : ℚ) ^ (-40 : ℤ) ≤ 2 ^ k := zpow_le_zpow_right₀ (by norm_num) hf.unit.1
    have h2 : (2 : ℚ) ^ (-40 : ℤ) = 1 / 2 ^ 40 := by rw [zpow_neg, one_div]; norm_cast
    rwa [h2] at h1
  have q0 : 0 < q := lt_of_lt_of_le (by norm_num) hf.size.1
  have hR1 : (1 : ℚ) ≤ R := by exact_mod_cast hf.reach.1
  have hq4 : q ≤ 4 * 2 ^ k := by
    have := mul_le_mul_of_nonneg_right hR1 q0.le
    linarith only [this, hf.large, hg]
  have lim : q ≤ 2 ^ 123 := hf.size.2.trans (by norm_num)
  have t110 : (1 : ℚ) / 2 ^ 110 ≤ 1 / 2 ^ 40 := by norm_num
  have fits1 : R * q / 4 + 1 / 2 ^ 110 ≤ 2 ^ k := by
    have : (1 : ℚ) / 2 ^ 110 ≤ 1 / 8 * (1 / 2 ^ 40) := by norm_num
    linarith only [hf.large, this, hu, hg]
  have wide : ∀ {z : F64}, Within (R * q / 4 + 1 / 2 ^ 110) z → Within (2 ^ k) z := fun ⟨a, h1, h2⟩ => ⟨a, h1, h2.trans fits1⟩
  refine ⟨?_, ?_, ?_, ?_, ?_⟩
  · intro c f m hsz hkn
    obtain ⟨m', S, d', ft, rn, ps, g, adv, b, -, hS', h1, h2, h3, h4, h5, h6⟩ := metrics_at hS (by rw [hsz]; exact hs) n72 hkn
    rw [h6]
    have hps : ps ≠ bs!"Cmex10" := fun he => hf.fonts.name ft (by rw [h2, he])
    obtain ⟨⟨w1, w2, w3, w4, w5, w6⟩, -⟩ := ttf_metrics64 (dpi := d') hS' q0.le apx_self q0.le lim hf.reach.2 hps (hf.fonts.advance _ _ _ h4) (hf.fonts.bounds _ _ _ h5)
    exact ⟨wide w1, wide w2, wide w3, wide w4, wide w5, wide w6⟩
  · intro f c f' c' _ _
    rcases kern_at (e := e) (s := s) f f' c c' (ofInt 72) with h | ⟨h, a, b, n, h1, h2⟩
    · rw [h]; exact ⟨0, num_zero64, by rw [abs_zero]; exact hg.le⟩
    · rw [h2]
      have hn := hf.fonts.kern _ _ _ _ h1
      have hnq : |(n : ℚ)| ≤ 64 * K := by
        have : ((|n| : ℤ) : ℚ) ≤ ((64 * K : ℤ) : ℚ) := by exact_mod_cast hn
        push_cast at this; exact this
      have hn2 := abs_le.1 (hnq.trans (mul_le_mul_of_nonneg_left hf.kerns.1 (by norm_num)))
      have hin : In k (-1) 1 (ofInt n / ofInt 64 : F64) := by
        have nn : Num64 (ofInt n : F64) n := num_int (by
          have h3 : (K : ℤ) ≤ 2 ^ 40 := by exact_mod_cast hf.kerns.2
          have h4 : (64 : ℤ) * 2 ^ 40 ≤ 2 ^ 53 := by norm_num
          omega)
        exact in_of hk (by norm_num) (by norm_num) (q := n / 64) (by push_cast; linarith only [hn2.1]) (by push_cast; linarith only [hn2.2]) (div_num nn n64 (by norm_num))
      obtain ⟨w, w1, w2, w3⟩ := hin
      exact ⟨w, w1, abs_le.2 ⟨by push_cast at w2; linarith only [w2], by push_cast at w3; linarith only [w3]⟩⟩
  · intro f hsz
    show ∃ r, Num64 (ttfUnderline f (ofInt 72)) r ∧ 0 ≤ r ∧ r ≤ 2 ^ k
    unfold ttfUnderline
    rw [hsz]
    have n16 : Num64 (ofRat 1 16 : F64) (1 / 16) := by
      have h1 := num_rat (n := 1) (d := 16) (V := 1) (by norm_num) (by norm_num)
      have h2 := rnd_grid (k := -4) ⟨by norm_num, by norm_num⟩ (a := 1) (by norm_num)
      have h3 : ((1 : ℤ) : ℚ) * 2 ^ (-4 : ℤ) = 1 / 16 := by norm_num
      rw [h3] at h2
      have h4 := h1.1
      push_cast at h4
      rwa [h2] at h4
    obtain ⟨w, w1, w2, w3⟩ : In k 0 1 (ofRat 1 16 * size : F64) := in_of hk (by norm_num) (by norm_num) (q := 1 / 16 * q) (by push_cast; linarith only [q0])
      (by push_cast; linarith only [hq4, hg]) (mul_num n16 hs)
    obtain ⟨z, z1, z2, z3⟩ : In k 0 72 (ofRat 1 16 * size * ofInt 72 : F64) := in_of hk (by norm_num) (by norm_num) (q := w * 72) (by push_cast at w2 ⊢; linarith only [w2])
      (by push_cast at w3 ⊢; linarith only [w3]) (mul_num w1 n72)
    obtain ⟨y, y1, y2, y3⟩ : In k 0 1 (ofRat 1 16 * size * ofInt 72 / ofInt 72 : F64) := in_of hk (by norm_num) (by norm_num) (q := z / 72) (by push_cast at z2 ⊢; linarith only [z2])
      (by push_cast at z3 ⊢; linarith only [z3]) (div_num z1 n72 (by norm_num))
    exact ⟨y, y1, by simpa using y2, by simpa using y3⟩
  · have h1 : In k 0 288 (size * ofInt 72) := in_of hk (by norm_num) (by norm_num) (q := q * 72) (by push_cast; linarith only [q0]) (by push_cast; linarith only [hq4]) (mul_num hs n72)
    obtain ⟨w, w1, w2, w3⟩ := h1
    have h2 : In k 0 1 (size * ofInt 72 / ofInt 1200) := in_of hk (by norm_num) (by norm_num) (q := w / 1200) (by push_cast at w2 ⊢; linarith only [w2])
      (by push_cast at w3 ⊢; linarith only [w3, hg]) (div_num w1 n1200 (by norm_num))
    obtain ⟨w, w1, w2, w3⟩ := h2
    exact ⟨w, w1, by simpa using w2, by simpa using w3⟩
  · intro c hc f hsz hkn h hh
    obtain ⟨m', S, d', ft, rn, ps, g, adv, b, hm, hS', h1, h2, h3, h4, h5, h6⟩ := metrics_at hS (by rw [hsz]; exact hs) n72 hkn
    replace h1 := (tall_mode hc (hm rfl)).symm.trans h1
    have hps : ps ≠ bs!"Cmex10" := fun he => hf.fonts.name ft (by rw [h2, he])
    obtain ⟨tb1, tb2, tb3⟩ := hf.fonts.tall c hc f ft rn g b h1 h3 h5
    obtain ⟨-, ht⟩ := ttf_metrics64 (dpi := d') hS' q0.le apx_self q0.le lim hf.reach.2 hps (hf.fonts.advance _ _ _ h4) (hf.fonts.bounds _ _ _ h5)
    obtain ⟨t, i, nt, -, -, -, eh⟩ := ht tb1 tb2
    rw [h6] at hh
    cases isNum_unique nt hh
    have hD : (64 * T : ℚ) ≤ b.2.2.2 - b.2.1 := by exact_mod_cast tb3
    have hT1 : (1 : ℚ) ≤ T := by exact_mod_cast hf.high
    have A0 : q * T / 12 ≤ q * ((b.2.2.2 : ℚ) - b.2.1) / 768 := by
      have := mul_le_mul_of_nonneg_left hD q0.le
      linarith only [this]
    have A1 : q ≤ q * T := by have := mul_le_mul_of_nonneg_left hT1 q0.le; linarith only [this]
    have A2 : 0 ≤ q * ((b.2.2.2 : ℚ) - b.2.1) / 768 := by linarith only [A0, A1, q0]
    refine ⟨?_, fun φ p hφ p0 p1 hkn2 => ?_⟩
    · have hJ : (0 : ℚ) ≤ J := Nat.cast_nonneg J
      have e1 := (abs_le.1 eh).1
      have e2 : (6 : ℚ) / 2 ^ 52 * (q * ((b.2.2.2 : ℚ) - b.2.1) / 768) ≤ 1 / 1000 * (q * ((b.2.2.2 : ℚ) - b.2.1) / 768) :=
        mul_le_mul_of_nonneg_right (by norm_num) A2
      have e3 : (1 : ℚ) / 2 ^ 200 ≤ 1 / 1000 * (1 / 2 ^ 20) := by norm_num
      have e4 : q * T / 13 ≤ h := by linarith only [e1, e2, e3, A0, A1, hf.size.1]
      have e5 := mul_le_mul_of_nonneg_left e4 hJ
      linarith only [e5, hf.small]
    · have hqp : 0 ≤ q * p := mul_nonneg q0.le p0
      have hqp2 : q * p ≤ 2 ^ 123 := (mul_le_mul hf.size.2 p1 p0 (by norm_num)).trans (by norm_num)
      have hb : |rnd (q * p)| < 2 ^ (1024 : ℕ) := by
        apply lt_max64
        have := rnd_err240 (q * p)
        have a1 := abs_sub_abs_le_abs_sub (rnd (q * p)) (q * p)
        rw [abs_of_nonneg hqp] at this a1
        have a2 : (1 : ℚ) / 2 ^ 53 * (q * p) ≤ 1 * (q * p) := mul_le_mul_of_nonneg_right (by norm_num) hqp
        have a3 : (2 : ℚ) * 2 ^ 123 + 1 / 2 ^ 240 ≤ 2 ^ 250 := by norm_num
        linarith only [this, a1, a2, a3, hqp2]
      have nS : Num64 (size * φ) (rnd (q * p)) := mul_num hs hφ hb
      obtain ⟨m2, S2, d2, ft2, rn2, ps2, g2, adv2, b2, hm2, hS2, k1, k2, k3, k4, k5, k6⟩ :=
        metrics_at (f := { f with size := size * φ }) hS nS n72 hkn2
      replace k1 := (tall_mode hc (hm2 rfl)).symm.trans k1
      have k1 := (getGlyph_typ (e := e) (c := c) (f := f) (f' := { f with size := size * φ }) rfl true).symm.trans k1
      rw [h1] at k1
      cases k1
      rw [h2] at k2; cases k2
      rw [h3] at k3; cases k3
      rw [h4] at k4; cases k4
      rw [h5] at k5; cases k5
      obtain ⟨⟨w1, w2, -, -, -, -⟩, ht2⟩ := ttf_metrics64 (dpi := d2) hS2 (rnd_nonneg hqp) apx_times hqp hqp2 hf.reach.2 hps (hf.fonts.advance _ _ _ h4) (hf.fonts.bounds _ _ _ h5)
      obtain ⟨t2, i2, nt2, ni2, i0, it, eh2⟩ := ht2 tb1 tb2
      rw [k6]
      have hwide : R * (q * p) / 4 + 1 / 2 ^ 110 ≤ (p + 1) * 2 ^ k := by
        have a1 : p * (R * q / 12) ≤ p * (2 ^ k / 4) := mul_le_mul_of_nonneg_left hf.large p0
        have a2 : 0 ≤ p * 2 ^ k := mul_nonneg p0 hg.le
        linarith only [a1, a2, t110, hu]
      refine ⟨?_, ?_, t2, i2, nt2, ni2, by linarith only [i0, hg], by linarith only [it, hg], ?_⟩
      · obtain ⟨w, a, b⟩ := w1; exact ⟨w, a, b.trans hwide⟩
      · obtain ⟨w, a, b⟩ := w2; exact ⟨w, a, b.trans hwide⟩
      · exact tall_growth A2 p0 p1 hu eh eh2

theorem inches {x : F64} {q B : ℚ} (hx : Num64 x q) (hq : |q| ≤ B) (hB : B ≤ 2 ^ 60) : ∃ r, Num64 (x / ofInt 72) r ∧ |r| ≤ (B + 1) / 71 ∧ (0 ≤ q → 0 ≤ r) := by
  have n72 : Num64 (ofInt 72 : F64) 72 := by have := num_int (n := 72) (by norm_num); simpa using this
  have h := rnd_err240 (q / 72)
  have h1 := abs_sub_abs_le_abs_sub (rnd (q / 72)) (q / 72)
  have h2 : |q / 72| ≤ B / 72 := by rw [abs_div, abs_of_pos (by norm_num : (0 : ℚ) < 72)]; linarith only [hq]
  have h3 : (1 : ℚ) / 2 ^ 53 * |q / 72| ≤ 1 / 10000 * |q / 72| := mul_le_mul_of_nonneg_right (by norm_num) (abs_nonneg _)
  have h4 : (1 : ℚ) / 2 ^ 240 ≤ 1 / 71 := by norm_num
  have h5 : |rnd (q / 72)| ≤ (B + 1) / 71 := by
    have := (abs_nonneg q).trans hq
    linarith only [h, h1, h2, h3, h4, this]
  refine ⟨_, div_num hx n72 (by norm_num) (lt_max64 (h5.trans ?_)), h5, fun h0 => rnd_nonneg (by positivity)⟩
  have : ((2 : ℚ) ^ 60 + 1) / 71 ≤ 2 ^ 250 := by norm_num
  linarith only [this, hB]

theorem ceil_num {x : F64} {q : ℚ} (h : Num64 x q) (hq : |q| ≤ 2 ^ 51) : Num64 (ceil x) ⌈q⌉ := by
  cases x with
  | fin s a ha =>
    have e : F64.value s a = q := h
    show Num64 (F64.ofQ ⌈F64.value s a⌉ s) _
    rw [e]
    obtain ⟨h1, h2⟩ := abs_le.1 hq
    have h3 : (-2 ^ 51 : ℤ) ≤ ⌈q⌉ := by
      have := Int.le_ceil q
      have h4 : ((-2 ^ 51 : ℤ) : ℚ) ≤ (⌈q⌉ : ℤ) := by push_cast; linarith only [this, h1]
      exact_mod_cast h4
    have h4 : ⌈q⌉ ≤ 2 ^ 51 := Int.ceil_le.2 (by push_cast; exact h2)
    have h5 : |⌈q⌉| ≤ 2 ^ 53 := abs_le.2 ⟨by norm_num at h3 ⊢; omega, by norm_num at h4 ⊢; omega⟩
    have h6 : rnd (⌈q⌉ : ℚ) = ⌈q⌉ := by
      have := rnd_grid (k := 0) ⟨by norm_num, by norm_num⟩ h5
      simpa using this
    have h7 : Num64 (F64.ofQ (⌈q⌉ : ℚ) s) (rnd (⌈q⌉ : ℚ)) := ofQ_num (by
      rw [h6]
      apply lt_max64
      have h8 : |((⌈q⌉ : ℤ) : ℚ)| ≤ 2 ^ 53 := by exact_mod_cast h5
      exact h8.trans (by norm_num))
    rwa [h6] at h7
  | inf => exact h.elim
  | nan => exact h.elim

/-- **C94** mtex.Render with TrueType fonts, in float64: the size of the page given to the renderer is finite and bounded by the length
of the source, and everything it draws is at a finite place. -/
theorem C94_render (U : Nat → Bool) (e : TtfEnv H) (num : GoString → Option F64) (x : GoString) (size dpi : F64) (s : ℚ) (k : ℤ) (R T K J V : ℕ)
    (hk : e.KernFine) (hs : Num64 size s) (hf : RenderFits64 U e num x s k R T K J V)
    (hpts : (48 * x.length + 1) * (16 * ((8 * J + V) * (x.length + 3) ^ 2 * 2 ^ k)) ≤ (2 : ℚ) ^ 50)
    (c : RenderCall F64 H) (h : renderT U e num x size dpi = .ok c) :
    (∃ w a, Num64 c.w w ∧ Num64 c.h a ∧ |w| ≤ ((8 * J + V) * x.length ^ 2 * 2 ^ k + 1) / 71 ∧ 0 ≤ a ∧ a ≤ (4 * x.length * 2 ^ k + 2) / 71) ∧
      ∀ op ∈ c.ops, FinOp op := by
  have n72 : Num64 (ofInt 72 : F64) 72 := by have := num_int (n := 72) (by norm_num); simpa using this
  have h72 : GoFloat.eq (ofInt 72 : F64) (ofInt 72) = true := (((C87_compare _ _).1 _ _ n72 n72).2).2 rfl
  unfold renderT at h
  obtain ⟨⟨⟨nd, cs⟩, st0⟩, hpt, h⟩ := Res.bind_eq_ok.1 h
  obtain ⟨⟨st, cs'⟩, hsh, h⟩ := Res.bind_eq_ok.1 h
  obtain ⟨⟨u, st1⟩, hrun, h⟩ := Res.bind_eq_ok.1 h
  cases h
  dsimp only at hsh hrun ⊢
  have hsim := sim_parse U e num x size (ofInt 72) ⟨hk, h72⟩ .new (sound_new e)
  unfold Simul at hsim
  rw [hpt] at hsim
  obtain ⟨hx, hS, hc, -, hb⟩ := hsim
  have hparse := hb false st0 (.refl st0) hS
  have hb := ttf_bounded hf hs hS
  have fits : Fits64 U (e.backend (false, st0)) num x size (ofInt 72) k J V :=
    ⟨⟨by have := hf.unit.1; omega, hf.unit.2⟩, hf.ratio, hb, hf.numbers, hf.short⟩
  obtain ⟨w, a, b, nw, na, nb, hw, a0, b0, hab⟩ := C94_dimensions fits nd cs hparse
  obtain ⟨st2, st2', hsh2, -, hdr, -⟩ := C94_drawing fits nd cs hparse zero zero 0 0 num_zero64 num_zero64 (by rw [abs_zero]; positivity) (by rw [abs_zero]; positivity) _ rfl hpts
  rw [hsh] at hsh2
  cases hsh2
  have hg := two_zpow_pos k
  have l0 : (0 : ℚ) ≤ x.length := Nat.cast_nonneg _
  have D8 : (8 : ℚ) ≤ 8 * J + V := by
    have h1 : (1 : ℚ) ≤ J := by exact_mod_cast hf.ratio.1
    have h2 : (0 : ℚ) ≤ V := Nat.cast_nonneg V
    linarith only [h1, h2]
  have big : (8 * J + V) * ((x.length : ℚ) + 3) ^ 2 * 2 ^ k ≤ 2 ^ 50 := by
    have h1 : 0 ≤ (8 * J + V) * ((x.length : ℚ) + 3) ^ 2 * 2 ^ k := by positivity
    have h2 : 0 ≤ (x.length : ℚ) * ((8 * J + V) * ((x.length : ℚ) + 3) ^ 2 * 2 ^ k) := mul_nonneg l0 h1
    linarith only [hpts, h1, h2]
  have hw2 : (8 * J + V) * (x.length : ℚ) ^ 2 * 2 ^ k ≤ 2 ^ 50 := by
    refine le_trans ?_ big
    refine mul_le_mul_of_nonneg_right (mul_le_mul_of_nonneg_left ?_ (by linarith only [D8])) hg.le
    exact pow_le_pow_left₀ l0 (by linarith only) 2
  have h42 : 4 * (x.length : ℚ) * 2 ^ k ≤ 2 ^ 50 := by
    refine le_trans ?_ big
    refine mul_le_mul_of_nonneg_right ?_ hg.le
    have h1 : 8 * ((x.length : ℚ) + 3) ^ 2 ≤ (8 * J + V) * ((x.length : ℚ) + 3) ^ 2 := mul_le_mul_of_nonneg_right D8 (sq_nonneg _)
    have h2 : 8 * ((x.length : ℚ) + 3) ^ 2 = 8 * (x.length : ℚ) ^ 2 + 48 * x.length + 72 := by ring
    linarith only [h1, h2, l0, sq_nonneg (x.length : ℚ)]
  constructor
  · obtain ⟨r, r1, r2, -⟩ := inches nw hw (hw2.trans (by norm_num))
    have nm := max_num nb num_zero64
    rw [max_eq_left b0] at nm
    have hmid : MidExp k := ⟨by have := hf.unit.1; omega, hf.unit.2⟩
    have hin : In k 0 (4 * x.length : ℕ) (nd.box.height + GoFloat.max nd.box.depth zero) := in_of hmid (by norm_num)
      (by
        have h1 := hf.short
        have h2 : x.length ≤ (8 * J + V) * (x.length + 3) ^ 2 := by
          have h3 : 1 ≤ 8 * J + V := by have := hf.ratio.1; omega
          have h4 := Nat.mul_le_mul_right ((x.length + 3) ^ 2) h3
          have h5 : (x.length + 3) ^ 2 = x.length ^ 2 + 6 * x.length + 9 := by ring
          omega
        rw [abs_of_nonneg (by positivity)]
        have h6 : 4 * x.length ≤ 2 ^ 53 := by omega
        exact_mod_cast h6)
      (q := a + b) (by push_cast; linarith only [a0, b0]) (by push_cast; exact hab) (add_num na nm)
    obtain ⟨y, y1, y2, y3⟩ := hin
    push_cast at y2 y3
    rw [zero_mul] at y2
    have ny := ceil_num y1 (by rw [abs_of_nonneg y2]; exact (y3.trans h42).trans (by norm_num))
    have c0 : (0 : ℚ) ≤ (⌈y⌉ : ℤ) := by exact_mod_cast Int.ceil_nonneg y2
    have c1 : ((⌈y⌉ : ℤ) : ℚ) ≤ 4 * x.length * 2 ^ k + 1 := by
      have := (Int.ceil_lt_add_one y).le
      linarith only [this, y3]
    obtain ⟨t, t1, t2, t3⟩ := inches (B := 4 * x.length * 2 ^ k + 1) ny (by rw [abs_of_nonneg c0]; exact c1) (by
      have : (2 : ℚ) ^ 50 + 1 ≤ 2 ^ 60 := by norm_num
      linarith only [this, h42])
    refine ⟨r, t, r1, t1, r2, t3 c0, ?_⟩
    have := (abs_le.1 t2).2
    linarith only [this]
  · obtain ⟨ops, ho, hfa⟩ := runDraws_ops e st.ops st0 st1 hS hrun
    have hops : st1.canvas.ops = ops := by rw [ho, hc]; rfl
    rw [hops]
    clear hops ho hrun hsh
    dsimp only at hdr
    revert hdr
    generalize st.ops = l at hfa
    induction hfa with
    | nil => intro _ op hop; cases hop
    | @cons d op l ops h1 _ ih =>
      intro hdr op' hop
      rcases List.mem_cons.1 hop with rfl | hop
      · have hd := hdr d List.mem_cons_self
        cases d with
        | rect => rw [show op' = _ from h1]; exact hd
        | glyph x y f c dpi => obtain ⟨g, rfl, _⟩ := h1; exact hd
      · exact ih (fun d hd => hdr d (List.mem_cons_of_mem _ hd)) op' hop

/-! ## A concrete case -/

/-- Fonts all of whose glyphs are 7 points wide and 10 high, 2 of them below the base line, in which a pair of equal glyphs is kerned. -/
def lib64 : Sfnt Unit where
  name _ := some bs!"Ex"
  glyphIndex _ r := some r
  glyphName _ _ := some bs!"g"
  loadGlyph _ _ _ := true
  glyphAdvance _ _ _ := some 524288
  glyphBounds _ _ _ := some (0, -512, 448, 128)
  unitsPerEm _ := 2048
  kern _ a b _ := if a = b then .ok (-16) else .notFound
def env64 : TtfEnv Unit := ⟨lib64, ⟨some (), some (), some (), some (), some ()⟩, fun r => (65 ≤ r && r ≤ 90) || (97 ≤ r && r ≤ 122)⟩

theorem env64_fits (x : GoString) (hx : x.length ≤ 40000) : RenderFits64 (fun _ => false) env64 num64 x 12 5 8 10 1 4 5 := by
  refine ⟨⟨?_, ?_, ?_, ?_, ?_⟩, by norm_num, by norm_num, by norm_num, by norm_num, by norm_num, by norm_num, by norm_num, by norm_num,
    fun root p t v _ _ h => ?_, ?_⟩
  · intro h; simp only [env64, lib64]; decide
  · intro h g a ha; simp only [env64, lib64, Option.some.injEq] at ha; subst ha; norm_num
  · intro h g b hb; simp only [env64, lib64, Option.some.injEq] at hb; subst hb; norm_num
  · intro h a b k hk
    simp only [env64, lib64] at hk
    split at hk
    · cases hk; norm_num
    · cases hk
  · intro c _ f h r g b _ _ hb; simp only [env64, lib64, Option.some.injEq] at hb; subst hb; norm_num
  · unfold num64 at h
    split at h
    · simp only [Option.some.injEq] at h; subst h
      exact ⟨5, by have := num_int (n := 5) (by norm_num); simpa using this, by norm_num⟩
    · cases h
  · have h1 : (x.length + 3) ^ 2 ≤ 40003 ^ 2 := Nat.pow_le_pow_left (by omega) 2
    have h2 : (8 * 4 + 5) * 40003 ^ 2 ≤ 2 ^ 36 := by norm_num
    omega

example : env64.KernFine := fun h a b k => by simp only [env64, lib64]; split <;> simp
/-- The formula is rendered: the page has a positive size, and there are glyphs and lines on it. -/
example : (match renderT (fun _ => false) env64 num64 src64 (ofInt 12) (ofInt 100) with
    | .ok c => lt zero c.w && lt zero c.h && decide (5 ≤ c.ops.length)
    | _ => false) = true := by decide +kernel

/-- So is a text with parentheses in and around a formula. -/
example : (match renderT (fun _ => false) env64 num64 bs!"f (x) is $\\sqrt{(x)}$" (ofInt 12) (ofInt 100) with
    | .ok c => lt zero c.w && lt zero c.h && decide (5 ≤ c.ops.length)
    | _ => false) = true := by decide +kernel

/-- They are short enough. -/
example : (48 * (src64.length : ℚ) + 1) * (16 * ((8 * (4 : ℕ) + (5 : ℕ)) * (src64.length + 3) ^ 2 * 2 ^ (5 : ℤ))) ≤ 2 ^ 50 := by
  have : src64.length = 58 := by decide
  rw [this]
  norm_num

end Verif.Props
