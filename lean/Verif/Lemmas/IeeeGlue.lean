import Verif.Lemmas.IeeeErr
/-! # Glue in float64 and with exact numbers -/

namespace Verif
open GoFloat Spec

/-- The error of any rounding. -/
theorem rnd_err (r : ℚ) : |rnd r - r| ≤ unit64 * |r| + 1 / 4 := by
  rw [rnd_sub]
  rcases eq_or_lt_of_le (abs_nonneg r) with h | h
  · rw [← h, rne_zero]; norm_num
  by_cases hb : -1074 ≤ Int.log 2 |r| - 52
  · have := rne_rel h hb; linarith
  · have h1 := rne_err |r|
    have h2 : lastBit |r| = -1074 := max_eq_right (by omega)
    rw [h2] at h1
    have h3 : (2 : ℚ) ^ (-1074 : ℤ) / 2 ≤ 1 / 4 := by
      have : (2 : ℚ) ^ (-1074 : ℤ) ≤ 2 ^ (-1 : ℤ) := zpow_le_zpow_right₀ (by norm_num) (by norm_num)
      have e : (2 : ℚ) ^ (-1 : ℤ) = 1 / 2 := by norm_num
      rw [e] at this
      linarith only [this]
    have h4 := mul_nonneg unit64_nonneg (abs_nonneg r)
    linarith only [h1, h3, h4]

/-- An integer of 53 bits. -/
theorem num_ofInt {n : ℤ} (h : |n| ≤ 2 ^ 53) : Num64 (ofInt n : F64) n := by
  have hr : rnd (n : ℚ) = n := by
    have hrep : Rep |(n : ℚ)| := by
      refine ⟨⟨n.natAbs, 0, ?_, by norm_num, ?_⟩, ?_⟩
      · zify; exact h
      · rw [zpow_zero, mul_one, Nat.cast_natAbs, Int.cast_abs]
      · have h1 : |(n : ℚ)| ≤ 2 ^ (53 : ℕ) := by exact_mod_cast h
        have h2 : (2 : ℚ) ^ (53 : ℕ) < 2 ^ (1024 : ℕ) := pow_lt_pow_right₀ (by norm_num) (by norm_num)
        exact lt_of_le_of_lt h1 h2
    have := rne_rep hrep
    unfold rnd
    by_cases hn : (n : ℚ) < 0
    · rw [if_pos hn]; rw [abs_of_neg hn] at this; rw [this, neg_neg]
    · rw [if_neg hn]; rw [abs_of_nonneg (not_lt.1 hn)] at this; exact this
  show Num64 (F64.ofQ ((n : ℚ) / ((1 : ℕ) : ℚ)) false) n
  rw [Nat.cast_one, div_one]
  have h1 : |(n : ℚ)| ≤ 2 ^ (53 : ℕ) := by exact_mod_cast h
  have h2 : (2 : ℚ) ^ (53 : ℕ) < 2 ^ (1024 : ℕ) := pow_lt_pow_right₀ (by norm_num) (by norm_num)
  have := ofQ_num (q := (n : ℚ)) (z := false) (by rw [hr]; exact lt_of_le_of_lt h1 h2)
  rwa [hr] at this

/-- What `clamp` does to a number. -/
def clampQ (r : ℚ) : ℚ := if r < -1000000000 then -1000000000 else if 1000000000 < r then 1000000000 else r

theorem clampQ_le (r : ℚ) : |clampQ r| ≤ |r| ∧ |clampQ r| ≤ 1000000000 := by
  unfold clampQ
  split_ifs with h1 h2
  · rw [abs_of_neg (by linarith : r < 0)]; norm_num; linarith
  · rw [abs_of_pos (by linarith : 0 < r)]; norm_num; linarith
  · exact ⟨le_rfl, abs_le.2 ⟨by linarith, by linarith⟩⟩

theorem clampQ_near (a b : ℚ) : |clampQ a - clampQ b| ≤ |a - b| := by
  have h := le_abs_self (a - b)
  have h' := neg_le_abs (a - b)
  unfold clampQ
  rw [abs_le]
  split_ifs <;> constructor <;> linarith

theorem clampQ_xr (r : ℚ) : clamp (.fin r : XR) = .fin (clampQ r) := by
  unfold clamp clampQ
  rw [XR.ofInt_fin, XR.ofInt_fin, XR.fin_lt, XR.fin_lt]
  norm_num
  split_ifs <;> rfl

theorem lt_num {x y : F64} {p q : ℚ} (hx : Num64 x p) (hy : Num64 y q) : lt x y = decide (p < q) := by
  rw [← exact64_lt, exact_num hx, exact_num hy, XR.fin_lt]

theorem clampQ_num {x : F64} {r : ℚ} (h : Num64 x r) : Num64 (clamp x) (clampQ r) := by
  have h1 := num_ofInt (n := -1000000000) (by norm_num)
  have h2 := num_ofInt (n := 1000000000) (by norm_num)
  push_cast at h1 h2
  unfold clamp clampQ
  rw [lt_num h h1, lt_num h2 h]
  by_cases c1 : r < -1000000000
  · rw [if_pos (by simpa using c1), if_pos c1]; exact h1
  · rw [if_neg (by simpa using c1), if_neg c1]
    by_cases c2 : 1000000000 < r
    · rw [if_pos (by simpa using c2), if_pos c2]; exact h2
    · rw [if_neg (by simpa using c2), if_neg c2]; exact h

theorem round_num {x : F64} {r : ℚ} (h : Num64 x r) : round x = XR.roundQ r := by
  cases x with
  | fin s a ha => rw [← show F64.value s a = r from h]; rfl
  | inf => exact h.elim
  | nan => exact h.elim

/-- Two numbers less than 1 apart round to the same integer or to neighbours. -/
theorem round_near {a b : ℚ} (h : |a - b| < 1) : |XR.roundQ a - XR.roundQ b| ≤ 1 := by
  have h1 := abs_le.1 (XR.roundQ_near a)
  have h2 := abs_le.1 (XR.roundQ_near b)
  have h3 := abs_lt.1 h
  have : |((XR.roundQ a - XR.roundQ b : ℤ) : ℚ)| < 2 := by
    push_cast
    rw [abs_lt]
    constructor <;> linarith [h1.1, h1.2, h2.1, h2.2, h3.1, h3.2]
  have : |XR.roundQ a - XR.roundQ b| < 2 := by exact_mod_cast this
  omega

/-- Glue set in float64 and with exact numbers. -/
theorem set_near {n N : ℕ} {A R s : ℚ} {set z : F64} {z' : XR} (hs : Num64 set s) (hz : ErrX n A z z') (hn : n + 1 ≤ N) (hN : N ≤ 2 ^ 52)
    (hR : |s| * A ≤ R) (hNR : N * R ≤ 2 ^ 50) :
    |round (clamp (set * z)) - round (clamp (exact64 set * z'))| ≤ 1 ∧ |((round (clamp (set * z)) : ℤ) : ℚ)| ≤ R + 1 ∧
      |round (clamp (set * z))| ≤ 2 ^ 53 := by
  obtain ⟨p, q, hp, rfl, h3, h4⟩ := hz
  have hu := unit64_nonneg
  have hR0 : 0 ≤ R := le_trans (mul_nonneg (abs_nonneg s) ((abs_nonneg q).trans h4)) hR
  have hP := one_le_pow_unit n
  -- the error of the product
  have h5 : |s * p - s * q| ≤ ((1 + unit64) ^ n - 1) * R := by
    rw [← mul_sub, abs_mul]
    calc _ ≤ |s| * (((1 + unit64) ^ n - 1) * A) := mul_le_mul_of_nonneg_left h3 (abs_nonneg s)
      _ = ((1 + unit64) ^ n - 1) * (|s| * A) := by ring
      _ ≤ _ := mul_le_mul_of_nonneg_left hR (by linarith)
  have h6 : |s * q| ≤ R := by
    rw [abs_mul]; exact (mul_le_mul_of_nonneg_left h4 (abs_nonneg s)).trans hR
  have h7 : |s * p| ≤ (1 + unit64) ^ n * R := by
    have := abs_add_le (s * p - s * q) (s * q)
    rw [sub_add_cancel] at this
    linarith
  have h8 := rnd_err (s * p)
  have h9 : unit64 * |s * p| ≤ unit64 * ((1 + unit64) ^ n * R) := mul_le_mul_of_nonneg_left h7 hu
  have hall : |rnd (s * p) - s * q| ≤ ((1 + unit64) ^ (n + 1) - 1) * R + 1 / 4 := by
    have := abs_add_le (rnd (s * p) - s * p) (s * p - s * q)
    rw [sub_add_sub_cancel] at this
    rw [pow_succ]
    nlinarith
  have hsm : ((1 + unit64) ^ (n + 1) - 1) * R ≤ 1 / 4 := by
    have e1 : (1 + unit64) ^ (n + 1) ≤ (1 + unit64) ^ N := pow_le_pow_right₀ (by linarith) hn
    have e2 := pow_unit64 N hN
    have e3 : ((1 + unit64) ^ (n + 1) - 1) * R ≤ N / 2 ^ 52 * R := mul_le_mul_of_nonneg_right (by linarith) hR0
    have e4 : (N : ℚ) / 2 ^ 52 * R = N * R / 2 ^ 52 := by ring
    rw [e4] at e3
    refine e3.trans ?_
    rw [div_le_iff₀ (by norm_num)]
    refine hNR.trans (by norm_num)
  have hd : |rnd (s * p) - s * q| ≤ 1 / 2 := by linarith
  have hR50 : R ≤ 2 ^ 50 := by
    have : (1 : ℚ) ≤ N := by exact_mod_cast (by omega : 1 ≤ N)
    nlinarith
  have hr : |rnd (s * p)| ≤ R + 1 / 2 := by
    have := abs_add_le (rnd (s * p) - s * q) (s * q)
    rw [sub_add_cancel] at this
    linarith
  have hbig : |rnd (s * p)| < 2 ^ (1024 : ℕ) := by
    have h2 : (2 : ℚ) ^ (51 : ℕ) < 2 ^ (1024 : ℕ) := pow_lt_pow_right₀ (by norm_num) (by norm_num)
    refine lt_of_le_of_lt (hr.trans ?_) h2
    norm_num at hR50 ⊢
    linarith
  have hm := clampQ_num (mul_num hs hp hbig)
  rw [exact_num hs, XR.fin_mul, clampQ_xr, round_num hm]
  show |XR.roundQ _ - XR.roundQ _| ≤ 1 ∧ _
  obtain ⟨c1, c2⟩ := clampQ_le (rnd (s * p))
  have hq := XR.roundQ_near (clampQ (rnd (s * p)))
  have hab : |((XR.roundQ (clampQ (rnd (s * p))) : ℤ) : ℚ)| ≤ |clampQ (rnd (s * p))| + 1 / 2 := by
    have := abs_add_le (((XR.roundQ (clampQ (rnd (s * p))) : ℤ) : ℚ) - clampQ (rnd (s * p))) (clampQ (rnd (s * p)))
    rw [sub_add_cancel] at this
    linarith
  refine ⟨round_near (lt_of_le_of_lt ((clampQ_near _ _).trans hd) (by norm_num)), by linarith, ?_⟩
  have : |((XR.roundQ (clampQ (rnd (s * p))) : ℤ) : ℚ)| ≤ 2 ^ 53 := by norm_num; linarith
  exact_mod_cast this

/-- `x` is `y`, less `d`, after `n` roundings of numbers of size `S` at most. -/
def ErrD (n : ℕ) (S d : ℚ) (x : F64) (y : XR) : Prop := ∃ q, y = .fin q ∧ ErrX n S x (.fin (q - d))

theorem ErrD.mono {n m : ℕ} {S T d : ℚ} {x : F64} {y : XR} (h : ErrD n S d x y) (hn : n ≤ m) (hS : S ≤ T) : ErrD m T d x y := by
  obtain ⟨q, h1, h2⟩ := h
  exact ⟨q, h1, err_mono h2 hn hS⟩

theorem ErrX.d {n : ℕ} {S : ℚ} {x : F64} {y : XR} (h : ErrX n S x y) : ErrD n S 0 x y := by
  obtain ⟨p, q, h1, h2, h3, h4⟩ := h
  exact ⟨q, h2, p, q, h1, by rw [sub_zero], h3, h4⟩

theorem ErrD.size {n : ℕ} {S d : ℚ} {x : F64} {y : XR} (h : ErrD n S d x y) : 0 ≤ S := by
  obtain ⟨q, h1, h2⟩ := h
  exact err_size h2

theorem ErrD.cast {n : ℕ} {S d d' : ℚ} {x : F64} {y : XR} (h : ErrD n S d x y) (e : d = d') : ErrD n S d' x y := e ▸ h

variable {N : ℕ} {T : ℚ}

theorem addD (hT : (1 + unit64) ^ N * T < 2 ^ (1024 : ℕ)) {n : ℕ} {S S' d d' : ℚ} {x x' : F64} {y y' : XR} (h : ErrD n S d x y) (h' : ErrD n S' d' x' y')
    (hn : n + 1 ≤ N) (hS : S + S' ≤ T) : ErrD (n + 1) (S + S') (d + d') (x + x') (y + y') := by
  obtain ⟨q, rfl, h2⟩ := h
  obtain ⟨q', rfl, h2'⟩ := h'
  refine ⟨q + q', rfl, ?_⟩
  have := add_err hT h2 h2' hn hS
  rwa [XR.fin_add, show q - d + (q' - d') = q + q' - (d + d') by ring] at this

theorem add_errD (hT : (1 + unit64) ^ N * T < 2 ^ (1024 : ℕ)) {n : ℕ} {S S' d : ℚ} {x x' : F64} {y y' : XR} (h : ErrD n S d x y) (h' : ErrX n S' x' y')
    (hn : n + 1 ≤ N) (hS : S + S' ≤ T) : ErrD (n + 1) (S + S') d (x + x') (y + y') := by
  have := addD hT h h'.d hn hS
  rwa [add_zero] at this

theorem sub_errD (hT : (1 + unit64) ^ N * T < 2 ^ (1024 : ℕ)) {n : ℕ} {S S' d : ℚ} {x x' : F64} {y y' : XR} (h : ErrD n S d x y) (h' : ErrX n S' x' y')
    (hn : n + 1 ≤ N) (hS : S + S' ≤ T) : ErrD (n + 1) (S + S') d (x - x') (y - y') := by
  rw [sub_def64, XR.sub_add']
  exact add_errD hT h (neg_err h') hn hS

theorem offD {G : ℚ} {n : ℕ} {S d : ℚ} {x : F64} {y : XR} (h : ErrD n S d x y) (hn : n ≤ N) (hS : S ≤ T) (hd : |d| ≤ G) :
    ∃ q, y = .fin q ∧ Off64 (((1 + unit64) ^ N - 1) * T + G) x q := by
  obtain ⟨q, h1, h2⟩ := h
  obtain ⟨p, q', h3, h4, h5, -⟩ := err_mono h2 hn hS
  cases h4
  refine ⟨q, h1, p, h3, ?_⟩
  have := abs_add_le (p - (q - d)) (-d)
  rw [abs_neg, show p - (q - d) + -d = p - q by ring] at this
  linarith

/-- The glue variables of Ship in float64 and with exact numbers. -/
def GlueRel (R : ℚ) (hd : LHead F64) (k : ℕ) (A : ℚ) (q : GlueSt F64) (q' : GlueSt XR) : Prop :=
  (hd.sign = 0 → q = .zero ∧ q' = .zero) ∧
  (hd.sign ≠ 0 → ErrX k A q.glue q'.glue ∧ |q.g - q'.g| ≤ 1 ∧ |(q.g : ℚ)| ≤ R + 1 ∧ |q.g| ≤ 2 ^ 53)

theorem GlueRel.mono {R : ℚ} {hd : LHead F64} {k k' : ℕ} {A A' : ℚ} {q : GlueSt F64} {q' : GlueSt XR} (h : GlueRel R hd k A q q') (hk : k ≤ k')
    (hA : A ≤ A') : GlueRel R hd k' A' q q' := ⟨h.1, fun hs => ⟨err_mono (h.2 hs).1 hk hA, (h.2 hs).2⟩⟩

theorem GlueRel.zero {R : ℚ} (hR : 0 ≤ R) (hd : LHead F64) (k : ℕ) : GlueRel R hd k 0 .zero .zero := by
  refine ⟨fun _ => ⟨rfl, rfl⟩, fun _ => ⟨?_, by decide, ?_, by decide⟩⟩
  · have := err_num fin_zero64 k
    rwa [size_zero64, exact64_zero] at this
  · show |((0 : ℤ) : ℚ)| ≤ R + 1
    simp; linarith

/-- How far apart the glue variables may be. -/
def setSlack (hd : LHead F64) : ℚ := if hd.sign = 0 then 0 else 1

theorem GlueRel.slack {R : ℚ} {hd : LHead F64} {k : ℕ} {A : ℚ} {q : GlueSt F64} {q' : GlueSt XR} (h : GlueRel R hd k A q q') :
    |(q'.g : ℚ) - q.g| ≤ Verif.setSlack hd := by
  unfold Verif.setSlack
  by_cases hs : hd.sign = 0
  · obtain ⟨rfl, rfl⟩ := h.1 hs
    rw [if_pos hs]
    show |((0 : ℤ) : ℚ) - ((0 : ℤ) : ℚ)| ≤ 0
    simp
  · rw [if_neg hs, abs_sub_comm]
    have := (h.2 hs).2.1
    exact_mod_cast this

/-- The stretch and the shrink of a node. -/
def glueLeeway : TNode F64 → ℚ
  | .glue g => glueSize g
  | _ => 0

/-- What is known of the glue of a list that holds `n`. -/
def GlueFin (R B : ℚ) (hd : LHead F64) : TNode F64 → Prop
  | .glue g => hd.sign ≠ 0 → Fin64 g.stretch ∧ Fin64 g.shrink ∧ Fin64 hd.set ∧ size64 hd.set * B ≤ R
  | _ => True

theorem glue_errD (hT : (1 + unit64) ^ N * T < 2 ^ (1024 : ℕ)) {R B : ℚ} (hN' : N ≤ 2 ^ 52) (hNR : N * R ≤ 2 ^ 50) {hd : LHead F64} {g : GlueD F64} (hg : Fin64 g.width)
    (hf : GlueFin R B hd (.glue g)) {k : ℕ} {A : ℚ} {q : GlueSt F64} {q' : GlueSt XR} (hq : GlueRel R hd k A q q') (hA : A + glueLeeway (.glue g) ≤ B)
    (hN : k + 3 ≤ N) (hB : hd.sign ≠ 0 → B ≤ T) (hS : size64 g.width + (if hd.sign = 0 then 0 else 2 * (R + 1)) ≤ T) :
    ErrD (k + 2) (size64 g.width + (if hd.sign = 0 then 0 else 2 * (R + 1)))
      ((((glueStep (exactHead hd) (exactGlue g) q').2.g : ℚ) - (glueStep hd g q).2.g) - ((q'.g : ℚ) - q.g))
      (glueStep hd g q).1 (glueStep (exactHead hd) (exactGlue g) q').1 ∧
      GlueRel R hd (k + 2) (A + glueLeeway (.glue g)) (glueStep hd g q).2 (glueStep (exactHead hd) (exactGlue g) q').2 := by
  have hl : glueLeeway (.glue g) = size64 g.stretch + size64 g.shrink := rfl
  have hl1 := size64_nonneg g.stretch
  have hl2 := size64_nonneg g.shrink
  -- the width, given the variables
  have hwid : ∀ (q q1 : GlueSt F64) (q' q1' : GlueSt XR) (K : ℚ), |(q.g : ℚ)| ≤ K → |(q1.g : ℚ)| ≤ K → |q.g| ≤ 2 ^ 53 → |q1.g| ≤ 2 ^ 53 → size64 g.width + 2 * K ≤ T →
      ErrD (k + 2) (size64 g.width + 2 * K) (((q1'.g : ℚ) - q1.g) - ((q'.g : ℚ) - q.g)) (g.width - ofInt q.g + ofInt q1.g)
        ((exactGlue g).width - ofInt q'.g + ofInt q1'.g) := by
    intro q q1 q' q1' K h1 h2 h3 h4 h5
    obtain ⟨w, hw⟩ := hg
    have hK : 0 ≤ K := (abs_nonneg _).trans h1
    have e0 := err_num ⟨w, hw⟩ k
    have eq := num_ofInt h3
    have eq1 := num_ofInt h4
    have e1 := err_num ⟨_, eq⟩ k
    have e2 := err_num ⟨_, eq1⟩ (k + 1)
    rw [exact_num eq] at e1
    rw [exact_num eq1] at e2
    rw [size64_num eq] at e1
    rw [size64_num eq1] at e2
    have f1 := sub_err hT e0 (err_mono e1 le_rfl h1) (by omega) (by linarith)
    have f2 := add_err hT f1 (err_mono e2 le_rfl h2) (by omega) (by linarith)
    rw [exact_num hw, XR.fin_sub, XR.fin_add] at f2
    refine ⟨w - q'.g + q1'.g, ?_, ?_⟩
    · show exact64 g.width - _ + _ = _
      rw [exact_num hw, XR.ofInt_fin, XR.ofInt_fin, XR.fin_sub, XR.fin_add]
    · rw [show w - (q'.g : ℚ) + q1'.g - ((q1'.g : ℚ) - q1.g - ((q'.g : ℚ) - q.g)) = w - q.g + q1.g by ring]
      exact err_mono f2 le_rfl (by linarith)
  by_cases hs : hd.sign = 0
  · obtain ⟨rfl, rfl⟩ := hq.1 hs
    have hs' : (exactHead hd).sign = 0 := hs
    have e : glueStep hd g .zero = (g.width - ofInt 0 + ofInt 0, .zero) := by
      unfold glueStep; rw [if_neg (by simp [hs])]; rfl
    have e' : glueStep (exactHead hd) (exactGlue g) .zero = ((exactGlue g).width - ofInt 0 + ofInt 0, .zero) := by
      unfold glueStep; rw [if_neg (by simp [hs'])]; rfl
    rw [e, e', if_pos hs, add_zero]
    rw [if_pos hs, add_zero] at hS
    refine ⟨?_, fun _ => ⟨rfl, rfl⟩, fun h => absurd hs h⟩
    have hz : |(((GlueSt.zero : GlueSt F64).g : ℤ) : ℚ)| ≤ 0 := by show |((0 : ℤ) : ℚ)| ≤ 0; simp
    have := hwid .zero .zero .zero .zero 0 hz hz (by decide) (by decide) (by linarith)
    rwa [mul_zero, add_zero] at this
  · obtain ⟨hq1, hq2, hq3, hq4⟩ := hq.2 hs
    obtain ⟨f1, f2, ⟨s, f3⟩, f4⟩ := hf hs
    have hB' := hB hs
    rw [if_neg hs] at hS ⊢
    rw [size64_num f3] at f4
    have hz0 := abs_nonneg s
    have keep : GlueRel R hd (k + 2) (A + glueLeeway (.glue g)) q q' :=
      hq.mono (by omega) (by rw [hl]; linarith)
    have moved : ∀ z : F64, Fin64 z → size64 z ≤ glueLeeway (.glue g) →
        ErrX (k + 2) (A + glueLeeway (.glue g)) (q.glue + z) (q'.glue + exact64 z) ∧
        |round (clamp (hd.set * (q.glue + z))) - round (clamp (exact64 hd.set * (q'.glue + exact64 z)))| ≤ 1 ∧
        |((round (clamp (hd.set * (q.glue + z))) : ℤ) : ℚ)| ≤ R + 1 ∧ |round (clamp (hd.set * (q.glue + z)))| ≤ 2 ^ 53 := by
      intro z hz hz'
      have e1 := add_err hT hq1 (err_mono (err_num hz k) le_rfl hz') (by omega) (by linarith)
      exact ⟨err_mono e1 (by omega) le_rfl, set_near f3 e1 (by omega) hN' ((mul_le_mul_of_nonneg_left hA hz0).trans f4) hNR⟩
    have fin : ∀ (q1 : GlueSt F64) (q1' : GlueSt XR), glueStep hd g q = (g.width - ofInt q.g + ofInt q1.g, q1) →
        glueStep (exactHead hd) (exactGlue g) q' = ((exactGlue g).width - ofInt q'.g + ofInt q1'.g, q1') →
        GlueRel R hd (k + 2) (A + glueLeeway (.glue g)) q1 q1' →
        ErrD (k + 2) (size64 g.width + 2 * (R + 1))
          ((((glueStep (exactHead hd) (exactGlue g) q').2.g : ℚ) - (glueStep hd g q).2.g) - ((q'.g : ℚ) - q.g))
          (glueStep hd g q).1 (glueStep (exactHead hd) (exactGlue g) q').1 ∧
        GlueRel R hd (k + 2) (A + glueLeeway (.glue g)) (glueStep hd g q).2 (glueStep (exactHead hd) (exactGlue g) q').2 := by
      intro q1 q1' e e' hr
      obtain ⟨-, -, r3, r4⟩ := hr.2 hs
      rw [e, e']
      exact ⟨hwid q q1 q' q1' (R + 1) hq3 r3 hq4 r4 hS, hr⟩
    by_cases h1 : hd.sign = 1
    · by_cases h2 : g.stretchOrder = hd.order
      · obtain ⟨m1, m2, m3, m4⟩ := moved g.stretch f1 (by rw [hl]; linarith)
        refine fin ⟨round (clamp (hd.set * (q.glue + g.stretch))), q.glue + g.stretch⟩
          ⟨round (clamp (exact64 hd.set * (q'.glue + exact64 g.stretch))), q'.glue + exact64 g.stretch⟩ ?_ ?_ ⟨fun h => absurd h hs, fun _ => ⟨m1, m2, m3, m4⟩⟩
        · unfold glueStep; simp only [if_pos hs, if_pos h1, if_pos h2]
        · unfold glueStep
          simp only [show (exactHead hd).sign = hd.sign from rfl, show (exactHead hd).order = hd.order from rfl,
            show (exactGlue g).stretchOrder = g.stretchOrder from rfl, if_pos hs, if_pos h1, if_pos h2]
          rfl
      · refine fin q q' ?_ ?_ keep
        · unfold glueStep; simp only [if_pos hs, if_pos h1, if_neg h2]
        · unfold glueStep
          simp only [show (exactHead hd).sign = hd.sign from rfl, show (exactHead hd).order = hd.order from rfl,
            show (exactGlue g).stretchOrder = g.stretchOrder from rfl, if_pos hs, if_pos h1, if_neg h2]
    · by_cases h2 : g.shrinkOrder = hd.order
      · obtain ⟨m1, m2, m3, m4⟩ := moved g.shrink f2 (by rw [hl]; linarith)
        refine fin ⟨round (clamp (hd.set * (q.glue + g.shrink))), q.glue + g.shrink⟩
          ⟨round (clamp (exact64 hd.set * (q'.glue + exact64 g.shrink))), q'.glue + exact64 g.shrink⟩ ?_ ?_ ⟨fun h => absurd h hs, fun _ => ⟨m1, m2, m3, m4⟩⟩
        · unfold glueStep; simp only [if_pos hs, if_neg h1, if_pos h2]
        · unfold glueStep
          simp only [show (exactHead hd).sign = hd.sign from rfl, show (exactHead hd).order = hd.order from rfl,
            show (exactGlue g).shrinkOrder = g.shrinkOrder from rfl, if_pos hs, if_neg h1, if_pos h2]
          rfl
      · refine fin q q' ?_ ?_ keep
        · unfold glueStep; simp only [if_pos hs, if_neg h1, if_neg h2]
        · unfold glueStep
          simp only [show (exactHead hd).sign = hd.sign from rfl, show (exactHead hd).order = hd.order from rfl,
            show (exactGlue g).shrinkOrder = g.shrinkOrder from rfl, if_pos hs, if_neg h1, if_neg h2]

end Verif
