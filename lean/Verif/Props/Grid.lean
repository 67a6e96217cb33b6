import Verif.Lemmas.GridShip
import Verif.Props.Size
import Verif.Props.Ieee
/-! # C94: layouts stay finite in float64 -/

namespace Verif.Props
open Verif Spec GoFloat

variable {U : Nat → Bool} {be : Backend F64} {num : GoString → Option F64} {x : GoString} {size dpi : F64} {k : ℤ} {J V : ℕ}

theorem fits_layout (hf : Fits64 U be num x size dpi k J V) {hd : LHead F64} {cs : List (TNode F64)} (h : mtexParse U be num x size dpi = .ok (hd, cs)) :
    ∃ a b W, a + b ≤ 4 * x.length ∧ W ≤ (8 * J + V) * x.length ^ 2 ∧ HBx k ((8 * J + V) * (x.length + 3) ^ 2) a b W hd cs := by
  have G : Grid k J V x.length (8 * J + V) ((8 * J + V) * (x.length + 3) ^ 2) := by
    refine ⟨hf.unit, hf.ratio.1, hf.ratio.2, rfl, ?_, hf.short⟩
    have h8 : 8 ≤ 8 * J + V := by have := hf.ratio.1; omega
    generalize 8 * J + V = D at h8
    have h1 := Nat.mul_le_mul_right (6 * x.length + 9) h8
    have h2 : D * (x.length + 3) ^ 2 = D * x.length ^ 2 + D * (6 * x.length + 9) := by ring
    omega
  rw [mtexParse] at h
  obtain ⟨root, hp, h'⟩ := Res.bind_eq_ok.1 h
  obtain ⟨l, hl, e⟩ := Res.bind_eq_ok.1 h'
  rw [collect_eq] at hl
  obtain ⟨nl, rfl, -, h2⟩ := parse_size hp
  rw [walkN] at hl
  have hv : NumsIn num V nl := fun p t ht v hv => hf.numbers _ p t v hp (by simp only [allNodes, List.mem_cons]; exact .inr ht) hv
  have g := walkAll_grid G hf.fonts nl (initState size dpi) ⟨rfl, rfl, by simp [initState]⟩ false hv h2 l hl
  obtain ⟨a, b, W, h3, h4, -, h5⟩ := (g.mono h2).body G hf.fonts le_rfl
  cases e
  exact ⟨a, b, W, h3, h4, h5⟩

/-- **C94** The dimensions of what mtex.Parse returns are finite in float64: for `n` bytes the width is at most `(8 J + V) n²` units, and height and
depth, which are not negative, together at most `4 n` units. -/
theorem C94_dimensions (hf : Fits64 U be num x size dpi k J V) (hd : LHead F64) (cs : List (TNode F64))
    (h : mtexParse U be num x size dpi = .ok (hd, cs)) :
    ∃ w a b, Num64 hd.box.width w ∧ Num64 hd.box.height a ∧ Num64 hd.box.depth b ∧
      |w| ≤ (8 * J + V) * x.length ^ 2 * 2 ^ k ∧ 0 ≤ a ∧ 0 ≤ b ∧ a + b ≤ 4 * x.length * 2 ^ k := by
  obtain ⟨A, B, W, h1, h2, h3⟩ := fits_layout hf h
  have hg := two_zpow_pos k
  obtain ⟨w, hw, w1, w2⟩ := h3.width
  obtain ⟨a, ha, a1, a2⟩ := h3.height
  obtain ⟨b, hb, b1, b2⟩ := h3.depth
  refine ⟨w, a, b, hw, ha, hb, ?_, by simpa using a1, by simpa using b1, ?_⟩
  · have h2' : (W : ℚ) * 2 ^ k ≤ (8 * J + V) * x.length ^ 2 * 2 ^ k := mul_le_mul_of_nonneg_right (by exact_mod_cast h2) hg.le
    push_cast at w1 w2
    exact abs_le.2 ⟨by linarith, by linarith⟩
  · have h1' : ((A : ℚ) + B) * 2 ^ k ≤ 4 * x.length * 2 ^ k := mul_le_mul_of_nonneg_right (by exact_mod_cast h1) hg.le
    push_cast at a2 b2
    linarith

theorem fits_trees (hf : Fits64 U be num x size dpi k J V) {hd : LHead F64} {cs : List (TNode F64)} (h : mtexParse U be num x size dpi = .ok (hd, cs)) :
    GHead k ((8 * J + V) * (x.length + 3) ^ 2) hd cs ∧ GTs k ((8 * J + V) * (x.length + 3) ^ 2) false cs := by
  obtain ⟨A, B, W, h1, h2, h3⟩ := fits_layout hf h
  have h8 : 8 ≤ 8 * J + V := by have := hf.ratio.1; omega
  have e1 : W ≤ (8 * J + V) * (x.length + 3) ^ 2 := h2.trans (Nat.mul_le_mul_left _ (Nat.pow_le_pow_left (by omega) 2))
  have e2 : A + B ≤ (8 * J + V) * (x.length + 3) ^ 2 := by
    generalize 8 * J + V = D at h8
    have h1 := Nat.mul_le_mul_right (6 * x.length + 9) h8
    have h2 : D * (x.length + 3) ^ 2 = D * x.length ^ 2 + D * (6 * x.length + 9) := by ring
    omega
  have := h3.tree e1 (by omega) (by omega) false
  simp only [GT] at this
  exact this.2

/-- **C94** All lengths of all boxes in it are finite, and no glue is stretched or shrunk by more than `16 (8 J + V) (n + 3)²` units: the premises
under which C87 compares the drawing with the exact one. -/
theorem C94_tame (hf : Fits64 U be num x size dpi k J V) (hd : LHead F64) (cs : List (TNode F64)) (h : mtexParse U be num x size dpi = .ok (hd, cs)) :
    TameList (16 * ((8 * J + V) * (x.length + 3) ^ 2 * 2 ^ k)) hd cs ∧ TameHs (16 * ((8 * J + V) * (x.length + 3) ^ 2 * 2 ^ k)) cs := by
  obtain ⟨h1, h2⟩ := fits_trees hf h
  have e1 := ghead_tame h1 h2
  have e2 := gts_tameH cs h2
  push_cast at e1 e2
  exact ⟨e1, e2⟩

theorem total_fits {a b h d l R : ℚ} (ha : a ≤ 2 ^ 1000) (hb : b ≤ 2 ^ 1000) (hh : h ≤ R) (hd : d ≤ R) (hR : R ≤ 2 ^ 50) (hl : l ≤ 2 ^ 52) :
    a + b + 2 * (h + d) + l < 2 ^ (1023 : ℕ) := by
  have h1 : (2 : ℚ) ^ 52 ≤ 2 ^ (1000 : ℕ) := pow_le_pow_right₀ (by norm_num) (by norm_num)
  have h2 : (2 : ℚ) ^ (1023 : ℕ) = 2 ^ (1000 : ℕ) * 2 ^ 23 := by rw [← pow_add]
  have h3 : (0 : ℚ) < 2 ^ (1000 : ℕ) := pow_pos (by norm_num) _
  rw [h2]
  clear h2
  generalize (2 : ℚ) ^ (1000 : ℕ) = A at *
  have e50 : (2 : ℚ) ^ 52 = 4 * 2 ^ 50 := by norm_num
  linarith

/-- **C94** And drawing it takes place: `Ship` returns, every glyph and every rectangle is at a finite place, and (as in C87) within a rounding error of
where exact arithmetic puts it, the error given by the length `n` of the source, the bound `R` of all lengths, and the number of fractions one
inside another. -/
theorem C94_drawing (hf : Fits64 U be num x size dpi k J V) (hd : LHead F64) (cs : List (TNode F64)) (h : mtexParse U be num x size dpi = .ok (hd, cs))
    (ox oy : F64) (p q : ℚ) (hx : Num64 ox p) (hy : Num64 oy q) (hp' : |p| ≤ 2 ^ 1000) (hq' : |q| ≤ 2 ^ 1000)
    (R : ℚ) (hR : R = (8 * J + V) * (x.length + 3) ^ 2 * 2 ^ k) (hpts : (48 * x.length + 1) * (16 * R) ≤ 2 ^ 50) :
    ∃ st st', shipCall ox oy hd cs = .ok st ∧ shipCall (exact64 ox) (exact64 oy) (exactHead hd) (exactNodes cs) = .ok st' ∧
      (∀ d ∈ st.1.ops, FinDraw d) ∧
      List.Forall₂ (SameDraw (setNest (.list .h hd cs) + (48 * x.length + 1) / 2 ^ 52 * (|p| + |q| + 4 * R + 8 * x.length * (33 * R + 4)))) st.1.ops st'.1.ops := by
  have total : ∀ h d l, h ≤ R → d ≤ R → R ≤ 2 ^ 50 → l ≤ 2 ^ 52 → |p| + |q| + 2 * (h + d) + l < 2 ^ (1023 : ℕ) :=
    fun h d l a b c e => total_fits hp' hq' a b c e
  clear hp' hq'
  obtain ⟨st, hst⟩ := C67_shippable U be num x size dpi hd cs h ox oy
  have hg := two_zpow_pos k
  obtain ⟨t1, t2⟩ := C94_tame hf hd cs h
  obtain ⟨g1, g2⟩ := fits_trees hf h
  have hc := C92_boxes (U := U) be num x size dpi hd cs h
  have hs := stepsAll_le cs
  have hlen := lengthsAll_le hd.sign _ cs g2
  have hh := near_size g1.height
  have hdp := near_size g1.depth
  push_cast at hlen hh hdp
  rw [← hR] at t1 t2 hlen hh hdp
  have R0 : 0 ≤ R := by rw [hR]; positivity
  have hN : ((shipStepsAll cs + 1 : ℕ) : ℚ) ≤ 48 * x.length + 1 := by
    have : shipStepsAll cs + 1 ≤ 48 * x.length + 1 := by omega
    exact_mod_cast this
  have hn36 : x.length ≤ 2 ^ 36 := by
    have h1 := hf.short
    have h8 : 1 ≤ 8 * J + V := by have := hf.ratio.1; omega
    have h2 : (x.length + 3) ^ 2 ≤ 2 ^ 36 := (Nat.le_mul_of_pos_left _ h8).trans h1
    have h3 : x.length + 3 ≤ (x.length + 3) ^ 2 := Nat.le_self_pow (by norm_num) _
    omega
  have hNR : ((shipStepsAll cs + 1 : ℕ) : ℚ) * (16 * R) ≤ 2 ^ 50 := (mul_le_mul_of_nonneg_right hN (by positivity)).trans hpts
  have hcq : (boxCounts cs : ℚ) ≤ 8 * x.length := by exact_mod_cast hc
  have hlen1 : shipLengthsAll (16 * R) hd.sign cs ≤ 8 * x.length * (33 * R + 4) :=
    hlen.trans (mul_le_mul_of_nonneg_right hcq (by positivity))
  have hlen2 : shipLengthsAll (16 * R) hd.sign cs ≤ 2 ^ 52 := by
    refine hlen1.trans ?_
    have n36 : (x.length : ℚ) ≤ 2 ^ 36 := by exact_mod_cast hn36
    have h2 : 0 ≤ (x.length : ℚ) * R := by positivity
    nlinarith
  have hR50 : R ≤ 2 ^ 50 := by
    have h2 : 0 ≤ (x.length : ℚ) * R := by positivity
    nlinarith
  have hT : size64 ox + size64 oy + 2 * (size64 hd.box.height + size64 hd.box.depth) + shipLengthsAll (16 * R) hd.sign cs < 2 ^ (1023 : ℕ) := by
    rw [size64_num hx, size64_num hy]
    exact total _ _ _ hh hdp hR50 hlen2
  clear total
  have key := C87_drawing ox oy hd cs ⟨p, hx⟩ ⟨q, hy⟩ (16 * R) (by positivity) t1 t2 _ rfl (by omega) hNR _ rfl hT
  clear hT
  rw [hst] at key
  cases he : shipCall (exact64 ox) (exact64 oy) (exactHead hd) (exactNodes cs) with
  | ok r =>
    rw [he] at key
    have key' : List.Forall₂ (SameDraw (setNest (.list .h hd cs) + (48 * x.length + 1) / 2 ^ 52 * (|p| + |q| + 4 * R + 8 * x.length * (33 * R + 4)))) st.ops r.1.ops := by
      refine key.imp fun d d' => sameDraw_mono ?_
      rw [size64_num hx, size64_num hy]
      refine add_le_add le_rfl (mul_le_mul (div_le_div_of_nonneg_right hN (by positivity)) (by linarith) ?_ (by positivity))
      have a1 := abs_nonneg p
      have a2 := abs_nonneg q
      have a3 := size64_nonneg hd.box.height
      have a4 := size64_nonneg hd.box.depth
      have a5 := lengthsAll_nonneg (R := 16 * R) (by positivity) hd.sign cs
      linarith
    refine ⟨_, r, hst, rfl, ?_, key'⟩
    have fin : ∀ {e : ℚ} {l : List (Draw F64)} {l' : List (Draw XR)}, List.Forall₂ (SameDraw e) l l' → ∀ d ∈ l, FinDraw d := by
      intro e l l' hl
      induction hl with
      | nil => intro d hd; cases hd
      | cons h1 _ ih =>
        intro d hd
        rcases List.mem_cons.1 hd with rfl | hd
        · exact sameDraw_fin h1
        · exact ih d hd
    exact fin key'
  | panic p => rw [he] at key; exact key.elim
  | fuel => rw [he] at key; exact key.elim

/-! ## A concrete case -/

/-- A font of square characters on the base line, as large as the font size. -/
def squares64 : Backend F64 where
  kern _ _ _ _ _ := zero
  metrics _ f _ _ := ⟨f.size, f.size, f.size, zero, f.size, zero, f.size, f.size⟩
  known _ _ _ _ := true
  xheight f _ := some f.size
  underline _ _ := ofInt 1

theorem squares_bounded : Bounded64 squares64 (2 ^ (4 : ℤ)) 2 (ofInt 12) (ofInt 72) := by
  have n12 : Num64 (ofInt 12 : F64) 12 := by have := num_int (n := 12) (by norm_num); simpa using this
  have w12 : Within (2 ^ (4 : ℤ)) (ofInt 12) := ⟨12, n12, by norm_num⟩
  have w0 : Within (2 ^ (4 : ℤ)) zero := ⟨0, num_zero64, by norm_num⟩
  refine ⟨?_, ?_, ?_, ?_, ?_⟩
  · intro c f m hf _
    simp only [squares64, hf]
    exact ⟨w12, w12, w12, w12, w12, w0⟩
  · intro f c f' c' _ _; exact w0
  · intro f _; exact ⟨1, by have := num_int (n := 1) (by norm_num); simpa [squares64] using this, by norm_num, by norm_num⟩
  · have g : In 4 0 1 (ofInt 12 * ofInt 72 / ofInt 1200 : F64) := by
      have hk : MidExp 4 := ⟨by norm_num, by norm_num⟩
      have n72 : Num64 (ofInt 72 : F64) 72 := by have := num_int (n := 72) (by norm_num); simpa using this
      have n1200 : Num64 (ofInt 1200 : F64) 1200 := by have := num_int (n := 1200) (by norm_num); simpa using this
      have h1 : In 4 54 54 (ofInt 12 * ofInt 72 : F64) := in_of hk (by norm_num) (by norm_num) (q := 12 * 72) (by norm_num) (by norm_num) (mul_num n12 n72)
      obtain ⟨q, hq, q1, q2⟩ := h1
      have e : q = 864 := by norm_num at q1 q2; linarith
      subst e
      exact in_of hk (by norm_num) (by norm_num) (q := 864 / 1200) (by norm_num) (by norm_num) (div_num hq n1200 (by norm_num))
    obtain ⟨q, h1, h2, h3⟩ := g
    exact ⟨q, h1, by simpa using h2, by simpa using h3⟩
  · intro c _ f hf _ h hh
    have e : h = 12 := isNum_unique (by simpa [squares64, hf] using hh) n12
    subst e
    refine ⟨by norm_num, fun φ p hφ p0 p1 _ => ?_⟩
    simp only [squares64]
    have b : |rnd (12 * p)| ≤ 16 * p + 16 := by
      have h1 := rnd_err' (12 * p)
      have h2 : |12 * p| = 12 * p := abs_of_nonneg (by linarith)
      have h3 : (2 : ℚ) ^ (-1075 : ℤ) ≤ 1 := zpow_le_one_of_nonpos₀ (by norm_num) (by norm_num)
      have h4 := abs_le.1 h1
      rw [h2] at h4
      have h5 : unit64 ≤ 1 / 12 := by unfold unit64; norm_num
      have h6 : unit64 * (12 * p) ≤ p := by nlinarith [unit64_nonneg]
      exact abs_le.2 ⟨by linarith [h4.1], by linarith [h4.2]⟩
    have r0 : 0 ≤ rnd (12 * p) := by have := rnd_mono (by linarith : (0 : ℚ) ≤ 12 * p); rwa [rnd_zero] at this
    have big : |rnd (12 * p)| < 2 ^ (1024 : ℕ) := by
      refine lt_of_le_of_lt b (lt_of_le_of_lt (by nlinarith : 16 * p + 16 ≤ 2 ^ 105) (pow_lt_pow_right₀ (by norm_num) (by norm_num)))
    have n := mul_num n12 hφ big
    refine ⟨⟨_, n, b.trans (by norm_num; linarith)⟩, ⟨_, n, b.trans (by norm_num; linarith)⟩, _, _, n, n, ?_, ?_, ?_⟩
    · norm_num; linarith
    · norm_num
    · have h1 := rnd_err' (12 * p)
      have h2 : |12 * p| = 12 * p := abs_of_nonneg (by linarith)
      have h3 : (2 : ℚ) ^ (-1075 : ℤ) ≤ 1 := zpow_le_one_of_nonpos₀ (by norm_num) (by norm_num)
      have h4 := (abs_le.1 h1).2
      rw [h2] at h4
      have h5 : unit64 ≤ 1 / 2 ^ 40 := by unfold unit64; norm_num
      have h6 : unit64 * (12 * p) ≤ 1 / 2 ^ 40 * (12 * p) := mul_le_mul_of_nonneg_right h5 (by linarith)
      norm_num at h6 ⊢
      linarith

/-- An expression with a fraction, a radical with an index, a binomial, an overline and a space of a given width. -/
def src64 : GoString := bs!"$\\frac{\\sqrt[3]{x}}{2}+\\binom{n}{\\overline{ab}}\\hspace{5}$"

def num64 (t : GoString) : Option F64 := if t = bs!"5" then some (ofInt 5) else none

theorem src_fits : Fits64 (fun _ => false) squares64 num64 src64 (ofInt 12) (ofInt 72) 4 2 5 := by
  refine ⟨by norm_num, by norm_num, squares_bounded, fun root p t v _ _ h => ?_, by decide⟩
  unfold num64 at h
  split at h
  · simp only [Option.some.injEq] at h; subst h
    exact ⟨5, by have := num_int (n := 5) (by norm_num); simpa using this, by norm_num⟩
  · cases h

/-- The premises are met, and the layout is made: what it has is a positive width, and a height and depth. -/
example : ∃ hd cs, mtexParse (fun _ => false) squares64 num64 src64 (ofInt 12) (ofInt 72) = .ok (hd, cs) ∧ lt zero hd.box.width = true ∧
    lt zero hd.box.height = true ∧ lt zero hd.box.depth = true ∧ cs ≠ [] := by
  have h : (match mtexParse (fun _ => false) squares64 num64 src64 (ofInt 12) (ofInt 72) with
    | .ok (hd, cs) => lt zero hd.box.width && lt zero hd.box.height && lt zero hd.box.depth && !cs.isEmpty
    | _ => false) = true := by decide +kernel
  split at h
  · rename_i hd cs e
    simp only [Bool.and_eq_true, Bool.not_eq_true', List.isEmpty_eq_false_iff] at h
    exact ⟨hd, cs, e, h.1.1.1, h.1.1.2, h.1.2, h.2⟩
  · cases h

/-- And it is short enough to be drawn at any place on a page. -/
example : (48 * (src64.length : ℚ) + 1) * (16 * ((8 * (2 : ℕ) + (5 : ℕ)) * (src64.length + 3) ^ 2 * 2 ^ (4 : ℤ))) ≤ 2 ^ 50 := by
  have : src64.length ≤ 60 := by decide
  have h : (src64.length : ℚ) ≤ 60 := by exact_mod_cast this
  have h0 : (0 : ℚ) ≤ src64.length := Nat.cast_nonneg _
  generalize (src64.length : ℚ) = n at *
  have h1 : (n + 3) ^ 2 ≤ 63 ^ 2 := by nlinarith
  have h2 : n * (n + 3) ^ 2 ≤ 60 * 63 ^ 2 := mul_le_mul h h1 (by positivity) (by norm_num)
  norm_num at h1 h2 ⊢
  nlinarith

end Verif.Props
