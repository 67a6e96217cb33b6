import Verif.Lemmas.GridBuilt
/-! # Fractions on a grid -/

set_option linter.unusedSectionVars false

namespace Verif
open Spec GoFloat

variable {k : ℤ} {M J : ℕ} {size dpi : F64} {be : Backend F64}

/-- Rounded to half a unit. -/
theorem ground_half (hk : MidExp k) {q : ℚ} (h : |q| ≤ 2 ^ 50 * 2 ^ k) : |rnd q| < 2 ^ (1024 : ℕ) ∧ q - 2 ^ k / 2 ≤ rnd q ∧ rnd q ≤ q + 2 ^ k / 2 := by
  have hg : (0 : ℚ) < 2 ^ k := two_zpow_pos k
  obtain ⟨h1, h2⟩ := abs_le.1 h
  have b := rnd_between hk (a := -2 ^ 50) (b := 2 ^ 50) (q := q) (by norm_num) (by norm_num) (by push_cast; linarith) (by push_cast; linarith)
  have e := abs_le.1 (rnd_half hk (q := q) (h.trans (by nlinarith)))
  exact ⟨between_fin hk (by norm_num) (by norm_num) b.1 b.2, by linarith [e.1], by linarith [e.2]⟩

/-- What stands above the rule of a fraction, above the base line. -/
theorem frac_top (hk : MidExp k) {x s h e : F64} {N n : ℕ} (hN : N ≤ 2 ^ 40) (hn : n ≤ 2 ^ 40) (hx : In k 0 N x) (hs : In k 0 2 s) (hh : In k 0 n h)
    (he : In k (-5) 2 e) : In k (-(8 + n)) (N + 6) (zero + (x + (s + h)) - (h - e)) := by
  have hg : (0 : ℚ) < 2 ^ k := two_zpow_pos k
  obtain ⟨p, hp, p0, p1⟩ := hx
  obtain ⟨t, ht, t0, t1⟩ := hs
  obtain ⟨r, hr, r0, r1⟩ := hh
  obtain ⟨c, hc, c0, c1⟩ := he
  push_cast at p0 p1 t0 t1 r0 r1 c0 c1
  have hNq : (N : ℚ) * 2 ^ k ≤ 2 ^ 40 * 2 ^ k := mul_le_mul_of_nonneg_right (by exact_mod_cast hN) hg.le
  have hnq : (n : ℚ) * 2 ^ k ≤ 2 ^ 40 * 2 ^ k := mul_le_mul_of_nonneg_right (by exact_mod_cast hn) hg.le
  have n0 : (0 : ℚ) ≤ n * 2 ^ k := by positivity
  have N0 : (0 : ℚ) ≤ N * 2 ^ k := by positivity
  obtain ⟨f1, u1, v1⟩ := ground_half hk (q := t + r) (abs_le.2 ⟨by linarith, by linarith⟩)
  have z1 := add_num ht hr f1
  obtain ⟨f2, u2, v2⟩ := ground_half hk (q := p + rnd (t + r)) (abs_le.2 ⟨by linarith, by linarith⟩)
  have z2 := (zero_add_num (add_num hp z1 f2)).1
  obtain ⟨f3, u3, v3⟩ := ground_half hk (q := r - c) (abs_le.2 ⟨by linarith, by linarith⟩)
  have z3 := sub_num hr hc f3
  refine in_of hk (abs_le_of (by omega) (by omega)) (abs_le_of (by omega) (by omega)) ?_ ?_ (sub_num z2 z3)
  · push_cast; linarith
  · push_cast; linarith

/-- A body centred in a given width. -/
theorem centred_grid (hk : MidExp k) (hM : M ≤ 2 ^ 36) {hd : LHead F64} {cs : List (TNode F64)} {a b W : ℕ} (h : HBx k M a b W hd cs) (hW : W ≤ M)
    (ha : a ≤ M) (hb : b ≤ M) {x : F64} (hx : Near k M x) :
    GT k M true (.list .h (centredTo (.list .h hd cs) x).1 (centredTo (.list .h hd cs) x).2) ∧ (centredTo (.list .h hd cs) x).1.box.width = x ∧
      In k 0 a (centredTo (.list .h hd cs) x).1.box.height ∧ In k 0 b (centredTo (.list .h hd cs) x).1.box.depth := by
  let l : List (TNode F64) := [.glue ssGlue, .list .h hd cs, .glue ssGlue]
  have hn : Nd k M zero zero 0 a b W (.list .h hd cs) := h.nd hW ha hb 0
  have gs : glueSize (ssGlue : GlueD F64) = 2 := by
    rw [glue_size (g := (ssGlue : GlueD F64)) num_one num_minus]; norm_num
  have gg : ∀ v, GT k M v (.glue ssGlue) := by
    intro v
    simp only [GT]
    exact ⟨in_zero.mono (by omega) (by omega), ⟨_, num_one⟩, ⟨_, num_minus⟩, by rw [gs]⟩
  have gn : Nd k M zero zero 0 a b 0 (.glue ssGlue) :=
    ⟨gg false, in_zero.mono (by omega) (by omega), in_zero.mono (by omega) (by omega), in_zero.mono (by omega) (by omega)⟩
  have hl : Nds k M zero zero 0 a b W l := (Nds.cons gn (Nds.cons hn gn.one)).mono le_rfl le_rfl (by omega)
  obtain ⟨h1, h2, h3⟩ := hpackAll_grid hk hl HDims.zero (by omega)
  have est : (l.foldl (fun p n => hpackDims n p) Dims.zero).st = addAt (addAt (fun _ => zero) 1 (ofInt 1)) 1 (ofInt 1) := by
    simp only [l, List.foldl_cons, List.foldl_nil, hpackDims]
    split <;> rfl
  have esh : (l.foldl (fun p n => hpackDims n p) Dims.zero).sh = addAt (addAt (fun _ => zero) 1 (ofInt (-1))) 1 (ofInt (-1)) := by
    simp only [l, List.foldl_cons, List.foldl_nil, hpackDims]
    split <;> rfl
  have t1 : Tot 2 (l.foldl (fun p n => hpackDims n p) Dims.zero).st := by
    rw [est]; exact tot_addAt (by norm_num) (tot_addAt (by norm_num) tot_zero 1 num_one (by norm_num)) 1 num_one (by norm_num)
  have t2 : Tot 2 (l.foldl (fun p n => hpackDims n p) Dims.zero).sh := by
    rw [esh]; exact tot_addAt (by norm_num) (tot_addAt (by norm_num) tot_zero 1 num_minus (by norm_num)) 1 num_minus (by norm_num)
  have hdiff : Near k (4 * M) (x - (l.foldl (fun p n => hpackDims n p) Dims.zero).x) :=
    (hx.sub hk h1 (abs_le_of (by omega) (by omega)) (abs_le_of (by omega) (by omega))).mono (by push_cast; omega) (by push_cast; omega)
  have ebox : (centredTo (.list .h hd cs) x).1.box.width = x ∧ (centredTo (.list .h hd cs) x).1.box.height = (l.foldl (fun p n => hpackDims n p) Dims.zero).a ∧
      (centredTo (.list .h hd cs) x).1.box.depth = (l.foldl (fun p n => hpackDims n p) Dims.zero).b ∧ (centredTo (.list .h hd cs) x).1.shift = zero := by
    have e : (centredTo (.list .h hd cs) x).1 = hpack (hpack LHead.zero l zero true) l x false := rfl
    rw [e]
    unfold hpack
    simp only [(finishGlue_box _ _ _ _).1, (finishGlue_box _ _ _ _).2]
    simp [LHead.zero]
  have hset : (centredTo (.list .h hd cs) x).1.sign ≠ 0 → Near k (4 * M) (centredTo (.list .h hd cs) x).1.set :=
    finishGlue_grid hk (m := 4 * M) (by omega) (hd := { (hpack LHead.zero l zero true) with box := { (hpack LHead.zero l zero true).box with
      height := (l.foldl (fun p n => hpackDims n p) Dims.zero).a, depth := (l.foldl (fun p n => hpackDims n p) Dims.zero).b, width := x } }) hdiff t1 t2
  obtain ⟨e1, e2, e3, e4⟩ := ebox
  refine ⟨?_, e1, by rw [e2]; exact h2, by rw [e3]; exact h3⟩
  simp only [GT]
  refine ⟨(by intro h; cases h), ⟨by rw [e1]; exact hx, by rw [e2]; exact h2.mono (by omega) (by omega), by rw [e3]; exact h3.mono (by omega) (by omega),
    by rw [e4]; exact in_zero.mono (by omega) (by omega), fun hs => ⟨hset hs, ?_⟩⟩, ?_⟩
  · simp only [centredTo, glueTotal]
    rw [gs]; norm_num
  · simp only [centredTo, GTs]
    exact ⟨gg _, h.tree hW ha hb _, gg _, trivial⟩

theorem In.le {a b : ℤ} {x : F64} (h : In k a b x) {m : ℕ} (h1 : -(m : ℤ) ≤ a) (h2 : b ≤ m) : Near k m x := h.mono h1 h2

/-- A fraction without delimiters. -/
theorem frac_grid (hk : MidExp k) (hb : Bounded64 be (2 ^ k) J size dpi) {st : TState F64} (hs : St size dpi st) (hM : M ≤ 2 ^ 36)
    {nh dh : LHead F64} {nc dc : List (TNode F64)} {a₁ b₁ W₁ a₂ b₂ W₂ W : ℕ} (hn : HBx k M a₁ b₁ W₁ nh nc) (hd : HBx k M a₂ b₂ W₂ dh dc)
    (h1 : W₁ ≤ W) (h2 : W₂ ≤ W) (hW : W + 2 ≤ M) (hab : a₁ + b₁ + a₂ + b₂ + 16 ≤ M) {rule : F64} (hr : lt rule zero = true ∨ In k 0 1 rule) {n : TNode F64}
    (e : genfrac be false rule true (.list .h nh nc) (.list .h dh dc) st = .ok n) :
    ∃ hd cs, n = .list .h hd cs ∧ HBx k M (a₁ + b₁ + 10) (a₂ + b₂ + 5) (W + 2) hd cs := by
  have bnd : ∀ z : ℤ, -2 ^ 50 ≤ z → z ≤ 2 ^ 50 → |z| ≤ 2 ^ 53 := fun z h1 h2 => abs_le_of (by omega) (by omega)
  unfold genfrac at e
  simp only [if_true] at e
  have hw : Near k W (GoFloat.max (TNode.list .h nh nc).width (TNode.list .h dh dc).width) :=
    (hn.width.max hd.width).mono (by omega) (by push_cast; omega)
  generalize GoFloat.max (TNode.list .h nh nc).width (TNode.list .h dh dc).width = width at hw e
  obtain ⟨c1, c2, c3, c4⟩ := centred_grid hk hM hn (by omega) (by omega) (by omega) (hw.le (by omega : W ≤ M))
  obtain ⟨d1, d2, d3, d4⟩ := centred_grid hk hM hd (by omega) (by omega) (by omega) (hw.le (by omega : W ≤ M))
  generalize centredTo (.list .h nh nc) width = cn at c1 c2 c3 c4 e
  generalize centredTo (.list .h dh dc) width = cd at d1 d2 d3 d4 e
  obtain ⟨rb, r1, r2, r3, r4⟩ := hrule_grid hk hb hs hr
  rw [r1] at e
  have hth := underline_in hb hs
  have ht2 : In k 0 2 (be.underline st.font st.dpi * ofInt 2) := (hth.mul_int hk (m := 2) (by norm_num) (by norm_num)).1
  have ht2' : In k 0 2 (ofInt 2 * be.underline st.font st.dpi) := (hth.mul_int hk (m := 2) (by norm_num) (by norm_num)).2
  have ht3 : In k 0 3 (ofInt 3 * be.underline st.font st.dpi) := (hth.mul_int hk (m := 3) (by norm_num) (by norm_num)).2
  -- the accumulators
  obtain ⟨p1, v1, q1, -, -⟩ := vstep hk (VDim.zero (k := k)) (a := a₁) (b := b₁) (W := W) (by omega) (n := .list .h cn.1 cn.2) rfl c3 c4 (.inr (by rw [c2]; exact hw))
  obtain ⟨p2, v2, q2, -, -⟩ := vstep hk q1 (a := 0) (b := 2) (W := 0) (by omega) (n := vbox zero (be.underline st.font st.dpi * ofInt 2)) rfl in_zero ht2 (.inr in_zero)
  obtain ⟨p3, v3, q3, -, -⟩ := vstep hk q2 (a := 1) (b := 1) (W := 0) (by omega) (n := .rule rb) rfl r3 r4 (.inl (by rw [r2]; rfl))
  obtain ⟨p4, v4, q4, -, x4⟩ := vstep hk q3 (a := 0) (b := 2) (W := 0) (by omega) (n := vbox zero (be.underline st.font st.dpi * ofInt 2)) rfl in_zero ht2 (.inr in_zero)
  obtain ⟨p5, v5, q5, y5, x5⟩ := vstep hk q4 (a := a₂) (b := b₂) (W := W) (by omega) (n := .list .h cd.1 cd.2) rfl d3 d4 (.inr (by rw [d2]; exact hw))
  have all : vpackAll [.list .h cn.1 cn.2, vbox zero (be.underline st.font st.dpi * ofInt 2), .rule rb, vbox zero (be.underline st.font st.dpi * ofInt 2),
      .list .h cd.1 cd.2] Dims.zero = .ok p5 := by
    simp only [vpackAll, v1, v2, v3, v4, v5, Res.ok_bind]
  obtain ⟨vh, e1, e⟩ := Res.bind_eq_ok.1 e
  obtain ⟨s1, s2, s3, s4, s5, -⟩ := vpack_natural all q5 e1
  split at e
  · rename_i hkn
    have hkn' : be.known bs!"=" (st.withType mathDefault).font dpi true = true := by rw [← hs.dpi]; exact hkn
    obtain ⟨-, -, -, -, m1, m2⟩ := hb.metrics _ _ _ (show (st.withType mathDefault).font.size = size from hs.size) hkn'
    rw [hs.dpi] at e
    have hm : Near k 2 (((be.metrics bs!"=" (st.withType mathDefault).font dpi true).ymax + (be.metrics bs!"=" (st.withType mathDefault).font dpi true).ymin) / ofInt 2) :=
      div_whole hk (by norm_num) ((within_near m1).add hk (within_near m2) (by norm_num) (by norm_num)) (num_int (n := 2) (by norm_num)) (by norm_num)
    generalize ((be.metrics bs!"=" (st.withType mathDefault).font dpi true).ymax + (be.metrics bs!"=" (st.withType mathDefault).font dpi true).ymin) / ofInt 2 = mid at hm e
    rw [hs.dpi] at ht2' ht3 ht2 x4
    have hE := (hm.sub hk ht3 (by norm_num) (by norm_num)).mono (a' := -5) (b' := 2) (by norm_num) (by norm_num)
    have hS := (d3.sub hk hE (bnd _ (by omega) (by omega)) (bnd _ (by omega) (by omega))).mono (a' := -2) (b' := a₂ + 5) (by norm_num) (by omega)
    simp only [Bool.false_eq_true, if_false, Res.ok.injEq] at e
    refine ⟨_, _, e.symm, ?_⟩
    have q4x : In k 0 (a₁ + b₁ + 4 : ℕ) p4.x := q4.x.mono le_rfl (by push_cast; omega)
    have hup := frac_top hk (N := a₁ + b₁ + 4) (n := a₂) (by omega) (by omega) q4x ht2 d3 hE
    have eup : zero + (p4.x + (be.underline st.font dpi * ofInt 2 + cd.1.box.height)) = vh.box.height := by
      rw [s3, y5, x4]; rfl
    rw [eup] at hup
    have hdn := d4.add hk hS (bnd _ (by omega) (by omega)) (bnd _ (by omega) (by omega))
    have edn : vh.box.depth = cd.1.box.depth := by rw [s2, x5]
    have hh : In k 0 (a₁ + b₁ + 6 + a₂ : ℕ) vh.box.height := by rw [s3]; exact (zero_add_in q5.x).mono le_rfl (by push_cast; omega)
    have hww : Near k W vh.box.width := by rw [s1]; exact q5.a.mono (by omega) (by push_cast; omega)
    have nd1 : Nd k M size dpi 3 (a₁ + b₁ + 10) (a₂ + b₂ + 5) W (.list .v (vh.setShift (cd.1.box.height - (mid - ofInt 3 * be.underline st.font dpi)))
        [.list .h cn.1 cn.2, vbox zero (be.underline st.font dpi * ofInt 2), .rule rb, vbox zero (be.underline st.font dpi * ofInt 2), .list .h cd.1 cd.2]) := by
      refine ⟨?_, hup.mono (by push_cast; omega) (by push_cast; omega), ?_, hww⟩
      · simp only [GT]
        refine ⟨(by intro h; cases h), ⟨hww.le (by omega), hh.mono (by omega) (by push_cast; omega), by
          show Near k M vh.box.depth
          rw [edn]; exact d4.mono (by omega) (by omega), hS.mono (by omega) (by omega), fun h => absurd s4 h⟩, ?_⟩
        have bx : ∀ v, GT k M v (vbox zero (be.underline st.font dpi * ofInt 2)) := by
          intro v
          simp only [vbox, newBox, GT]
          exact ⟨in_zero.mono (by omega) (by omega), in_zero.mono (by omega) (by omega), ht2.mono (by omega) (by omega)⟩
        have rl : GT k M true (.rule rb) := by
          simp only [GT]
          exact ⟨trivial, r2, r3.mono (by omega) (by omega), r4.mono (by omega) (by omega)⟩
        exact ⟨c1, bx _, rl, bx _, d1, trivial⟩
      · show In k _ _ (vh.box.depth + _)
        rw [edn]
        exact hdn.mono (by push_cast; omega) (by push_cast; omega)
    exact hbody_grid hk hb (by omega) (Nds.cons nd1 (nd_hbox (M := M) (m := 2) (ht2'.mono (by norm_num) (by norm_num)) (by omega) 3 _ _).one) (by omega)
  · cases e

/-- The pair of delimiters around a box. -/
theorem delim_grid (hk : MidExp k) (hb : Bounded64 be (2 ^ k) J size dpi) (hJ : 1 ≤ J) (hJ' : J ≤ 256) {st : TState F64} (hs : St size dpi st) (hM : M ≤ 2 ^ 36)
    {h : LHead F64} {c : List (TNode F64)} {a b W : ℕ} (hB : HBx k M a b W h c) (hW : W + 6 * (J * (a + b) + 3) ≤ M) (hab : a + b + 7 ≤ M) {n : TNode F64}
    (e : autoSizedDelimiter be bs!"(" [.list .h h c] bs!")" st = .ok n) :
    ∃ hd cs, n = .list .h hd cs ∧ HBx k M (a + 5) (b + 2) (W + 6 * (J * (a + b) + 3)) hd cs := by
  unfold autoSizedDelimiter at e
  dsimp only at e
  have m1 : In k 0 a (maxDims [TNode.list .h h c]).1 := (in_zero.max hB.height).mono (by omega) (by push_cast; omega)
  have m2 : In k 0 b (maxDims [TNode.list .h h c]).2 := (in_zero.max hB.depth).mono (by omega) (by push_cast; omega)
  obtain ⟨l, e1, e⟩ := Res.bind_eq_ok.1 e
  obtain ⟨r, e2, e⟩ := Res.bind_eq_ok.1 e
  obtain ⟨-, -, -, n1, -, -⟩ := auto_grid hk hb hJ hJ' (by decide) m1 m2 hs (by omega) hM e1
  obtain ⟨-, -, -, n2, -, -⟩ := auto_grid hk hb hJ hJ' (by decide) m1 m2 hs (by omega) hM e2
  simp only [Res.ok.injEq] at e
  refine ⟨_, _, e.symm, ?_⟩
  have nb : Nd k M size dpi 3 (a + 5) (b + 2) W (.list .h h c) := (hB.nd (by omega) (by omega) (by omega) 3).mono (by omega) (by omega) le_rfl
  exact hbody_grid hk hb (by omega) ((Nds.cons n1 (Nds.cons nb n2.one)).mono le_rfl le_rfl (by omega)) (by omega)

/-- `genfrac`, as called for `\frac` and its variants. -/
theorem genfrac_grid (hk : MidExp k) (hb : Bounded64 be (2 ^ k) J size dpi) {st : TState F64} (hs : St size dpi st) (hM : M ≤ 2 ^ 36)
    {nh dh : LHead F64} {nc dc : List (TNode F64)} {a₁ b₁ W₁ a₂ b₂ W₂ W : ℕ} (hn : HBx k M a₁ b₁ W₁ nh nc) (hd : HBx k M a₂ b₂ W₂ dh dc)
    (h1 : W₁ ≤ W) (h2 : W₂ ≤ W) (hW : W + 2 ≤ M) (hab : a₁ + b₁ + a₂ + b₂ + 16 ≤ M) {rule : F64} (hr : lt rule zero = true ∨ In k 0 1 rule) (display : Bool)
    {n : TNode F64} (e : genfrac be false rule display (.list .h nh nc) (.list .h dh dc) st = .ok n) :
    ∃ hd cs, n = .list .h hd cs ∧ HBx k M (a₁ + b₁ + 10) (a₂ + b₂ + 5) (W + 2) hd cs := by
  cases display with
  | true => exact frac_grid hk hb hs hM hn hd h1 h2 hW hab hr e
  | false =>
    exact frac_grid hk hb hs hM (hn.shrink hk (by omega) (by omega) (by omega) (by omega)) (hd.shrink hk (by omega) (by omega) (by omega) (by omega)) h1 h2 hW hab hr e

theorem genfrac_delims {rule : F64} {display : Bool} {num den : TNode F64} {st : TState F64} {n : TNode F64}
    (e : genfrac be true rule display num den st = .ok n) :
    ∃ m, genfrac be false rule display num den st = .ok m ∧ autoSizedDelimiter be bs!"(" [m] bs!")" st = .ok n := by
  unfold genfrac at e ⊢
  dsimp only at e ⊢
  obtain ⟨vh, e1, e⟩ := Res.bind_eq_ok.1 e
  rw [e1, Res.ok_bind]
  split at e
  · rename_i h
    rw [if_pos h]
    exact ⟨_, rfl, e⟩
  · cases e

/-- `\\binom` -/
theorem binom_grid (hk : MidExp k) (hb : Bounded64 be (2 ^ k) J size dpi) (hJ : 1 ≤ J) (hJ' : J ≤ 256) {st : TState F64} (hs : St size dpi st) (hM : M ≤ 2 ^ 36)
    {nh dh : LHead F64} {nc dc : List (TNode F64)} {a₁ b₁ W₁ a₂ b₂ W₂ W : ℕ} (hn : HBx k M a₁ b₁ W₁ nh nc) (hd : HBx k M a₂ b₂ W₂ dh dc)
    (h1 : W₁ ≤ W) (h2 : W₂ ≤ W) (hW : W + 2 + 6 * (J * (a₁ + b₁ + a₂ + b₂ + 15) + 3) ≤ M) (hab : a₁ + b₁ + a₂ + b₂ + 22 ≤ M) (display : Bool)
    {n : TNode F64} (e : genfrac be true zero display (.list .h nh nc) (.list .h dh dc) st = .ok n) :
    ∃ hd cs, n = .list .h hd cs ∧ HBx k M (a₁ + b₁ + 15) (a₂ + b₂ + 7) (W + 2 + 6 * (J * (a₁ + b₁ + a₂ + b₂ + 15) + 3)) hd cs := by
  obtain ⟨m, e1, e2⟩ := genfrac_delims e
  obtain ⟨h, c, rfl, hB⟩ := genfrac_grid hk hb hs hM hn hd h1 h2 (by omega) (by omega) (.inr (in_zero.mono le_rfl (by norm_num))) display e1
  have ea : a₁ + b₁ + 10 + (a₂ + b₂ + 5) = a₁ + b₁ + a₂ + b₂ + 15 := by omega
  have := delim_grid hk hb hJ hJ' hs hM hB (by rw [ea]; exact hW) (by omega) e2
  rwa [ea] at this

end Verif
