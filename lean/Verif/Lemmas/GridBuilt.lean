import Verif.Lemmas.GridAuto
/-! # Fractions, radicals and overlines on a grid -/

set_option linter.unusedSectionVars false

namespace Verif
open Spec GoFloat

variable {k : ℤ} {M J : ℕ} {size dpi : F64} {be : Backend F64}

/-! ## Constants -/

theorem rnd_le_nat {q : ℚ} {V : ℕ} (hV : V ≤ 2 ^ 50) (h : |q| ≤ V) : |rnd q| ≤ V := by
  obtain ⟨h1, h2⟩ := abs_le.1 h
  have := rnd_between (k := 0) ⟨by norm_num, by norm_num⟩ (a := -(V : ℤ)) (b := V) (q := q) (abs_le_of (by omega) (by omega)) (abs_le_of (by omega) (by omega))
    (by simpa using h1) (by simpa using h2)
  exact abs_le.2 ⟨by simpa using this.1, by simpa using this.2⟩

theorem num_rat {n : ℤ} {d V : ℕ} (hV : V ≤ 2 ^ 50) (h : |(n : ℚ) / d| ≤ V) :
    Num64 (ofRat n d : F64) (rnd ((n : ℚ) / d)) ∧ |rnd ((n : ℚ) / d)| ≤ V := by
  have h1 := rnd_le_nat hV h
  refine ⟨ofQ_num ?_, h1⟩
  refine lt_of_le_of_lt h1 ?_
  have h2 : (V : ℚ) ≤ 2 ^ 50 := by exact_mod_cast hV
  exact lt_of_le_of_lt h2 (pow_lt_pow_right₀ (by norm_num) (by norm_num))

/-- A product of a unit with a number of absolute value `V` at most. -/
theorem near_mul (hk : MidExp k) {V : ℕ} (hV : V ≤ 2 ^ 50) {x y : F64} (hx : Near k 1 x) {r : ℚ} (hy : Num64 y r) (hr : |r| ≤ V) : Near k V (x * y) := by
  obtain ⟨p, hp, p1, p2⟩ := hx
  have hg : (0 : ℚ) < 2 ^ k := two_zpow_pos k
  have h1 : |p| ≤ 2 ^ k := abs_le.2 ⟨by push_cast at p1; linarith, by push_cast at p2; linarith⟩
  have h2 : |p * r| ≤ V * 2 ^ k := by
    rw [abs_mul, mul_comm]
    exact mul_le_mul hr h1 (abs_nonneg _) (Nat.cast_nonneg _)
  obtain ⟨h3, h4⟩ := abs_le.1 h2
  exact in_of hk (abs_le_of (by omega) (by omega)) (abs_le_of (by omega) (by omega)) (q := p * r) (by push_cast; linarith) (by push_cast; linarith) (mul_num hp hy)

/-- A product with a fraction of 1. -/
theorem In.frac {a b : ℤ} {x : F64} (hk : MidExp k) (h : In k a b x) {n : ℤ} {d : ℕ} (h0 : 0 ≤ (n : ℚ) / d) (h1 : (n : ℚ) / d ≤ 1)
    (ha : |a| ≤ 2 ^ 53) (hb : |b| ≤ 2 ^ 53) (ha0 : a ≤ 0) (hb0 : 0 ≤ b) : In k a b (x * ofRat n d) ∧ In k a b (ofRat n d * x) := by
  obtain ⟨h2, h3⟩ := num_rat (n := n) (d := d) (V := 1) (by norm_num) (by rw [abs_of_nonneg h0]; simpa using h1)
  have h4 : 0 ≤ rnd ((n : ℚ) / d) := by have := rnd_mono h0; rwa [rnd_zero] at this
  have h5 : rnd ((n : ℚ) / d) ≤ 1 := by have := (abs_le.1 h3).2; simpa using this
  refine ⟨h.scale hk h2 h4 h5 ha hb ha0 hb0, ?_⟩
  obtain ⟨p, hp, p1, p2⟩ := h
  have hg : (0 : ℚ) < 2 ^ k := two_zpow_pos k
  have a0 : (a : ℚ) * 2 ^ k ≤ 0 := mul_nonpos_of_nonpos_of_nonneg (by exact_mod_cast ha0) hg.le
  have b0 : 0 ≤ (b : ℚ) * 2 ^ k := mul_nonneg (by exact_mod_cast hb0) hg.le
  exact in_of hk ha hb (q := rnd ((n : ℚ) / d) * p) (by nlinarith) (by nlinarith) (mul_num h2 hp)

/-- A small whole multiple. -/
theorem In.mul_int {b m : ℕ} {x : F64} (hk : MidExp k) (h : In k 0 b x) (hm : m * b ≤ 2 ^ 50) (hm' : m ≤ 2 ^ 50) :
    In k 0 (m * b : ℕ) (x * ofInt m) ∧ In k 0 (m * b : ℕ) (ofInt m * x) := by
  obtain ⟨p, hp, p1, p2⟩ := h
  have hm2 : Num64 (ofInt m : F64) m := by
    have := num_ofInt (n := (m : ℤ)) (abs_le_of (by omega) (by omega))
    simpa using this
  have hg : (0 : ℚ) < 2 ^ k := two_zpow_pos k
  have m0 : (0 : ℚ) ≤ m := Nat.cast_nonneg m
  push_cast at p1 p2
  have q1 : 0 ≤ p := by linarith
  have q2 : (m : ℚ) * p ≤ m * (b * 2 ^ k) := mul_le_mul_of_nonneg_left p2 m0
  constructor
  · exact in_of hk (by norm_num) (abs_le_of (by omega) (by omega)) (q := p * m) (by push_cast; nlinarith) (by push_cast; nlinarith) (mul_num hp hm2)
  · exact in_of hk (by norm_num) (abs_le_of (by omega) (by omega)) (q := m * p) (by push_cast; nlinarith) (by push_cast; nlinarith) (mul_num hm2 hp)

/-! ## Spaces and symbols -/

theorem makeSpace_grid (hk : MidExp k) (hb : Bounded64 be (2 ^ k) J size dpi) {st : TState F64} (hs : St size dpi st) {V : ℕ} (hV : V ≤ 2 ^ 50) (hVM : V ≤ M)
    {w : F64} {r : ℚ} (hw : Num64 w r) (hr : |r| ≤ V) {n : TNode F64} (h : makeSpace be st w = .ok n) (q a b : ℕ) : Nd k M size dpi q a b V n := by
  unfold makeSpace at h
  dsimp only at h
  split at h
  · rename_i hkn
    simp only [Res.ok.injEq] at h; subst h
    rw [hs.dpi] at hkn ⊢
    exact nd_kern (near_mul hk hV (within_near (hb.metrics _ { st.font with name := bs!"it", typ := mathDefault } _ hs.size hkn).1) hw hr) hVM q
  · cases h

theorem space_table : ∀ e ∈ spaceWidth, |(e.2.1 : ℚ) / e.2.2| ≤ 2 := by decide +kernel

theorem handleSpace_grid (hk : MidExp k) (hb : Bounded64 be (2 ^ k) J size dpi) {st : TState F64} (hs : St size dpi st) (hM : 2 ≤ M) {t : GoString}
    {n : TNode F64} (h : handleSpace be t st = .ok n) (q a b : ℕ) : Nd k M size dpi q a b 2 n := by
  unfold handleSpace at h
  split at h
  · rename_i w hw
    obtain ⟨h1, h2⟩ := num_rat (V := 2) (by norm_num) (space_table _ (lookup_mem hw))
    exact makeSpace_grid hk hb hs (by norm_num) hM h1 h2 h q a b
  · cases h

theorem fifth : Num64 (ofRat 2 10 : F64) (rnd ((2 : ℤ) / (10 : ℕ))) ∧ |rnd (((2 : ℤ) : ℚ) / ((10 : ℕ) : ℚ))| ≤ (1 : ℕ) :=
  num_rat (by norm_num) (by norm_num)

theorem handleSymbol_grid (hk : MidExp k) (hb : Bounded64 be (2 ^ k) J size dpi) {st : TState F64} (hs : St size dpi st) (hM : 6 ≤ M) (hM' : M ≤ 2 ^ 36)
    {x : GoString} {pos : ℕ} {t : GoString} {m : Bool} {n : TNode F64} (h : handleSymbol be x pos t st m = .ok n) : Nd k M size dpi 3 1 2 6 n := by
  unfold handleSymbol at h
  obtain ⟨ch, hc, h⟩ := Res.bind_eq_ok.1 h
  have g : Nd k M size dpi 3 1 2 4 (.char ch) := newChar_grid hk hb (by omega) hs hc
  have g' := g.mono (Nat.le_refl _) (Nat.le_refl _) (by omega : 4 ≤ 6)
  have sp : ∀ {k1}, makeSpace be st (ofRat 2 10) = .ok k1 → Nd k M size dpi 3 1 2 1 k1 := fun e =>
    makeSpace_grid hk hb hs (by norm_num) (by omega) fifth.1 fifth.2 e 3 1 2
  split at h
  · dsimp only at h
    split at h
    · simp only [Res.ok.injEq] at h; subst h; exact g'
    · obtain ⟨k1, e1, h⟩ := Res.bind_eq_ok.1 h
      obtain ⟨k2, e2, h⟩ := Res.bind_eq_ok.1 h
      simp only [Res.ok.injEq] at h; subst h
      exact hlistOf_grid hk hb (by omega) (Nds.cons (sp e1) (Nds.cons g (sp e2).one)) (by omega) (by omega) (by omega) (by omega) 3
  · split at h
    · split at h
      · split at h
        · simp only [Res.ok.injEq] at h; subst h; exact g'
        · obtain ⟨k1, e1, h⟩ := Res.bind_eq_ok.1 h
          simp only [Res.ok.injEq] at h; subst h
          exact (hlistOf_grid hk hb (by omega) (Nds.cons g (sp e1).one) (by omega : 4 + 1 ≤ M) (by omega) (by omega : 1 ≤ M) (by omega : 2 ≤ M) 3).mono le_rfl le_rfl (by omega)
      · cases h
    · simp only [Res.ok.injEq] at h; subst h; exact g'

theorem newChars_grid (hk : MidExp k) (hb : Bounded64 be (2 ^ k) J size dpi) {st : TState F64} (hs : St size dpi st) (hM : 6 ≤ M) {m : Bool} :
    ∀ {l : List Ch} {r : List (TNode F64)}, newChars be st m l = .ok r → Nds k M size dpi 3 1 2 (4 * l.length) r
  | [], r, h => by simp only [newChars, Res.ok.injEq] at h; subst h; trivial
  | c :: l, r, h => by
    rw [newChars] at h
    obtain ⟨ch, hc, h⟩ := Res.bind_eq_ok.1 h
    obtain ⟨r', hr, h⟩ := Res.bind_eq_ok.1 h
    simp only [Res.ok.injEq] at h; subst h
    exact (Nds.cons (newChar_grid hk hb (by omega) hs hc) (newChars_grid hk hb hs hM hr)).mono le_rfl le_rfl (by simp only [List.length_cons]; omega)

theorem literalChars_grid (hk : MidExp k) (hb : Bounded64 be (2 ^ k) J size dpi) {st : TState F64} (hs : St size dpi st) (hM : 6 ≤ M) (hM' : M ≤ 2 ^ 36)
    {x : GoString} {m : Bool} : ∀ {l : List Ch} {r : List (TNode F64)}, literalChars be x st m l = .ok r → Nds k M size dpi 3 1 2 (6 * l.length) r
  | [], r, h => by simp only [literalChars, Res.ok.injEq] at h; subst h; trivial
  | c :: l, r, h => by
    rw [literalChars] at h
    obtain ⟨ch, hc, h⟩ := Res.bind_eq_ok.1 h
    obtain ⟨r', hr, h⟩ := Res.bind_eq_ok.1 h
    simp only [Res.ok.injEq] at h; subst h
    exact (Nds.cons (handleSymbol_grid hk hb hs hM hM' hc) (literalChars_grid hk hb hs hM hM' hr)).mono le_rfl le_rfl (by simp only [List.length_cons]; omega)

/-! ## Rules and boxes -/

theorem underline_in (hb : Bounded64 be (2 ^ k) J size dpi) {st : TState F64} (hs : St size dpi st) : In k 0 1 (be.underline st.font st.dpi) := by
  obtain ⟨q, h1, h2, h3⟩ := hb.underline st.font hs.size
  rw [hs.dpi]
  exact ⟨q, h1, by simpa using h2, by simpa using h3⟩

theorem nd_hbox {m : ℕ} {x : F64} (hx : Near k m x) (hm : m ≤ M) (q a b : ℕ) : Nd k M size dpi q a b m (hbox x) :=
  ⟨by simp only [hbox, newBox, GT]; exact ⟨hx.le hm, in_zero.mono (by omega) (by omega), in_zero.mono (by omega) (by omega)⟩,
    in_zero.mono (by omega) (by omega), in_zero.mono (by omega) (by omega), hx⟩

/-- A rule as wide as its list. -/
theorem hrule_grid (hk : MidExp k) (hb : Bounded64 be (2 ^ k) J size dpi) {st : TState F64} (hs : St size dpi st) {t : F64}
    (ht : lt t zero = true ∨ In k 0 1 t) : ∃ b, hrule be st t = .rule b ∧ b.width = .inf false ∧ In k 0 1 b.height ∧ In k 0 1 b.depth := by
  refine ⟨_, rfl, rfl, ?_, ?_⟩ <;>
  · show In k 0 1 (ofRat 1 2 * _)
    refine (In.frac hk ?_ (by norm_num) (by norm_num) (by norm_num) (by norm_num) (by norm_num) (by norm_num)).2
    split
    · exact underline_in hb hs
    · rename_i h
      rcases ht with ht | ht
      · exact absurd ht h
      · exact ht

/-- The accumulators of `VPack`. -/
structure VDim (k : ℤ) (c X A B : ℕ) (p : Dims F64) : Prop where
  x : In k 0 X p.x
  a : In k 0 A p.a
  b : In k 0 B p.b
  st : Tot c p.st
  sh : Tot c p.sh

theorem tot_zero : Tot 0 (fun _ => (zero : F64)) := fun _ => ⟨0, by simpa using num_zero64, by norm_num⟩

theorem VDim.zero : VDim k 0 0 0 0 (Dims.zero : Dims F64) := ⟨in_zero, in_zero, in_zero, tot_zero, tot_zero⟩

/-- A list or a box of height `a`, depth `b`, width `W`. -/
theorem vstep (hk : MidExp k) {c X A B a b W : ℕ} {p : Dims F64} (hp : VDim k c X A B p) (hX : X + B + a ≤ 2 ^ 50) {n : TNode F64} {hh dd ww : F64}
    (hn : vpackDims n p = .ok { p with x := p.x + (p.b + hh), b := dd, a := if isInf ww then p.a else GoFloat.max p.a ww })
    (h1 : In k 0 a hh) (h2 : In k 0 b dd) (h3 : isInf ww = true ∨ Near k W ww) :
    ∃ q, vpackDims n p = .ok q ∧ VDim k c (X + B + a) (max A W) b q ∧ q.x = p.x + (p.b + hh) ∧ q.b = dd := by
  refine ⟨_, hn, ⟨?_, ?_, h2, hp.st, hp.sh⟩, rfl, rfl⟩
  · have := hp.x.add hk (hp.b.add hk h1 (by norm_num) (abs_le_of (by omega) (by omega))) (by norm_num) (abs_le_of (by omega) (by omega))
    exact this.mono (by omega) (by push_cast; omega)
  · dsimp only
    split
    · exact hp.a.mono le_rfl (by push_cast; omega)
    · rename_i h
      rcases h3 with h3 | h3
      · exact absurd h3 h
      · exact (hp.a.max h3).mono (by omega) (by push_cast; omega)

/-- The end of `VPack`, with the natural height. -/
theorem vpack_natural {cs : List (TNode F64)} {p : Dims F64} (e : vpackAll cs Dims.zero = .ok p) {c X A B : ℕ} (hp : VDim k c X A B p)
    {hd : LHead F64} (h : vpack LHead.zero cs zero true inf = .ok hd) :
    hd.box.width = p.a ∧ hd.box.depth = p.b ∧ hd.box.height = zero + p.x ∧ hd.sign = 0 ∧ hd.shift = zero ∧ hd.set = zero := by
  unfold vpack at h
  rw [e, Res.ok_bind] at h
  have hl : lt (inf : F64) p.b = false := by
    obtain ⟨q, hq, -⟩ := hp.b
    cases hpb : p.b with
    | fin s a ha => rfl
    | inf => rw [hpb] at hq; exact hq.elim
    | nan => rw [hpb] at hq; exact hq.elim
  rw [hl] at h
  simp only [Bool.false_eq_true, if_false, if_true, Res.ok.injEq] at h
  subst h
  rw [(finishGlue_box _ _ _ _).1, (finishGlue_box _ _ _ _).2]
  obtain ⟨q, hq, -⟩ := hp.x
  refine ⟨rfl, rfl, rfl, ?_, rfl, ?_⟩
  · unfold finishGlue; rw [if_pos (zero_add_num hq).2]
  · unfold finishGlue; rw [if_pos (zero_add_num hq).2]; rfl

theorem num_one : Num64 (ofInt 1 : F64) ((1 : ℤ) : ℚ) := num_int (by norm_num)
theorem num_minus : Num64 (ofInt (-1) : F64) ((-1 : ℤ) : ℚ) := num_int (by norm_num)

theorem glue_size {g : GlueD F64} {p q : ℤ} (h1 : Num64 g.stretch p) (h2 : Num64 g.shrink q) : glueSize g = |(p : ℚ)| + |(q : ℚ)| := by
  unfold glueSize
  rw [size64_num h1, size64_num h2]

/-- The body under a rule, stretched to a height. -/
theorem ruled_grid (hk : MidExp k) (hb : Bounded64 be (2 ^ k) J size dpi) {st : TState F64} (hs : St size dpi st) (hM : M ≤ 2 ^ 36)
    {bh : LHead F64} {bc : List (TNode F64)} {a b W : ℕ} (hB : HBx k M a b W bh bc) (hWM : W ≤ M) (hab : a + b + 2 ≤ M)
    {x y : F64} {lo lo' hi hi' : ℕ} (hx : In k (-(lo : ℤ)) hi x) (hy : In k (-(lo' : ℤ)) hi' y) (h1 : lo ≤ M) (h2 : lo' ≤ M) (h3 : hi + 1 ≤ M) (h4 : hi' ≤ M)
    {n : TNode F64} (e : ruled be st (.list .h bh bc) x y = .ok n) : Nd k M size dpi 3 (hi + 1) hi' W n := by
  have bnd : ∀ z : ℤ, -2 ^ 50 ≤ z → z ≤ 2 ^ 50 → |z| ≤ 2 ^ 53 := fun z h1 h2 => abs_le_of (by omega) (by omega)
  unfold ruled at e
  obtain ⟨g, hg, e⟩ := Res.bind_eq_ok.1 e
  have eg : g = ⟨0, zero, ofInt 1, 2, zero, 0⟩ := by
    have : (newGlue bs!"fill" : Res (GlueD F64)) = .ok ⟨0, zero, ofInt 1, 2, zero, 0⟩ := rfl
    rw [this] at hg
    simp only [Res.ok.injEq] at hg
    exact hg.symm
  subst eg
  dsimp only at e
  obtain ⟨hd1, e1, e⟩ := Res.bind_eq_ok.1 e
  obtain ⟨hd2, e2, e⟩ := Res.bind_eq_ok.1 e
  simp only [Res.ok.injEq] at e
  have hm1 : lt (ofInt (-1) : F64) zero = true := by decide +kernel
  obtain ⟨rb, r1, r2, r3, r4⟩ := hrule_grid hk hb hs (t := ofInt (-1)) (.inl hm1)
  rw [r1] at e e1 e2
  -- the accumulators
  obtain ⟨p1, v1, d1, -, -⟩ := vstep hk (VDim.zero (k := k)) (a := 1) (b := 1) (W := 0) (by norm_num) (n := .rule rb) rfl r3 r4 (.inl (by rw [r2]; rfl))
  have v2 : vpackDims (.glue ⟨0, zero, ofInt 1, 2, zero, 0⟩) p1 =
      .ok { p1 with x := p1.x + p1.b + zero, b := zero, st := addAt p1.st 2 (ofInt 1), sh := addAt p1.sh 0 zero } := rfl
  have d2 : VDim k 1 2 0 0 { p1 with x := p1.x + p1.b + zero, b := zero, st := addAt p1.st 2 (ofInt 1), sh := addAt p1.sh 0 zero } :=
    ⟨(add_zero_in (d1.x.add hk d1.b (by norm_num) (by norm_num)) num_zero64).mono (by norm_num) (by norm_num), d1.a, in_zero,
      tot_addAt (by norm_num) d1.st 2 num_one (by norm_num), tot_addAt (by norm_num) d1.sh 0 (s := 0) (by simpa using num_zero64) (by norm_num)⟩
  obtain ⟨p3, v3, d3, x3, b3⟩ := vstep hk d2 (a := a) (b := b) (W := W) (by omega) (n := .list .h bh bc) rfl hB.height hB.depth (.inr hB.width)
  have all : vpackAll [.rule rb, .glue ⟨0, zero, ofInt 1, 2, zero, 0⟩, .list .h bh bc] Dims.zero = .ok p3 := by
    simp only [vpackAll, v1, v2, v3, Res.ok_bind]
  obtain ⟨-, -, -, -, sh1, -⟩ := vpack_natural all d3 e1
  -- the second packing
  obtain ⟨gq, g1, g2, g3⟩ := hb.gap
  have hgap : In k 0 1 (st.font.size * st.dpi / ofInt 1200) := by
    rw [hs.size, hs.dpi]; exact ⟨gq, g1, by simpa using g2, by simpa using g3⟩
  have hH := hx.add hk hgap (bnd _ (by omega) (by omega)) (bnd _ (by omega) (by omega))
  generalize x + st.font.size * st.dpi / ofInt 1200 = H at hH e2
  unfold vpack at e2
  rw [all, Res.ok_bind] at e2
  have hxd : ∃ X D, (if lt y p3.b then (p3.x + (p3.b - y), y) else (p3.x, p3.b)) = (X, D) ∧ In k (-(hi' : ℤ)) (a + b + 2 + lo') X ∧ In k (-(lo' : ℤ)) hi' D := by
    obtain ⟨q, hq, q1, q2⟩ := id hy
    obtain ⟨r, hr, t1, t2⟩ := id d3.b
    have hlt := lt_num hq hr
    by_cases hlt' : q < r
    · refine ⟨p3.x + (p3.b - y), y, by rw [hlt, decide_eq_true hlt', if_pos rfl], ?_, hy⟩
      exact (d3.x.add hk (d3.b.sub hk hy (bnd _ (by omega) (by omega)) (bnd _ (by omega) (by omega))) (bnd _ (by omega) (by omega)) (bnd _ (by push_cast; omega) (by push_cast; omega))).mono
        (by omega) (by push_cast; omega)
    · refine ⟨p3.x, p3.b, by rw [hlt, decide_eq_false hlt']; rfl, d3.x.mono (by omega) (by push_cast; omega), ?_⟩
      exact (⟨r, hr, (le_trans (by
        have : ((-(lo' : ℤ) : ℤ) : ℚ) ≤ ((0 : ℤ) : ℚ) := by exact_mod_cast (by omega : -(lo' : ℤ) ≤ 0)
        exact mul_le_mul_of_nonneg_right this (two_zpow_pos k).le) t1), (not_lt.1 hlt').trans q2⟩ : In k _ _ _)
  obtain ⟨X, D, hxd, hX, hD⟩ := hxd
  rw [hxd] at e2
  simp only [Bool.false_eq_true, if_false, Res.ok.injEq] at e2
  have hdiff : Near k (4 * M) (H - X) :=
    (hH.sub hk hX (bnd _ (by omega) (by omega)) (bnd _ (by omega) (by omega))).mono (by push_cast; omega) (by push_cast; omega)
  have hset := finishGlue_grid hk (m := 4 * M) (by omega) (hd := { hd1 with box := { hd1.box with width := p3.a, depth := D, height := H } }) hdiff d3.st d3.sh
  rw [e2] at hset
  have box : hd2.box = { hd1.box with width := p3.a, depth := D, height := H } := by rw [← e2, (finishGlue_box _ _ _ _).1]
  have shf : hd2.shift = zero := by rw [← e2, (finishGlue_box _ _ _ _).2]; exact sh1
  have bw : Near k W hd2.box.width := by rw [box]; exact d3.a.mono (by omega) (by push_cast; omega)
  have bhh : In k (-(lo : ℤ)) (hi + 1) hd2.box.height := by rw [box]; exact hH.mono (by omega) (by omega)
  have bd : In k (-(lo' : ℤ)) hi' hd2.box.depth := by rw [box]; exact hD
  have z0 : Num64 hd2.shift 0 := by rw [shf]; exact num_zero64
  subst e
  refine ⟨?_, (sub_zero_in bhh z0).mono (by push_cast; omega) (by push_cast; omega), (add_zero_in bd z0).mono (by push_cast; omega) le_rfl, bw⟩
  simp only [GT]
  refine ⟨(by intro h; cases h), ⟨bw.le hWM, bhh.mono (by omega) (by push_cast; omega), bd.mono (by omega) (by omega), by rw [shf]; exact in_zero.mono (by omega) (by omega), fun h => ⟨hset h, ?_⟩⟩, ?_⟩
  · simp only [glueTotal]
    rw [glue_size num_one (q := 0) (by simpa using num_zero64)]
    norm_num
  · simp only [GTs, GT]
    refine ⟨⟨by simp, r2, r3.mono (by omega) (by omega), r4.mono (by omega) (by omega)⟩, ⟨in_zero.mono (by omega) (by omega), ⟨_, num_one⟩, ⟨_, num_zero64⟩, ?_⟩, ?_, trivial⟩
    · rw [glue_size num_one (q := 0) (by simpa using num_zero64)]
      norm_num
    · have := hB.tree hWM (by omega) (by omega) true
      simpa only [GT] using this

end Verif
