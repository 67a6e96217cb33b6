import Verif.Lemmas.Grid
import Verif.Lemmas.Box
import Verif.Lemmas.Size
/-! # Boxes on a grid -/

set_option linter.unusedSectionVars false

namespace Verif
open Spec GoFloat

variable {k : ℤ} {M : ℕ}

/-- In absolute value at most `m` units. -/
abbrev Near (k : ℤ) (m : ℕ) (x : F64) : Prop := In k (-(m : ℤ)) m x

theorem Near.le {m m' : ℕ} {x : F64} (h : Near k m x) (hm : m ≤ m') : Near k m' x := h.mono (by omega) (by omega)

/-- The dimensions of a list, and the space its glue is set to. -/
structure GHead (k : ℤ) (M : ℕ) (hd : LHead F64) (cs : List (TNode F64)) : Prop where
  width : Near k M hd.box.width
  height : Near k M hd.box.height
  depth : Near k M hd.box.depth
  shift : Near k M hd.shift
  set : hd.sign ≠ 0 → Near k (4 * M) hd.set ∧ glueTotal cs ≤ 4

mutual
/-- All lengths in a tree are at most `M` units, except that rules, which stand in vertical lists only, may have an infinite width.  The flag says
whether the node stands in a vertical list. -/
def GT (k : ℤ) (M : ℕ) : Bool → TNode F64 → Prop
  | _, .list kd hd cs => kd ≠ .plain ∧ GHead k M hd cs ∧ GTs k M (decide (kd = .v)) cs
  | v, .rule b => v = true ∧ b.width = .inf false ∧ Near k M b.height ∧ Near k M b.depth
  | v, .char c => v = false ∧ Near k M c.width
  | _, .accent _ => False
  | _, .box b => Near k M b.width ∧ Near k M b.height ∧ Near k M b.depth
  | _, .glue g => Near k M g.width ∧ Fin64 g.stretch ∧ Fin64 g.shrink ∧ glueSize g ≤ 2
  | _, .kern q => Near k M q.width
/-- `GT` for all nodes of a list -/
def GTs (k : ℤ) (M : ℕ) (v : Bool) : List (TNode F64) → Prop
  | [] => True
  | n :: l => GT k M v n ∧ GTs k M v l
end

theorem gts_iff {v : Bool} {l : List (TNode F64)} : GTs k M v l ↔ ∀ n ∈ l, GT k M v n := by
  induction l with
  | nil => simp [GTs]
  | cons n l ih => simp [GTs, ih]

/-- What a node adds to the height of a horizontal list. -/
def effH : TNode F64 → F64
  | .list _ hd _ => hd.box.height - hd.shift
  | n => n.height
/-- What a node adds to its depth. -/
def effD : TNode F64 → F64
  | .list _ hd _ => hd.box.depth + hd.shift
  | n => n.depth

/-- A character of the font size `size`, with dimensions of a unit. -/
structure CharAt (k : ℤ) (size dpi : F64) (c : CharD F64) : Prop where
  width : Near k 1 c.width
  advance : Near k 1 c.metrics.advance
  size : c.font.size = size
  dpi : c.dpi = dpi

/-- A node of a horizontal list of height `a`, depth `b` and width `m` at most; characters take `q` more. -/
structure Nd (k : ℤ) (M : ℕ) (size dpi : F64) (q a b m : ℕ) (n : TNode F64) : Prop where
  tree : GT k M false n
  up : In k (-(2 * M : ℕ)) a (effH n)
  down : In k (-(2 * M : ℕ)) b (effD n)
  wide : match n with
    | .char c => q ≤ m ∧ Near k (m - q) c.width ∧ (q ≠ 0 → CharAt k size dpi c)
    | n => Near k m n.width

/-- Nodes of a total width `W` at most. -/
def Nds (k : ℤ) (M : ℕ) (size dpi : F64) (q a b : ℕ) : ℕ → List (TNode F64) → Prop
  | _, [] => True
  | W, n :: l => ∃ m W', m + W' ≤ W ∧ Nd k M size dpi q a b m n ∧ Nds k M size dpi q a b W' l

variable {size dpi : F64}

theorem Nd.mono {q a b m a' b' m' : ℕ} {n : TNode F64} (h : Nd k M size dpi q a b m n) (ha : a ≤ a') (hb : b ≤ b') (hm : m ≤ m') :
    Nd k M size dpi q a' b' m' n := by
  refine ⟨h.tree, h.up.mono le_rfl (by omega), h.down.mono le_rfl (by omega), ?_⟩
  have := h.wide
  cases n with
  | char c => exact ⟨by omega, this.2.1.le (by omega), this.2.2⟩
  | _ => exact Near.le this hm

theorem Nds.mono {q a b W a' b' W' : ℕ} {l : List (TNode F64)} (h : Nds k M size dpi q a b W l) (ha : a ≤ a') (hb : b ≤ b') (hm : W ≤ W') :
    Nds k M size dpi q a' b' W' l := by
  induction l generalizing W W' with
  | nil => trivial
  | cons n l ih =>
    obtain ⟨m, V, h1, h2, h3⟩ := h
    exact ⟨m, V, by omega, h2.mono ha hb le_rfl, ih h3 le_rfl⟩

theorem Nds.append {q a b V W : ℕ} {l l' : List (TNode F64)} (h : Nds k M size dpi q a b V l) (h' : Nds k M size dpi q a b W l') :
    Nds k M size dpi q a b (V + W) (l ++ l') := by
  induction l generalizing V with
  | nil => exact h'.mono le_rfl le_rfl (by omega)
  | cons n l ih =>
    obtain ⟨m, V', h1, h2, h3⟩ := h
    exact ⟨m, V' + W, by omega, h2, ih h3⟩

theorem Nds.trees {q a b W : ℕ} {l : List (TNode F64)} (h : Nds k M size dpi q a b W l) : GTs k M false l := by
  induction l generalizing W with
  | nil => trivial
  | cons n l ih =>
    obtain ⟨m, V', h1, h2, h3⟩ := h
    exact ⟨h2.tree, ih h3⟩

theorem Nd.one {q a b m : ℕ} {n : TNode F64} (h : Nd k M size dpi q a b m n) : Nds k M size dpi q a b m [n] := ⟨m, 0, by omega, h, trivial⟩

theorem Nds.cons {q a b m W : ℕ} {n : TNode F64} {l : List (TNode F64)} (h : Nd k M size dpi q a b m n) (h' : Nds k M size dpi q a b W l) :
    Nds k M size dpi q a b (m + W) (n :: l) := ⟨m, W, le_rfl, h, h'⟩

theorem abs_le_of {x : ℤ} (h1 : -2 ^ 53 ≤ x) (h2 : x ≤ 2 ^ 53) : |x| ≤ 2 ^ 53 := abs_le.2 ⟨h1, h2⟩

/-! ## Packing horizontally -/

theorem Nd.width {a b m : ℕ} {n : TNode F64} (h : Nd k M size dpi 0 a b m n) : Near k m n.width := by
  have := h.wide
  cases n with
  | char c => exact this.2.1
  | _ => exact this

/-- The accumulators of `HPack`. -/
structure HDims (k : ℤ) (a b W : ℕ) (p : Dims F64) : Prop where
  x : Near k W p.x
  a : In k 0 a p.a
  b : In k 0 b p.b

theorem hpackDims_grid (hk : MidExp k) {a b m W : ℕ} {n : TNode F64} (h : Nd k M size dpi 0 a b m n) {p : Dims F64}
    (hp : HDims k a b W p) (hW : m + W ≤ 2 ^ 50) : HDims k a b (m + W) (hpackDims n p) := by
  have hx : Near k (m + W) (p.x + n.width) :=
    (hp.x.add hk h.width (abs_le_of (by omega) (by omega)) (abs_le_of (by omega) (by omega))).mono (by omega) (by omega)
  have hu : ∀ x, In k (-(2 * M : ℕ)) a x → In k 0 a (GoFloat.max p.a x) := fun x hx => (hp.a.max hx).mono (by omega) (by omega)
  have hv : ∀ x, In k (-(2 * M : ℕ)) b x → In k 0 b (GoFloat.max p.b x) := fun x hx => (hp.b.max hx).mono (by omega) (by omega)
  have h1 := h.up
  have h2 := h.down
  have ht := h.tree
  cases n with
  | box c =>
    have i1 : isInf c.height = false := h1.isInf
    have i2 : isInf c.depth = false := h2.isInf
    simp only [hpackDims, i1, i2, Bool.or_self, Bool.false_eq_true, if_false]
    exact ⟨hx, hu _ h1, hv _ h2⟩
  | rule c => simp only [GT] at ht; cases ht.1
  | char c => exact ⟨hx, hu _ h1, hv _ h2⟩
  | accent c => simp only [GT] at ht
  | list kd hd cs =>
    simp only [GT] at ht
    have i1 : isInf hd.box.height = false := ht.2.1.height.isInf
    have i2 : isInf hd.box.depth = false := ht.2.1.depth.isInf
    simp only [hpackDims, i1, i2, Bool.or_self, Bool.false_eq_true, if_false]
    exact ⟨hx, hu _ h1, hv _ h2⟩
  | glue g => exact ⟨hx, hp.a, hp.b⟩
  | kern q => exact ⟨hx, hp.a, hp.b⟩

theorem hpackAll_grid (hk : MidExp k) {a b V W : ℕ} {l : List (TNode F64)} (h : Nds k M size dpi 0 a b V l) {p : Dims F64}
    (hp : HDims k a b W p) (hW : V + W ≤ 2 ^ 50) : HDims k a b (V + W) (l.foldl (fun p n => hpackDims n p) p) := by
  induction l generalizing V W p with
  | nil => exact ⟨hp.x.le (by omega), hp.a, hp.b⟩
  | cons n l ih =>
    obtain ⟨m, V', h1, h2, h3⟩ := h
    have := ih h3 (hpackDims_grid hk h2 hp (by omega)) (by omega)
    exact ⟨this.x.le (by omega), this.a, this.b⟩

theorem HDims.zero {a b : ℕ} : HDims k a b 0 (Dims.zero : Dims F64) := ⟨in_zero.mono (by omega) (by omega), in_zero.mono (by omega) (by omega), in_zero.mono (by omega) (by omega)⟩

/-- Adding and taking away a number. -/
theorem zero_add_num {x : F64} {q : ℚ} (h : Num64 x q) : Num64 (zero + x) q ∧ GoFloat.eq (zero + x - x) (zero : F64) = true := by
  have hb := (isNum_abs h).2
  have hr := rnd_num h
  have h1 : Num64 (zero + x) q := by
    have := add_num num_zero64 h (by rw [zero_add, hr]; exact hb)
    rwa [zero_add, hr] at this
  have h2 : Num64 (zero + x - x) 0 := by
    have := sub_num h1 h (by rw [sub_self, rnd_zero, abs_zero]; positivity)
    rwa [sub_self, rnd_zero] at this
  refine ⟨h1, ?_⟩
  revert h2
  generalize zero + x - x = y
  intro h2
  rw [zero64]
  cases y with
  | fin s a ha =>
    have h2 : F64.value s a = 0 := h2
    show decide (_ = F64.value false 0) = true
    rw [h2]; rfl
  | inf => exact h2.elim
  | nan => exact h2.elim

theorem zero_add_in {a b : ℤ} {x : F64} (h : In k a b x) : In k a b (zero + x) := by
  obtain ⟨q, h1, h2⟩ := h
  exact ⟨q, (zero_add_num h1).1, h2⟩

theorem sub_zero_in {a b : ℤ} {x y : F64} (h : In k a b x) (hy : Num64 y 0) : In k a b (x - y) := by
  obtain ⟨q, h1, h2⟩ := h
  have hb := (isNum_abs h1).2
  have hr := rnd_num h1
  have := sub_num h1 hy (by rw [sub_zero, hr]; exact hb)
  rw [sub_zero, hr] at this
  exact ⟨q, this, h2⟩

theorem add_zero_in {a b : ℤ} {x y : F64} (h : In k a b x) (hy : Num64 y 0) : In k a b (x + y) := by
  obtain ⟨q, h1, h2⟩ := h
  have hb := (isNum_abs h1).2
  have hr := rnd_num h1
  have := add_num h1 hy (by rw [add_zero, hr]; exact hb)
  rw [add_zero, hr] at this
  exact ⟨q, this, h2⟩

/-- A list at its natural width. -/
theorem hpack_grid (hk : MidExp k) {a b W : ℕ} {l : List (TNode F64)} (h : Nds k M size dpi 0 a b W l) (hW : W ≤ 2 ^ 50) :
    Near k W (hpack LHead.zero l zero true).box.width ∧ In k 0 a (hpack LHead.zero l zero true).box.height ∧
      In k 0 b (hpack LHead.zero l zero true).box.depth ∧ (hpack LHead.zero l zero true).sign = 0 ∧
      (hpack LHead.zero l zero true).shift = zero := by
  obtain ⟨h1, h2, h3⟩ := hpackAll_grid hk h HDims.zero (by omega)
  unfold hpack
  rw [(finishGlue_box _ _ _ _).1, (finishGlue_box _ _ _ _).2]
  simp only [if_true]
  obtain ⟨q, hq, -⟩ := id h1
  refine ⟨(zero_add_in h1).mono (by omega) (by omega), h2, h3, ?_, rfl⟩
  unfold finishGlue
  rw [if_pos (zero_add_num hq).2]

theorem num_eq_false {x : F64} {q : ℚ} (h : Num64 x q) (he : GoFloat.eq x (zero : F64) = false) : q ≠ 0 := by
  rintro rfl
  rw [zero64] at he
  cases x with
  | fin s a ha =>
    have h : F64.value s a = 0 := h
    have : decide (F64.value s a = F64.value false 0) = false := he
    rw [h] at this
    simp [F64.value] at this
  | inf => exact h.elim
  | nan => exact h.elim

theorem eq_zero_zero : GoFloat.eq (zero : F64) (zero : F64) = true := by rw [zero64]; decide +kernel

variable {be : Backend F64} {J : ℕ}

theorem within_near {x : F64} (h : Within (2 ^ k) x) : Near k 1 x := by
  obtain ⟨q, h1, h2⟩ := h
  obtain ⟨h3, h4⟩ := abs_le.1 h2
  exact ⟨q, h1, by push_cast; linarith, by push_cast; linarith⟩

/-- What is inserted after a character. -/
theorem kern_grid (hk : MidExp k) (hb : Bounded64 be (2 ^ k) J size dpi) {c : CharD F64} (hc : CharAt k size dpi c) {o : Option (TNode F64)}
    (ho : ∀ d, o = some (.char d) → CharAt k size dpi d) (ha : ∀ d, o ≠ some (.accent d)) : Near k 3 (c.kerning be o) := by
  unfold CharD.kerning
  have h1 : Near k 2 (c.metrics.advance - c.width) :=
    (hc.advance.sub hk hc.width (abs_le_of (by norm_num) (by norm_num)) (abs_le_of (by norm_num) (by norm_num))).mono (by norm_num) (by norm_num)
  have key : ∀ y, Near k 1 y → Near k 3 (c.metrics.advance - c.width + y) := fun y hy =>
    (h1.add hk hy (abs_le_of (by norm_num) (by norm_num)) (abs_le_of (by norm_num) (by norm_num))).mono (by norm_num) (by norm_num)
  apply key
  split
  · rename_i d
    have hd := ho d rfl
    have e : c.dpi = dpi := hc.dpi
    rw [e]
    exact within_near (hb.kern _ _ _ _ hc.size hd.size)
  · exact absurd rfl (ha _)
  · exact in_zero.mono (by omega) (by omega)

theorem nd_kern {a b m : ℕ} {x : F64} (hx : Near k m x) (hm : m ≤ M) (q : ℕ) : Nd k M size dpi q a b m (newKern x) :=
  ⟨by simp only [newKern, GT]; exact hx.le hm, in_zero.mono (by omega) (by omega), in_zero.mono (by omega) (by omega), hx⟩

/-- Kerning uses the room left after the characters. -/
theorem insertKerns_grid (hk : MidExp k) (hb : Bounded64 be (2 ^ k) J size dpi) (hM : 3 ≤ M) {a b W : ℕ} {l : List (TNode F64)}
    (h : Nds k M size dpi 3 a b W l) : Nds k M size dpi 0 a b W (insertKerns be l) := by
  induction l generalizing W with
  | nil => trivial
  | cons n l ih =>
    obtain ⟨m, V, h1, h2, h3⟩ := h
    have i := ih h3
    have hn : (∀ c, n ≠ .char c) → Nds k M size dpi 0 a b W (insertKerns be (n :: l)) := by
      intro hne
      have ha : ∀ c, n ≠ .accent c := by rintro c rfl; have := h2.tree; simp only [GT] at this
      have e : n.kerning be l.head? = zero := by
        cases n with
        | char c => exact absurd rfl (hne c)
        | accent c => exact absurd rfl (ha c)
        | _ => rfl
      rw [insertKerns, e]
      simp only [eq_zero_zero, Bool.not_true, Bool.false_eq_true, if_false]
      refine ⟨m, V, h1, ⟨h2.tree, h2.up, h2.down, ?_⟩, i⟩
      have := h2.wide
      cases n with
      | char c => exact ⟨by omega, this.2.1.le (by omega), fun h => absurd rfl h⟩
      | _ => exact this
    cases n with
    | char c =>
      obtain ⟨w1, w2, w3⟩ := h2.wide
      have hc := w3 (by omega)
      have n0 : Nd k M size dpi 0 a b (m - 3) (.char c) := ⟨h2.tree, h2.up, h2.down, by omega, w2.le (by omega), fun h => absurd rfl h⟩
      have ho : ∀ d, l.head? = some (.char d) → CharAt k size dpi d := by
        intro d hd
        cases l with
        | nil => cases hd
        | cons n' l' =>
          simp only [List.head?_cons, Option.some.injEq] at hd
          subst hd
          obtain ⟨m', V', -, h5, -⟩ := h3
          exact h5.wide.2.2 (by omega)
      have ha : ∀ d, l.head? ≠ some (.accent d) := by
        intro d hd
        cases l with
        | nil => cases hd
        | cons n' l' =>
          simp only [List.head?_cons, Option.some.injEq] at hd
          subst hd
          obtain ⟨m', V', -, h5, -⟩ := h3
          have := h5.tree
          simp only [GT] at this
      have hkn := kern_grid hk hb hc ho ha
      rw [insertKerns]
      split
      · exact ⟨m - 3, 3 + V, by omega, n0, 3, V, le_rfl, nd_kern hkn hM 0, i⟩
      · exact ⟨m - 3, V, by omega, n0, i⟩
    | box _ => exact hn (by intro c h; cases h)
    | accent _ => exact hn (by intro c h; cases h)
    | list _ _ _ => exact hn (by intro c h; cases h)
    | rule _ => exact hn (by intro c h; cases h)
    | glue _ => exact hn (by intro c h; cases h)
    | kern _ => exact hn (by intro c h; cases h)

/-- A horizontal list, unshifted, of height `a`, depth `b` and width `W` at most. -/
structure HBx (k : ℤ) (M : ℕ) (a b W : ℕ) (hd : LHead F64) (cs : List (TNode F64)) : Prop where
  width : Near k W hd.box.width
  height : In k 0 a hd.box.height
  depth : In k 0 b hd.box.depth
  sign : hd.sign = 0
  shift : Num64 hd.shift 0
  kids : GTs k M false cs

theorem hbody_grid (hk : MidExp k) (hb : Bounded64 be (2 ^ k) J size dpi) (hM : 3 ≤ M) {a b W : ℕ} {l : List (TNode F64)}
    (h : Nds k M size dpi 3 a b W l) (hW : W ≤ 2 ^ 50) : HBx k M a b W (hbody be l).1 (hbody be l).2 := by
  have i := insertKerns_grid hk hb hM h
  obtain ⟨h1, h2, h3, h4, h5⟩ := hpack_grid hk i hW
  exact ⟨h1, h2, h3, h4, by show Num64 (hpack LHead.zero (insertKerns be l) zero true).shift 0; rw [h5]; exact num_zero64, i.trees⟩

theorem HBx.tree {a b W : ℕ} {hd : LHead F64} {cs : List (TNode F64)} (h : HBx k M a b W hd cs) (hW : W ≤ M) (ha : a ≤ M) (hb : b ≤ M) (v : Bool) :
    GT k M v (.list .h hd cs) := by
  simp only [GT]
  refine ⟨(by intro e; cases e), ⟨h.width.le hW, h.height.mono (by omega) (by omega), h.depth.mono (by omega) (by omega), ⟨0, h.shift, ?_, ?_⟩, fun e => absurd h.sign e⟩, h.kids⟩
  · push_cast; have := two_zpow_pos k; have : (0 : ℚ) ≤ M := Nat.cast_nonneg M; nlinarith
  · push_cast; have := two_zpow_pos k; have : (0 : ℚ) ≤ M := Nat.cast_nonneg M; nlinarith

theorem HBx.nd {a b W : ℕ} {hd : LHead F64} {cs : List (TNode F64)} (h : HBx k M a b W hd cs) (hW : W ≤ M) (ha : a ≤ M) (hb : b ≤ M) (q : ℕ) :
    Nd k M size dpi q a b W (.list .h hd cs) :=
  ⟨h.tree hW ha hb false, (sub_zero_in h.height h.shift).mono (by omega) le_rfl, (add_zero_in h.depth h.shift).mono (by omega) le_rfl, h.width⟩

theorem hlistOf_eq (l : List (TNode F64)) : hlistOf be l true = .list .h (hbody be l).1 (hbody be l).2 := rfl

theorem hlistOf_grid (hk : MidExp k) (hb : Bounded64 be (2 ^ k) J size dpi) (hM : 3 ≤ M) {a b W : ℕ} {l : List (TNode F64)}
    (h : Nds k M size dpi 3 a b W l) (hW : W ≤ M) (hM' : M ≤ 2 ^ 50) (ha : a ≤ M) (hb' : b ≤ M) (q : ℕ) :
    Nd k M size dpi q a b W (hlistOf be l true) := by
  rw [hlistOf_eq]
  exact (hbody_grid hk hb hM h (by omega)).nd hW ha hb' q

/-! ## Shrinking -/

theorem num_shrink : Num64 (shrinkFactor : F64) (rnd (7 / 10)) ∧ 0 ≤ rnd (7 / 10) ∧ rnd (7 / 10) ≤ 1 := by
  have h0 : (0 : ℚ) ≤ rnd (7 / 10) := by have := rnd_mono (show (0 : ℚ) ≤ 7 / 10 by norm_num); rwa [rnd_zero] at this
  have h1 : rnd (7 / 10) ≤ 1 := by
    have h := rnd_mono (show (7 / 10 : ℚ) ≤ 1 by norm_num)
    have e := rnd_grid (k := 0) ⟨by norm_num, by norm_num⟩ (a := 1) (by norm_num)
    simp only [zpow_zero, mul_one, Int.cast_one] at e
    rwa [e] at h
  refine ⟨?_, h0, h1⟩
  have := ofQ_num (q := 7 / 10) (z := false) (by rw [abs_of_nonneg h0]; exact lt_of_le_of_lt h1 (one_lt_pow₀ (by norm_num) (by norm_num)))
  have e : (shrinkFactor : F64) = F64.ofQ (((7 : ℤ) : ℚ) / ((10 : ℕ) : ℚ)) false := rfl
  rw [e]
  norm_num
  exact this

theorem shrink_in (hk : MidExp k) {a b : ℤ} {x : F64} (h : In k a b x) (ha : |a| ≤ 2 ^ 53) (hb : |b| ≤ 2 ^ 53) (ha0 : a ≤ 0) (hb0 : 0 ≤ b) :
    In k a b (x * shrinkFactor) := h.scale hk num_shrink.1 num_shrink.2.1 num_shrink.2.2 ha hb ha0 hb0

theorem shrink_near (hk : MidExp k) {m : ℕ} {x : F64} (h : Near k m x) (hm : m ≤ 2 ^ 50) : Near k m (x * shrinkFactor) :=
  shrink_in hk h (abs_le_of (by omega) (by omega)) (abs_le_of (by omega) (by omega)) (by omega) (by omega)

theorem shrink_zero {x : F64} (h : Num64 x 0) : Num64 (x * shrinkFactor) 0 := by
  have := mul_num h num_shrink.1 (by rw [zero_mul, rnd_zero, abs_zero]; positivity)
  rwa [zero_mul, rnd_zero] at this

theorem gshrink_box (hk : MidExp k) {m : ℕ} (hm : m ≤ 2 ^ 50) {b : BoxD F64} (h : Near k m b.height ∧ Near k m b.depth) :
    Near k m b.shrink.height ∧ Near k m b.shrink.depth := by
  unfold BoxD.shrink
  split
  · exact ⟨shrink_near hk h.1 hm, shrink_near hk h.2 hm⟩
  · exact h

theorem glueTotal_shrink (l : List (TNode F64)) : glueTotal (shrinkAll be l) = glueTotal l := by
  induction l with
  | nil => rfl
  | cons n l ih =>
    cases n with
    | glue g =>
      rw [shrinkAll, TNode.shrink]
      simp only [glueTotal, ih]
      congr 1
      unfold GlueD.shrinkG glueSize
      split <;> rfl
    | _ => simp only [shrinkAll, TNode.shrink, glueTotal, ih]

theorem gshrink_head (hk : MidExp k) (hM : M ≤ 2 ^ 48) {hd : LHead F64} {cs : List (TNode F64)} (h : GHead k M hd cs) :
    GHead k M hd.shrink (shrinkAll be cs) := by
  have hs := gshrink_box (b := hd.box) hk (m := M) (by omega) ⟨h.height, h.depth⟩
  have hw : Near k M hd.box.shrink.width := by
    unfold BoxD.shrink
    split
    · exact shrink_near hk h.width (by omega)
    · exact h.width
  unfold LHead.shrink
  split
  · exact ⟨hw, hs.1, hs.2, shrink_near hk h.shift (by omega), fun e => ⟨shrink_near hk (h.set e).1 (by omega), by rw [glueTotal_shrink]; exact (h.set e).2⟩⟩
  · exact ⟨hw, hs.1, hs.2, h.shift, fun e => ⟨(h.set e).1, by rw [glueTotal_shrink]; exact (h.set e).2⟩⟩

theorem inf_shrink : (F64.inf false) * (shrinkFactor : F64) = .inf false := by decide +kernel

mutual
theorem shrink_gt (hk : MidExp k) (hM : M ≤ 2 ^ 48) : ∀ (v : Bool) (n : TNode F64), GT k M v n → GT k M v (n.shrink be)
  | v, .list kd hd cs, h => by
    simp only [GT] at h
    simp only [TNode.shrink, GT]
    exact ⟨h.1, gshrink_head hk hM h.2.1, shrink_gts hk hM _ cs h.2.2⟩
  | v, .rule b, h => by
    simp only [GT] at h
    simp only [TNode.shrink, GT]
    refine ⟨h.1, ?_, gshrink_box hk (by omega) h.2.2⟩
    unfold BoxD.shrink
    split
    · show b.width * _ = _
      rw [h.2.1]; exact inf_shrink
    · exact h.2.1
  | v, .char c, h => by
    simp only [GT] at h
    simp only [TNode.shrink, GT]
    refine ⟨h.1, ?_⟩
    unfold CharD.shrink
    split
    · exact shrink_near hk h.2 (by omega)
    · exact h.2
  | v, .accent c, h => by simp only [GT] at h
  | v, .box b, h => by
    simp only [GT] at h
    simp only [TNode.shrink, GT]
    refine ⟨?_, gshrink_box hk (by omega) h.2⟩
    unfold BoxD.shrink
    split
    · exact shrink_near hk h.1 (by omega)
    · exact h.1
  | v, .glue g, h => by
    simp only [GT] at h
    simp only [TNode.shrink, GT]
    unfold GlueD.shrinkG
    split
    · exact ⟨shrink_near hk h.1 (by omega), h.2⟩
    · exact h
  | v, .kern q, h => by
    simp only [GT] at h
    simp only [TNode.shrink, GT]
    unfold KernD.shrink
    split
    · exact shrink_near hk h (by omega)
    · exact h
theorem shrink_gts (hk : MidExp k) (hM : M ≤ 2 ^ 48) (v : Bool) : ∀ l : List (TNode F64), GTs k M v l → GTs k M v (shrinkAll be l)
  | [], h => h
  | n :: l, h => by
    simp only [GTs] at h
    simp only [shrinkAll, GTs]
    exact ⟨shrink_gt hk hM v n h.1, shrink_gts hk hM v l h.2⟩
end

theorem HBx.shrink (hk : MidExp k) (hM : M ≤ 2 ^ 48) {a b W : ℕ} {hd : LHead F64} {cs : List (TNode F64)} (h : HBx k M a b W hd cs) (hW : W ≤ M)
    (ha : a ≤ M) (hb : b ≤ M) : HBx k M a b W hd.shrink (shrinkAll be cs) := by
  have e : hd.box.shrink.width = hd.box.width ∧ hd.box.shrink.height = hd.box.height ∧ hd.box.shrink.depth = hd.box.depth ∨
      hd.box.shrink.width = hd.box.width * shrinkFactor ∧ hd.box.shrink.height = hd.box.height * shrinkFactor ∧
        hd.box.shrink.depth = hd.box.depth * shrinkFactor := by
    unfold BoxD.shrink
    split
    · exact .inr ⟨rfl, rfl, rfl⟩
    · exact .inl ⟨rfl, rfl, rfl⟩
  have hs : hd.shrink.box = hd.box.shrink := by unfold LHead.shrink; split <;> rfl
  refine ⟨?_, ?_, ?_, ?_, ?_, shrink_gts hk hM _ _ h.kids⟩
  · rw [hs]
    rcases e with e | e
    · rw [e.1]; exact h.width
    · rw [e.1]; exact shrink_near hk h.width (by omega)
  · rw [hs]
    rcases e with e | e
    · rw [e.2.1]; exact h.height
    · rw [e.2.1]; exact shrink_in hk h.height (abs_le_of (by omega) (by omega)) (abs_le_of (by omega) (by omega)) le_rfl (by omega)
  · rw [hs]
    rcases e with e | e
    · rw [e.2.2]; exact h.depth
    · rw [e.2.2]; exact shrink_in hk h.depth (abs_le_of (by omega) (by omega)) (abs_le_of (by omega) (by omega)) le_rfl (by omega)
  · unfold LHead.shrink; split <;> exact h.sign
  · unfold LHead.shrink
    split
    · exact shrink_zero h.shift
    · exact h.shift

/-! ## Setting glue -/

/-- Totals of stretch or shrink: small whole numbers. -/
def Tot (c : ℕ) (t : Fin 4 → F64) : Prop := ∀ i, ∃ r : ℤ, Num64 (t i) r ∧ |r| ≤ c

theorem div_whole (hk : MidExp k) {m : ℕ} (hm : m ≤ 2 ^ 50) {x y : F64} (hx : Near k m x) {r : ℤ} (hr : Num64 y r) (h0 : r ≠ 0) : Near k m (x / y) := by
  obtain ⟨p, hp, p1, p2⟩ := hx
  have hr0 : (r : ℚ) ≠ 0 := by exact_mod_cast h0
  have h1 : (1 : ℚ) ≤ |(r : ℚ)| := by exact_mod_cast Int.one_le_abs h0
  have h2 : |p / r| ≤ |p| := by
    rw [abs_div]
    exact div_le_self (abs_nonneg _) h1
  have h3 : |p| ≤ m * 2 ^ k := abs_le.2 ⟨by push_cast at p1; linarith, p2⟩
  obtain ⟨h4, h5⟩ := abs_le.1 (h2.trans h3)
  exact in_of hk (abs_le_of (by omega) (by omega)) (abs_le_of (by omega) (by omega)) (q := p / r) (by push_cast; linarith) h5 (div_num hp hr hr0)

theorem setGlue_grid (hk : MidExp k) {m : ℕ} (hm : m ≤ 2 ^ 50) {hd : LHead F64} {x : F64} (hx : Near k m x) {s : ℤ} {t : Fin 4 → F64} {c : ℕ} (ht : Tot c t) :
    (setGlue hd x s t).sign ≠ 0 → Near k m (setGlue hd x s t).set := by
  unfold setGlue
  dsimp only
  split
  · rename_i h
    intro _
    obtain ⟨r, h1, -⟩ := ht (determineOrder t)
    simp only [Bool.not_eq_true'] at h
    exact div_whole hk hm hx h1 (fun e => num_eq_false h1 h (by exact_mod_cast e))
  · exact fun h => absurd rfl h

theorem finishGlue_grid (hk : MidExp k) {m : ℕ} (hm : m ≤ 2 ^ 50) {hd : LHead F64} {x : F64} (hx : Near k m x) {st sh : Fin 4 → F64} {c : ℕ} (h1 : Tot c st) (h2 : Tot c sh) :
    (finishGlue hd x st sh).sign ≠ 0 → Near k m (finishGlue hd x st sh).set := by
  unfold finishGlue
  split
  · exact fun h => absurd rfl h
  · split
    · exact setGlue_grid hk hm hx h1
    · exact setGlue_grid hk hm hx h2

theorem tot_addAt {c : ℕ} (hc : c ≤ 8) {t : Fin 4 → F64} (h : Tot c t) (o : Fin 4) {v : F64} {s : ℤ} (hv : Num64 v s) (hs : |s| ≤ 1) : Tot (c + 1) (addAt t o v) := by
  intro i
  obtain ⟨r, h1, h2⟩ := h i
  have e := rnd_grid (k := 0) ⟨by norm_num, by norm_num⟩ (a := r + s) ((abs_add_le r s).trans (by omega))
  simp only [zpow_zero, mul_one] at e
  unfold addAt
  split
  · refine ⟨r + s, ?_, ?_⟩
    · have h3 : |((r + s : ℤ) : ℚ)| < 2 ^ (1024 : ℕ) := by
        have : |((r + s : ℤ) : ℚ)| ≤ 2 ^ 4 := by exact_mod_cast (abs_add_le r s).trans (by norm_num; omega)
        exact lt_of_le_of_lt this (pow_lt_pow_right₀ (by norm_num) (by norm_num))
      have := add_num h1 hv (by push_cast at e h3 ⊢; rw [e]; exact h3)
      push_cast at e ⊢
      rwa [e] at this
    · exact (abs_add_le r s).trans (by push_cast; omega)
  · exact ⟨r, h1, by push_cast; omega⟩

theorem tot_mono {c c' : ℕ} (h : c ≤ c') {t : Fin 4 → F64} (ht : Tot c t) : Tot c' t := fun i => by
  obtain ⟨r, h1, h2⟩ := ht i
  exact ⟨r, h1, by omega⟩

theorem num_int {n : ℤ} (h : |n| ≤ 2 ^ 53) : Num64 (ofInt n : F64) n := num_ofInt h

end Verif
