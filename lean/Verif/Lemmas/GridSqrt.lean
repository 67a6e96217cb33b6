import Verif.Lemmas.GridFrac
/-! # Radicals and overlines on a grid -/

set_option linter.unusedSectionVars false

namespace Verif
open Spec GoFloat

variable {k : ℤ} {M J : ℕ} {size dpi : F64} {be : Backend F64}

/-- `\overline` -/
theorem overline_grid (hk : MidExp k) (hb : Bounded64 be (2 ^ k) J size dpi) {st : TState F64} (hs : St size dpi st) (hM : M ≤ 2 ^ 36)
    {h : LHead F64} {c : List (TNode F64)} {a b W : ℕ} (hB : HBx k M a b W h c) (hW : W ≤ M) (hab : a + b + 6 ≤ M) {n : TNode F64}
    (e : buildOverline be h c st = .ok n) : ∃ hd cs, n = .list .h hd cs ∧ HBx k M (a + 4) b W hd cs := by
  have bnd : ∀ z : ℤ, -2 ^ 50 ≤ z → z ≤ 2 ^ 50 → |z| ≤ 2 ^ 53 := fun z h1 h2 => abs_le_of (by omega) (by omega)
  unfold buildOverline at e
  dsimp only at e
  have ht3 : In k 0 3 (ofInt 3 * be.underline st.font st.dpi) := ((underline_in hb hs).mul_int hk (m := 3) (by norm_num) (by norm_num)).2
  have hh : In k (-((0 : ℕ) : ℤ)) (a + 3 : ℕ) (h.box.height - h.shift + ofInt 3 * be.underline st.font st.dpi) :=
    ((sub_zero_in hB.height hB.shift).add hk ht3 (bnd _ (by omega) (by omega)) (bnd _ (by omega) (by omega))).mono (by norm_num) (by push_cast; omega)
  have hd : In k (-((0 : ℕ) : ℤ)) b (h.box.depth + h.shift) := (add_zero_in hB.depth hB.shift).mono (by norm_num) le_rfl
  obtain ⟨rhs, e1, e⟩ := Res.bind_eq_ok.1 e
  have hB' := hbody_grid hk hb (by omega) (hB.nd (size := size) (dpi := dpi) hW (by omega) (by omega) 3).one (by omega)
  have n1 := ruled_grid hk hb hs hM hB' hW (by omega) hh hd (by omega) (by omega) (by omega) (by omega) e1
  simp only [Res.ok.injEq] at e
  exact ⟨_, _, e.symm, hbody_grid hk hb (by omega) n1.one (by omega)⟩

/-- A list of one box, as a vertical list. -/
theorem vlist_one (hk : MidExp k) (hM : M ≤ 2 ^ 36) {h : LHead F64} {c : List (TNode F64)} {a b W : ℕ} (hB : HBx k M a b W h c) (hW : W ≤ M) (ha : a ≤ M) (hb : b ≤ M)
    {vh : LHead F64} (e : vpack LHead.zero [.list .h h c] zero true inf = .ok vh) {s : F64} {p q : ℕ} (hs : In k (-(p : ℤ)) q s) (hp : a + p ≤ M) (hq : b + q ≤ M) :
    Nd k M size dpi 3 (a + p) (b + q) W (.list .v (vh.setShift s) [.list .h h c]) := by
  have bnd : ∀ z : ℤ, -2 ^ 50 ≤ z → z ≤ 2 ^ 50 → |z| ≤ 2 ^ 53 := fun z h1 h2 => abs_le_of (by omega) (by omega)
  obtain ⟨p1, v1, q1, -, x1⟩ := vstep hk (VDim.zero (k := k)) (a := a) (b := b) (W := W) (by omega) (n := .list .h h c) rfl hB.height hB.depth (.inr hB.width)
  have all : vpackAll [.list .h h c] Dims.zero = .ok p1 := by simp only [vpackAll, v1, Res.ok_bind]
  obtain ⟨s1, s2, s3, s4, s5, -⟩ := vpack_natural all q1 e
  have hw : Near k W vh.box.width := by rw [s1]; exact q1.a.mono (by omega) (by push_cast; omega)
  have hh : In k 0 a vh.box.height := by rw [s3]; exact (zero_add_in q1.x).mono le_rfl (by push_cast; omega)
  have hd : In k 0 b vh.box.depth := by rw [s2]; exact q1.b
  refine ⟨?_, ?_, ?_, hw⟩
  · simp only [GT]
    exact ⟨(by intro h; cases h), ⟨hw.le hW, hh.mono (by omega) (by omega), hd.mono (by omega) (by omega), hs.mono (by omega) (by omega), fun h => absurd s4 h⟩,
      hB.tree hW ha hb _, trivial⟩
  · exact (hh.sub hk hs (bnd _ (by omega) (by omega)) (bnd _ (by omega) (by omega))).mono (by push_cast; omega) (by push_cast; omega)
  · exact (hd.add hk hs (bnd _ (by omega) (by omega)) (bnd _ (by omega) (by omega))).mono (by push_cast; omega) (by push_cast; omega)

/-- The index of a radical, or the space in its place. -/
def rootOf {F : Type} [GoFloat F] (be : Backend F) (w : F) : Option (TNode F) → TNode F
  | none => hbox (w * ofRat 5 10)
  | some r => (r.shrink be).shrink be

/-- The radical sign, once the index is built. -/
theorem sqrt_grid (hk : MidExp k) (hb : Bounded64 be (2 ^ k) J size dpi) (hJ : 1 ≤ J) (hJ' : J ≤ 256) {st : TState F64} (hs : St size dpi st) (hM : M ≤ 2 ^ 36)
    {h : LHead F64} {c : List (TNode F64)} {a b W : ℕ} (hB : HBx k M a b W h c) {root : Option (TNode F64)} {aᵣ bᵣ Wᵣ : ℕ}
    (hR : ∀ r, root = some r → ∃ rh rc, r = .list .h rh rc ∧ HBx k M aᵣ bᵣ Wᵣ rh rc)
    (hW : W + Wᵣ + 9 * (J * (a + b + 5) + 3) + 4 ≤ M) (hab : a + b + aᵣ + bᵣ + 14 ≤ M) {n : TNode F64} (e : buildSqrt be root h c st = .ok n) :
    ∃ hd cs, n = .list .h hd cs ∧ HBx k M (a + aᵣ + 11) (b + bᵣ + 2) (W + Wᵣ + 9 * (J * (a + b + 5) + 3) + 4) hd cs := by
  have bnd : ∀ z : ℤ, -2 ^ 50 ≤ z → z ≤ 2 ^ 50 → |z| ≤ 2 ^ 53 := fun z h1 h2 => abs_le_of (by omega) (by omega)
  unfold buildSqrt at e
  dsimp only at e
  have hth := underline_in hb hs
  have ht5 : In k 0 5 (ofInt 5 * be.underline st.font st.dpi) := (hth.mul_int hk (m := 5) (by norm_num) (by norm_num)).2
  have ht2 : In k 0 2 (ofInt 2 * be.underline st.font st.dpi) := (hth.mul_int hk (m := 2) (by norm_num) (by norm_num)).2
  have hh : In k 0 (a + 5 : ℕ) (h.box.height - h.shift + ofInt 5 * be.underline st.font st.dpi) :=
    ((sub_zero_in hB.height hB.shift).add hk ht5 (bnd _ (by omega) (by omega)) (bnd _ (by omega) (by omega))).mono (by norm_num) (by push_cast; omega)
  have hd : In k 0 b (h.box.depth + h.shift) := add_zero_in hB.depth hB.shift
  obtain ⟨check, e1, e⟩ := Res.bind_eq_ok.1 e
  have ea : a + 5 + b = a + b + 5 := by omega
  obtain ⟨kh, kc, rfl, nk, k1, k2⟩ := auto_grid hk hb hJ hJ' (c := bs!"\\__sqrt__") (by decide) hh hd hs (M := M) (by rw [ea]; omega) hM e1
  rw [ea] at nk
  have e1 : True := trivial
  dsimp only [TNode.height, TNode.depth, TNode.width] at e
  generalize hP : 3 * (J * (a + b + 5) + 3) = P at nk
  have hPM : W + Wᵣ + 3 * P + 4 ≤ M := by omega
  have hkw : Near k P kh.box.width := nk.wide
  generalize kh.box.height - kh.shift = H at k1 e
  generalize kh.box.depth + kh.shift = D at k2 e
  -- the radicand
  obtain ⟨rhs, e2, e⟩ := Res.bind_eq_ok.1 e
  have hx2 : Near k 2 (ofInt 2 * be.underline st.font st.dpi) := ht2.mono (by norm_num) (by norm_num)
  have hpad := hbody_grid hk hb (by omega) (Nds.cons (nd_hbox (M := M) (size := size) (dpi := dpi) hx2 (by omega) 3 a b) (Nds.cons (hB.nd (by omega) (by omega) (by omega) 3)
    (nd_hbox (M := M) hx2 (by omega) 3 a b).one)) (by omega)
  have n1 := ruled_grid hk hb hs hM hpad (by omega) (by omega) (lo := b + 1) (hi := a + 10) (lo' := a + b + 8) (hi' := b + 2)
    (k1.mono (by push_cast; omega) (by push_cast; omega)) (k2.mono (by push_cast; omega) (by push_cast; omega)) (by omega) (by omega) (by omega) (by omega) e2
  -- the index
  obtain ⟨vh, e3, e⟩ := Res.bind_eq_ok.1 e
  simp only [Res.ok.injEq] at e
  change vpack LHead.zero [hlistOf be [rootOf be kh.box.width root] true] zero true inf = .ok vh at e3
  change hlistOf be [.list .v (vh.setShift (-H * ofRat 6 10)) [hlistOf be [rootOf be kh.box.width root] true], newKern (-kh.box.width * ofRat 5 10), .list .h kh kc, rhs] true = n at e
  have hroot : Nd k M size dpi 3 aᵣ bᵣ (Wᵣ + P) (rootOf be kh.box.width root) := by
    cases root with
    | none =>
      exact (nd_hbox (m := P) (hkw.frac hk (n := 5) (d := 10) (by norm_num) (by norm_num) (bnd _ (by omega) (by omega)) (bnd _ (by omega) (by omega)) (by omega) (by omega)).1 (by omega) 3 aᵣ bᵣ).mono
        le_rfl le_rfl (by omega)
    | some r =>
      obtain ⟨rh, rc, rfl, hr⟩ := hR r rfl
      exact (((hr.shrink (be := be) hk (by omega) (by omega) (by omega) (by omega)).shrink (be := be) hk (by omega) (by omega) (by omega) (by omega)).nd (by omega) (by omega) (by omega) 3).mono
        le_rfl le_rfl (by omega)
  generalize rootOf be kh.box.width root = root' at hroot e e3
  have hrb := hbody_grid hk hb (by omega) hroot.one (by omega)
  have hsh : In k (-((a + 10 : ℕ) : ℤ)) (b + 1 : ℕ) (-H * ofRat 6 10) :=
    (((k1.neg).mono (a' := -((a + 10 : ℕ) : ℤ)) (b' := (b + 1 : ℕ)) (by push_cast; omega) (by push_cast; omega)).frac hk (n := 6) (d := 10) (by norm_num) (by norm_num)
      (bnd _ (by omega) (by omega)) (bnd _ (by omega) (by omega)) (by omega) (by omega)).1
  have n2 := vlist_one (size := size) (dpi := dpi) hk hM hrb (by omega) (by omega) (by omega) e3 hsh (by omega) (by omega)
  have n3 : Nd k M size dpi 3 (a + aᵣ + 11) (b + bᵣ + 2) P (newKern (-kh.box.width * ofRat 5 10)) :=
    nd_kern ((hkw.neg.mono (by omega) (by omega) : Near k P _).frac hk (n := 5) (d := 10) (by norm_num) (by norm_num) (bnd _ (by omega) (by omega)) (bnd _ (by omega) (by omega)) (by omega) (by omega)).1 (by omega) 3
  refine ⟨_, _, e.symm, ?_⟩
  exact hbody_grid hk hb (by omega) ((Nds.cons (n2.mono (by omega) (by omega) le_rfl) (Nds.cons n3 (Nds.cons (nk.mono (by omega) (by omega) le_rfl)
    (n1.mono (by omega) (by omega) le_rfl).one))).mono le_rfl le_rfl (by omega)) (by omega)

end Verif
