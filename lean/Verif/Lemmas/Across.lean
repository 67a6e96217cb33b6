import Verif.Spec.Across
import Verif.Lemmas.ContainBuilt
/-! # What is drawn stays between the left and the right end of its box -/

namespace Verif
open Spec GoFloat XR Props

section
variable (A : Advances) (G : Bool → Prop)

/-- A node of a horizontal list `W` wide without glue, with its left end at `p`, stays inside. -/
def Place (W p : ℚ) : TNode XR → Prop
  | .char c => 0 ≤ p ∧ 0 ≤ c.font.size.val ∧ ∃ m, G m ∧ p + A c.c c.font.name c.font.typ c.dpi m * c.font.size.val ≤ W
  | .list _ nd _ => 0 ≤ p ∧ p + nd.box.width.val ≤ W
  | .box _ => True
  | .kern _ => True
  | _ => False

/-- All nodes do. -/
def Row (W : ℚ) : ℚ → List (TNode XR) → Prop
  | _, [] => True
  | p, n :: l => Place A G W p n ∧ Row W (p + n.width.val) l

/-- A horizontal list that centres a body between two glues. -/
structure Mid (nd : LHead XR) (cs : List (TNode XR)) (g g' : GlueD XR) (bd : LHead XR) (bc : List (TNode XR)) (x : ℚ) : Prop where
  nodes : cs = [.glue g, .list .h bd bc, .glue g']
  width : g.width = .fin 0
  stretch : g.stretch = .fin 1
  stretchOrder : g.stretchOrder = 1
  size : g.size ≤ 6
  set : nd.sign = 0 ∨ nd.sign = 1 ∧ nd.order = 1 ∧ nd.set = .fin x
  low : 0 ≤ x
  high : bd.box.width.val + 2 * x ≤ nd.box.width.val

/-- A node of a vertical list `W` wide stays inside. -/
def Wide (W : ℚ) : TNode XR → Prop
  | .list .h bd _ => bd.shift = .fin 0 ∧ bd.box.width.val ≤ W
  | .rule b => b.width = .pinf
  | .box _ => True
  | .glue _ => True
  | .kern _ => True
  | _ => False

mutual
/-- Every box of the tree is wide enough for what it is made of. -/
def InvW : TNode XR → Prop
  | .char c => c.size ≤ 6
  | .accent _ => False
  | .box b => b.size ≤ 6
  | .rule b => b.size ≤ 6
  | .glue g => g.size ≤ 6
  | .kern k => k.size ≤ 6
  | .list .h nd cs => nd.box.size ≤ 6 ∧ 0 ≤ nd.box.width.val ∧ (Row A G nd.box.width.val 0 cs ∨ ∃ g g' bd bc x, Mid nd cs g g' bd bc x) ∧ InvWs cs
  | .list .v nd cs => nd.box.size ≤ 6 ∧ 0 ≤ nd.box.width.val ∧ (∀ n ∈ cs, Wide nd.box.width.val n) ∧ InvWs cs
  | .list .plain _ _ => False
/-- ... for all nodes -/
def InvWs : List (TNode XR) → Prop
  | [] => True
  | n :: l => InvW n ∧ InvWs l
end
end

variable {A : Advances} {G : Bool → Prop}

theorem invWs_iff {l : List (TNode XR)} : InvWs A G l ↔ ∀ n ∈ l, InvW A G n := by
  induction l with
  | nil => simp [InvWs]
  | cons n l ih => simp [InvWs, ih]

/-! ## Containment -/

theorem _root_.Verif.Spec.Across.wider {lo hi lo' hi' : ℚ} {d : Draw XR} (h : Across A G lo hi d) (h1 : lo' ≤ lo) (h2 : hi ≤ hi') :
    Across A G lo' hi' d := by
  cases d with
  | rect =>
    obtain ⟨a, b, e1, e2, h3, h4, h5⟩ := h
    exact ⟨a, b, e1, e2, by linarith, h4, by linarith⟩
  | glyph =>
    obtain ⟨a, s, m, g, e1, e2, h0, h3, h4⟩ := h
    exact ⟨a, s, m, g, e1, e2, h0, by linarith, by linarith⟩

/-- Rounding half of the room never takes more than the room. -/
theorem round_half {x : ℚ} (h : 0 ≤ x) : (0 : ℚ) ≤ (GoFloat.round (clamp (.fin x : XR)) : Int) ∧ ((GoFloat.round (clamp (.fin x : XR)) : Int) : ℚ) ≤ 2 * x := by
  have key : ∀ y : ℚ, 0 ≤ y → (0 : ℚ) ≤ (roundQ y : Int) ∧ ((roundQ y : Int) : ℚ) ≤ 2 * y := by
    intro y hy
    unfold roundQ
    rw [if_pos hy]
    constructor
    · have : (0 : Int) ≤ ⌊y + 1 / 2⌋ := Int.floor_nonneg.2 (by linarith)
      exact_mod_cast this
    · by_cases h2 : y < 1 / 2
      · have : ⌊y + 1 / 2⌋ = 0 := by rw [Int.floor_eq_iff]; constructor <;> push_cast <;> linarith
        rw [this]; push_cast; linarith
      · have := Int.floor_le (y + 1 / 2)
        linarith
  have h1 : lt (.fin x : XR) (ofInt (-1000000000)) = false := by
    rw [ofInt_fin, fin_lt, decide_eq_false_iff_not]; push_cast; linarith
  by_cases hx : 1000000000 < x
  · have h2 : lt (ofInt 1000000000 : XR) (.fin x) = true := by
      rw [ofInt_fin, fin_lt, decide_eq_true_eq]; push_cast; exact hx
    have h3 : clamp (.fin x : XR) = .fin 1000000000 := by
      unfold clamp
      rw [h1, h2, if_neg (by simp), if_pos rfl, ofInt_fin]; push_cast; rfl
    obtain ⟨k1, k2⟩ := key 1000000000 (by norm_num)
    rw [h3]
    exact ⟨k1, le_trans k2 (by linarith)⟩
  · have h2 : lt (ofInt 1000000000 : XR) (.fin x) = false := by
      rw [ofInt_fin, fin_lt, decide_eq_false_iff_not]; push_cast; exact hx
    have h3 : clamp (.fin x : XR) = .fin x := by
      unfold clamp
      rw [h1, h2]; rfl
    rw [h3]
    exact key x h

/-- What the horizontal lists among the nodes draw is inside them. -/
def EachAcross (A : Advances) (G : Bool → Prop) (cs : List (TNode XR)) : Prop :=
  ∀ bd bc, .list .h bd bc ∈ cs → ∀ (x : ℚ) (b : XR), ∀ d ∈ paintHs bd (.fin x) b [] bc, Across A G x (x + bd.box.width.val) d

theorem wide_across (W : ℚ) (hW : 0 ≤ W) (hd : LHead XR) (hw : hd.box.width = .fin W) (x : ℚ) (y : XR) : ∀ (cs pre : List (TNode XR)),
    EachAcross A G cs → (∀ n ∈ cs, Wide W n) → ∀ d ∈ paintVs hd (.fin x) y pre cs, Across A G x (x + W) d
  | [], _, _, _ => by rw [paintVs]; intro d hd; cases hd
  | n :: l, pre, he, hs => by
    rw [paintVs]
    intro d hd'
    rcases List.mem_append.1 hd' with h | h
    · have hn := hs n (by simp)
      cases n with
      | list kd nd cs =>
        cases kd with
        | h =>
          obtain ⟨h1, h2⟩ := hn
          rw [paintV, h1, fin_add, add_zero] at h
          exact (he nd cs (by simp) x _ d h).wider le_rfl (by linarith)
        | v => exact hn.elim
        | plain => exact hn.elim
      | rule b =>
        simp only [Wide] at hn
        rw [paintV, hn] at h
        have hii : isInf (pinf : XR) = true := rfl
        rw [hii, if_pos rfl, hw, fin_add] at h
        split at h
        · rw [List.mem_singleton] at h
          rw [h]
          exact ⟨x, _, rfl, rfl, le_rfl, by linarith, le_rfl⟩
        · cases h
      | box b => simp only [paintV] at h; cases h
      | char => exact hn.elim
      | accent => exact hn.elim
      | glue => simp only [paintV] at h; cases h
      | kern => simp only [paintV] at h; cases h
    · exact wide_across W hW hd hw x y l _ (fun bd bc hm => he bd bc (by simp [hm])) (fun n hn => hs n (by simp [hn])) d h

theorem Row.noGlue {W : ℚ} : ∀ {cs : List (TNode XR)} {p : ℚ}, Row A G W p cs → gluesOf cs = []
  | [], _, _ => rfl
  | n :: l, p, h => by
    rw [Row] at h
    have := Row.noGlue h.2
    cases n <;> first | exact h.1.elim | (unfold gluesOf at *; rw [List.filterMap_cons]; exact this)

theorem mid_across {nd : LHead XR} {cs : List (TNode XR)} {g g' : GlueD XR} {bd : LHead XR} {bc : List (TNode XR)} {q : ℚ} (h : Mid nd cs g g' bd bc q)
    (he : EachAcross A G cs) (x : ℚ) (b : XR) : ∀ d ∈ paintHs nd (.fin x) b [] cs, Across A G x (x + nd.box.width.val) d := by
  obtain ⟨rfl, h1, h2, h3, -, h4, h5, h6⟩ := h
  have hr : ∃ r : Int, advance nd [.glue g] = .fin r ∧ (0 : ℚ) ≤ r ∧ (r : ℚ) ≤ 2 * q := by
    rcases h4 with h4 | ⟨h4, h7, h8⟩
    · refine ⟨0, ?_, by simp, by push_cast; linarith⟩
      simp [advance, naturalWidth, TNode.width, glueOffset, h4, h1]
    · refine ⟨GoFloat.round (clamp (.fin q : XR)), ?_, round_half h5⟩
      simp [advance, naturalWidth, TNode.width, glueOffset, gluesOf, stretchTotal, h4, h7, h8, h1, h2, h3]
  obtain ⟨r, hr, r1, r2⟩ := hr
  simp only [paintHs, paintH, List.nil_append, List.append_nil]
  rw [hr, fin_add]
  intro d hd
  exact (he bd bc (by simp) _ _ d hd).wider (by linarith) (by linarith)

mutual
theorem across_h : ∀ (n : TNode XR) (hd : LHead XR) (x p W : ℚ) (b : XR), NumT false n → InvW A G n → Place A G W p n →
    ∀ d ∈ paintH hd (.fin (x + p)) b n, Across A G x (x + W) d
  | .char c, hd, x, p, W, b, hn, hi, hu => by
    rw [NumT] at hn
    rw [paintH]
    intro d hd
    rw [List.mem_singleton] at hd
    rw [hd]
    obtain ⟨h0, h1, m, hm, e1⟩ := hu
    exact ⟨_, _, m, hm, rfl, hn.2.2.2.2.2.1.eq_val, h1, by linarith, by linarith⟩
  | .accent _, _, _, _, _, _, _, _, hu => hu.elim
  | .rule _, _, _, _, _, _, _, _, hu => hu.elim
  | .list .h nd cs, hd, x, p, W, b, hn, hi, hu => by
    rw [NumT] at hn
    rw [paintH]
    obtain ⟨h1, h2⟩ := hu
    intro d hd
    rw [InvW] at hi
    refine Across.wider ?_ (show x ≤ x + p by linarith) (show x + p + nd.box.width.val ≤ x + W by linarith)
    obtain ⟨-, h0, h3 | ⟨g, g', bd, bc, q, h3⟩, h4⟩ := hi
    · exact across_hs cs nd _ 0 _ _ [] hn.2 h4 h3 rfl (by simp [naturalWidth]) d hd
    · exact mid_across h3 (across_each cs _ hn.2 h4) _ _ d hd
  | .list .v nd cs, hd, x, p, W, b, hn, hi, hu => by
    rw [NumT] at hn
    rw [InvW] at hi
    rw [paintH]
    obtain ⟨h1, h2⟩ := hu
    intro d hd
    exact (wide_across _ hi.2.1 nd hn.1.1.eq_val (x + p) _ cs [] (across_each cs _ hn.2 hi.2.2.2) hi.2.2.1 d hd).wider (by linarith) (by linarith)
  | .list .plain _ _, _, _, _, _, _, _, hi, _ => by simp only [InvW] at hi
  | .box _, _, _, _, _, _, _, _, _ => by intro d hd'; simp only [paintH] at hd'; cases hd'
  | .glue _, _, _, _, _, _, _, _, _ => by intro d hd'; simp only [paintH] at hd'; cases hd'
  | .kern _, _, _, _, _, _, _, _, _ => by intro d hd'; simp only [paintH] at hd'; cases hd'
theorem across_hs : ∀ (l : List (TNode XR)) (hd : LHead XR) (x p W : ℚ) (b : XR) (pre : List (TNode XR)), NumTs false l →
    InvWs A G l → Row A G W p l → gluesOf pre = [] → naturalWidth pre = .fin p →
    ∀ d ∈ paintHs hd (.fin x) b pre l, Across A G x (x + W) d
  | [], _, _, _, _, _, _, _, _, _, _, _ => by rw [paintHs]; intro d hd; cases hd
  | n :: l, hd, x, p, W, b, pre, hn, hi, hr, hg, hp => by
    rw [NumTs] at hn
    rw [InvWs] at hi
    have hgn : gluesOf [n] = [] := by
      rw [Row] at hr
      cases n <;> first | rfl | exact hr.1.elim
    rw [Row] at hr
    rw [paintHs, advance_none hd pre hg, hp, fin_add]
    intro d hd'
    rcases List.mem_append.1 hd' with h | h
    · exact across_h n hd x p W b hn.1 hi.1 hr.1 d h
    · refine across_hs l hd x _ W b _ hn.2 hi.2 hr.2 ?_ ?_ d h
      · unfold gluesOf at *; rw [List.filterMap_append, hg, hgn]; rfl
      · have := hn.1.node.width.eq_val
        unfold naturalWidth at *
        rw [List.foldl_append, hp, List.foldl_cons, List.foldl_nil, this, fin_add]; rfl
theorem across_one : ∀ (n : TNode XR) (v : Bool), NumT v n → InvW A G n → ∀ bd bc, n = .list .h bd bc →
    ∀ (x : ℚ) (b : XR), ∀ d ∈ paintHs bd (.fin x) b [] bc, Across A G x (x + bd.box.width.val) d
  | .list .h nd cs, v, hn, hi, bd, bc, e, x, b => by
    rw [NumT] at hn
    rw [InvW] at hi
    cases e
    obtain ⟨-, h0, h3 | ⟨g, g', bd, bc, q, h3⟩, h4⟩ := hi
    · exact across_hs cs nd _ 0 _ _ [] hn.2 h4 h3 rfl (by simp [naturalWidth])
    · exact mid_across h3 (across_each cs _ hn.2 h4) _ _
  | .list .v _ _, _, _, _, _, _, e, _, _ => by cases e
  | .list .plain _ _, _, _, _, _, _, e, _, _ => by cases e
  | .char _, _, _, _, _, _, e, _, _ => by cases e
  | .accent _, _, _, _, _, _, e, _, _ => by cases e
  | .rule _, _, _, _, _, _, e, _, _ => by cases e
  | .box _, _, _, _, _, _, e, _, _ => by cases e
  | .glue _, _, _, _, _, _, e, _, _ => by cases e
  | .kern _, _, _, _, _, _, e, _, _ => by cases e
theorem across_each : ∀ (l : List (TNode XR)) (v : Bool), NumTs v l → InvWs A G l → EachAcross A G l
  | [], _, _, _ => by intro bd bc h; cases h
  | n :: l, v, hn, hi => by
    rw [NumTs] at hn
    rw [InvWs] at hi
    intro bd bc h x b
    rcases List.mem_cons.1 h with h | h
    · exact across_one n v hn.1 hi.1 bd bc h.symm x b
    · exact across_each l v hn.2 hi.2 bd bc h x b
end

/-! ## Shrinking -/

theorem shrink_width {be : Backend XR} {n : TNode XR} (hn : NumT false n) (hi : InvW A G n) :
    (n.shrink be).width.val = n.width.val * (7 / 10) := by
  have hw := hn.node.width
  cases n with
  | box b => rw [InvW] at hi; rw [TNode.shrink, shrink_box hi]; exact hw.val_mul _
  | rule b => rw [InvW] at hi; rw [TNode.shrink, shrink_box hi]; exact hw.val_mul _
  | char c => rw [InvW] at hi; rw [TNode.shrink, shrink_char hi]; exact hw.val_mul _
  | accent c => simp only [InvW] at hi
  | glue g =>
    rw [InvW] at hi
    rw [TNode.shrink]
    unfold GlueD.shrinkG numSizeLevels
    rw [if_pos (by omega), sf_fin]; exact hw.val_mul _
  | kern g =>
    rw [InvW] at hi
    rw [TNode.shrink]
    unfold KernD.shrink numSizeLevels
    rw [if_pos (by omega), sf_fin]; exact hw.val_mul _
  | list kd nd cs =>
    have hsz : nd.box.size ≤ 6 := by cases kd <;> simp only [InvW] at hi <;> exact hi.1
    rw [TNode.shrink, shrink_head hsz, shrink_box hsz]; exact hw.val_mul _

theorem shrink_place {be : Backend XR} {W p : ℚ} {n : TNode XR} (hn : NumT false n) (hi : InvW A G n) (h : Place A G W p n) :
    Place A G (W * (7 / 10)) (p * (7 / 10)) (n.shrink be) := by
  cases n with
  | char c =>
    rw [InvW] at hi
    rw [NumT] at hn
    rw [TNode.shrink, shrink_char hi]
    obtain ⟨h1, h0, m, hm, h2⟩ := h
    refine ⟨by linarith, ?_, m, hm, ?_⟩
    all_goals simp only
    · rw [hn.2.2.2.2.2.1.val_mul]; linarith
    rw [hn.2.2.2.2.2.1.val_mul]
    linarith
  | list kd nd cs =>
    have hsz : nd.box.size ≤ 6 := by cases kd <;> simp only [InvW] at hi <;> exact hi.1
    rw [NumT] at hn
    rw [TNode.shrink, shrink_head hsz, shrink_box hsz]
    obtain ⟨h1, h2⟩ := h
    simp only [Place]
    rw [hn.1.1.val_mul]
    constructor <;> linarith
  | rule => exact h.elim
  | accent => exact h.elim
  | glue => exact h.elim
  | box => rw [TNode.shrink]; trivial
  | kern => rw [TNode.shrink]; trivial

theorem shrink_row {be : Backend XR} {W : ℚ} : ∀ (l : List (TNode XR)) (p : ℚ), NumTs false l → InvWs A G l → Row A G W p l →
    Row A G (W * (7 / 10)) (p * (7 / 10)) (shrinkAll be l)
  | [], _, _, _, _ => trivial
  | n :: l, p, hn, hi, hs => by
    rw [NumTs] at hn
    rw [InvWs] at hi
    rw [Row] at hs
    rw [shrinkAll, Row]
    refine ⟨shrink_place hn.1 hi.1 hs.1, ?_⟩
    rw [shrink_width hn.1 hi.1, ← add_mul]
    exact shrink_row l _ hn.2 hi.2 hs.2

theorem shrink_mid {be : Backend XR} {nd : LHead XR} {cs : List (TNode XR)} {g g' : GlueD XR} {bd : LHead XR} {bc : List (TNode XR)} {x : ℚ}
    (hz : nd.box.size ≤ 6) (hd : NumHead nd) (hn : NumTs false cs) (hi : InvWs A G cs) (h : Mid nd cs g g' bd bc x) :
    Mid nd.shrink (shrinkAll be cs) g.shrinkG g'.shrinkG bd.shrink (shrinkAll be bc) (x * (7 / 10)) := by
  obtain ⟨rfl, h1, h2, h3, h4, h5, h6, h7⟩ := h
  simp only [NumTs, NumT] at hn
  obtain ⟨-, ⟨⟨e3, -⟩, -⟩, -⟩ := hn
  simp only [InvWs, InvW] at hi
  obtain ⟨i1, i2, -⟩ := hi
  have hg : g.shrinkG = { g with size := g.size - 1, width := .fin 0 } := by
    unfold GlueD.shrinkG numSizeLevels
    rw [if_pos (by omega), sf_fin, h1]; simp
  rw [shrink_head hz, shrink_box hz, shrink_head i2.1, shrink_box i2.1]
  constructor
  · simp only [shrinkAll, TNode.shrink, shrink_head i2.1, shrink_box i2.1]
  · rw [hg]
  · rw [hg]; exact h2
  · rw [hg]; exact h3
  · rw [hg]; dsimp only; omega
  · rcases h5 with h5 | ⟨h5, h8, h9⟩
    · exact .inl h5
    · exact .inr ⟨h5, h8, by simp only; rw [h9, fin_mul]⟩
  · linarith
  · simp only
    rw [e3.val_mul, hd.1.val_mul]; linarith

theorem shrink_wide {be : Backend XR} {W : ℚ} {n : TNode XR} (hn : NumT true n) (hi : InvW A G n) (h : Wide W n) :
    Wide (W * (7 / 10)) (n.shrink be) := by
  cases n with
  | list kd nd cs =>
    cases kd with
    | h =>
      rw [InvW] at hi
      rw [NumT] at hn
      rw [TNode.shrink, shrink_head hi.1, shrink_box hi.1]
      obtain ⟨h1, h2⟩ := h
      simp only [Wide]
      rw [hn.1.1.val_mul, h1, fin_mul]
      exact ⟨by simp, by linarith⟩
    | v => exact h.elim
    | plain => exact h.elim
  | rule b =>
    rw [InvW] at hi
    rw [TNode.shrink, shrink_box hi]
    simp only [Wide] at h ⊢
    rw [h]
    decide +kernel
  | box => rw [TNode.shrink]; trivial
  | glue => rw [TNode.shrink]; trivial
  | kern => rw [TNode.shrink]; trivial
  | char => exact h.elim
  | accent => exact h.elim

mutual
theorem shrink_invW (be : Backend XR) : ∀ (n : TNode XR) (v : Bool), NumT v n → InvW A G n → InvW A G (n.shrink be)
  | .char c, v, hn, h => by
    rw [InvW] at h
    rw [TNode.shrink, shrink_char h, InvW]; dsimp only; omega
  | .accent _, _, _, h => by simp only [InvW] at h
  | .box b, _, _, h => by rw [InvW] at h; rw [TNode.shrink, InvW, shrink_box h]; dsimp only; omega
  | .rule b, _, _, h => by rw [InvW] at h; rw [TNode.shrink, InvW, shrink_box h]; dsimp only; omega
  | .glue g, _, _, h => by
    rw [InvW] at h; rw [TNode.shrink, InvW]
    unfold GlueD.shrinkG; split <;> (dsimp only; omega)
  | .kern g, _, _, h => by
    rw [InvW] at h; rw [TNode.shrink, InvW]
    unfold KernD.shrink; split <;> (dsimp only; omega)
  | .list .h nd cs, v, hn, h => by
    rw [NumT] at hn
    rw [InvW] at h
    rw [TNode.shrink, InvW]
    have hw : nd.shrink.box.width.val = nd.box.width.val * (7 / 10) := by
      rw [shrink_head h.1, shrink_box h.1]; exact hn.1.1.val_mul _
    rw [hw]
    refine ⟨by rw [shrink_head h.1, shrink_box h.1]; dsimp only; omega, by linarith [h.2.1], ?_, shrink_invWs be cs _ hn.2 h.2.2.2⟩
    rcases h.2.2.1 with h1 | ⟨g, g', bd, bc, x, h1⟩
    · have := shrink_row (be := be) cs 0 hn.2 h.2.2.2 h1
      rw [zero_mul] at this
      exact .inl this
    · exact .inr ⟨_, _, _, _, _, shrink_mid h.1 hn.1 hn.2 h.2.2.2 h1⟩
  | .list .v nd cs, v, hn, h => by
    rw [NumT] at hn
    rw [InvW] at h
    rw [TNode.shrink, InvW]
    have hw : nd.shrink.box.width.val = nd.box.width.val * (7 / 10) := by
      rw [shrink_head h.1, shrink_box h.1]; exact hn.1.1.val_mul _
    rw [hw]
    refine ⟨by rw [shrink_head h.1, shrink_box h.1]; dsimp only; omega, by linarith [h.2.1], ?_, shrink_invWs be cs _ hn.2 h.2.2.2⟩
    have : ∀ l : List (TNode XR), NumTs true l → InvWs A G l → (∀ n ∈ l, Wide nd.box.width.val n) →
        ∀ n ∈ shrinkAll be l, Wide (nd.box.width.val * (7 / 10)) n := by
      intro l
      induction l with
      | nil => intro _ _ _ n hn; cases hn
      | cons a l ih =>
        intro h1 h2 h3 n hn
        rw [NumTs] at h1
        rw [InvWs] at h2
        rw [shrinkAll] at hn
        rcases List.mem_cons.1 hn with rfl | hn
        · exact shrink_wide h1.1 h2.1 (h3 a (by simp))
        · exact ih h1.2 h2.2 (fun n hn => h3 n (by simp [hn])) n hn
    exact this cs hn.2 h.2.2.2 h.2.2.1
  | .list .plain _ _, _, _, h => by simp only [InvW] at h
theorem shrink_invWs (be : Backend XR) : ∀ (l : List (TNode XR)) (v : Bool), NumTs v l → InvWs A G l → InvWs A G (shrinkAll be l)
  | [], _, _, _ => trivial
  | n :: l, v, hn, h => by
    rw [NumTs] at hn
    rw [InvWs] at h
    rw [shrinkAll, InvWs]
    exact ⟨shrink_invW be n v hn.1 h.1, shrink_invWs be l v hn.2 h.2⟩
end

end Verif
