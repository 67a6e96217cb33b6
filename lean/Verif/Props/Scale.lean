import Verif.Spec.Scale
import Verif.Props.Box
/-! # C46, C47: `Shrink` and `Grow` -/

namespace Verif.Props
open Verif Verif.Spec GoFloat XR

/-! ## C46 -/

/-- the dimensions of a node -/
def dims (n : TNode XR) : XR × XR × XR := (n.width, n.height, n.depth)

theorem shrinkFactor_fin : (shrinkFactor : XR) = .fin (7 / 10) := by simp [shrinkFactor, ofRat]
theorem growFactor_fin : (growFactor : XR) = .fin (10 / 7) := by simp [growFactor, ofRat]

theorem zero_mul' {k : ℚ} : (.fin 0 : XR) * .fin k = .fin 0 := by simp

theorem shrink_one (be : Backend XR) (n : TNode XR) (ha : isAccent n = false) :
    level (n.shrink be) = level n - 1 ∧ isAccent (n.shrink be) = false ∧
    (level n ≤ 6 → dims (n.shrink be) = (n.width * .fin (7 / 10), n.height * .fin (7 / 10), n.depth * .fin (7 / 10))) ∧
    (6 < level n → dims (n.shrink be) = dims n) := by
  have hlt : ∀ s : Int, s - 1 < numSizeLevels ↔ s ≤ 6 := fun s => by unfold numSizeLevels; omega
  cases n <;> simp only [isAccent, reduceCtorEq] at ha <;>
    simp only [TNode.shrink, level, BoxD.shrink, CharD.shrink, LHead.shrink, GlueD.shrinkG, KernD.shrink, hlt, dims,
      isAccent, TNode.width, TNode.height, TNode.depth, shrinkFactor_fin, zero_fin, zero_mul'] <;>
    split <;> simp <;> (try intro h) <;> (try omega)

theorem grow_one (be : Backend XR) (n : TNode XR) (ha : isAccent n = false) :
    level (n.grow be) = level n + 1 ∧ isAccent (n.grow be) = false ∧
    dims (n.grow be) = (n.width * .fin (10 / 7), n.height * .fin (10 / 7), n.depth * .fin (10 / 7)) := by
  cases n <;> simp only [isAccent, reduceCtorEq] at ha <;>
    simp [TNode.grow, level, BoxD.grow, CharD.grow, LHead.grow, GlueD.growG, KernD.grow, dims,
      isAccent, TNode.width, TNode.height, TNode.depth, growFactor_fin]

theorem factor_pos (l : List SizeOp) (s : Int) : 0 < factor s l := by
  induction l generalizing s with
  | nil => simp [factor]
  | cons o l ih =>
    cases o
    · simp only [factor]
      have := ih (s - 1)
      split <;> positivity
    · simp only [factor]; have := ih (s + 1); positivity

/-- **C46** (exact) After any history of `Shrink` and `Grow` calls, the dimensions of a node (not an
accent) are those it had multiplied by the factor of the history. -/
theorem C46_history (be : Backend XR) (n : TNode XR) (ha : isAccent n = false) (ops : List SizeOp) :
    dims (applyOps be n ops) = (n.width * .fin (factor (level n) ops), n.height * .fin (factor (level n) ops),
      n.depth * .fin (factor (level n) ops)) := by
  induction ops generalizing n with
  | nil => simp [applyOps, factor, dims]
  | cons o l ih =>
    cases o with
    | grow =>
      obtain ⟨h1, h2, h3⟩ := grow_one be n ha
      have := ih (n.grow be) h2
      simp only [applyOps, List.foldl_cons, applyOp] at this ⊢
      simp only [dims, Prod.mk.injEq] at h3
      rw [this, h1, h3.1, h3.2.1, h3.2.2]
      simp only [factor, mul_mul' _ (by norm_num : (0:ℚ) < 10 / 7) (factor_pos _ _)]
    | shrink =>
      obtain ⟨h1, h2, h3, h4⟩ := shrink_one be n ha
      have := ih (n.shrink be) h2
      simp only [applyOps, List.foldl_cons, applyOp] at this ⊢
      by_cases hs : level n ≤ 6
      · have h3 := h3 hs
        simp only [dims, Prod.mk.injEq] at h3
        rw [this, h1, h3.1, h3.2.1, h3.2.2]
        simp only [factor, hs, if_true, mul_mul' _ (by norm_num : (0:ℚ) < 7 / 10) (factor_pos _ _)]
      · have h4 := h4 (by omega)
        simp only [dims, Prod.mk.injEq] at h4
        rw [this, h1, h4.1, h4.2.1, h4.2.2]
        simp [factor, hs]

theorem factor_shrinks (k : Nat) (s : Int) (hs : s ≤ 6) : factor s (List.replicate k .shrink) = (7 / 10) ^ k := by
  induction k generalizing s with
  | zero => simp [factor]
  | succ k ih =>
    simp only [List.replicate_succ, factor, hs, if_true]
    rw [ih _ (by omega), pow_succ]; ring

/-- **C46** (exact) There is no smallest size: `k` calls of `Shrink` on a fresh node multiply its
dimensions by `0.7^k`, for every `k`. -/
theorem C46_no_floor (be : Backend XR) (n : TNode XR) (ha : isAccent n = false) (hf : level n = 0) (k : Nat) :
    dims (applyOps be n (List.replicate k .shrink)) =
      (n.width * .fin ((7 / 10) ^ k), n.height * .fin ((7 / 10) ^ k), n.depth * .fin ((7 / 10) ^ k)) := by
  rw [C46_history be n ha, hf, factor_shrinks k 0 (by decide)]

/-- **C46** (exact) So the documented limit ("only three levels of sizes") does not exist: shrinking a
box of width 1 four times gives something smaller than shrinking it three times, and so on for ever. -/
theorem C46_documented_limit_false (be : Backend XR) (k : Nat) :
    GoFloat.lt (applyOps be (hbox (.fin 1)) (List.replicate (k + 1) .shrink)).width
      (applyOps be (hbox (.fin 1)) (List.replicate k .shrink)).width = true := by
  have h1 := C46_no_floor be (hbox (.fin 1)) rfl rfl (k + 1)
  have h2 := C46_no_floor be (hbox (.fin 1)) rfl rfl k
  simp only [dims, Prod.mk.injEq] at h1 h2
  rw [h1.1, h2.1]
  simp only [hbox, newBox, TNode.width, fin_mul, fin_lt, one_mul, decide_eq_true_eq, pow_succ]
  have : (0 : ℚ) < (7 / 10) ^ k := by positivity
  linarith

theorem factor_grows (g k : Nat) (s : Int) :
    factor s (List.replicate g .grow ++ List.replicate k .shrink) =
      (10 / 7) ^ g * factor (s + g) (List.replicate k .shrink) := by
  induction g generalizing s with
  | zero => simp
  | succ g ih =>
    simp only [List.replicate_succ, List.cons_append, factor]
    rw [ih, pow_succ]
    have : s + 1 + (g : Int) = s + ((g + 1 : Nat) : Int) := by omega
    rw [this]; ring

theorem factor_high (k e : Nat) : factor (6 + e) (List.replicate (e + k) .shrink) = factor 6 (List.replicate k .shrink) := by
  induction e with
  | zero => simp
  | succ e ih =>
    have : e + 1 + k = (e + k) + 1 := by omega
    rw [this, List.replicate_succ]
    simp only [factor]
    rw [if_neg (by omega)]
    have h : (6 : Int) + ((e + 1 : Nat) : Int) - 1 = 6 + e := by omega
    rw [h, ih, one_mul]

/-- **C46** (exact) `Shrink` undoes `Grow` up to six levels: `g ≤ 6` calls of `Grow` and `g` of `Shrink`
restore the dimensions of a fresh node. -/
theorem C46_grow_shrink (be : Backend XR) (n : TNode XR) (ha : isAccent n = false) (hf : level n = 0) (g : Nat) (hg : g ≤ 6) :
    dims (applyOps be n (List.replicate g .grow ++ List.replicate g .shrink)) = dims n := by
  rw [C46_history be n ha, hf, factor_grows, factor_shrinks g _ (by omega), ← mul_pow]
  norm_num [dims]

/-- **C46** (exact) Beyond six levels it does not: the dimensions are then larger by `10/7` for each
further level. -/
theorem C46_grow_shrink_beyond (be : Backend XR) (n : TNode XR) (ha : isAccent n = false) (hf : level n = 0) (e : Nat) :
    dims (applyOps be n (List.replicate (6 + e) .grow ++ List.replicate (6 + e) .shrink)) =
      (n.width * .fin ((10 / 7) ^ e), n.height * .fin ((10 / 7) ^ e), n.depth * .fin ((10 / 7) ^ e)) := by
  have h : factor 0 (List.replicate (6 + e) .grow ++ List.replicate (6 + e) .shrink) = (10 / 7) ^ e := by
    rw [factor_grows]
    have h1 : (0 : Int) + ((6 + e : Nat) : Int) = 6 + (e : Int) := by omega
    have h2 : 6 + e = e + 6 := by omega
    rw [h1, h2, factor_high, factor_shrinks 6 6 (by decide), pow_add, mul_assoc, ← mul_pow]
    norm_num
  rw [C46_history be n ha, hf, h]

/-- **C46** An accent is asked from the backend again at the new font size, which is scaled in the same
way. -/
theorem C46_accent {F : Type} [GoFloat F] (be : Backend F) (c : CharD F) :
    ∃ c', (TNode.accent c).shrink be = .accent c' ∧ c'.size = c.size - 1 ∧
      c'.font.size = (if c.size ≤ 6 then c.font.size * shrinkFactor else c.font.size) ∧
      let m := be.metrics c.c c'.font c.dpi c.math
      c'.width = m.xmax - m.xmin ∧ c'.height = m.ymax - m.ymin ∧ c'.depth = zero := by
  refine ⟨_, rfl, ?_⟩
  unfold CharD.shrink CharD.updateAccent numSizeLevels
  by_cases h : c.size ≤ 6
  · simp only [if_pos (show c.size - 1 < 6 by omega), if_pos h]; exact ⟨trivial, trivial, trivial, trivial, trivial⟩
  · simp only [if_neg (show ¬ c.size - 1 < 6 by omega), if_neg h]; exact ⟨trivial, trivial, trivial, trivial, trivial⟩

example : dims (applyOps exBe (vbox (.fin 7) (.fin 14) : TNode XR) (List.replicate 3 .shrink)) =
    (.fin 0, .fin (7 * (7/10)^3), .fin (14 * (7/10)^3)) := by decide +kernel
example : (applyOps exBe (hbox (.fin 7) : TNode XR) (List.replicate 7 .grow ++ List.replicate 7 .shrink)).width = .fin 10 := by
  decide +kernel

/-! ## C47 -/

theorem signInf_mul (a : ℚ) {k : ℚ} (hk : 0 < k) : signInf (a * k) = signInf a := by
  have h0 : k ≠ 0 := hk.ne'
  unfold signInf
  have h1 : a * k < 0 ↔ a < 0 :=
    ⟨fun h => by by_contra h'; have := mul_nonneg (not_lt.1 h') hk.le; linarith, fun h => mul_neg_of_neg_of_pos h hk⟩
  simp only [mul_eq_zero, h0, or_false, h1]

theorem signInf_mul_fin (a : ℚ) {k : ℚ} (hk : 0 < k) : signInf a * .fin k = signInf a := by
  have h0 : k ≠ 0 := hk.ne'
  have h1 : ¬ k < 0 := not_lt.2 hk.le
  unfold signInf
  split
  · rfl
  · split <;> simp [mul_def, XR.mul, signInf, h0, h1, hk]

theorem mul_swap (a t : XR) {k : ℚ} (hk : 0 < k) : a * .fin k * t = a * t * .fin k := by
  have hi : ∀ x : XR, GoFloat.isInf x = true → x * .fin k = x := by
    have h0 : k ≠ 0 := hk.ne'
    have h1 : ¬ k < 0 := not_lt.2 hk.le
    intro x hx
    cases x with
    | fin a => simp at hx
    | nan => rfl
    | pinf => simp [mul_def, XR.mul, signInf, h0, h1]
    | ninf => simp [mul_def, XR.mul, signInf, h0, hk]
  cases a with
  | fin a =>
    cases t with
    | fin t => simp only [fin_mul]; congr 1; ring
    | nan => rfl
    | pinf => change signInf (a * k) = signInf a * .fin k; rw [signInf_mul _ hk, signInf_mul_fin _ hk]
    | ninf => change signInf (-(a * k)) = signInf (-a) * .fin k; rw [← neg_mul, signInf_mul _ hk, signInf_mul_fin _ hk]
  | nan => rfl
  | pinf =>
    rw [hi _ rfl]
    cases t with
    | fin t => exact (signInf_mul_fin _ hk).symm
    | nan => rfl
    | pinf => exact (hi pinf rfl).symm
    | ninf => exact (hi ninf rfl).symm
  | ninf =>
    rw [hi _ rfl]
    cases t with
    | fin t => exact (signInf_mul_fin _ hk).symm
    | nan => rfl
    | pinf => exact (hi ninf rfl).symm
    | ninf => exact (hi pinf rfl).symm

/-- what a glue contributes to the totals -/
def glueKey (g : GlueD XR) : Fin 4 × XR × Fin 4 × XR := (g.stretchOrder, g.stretch, g.shrinkOrder, g.shrink)

/-- the dimensions of `n'` are those of `n` times `k` -/
structure Scaled (k : ℚ) (n n' : TNode XR) : Prop where
  width : n'.width = n.width * .fin k
  vsize : vsize n' = vsize n * .fin k
  reach : reach n' = (reach n).map fun q => (q.1 * .fin k, q.2 * .fin k)
  vwidth : vwidths [n'] = (vwidths [n]).map (· * .fin k)
  glue : (gluesOf [n']).map glueKey = (gluesOf [n]).map glueKey

section
variable {k : ℚ} {cs cs' : List (TNode XR)}

theorem gluesOf_cons {F : Type} [GoFloat F] (n : TNode F) (l : List (TNode F)) : gluesOf (n :: l) = gluesOf [n] ++ gluesOf l := by
  rw [gluesOf, gluesOf, gluesOf, ← List.filterMap_append]; rfl

theorem scaled_natural (hk : 0 < k) (h : List.Forall₂ (Scaled k) cs cs') (a : XR) :
    cs'.foldl (fun x n => x + n.width) (a * .fin k) = cs.foldl (fun x n => x + n.width) a * .fin k := by
  induction h generalizing a with
  | nil => rfl
  | cons h _ ih => rw [List.foldl_cons, List.foldl_cons, h.width, ← add_mul_pos _ _ hk, ih]

theorem scaled_vsize (hk : 0 < k) (h : List.Forall₂ (Scaled k) cs cs') (a : XR) :
    (cs'.map vsize).foldl (· + ·) (a * .fin k) = (cs.map vsize).foldl (· + ·) a * .fin k := by
  induction h generalizing a with
  | nil => rfl
  | cons h _ ih => rw [List.map_cons, List.map_cons, List.foldl_cons, List.foldl_cons, h.vsize, ← add_mul_pos _ _ hk, ih]

theorem scaled_reach (h : List.Forall₂ (Scaled k) cs cs') :
    cs'.filterMap reach = (cs.filterMap reach).map fun q => (q.1 * .fin k, q.2 * .fin k) := by
  induction h with
  | nil => rfl
  | cons h _ ih =>
    rename_i n n' l l' _
    rw [List.filterMap_cons, List.filterMap_cons, h.reach, ih]
    cases reach n <;> rfl

theorem scaled_vwidths (h : List.Forall₂ (Scaled k) cs cs') : vwidths cs' = (vwidths cs).map (· * .fin k) := by
  induction h with
  | nil => rfl
  | cons h _ ih =>
    rename_i n n' l l' _
    rw [vwidths_cons n', vwidths_cons n, h.vwidth, ih, List.map_append]

theorem scaled_glue (h : List.Forall₂ (Scaled k) cs cs') : (gluesOf cs').map glueKey = (gluesOf cs).map glueKey := by
  induction h with
  | nil => rfl
  | cons h _ ih =>
    rename_i n n' l l' _
    rw [gluesOf_cons n', gluesOf_cons n, List.map_append, List.map_append, h.glue, ih]

theorem foldl_max_mul (hk : 0 < k) (l : List XR) (a : XR) :
    (l.map (· * .fin k)).foldl GoFloat.max (a * .fin k) = l.foldl GoFloat.max a * .fin k := by
  induction l generalizing a with
  | nil => rfl
  | cons b l ih => rw [List.map_cons, List.foldl_cons, List.foldl_cons, ← max_mul_pos _ _ hk, ih]

theorem stretchTotal_key (o : Fin 4) : stretchTotal cs o =
    (((gluesOf cs).map glueKey).filter (·.1 = o)).foldl (fun t g => t + g.2.1) zero := by
  rw [List.filter_map, List.foldl_map]; rfl

theorem shrinkTotal_key (o : Fin 4) : shrinkTotal cs o =
    (((gluesOf cs).map glueKey).filter (·.2.2.1 = o)).foldl (fun t g => t + g.2.2.2) zero := by
  rw [List.filter_map, List.foldl_map]; rfl

theorem scaled_taken (hk : 0 < k) (h : List.Forall₂ (Scaled k) cs cs') (hd hd' : LHead XR)
    (h1 : hd'.sign = hd.sign) (h2 : hd'.order = hd.order) (h3 : hd'.set = hd.set * .fin k) :
    glueTaken hd' cs' = glueTaken hd cs * .fin k := by
  have e := scaled_glue h
  unfold glueTaken
  rw [h1, h2, h3, stretchTotal_key, shrinkTotal_key, e, ← stretchTotal_key, ← shrinkTotal_key]
  split
  · exact zero_mul'.symm
  · split <;> exact mul_swap _ _ hk

theorem scaled_fits (hk : 0 < k) (h : List.Forall₂ (Scaled k) cs cs') (kd : LKind) (hd hd' : LHead XR)
    (h1 : hd'.sign = hd.sign) (h2 : hd'.order = hd.order) (h3 : hd'.set = hd.set * .fin k)
    (hw : hd'.box.width = hd.box.width * .fin k) (hh : hd'.box.height = hd.box.height * .fin k)
    (hdp : hd'.box.depth = hd.box.depth * .fin k) (hf : Fits kd hd cs) : Fits kd hd' cs' := by
  have z : ∀ a : ℚ, (.fin 0 : XR) = .fin 0 * .fin k := fun _ => zero_mul'.symm
  cases kd with
  | plain => trivial
  | h =>
    obtain ⟨f1, f2, f3⟩ := hf
    refine ⟨?_, ?_, ?_⟩
    · rw [hw, f1, scaled_taken hk h hd hd' h1 h2 h3, add_mul_pos _ _ hk]
      congr 1
      unfold naturalWidth
      rw [zero_fin]
      exact (scaled_natural hk h (.fin 0)).symm.trans (by rw [zero_mul'])
    · rw [hh, f2, scaled_reach h, List.map_map, ← foldl_max_mul hk, zero_mul', List.map_map]; rfl
    · rw [hdp, f3, scaled_reach h, List.map_map, ← foldl_max_mul hk, zero_mul', List.map_map]; rfl
  | v =>
    obtain ⟨f1, f2⟩ := hf
    refine ⟨?_, ?_⟩
    · rw [hh, hdp, ← add_mul_pos _ _ hk, f1, scaled_taken hk h hd hd' h1 h2 h3, add_mul_pos _ _ hk]
      congr 1
      exact (scaled_vsize hk h (.fin 0)).symm.trans (by rw [zero_mul'])
    · rw [hw, f2, scaled_vwidths h, ← foldl_max_mul hk, zero_mul']
end

/-- scaling the numbers of a box, rule, char or list header scales its contribution -/
theorem scaled_mk {k : ℚ} (hk : 0 < k) (n n' : TNode XR) (hw : n'.width = n.width * .fin k)
    (hv : vsize n' = vsize n * .fin k)
    (hr : reach n' = (reach n).map fun q => (q.1 * .fin k, q.2 * .fin k))
    (v : vwidths [n] = if isInf n.width then [] else [n.width])
    (v' : vwidths [n'] = if isInf n'.width then [] else [n'.width])
    (g : gluesOf [n] = []) (g' : gluesOf [n'] = []) : Scaled k n n' := by
  refine ⟨hw, hv, hr, ?_, by rw [g, g']⟩
  rw [v, v', hw, isInf_mul_pos _ hk]
  by_cases h : isInf n.width = true
  · rw [if_pos h, if_pos h]; rfl
  · rw [if_neg h, if_neg h]; rfl

theorem vwidths_box (b : BoxD XR) : vwidths [.box b] = (if isInf b.width then [] else [b.width]) ∧
    vwidths [.rule b] = (if isInf b.width then [] else [b.width]) := by
  by_cases h : isInf b.width = true <;> simp [vwidths, TNode.width, h]
theorem vwidths_char (b : CharD XR) : vwidths [.char b] = (if isInf b.width then [] else [b.width]) ∧
    vwidths [.accent b] = (if isInf b.width then [] else [b.width]) := by
  by_cases h : isInf b.width = true <;> simp [vwidths, TNode.width, h]
theorem vwidths_list (kd : LKind) (b : LHead XR) (cs : List (TNode XR)) :
    vwidths [.list kd b cs] = (if isInf b.box.width then [] else [b.box.width]) := by
  by_cases h : isInf b.box.width = true <;> simp [vwidths, TNode.width, h]

theorem scaled_box {k : ℚ} (hk : 0 < k) (b b' : BoxD XR) (hw : b'.width = b.width * .fin k)
    (hh : b'.height = b.height * .fin k) (hd : b'.depth = b.depth * .fin k) :
    Scaled k (.box b) (.box b') ∧ Scaled k (.rule b) (.rule b') := by
  have hv : b'.height + b'.depth = (b.height + b.depth) * .fin k := by rw [hh, hd, add_mul_pos _ _ hk]
  have hr : (if isInf b'.height || isInf b'.depth then none else some (b'.height, b'.depth)) =
      (if isInf b.height || isInf b.depth then none else some (b.height, b.depth)).map
        fun q => (q.1 * .fin k, q.2 * .fin k) := by
    rw [hh, hd, isInf_mul_pos _ hk, isInf_mul_pos _ hk]
    by_cases h : (isInf b.height || isInf b.depth) = true
    · rw [if_pos h, if_pos h]; rfl
    · rw [if_neg h, if_neg h]; rfl
  exact ⟨scaled_mk hk _ _ hw hv hr (vwidths_box b).1 (vwidths_box b').1 rfl rfl,
    scaled_mk hk _ _ hw hv hr (vwidths_box b).2 (vwidths_box b').2 rfl rfl⟩

theorem scaled_char {k : ℚ} (hk : 0 < k) (b b' : CharD XR) (hw : b'.width = b.width * .fin k)
    (hh : b'.height = b.height * .fin k) (hd : b'.depth = b.depth * .fin k) :
    Scaled k (.char b) (.char b') ∧ Scaled k (.accent b) (.accent b') := by
  have hv : b'.height + b'.depth = (b.height + b.depth) * .fin k := by rw [hh, hd, add_mul_pos _ _ hk]
  have hr : some (b'.height, b'.depth) = (some (b.height, b.depth)).map fun q => (q.1 * .fin k, q.2 * .fin k) := by
    rw [hh, hd]; rfl
  exact ⟨scaled_mk hk _ _ hw hv hr (vwidths_char b).1 (vwidths_char b').1 rfl rfl,
    scaled_mk hk _ _ hw hv hr (vwidths_char b).2 (vwidths_char b').2 rfl rfl⟩

theorem scaled_list {k : ℚ} (hk : 0 < k) (kd : LKind) (b b' : LHead XR) (cs cs' : List (TNode XR))
    (hw : b'.box.width = b.box.width * .fin k) (hh : b'.box.height = b.box.height * .fin k)
    (hd : b'.box.depth = b.box.depth * .fin k) (hs : b'.shift = b.shift * .fin k) :
    Scaled k (.list kd b cs) (.list kd b' cs') := by
  have hv : b'.box.height + b'.box.depth = (b.box.height + b.box.depth) * .fin k := by rw [hh, hd, add_mul_pos _ _ hk]
  have hr : (if isInf b'.box.height || isInf b'.box.depth then none else some (b'.box.height - b'.shift, b'.box.depth + b'.shift)) =
      (if isInf b.box.height || isInf b.box.depth then none else some (b.box.height - b.shift, b.box.depth + b.shift)).map
        fun q => (q.1 * .fin k, q.2 * .fin k) := by
    rw [hh, hd, hs, isInf_mul_pos _ hk, isInf_mul_pos _ hk]
    by_cases h : (isInf b.box.height || isInf b.box.depth) = true
    · rw [if_pos h, if_pos h]; rfl
    · rw [if_neg h, if_neg h, Option.map_some, sub_mul_pos _ _ hk, add_mul_pos _ _ hk]
  exact scaled_mk hk _ _ hw hv hr (vwidths_list _ _ _) (vwidths_list _ _ _) rfl rfl

theorem scaled_glueNode {k : ℚ} (g : GlueD XR) (s : Int) (w : XR) (hw : w = g.width * .fin k) :
    Scaled k (.glue g) (.glue { g with size := s, width := w }) := by
  constructor <;> simp [TNode.width, vsize, reach, vwidths, gluesOf, hw, glueKey]

theorem scaled_kern {k : ℚ} (g : KernD XR) (s : Int) (w : XR) (hw : w = g.width * .fin k) :
    Scaled k (.kern g) (.kern ⟨s, w⟩) := by
  constructor <;> simp [TNode.width, vsize, reach, vwidths, gluesOf, hw]

/-- the hypothesis of C47 on each node: its level is at most 6, and accents scale -/
def Shrinkable (be : Backend XR) (n : TNode XR) : Prop := level n ≤ 6 ∧ AccentScales be (.fin (7 / 10)) n

theorem every_self {P : TNode XR → Prop} {n : TNode XR} (h : Every P n) : P n := by
  cases n <;> simp only [Every] at h <;> first | exact h | exact h.1

theorem scaled_shrink (be : Backend XR) (n : TNode XR) (h : Shrinkable be n) : Scaled (7 / 10) n (n.shrink be) := by
  obtain ⟨hl, ha⟩ := h
  have hk : (0 : ℚ) < 7 / 10 := by norm_num
  have hlt : ∀ s : Int, s ≤ 6 → s - 1 < numSizeLevels := fun s _ => by unfold numSizeLevels; omega
  cases n with
  | box b =>
    have hl : b.size ≤ 6 := hl
    simp only [TNode.shrink, BoxD.shrink, if_pos (hlt _ hl), shrinkFactor_fin]
    exact (scaled_box hk _ _ rfl rfl rfl).1
  | rule b =>
    have hl : b.size ≤ 6 := hl
    simp only [TNode.shrink, BoxD.shrink, if_pos (hlt _ hl), shrinkFactor_fin]
    exact (scaled_box hk _ _ rfl rfl rfl).2
  | char c =>
    have hl : c.size ≤ 6 := hl
    simp only [TNode.shrink, CharD.shrink, if_pos (hlt _ hl), shrinkFactor_fin]
    exact (scaled_char hk _ _ rfl rfl rfl).1
  | accent c =>
    have hl : c.size ≤ 6 := hl
    simp only [TNode.shrink, CharD.shrink, if_pos (hlt _ hl), shrinkFactor_fin]
    exact (scaled_char hk _ _ ha.1 ha.2.1 (zero_fin.trans ha.2.2)).2
  | list kd hd cs =>
    have hl : hd.box.size ≤ 6 := hl
    simp only [TNode.shrink, LHead.shrink, BoxD.shrink, if_pos (hlt _ hl), shrinkFactor_fin]
    exact scaled_list hk _ _ _ _ _ rfl rfl rfl rfl
  | glue g =>
    have hl : g.size ≤ 6 := hl
    simp only [TNode.shrink, GlueD.shrinkG, if_pos (hlt _ hl), shrinkFactor_fin]
    exact scaled_glueNode _ _ _ rfl
  | kern g =>
    have hl : g.size ≤ 6 := hl
    simp only [TNode.shrink, KernD.shrink, if_pos (hlt _ hl), shrinkFactor_fin]
    exact scaled_kern _ _ _ rfl

theorem scaled_grow (be : Backend XR) (n : TNode XR) (ha : AccentScales be (.fin (10 / 7)) n) : Scaled (10 / 7) n (n.grow be) := by
  have hk : (0 : ℚ) < 10 / 7 := by norm_num
  cases n with
  | box b => simp only [TNode.grow, BoxD.grow, growFactor_fin]; exact (scaled_box hk _ _ rfl rfl rfl).1
  | rule b => simp only [TNode.grow, BoxD.grow, growFactor_fin]; exact (scaled_box hk _ _ rfl rfl rfl).2
  | char c => simp only [TNode.grow, CharD.grow, growFactor_fin]; exact (scaled_char hk _ _ rfl rfl rfl).1
  | accent c =>
    simp only [TNode.grow, CharD.grow, growFactor_fin]
    exact (scaled_char hk _ _ ha.1 ha.2.1 (zero_fin.trans ha.2.2)).2
  | list kd hd cs =>
    simp only [TNode.grow, LHead.grow, BoxD.grow, growFactor_fin]; exact scaled_list hk _ _ _ _ _ rfl rfl rfl rfl
  | glue g => simp only [TNode.grow, GlueD.growG, growFactor_fin]; exact scaled_glueNode _ _ _ rfl
  | kern g => simp only [TNode.grow, KernD.grow, growFactor_fin]; exact scaled_kern _ _ _ rfl

theorem scaled_shrinkAll (be : Backend XR) (cs : List (TNode XR)) (h : EveryAll (Shrinkable be) cs) :
    List.Forall₂ (Scaled (7 / 10)) cs (shrinkAll be cs) := by
  induction cs with
  | nil => exact .nil
  | cons n l ih => exact .cons (scaled_shrink be n (every_self h.1)) (ih h.2)

theorem scaled_growAll (be : Backend XR) (cs : List (TNode XR)) (h : EveryAll (AccentScales be (.fin (10 / 7))) cs) :
    List.Forall₂ (Scaled (10 / 7)) cs (growAll be cs) := by
  induction cs with
  | nil => exact .nil
  | cons n l ih => exact .cons (scaled_grow be n (every_self h.1)) (ih h.2)

mutual
/-- **C47** (exact) `Shrink` keeps a packed tree packed, if no node was grown more than six levels and the
backend's accents scale with the font size. -/
theorem C47_shrink (be : Backend XR) : ∀ n : TNode XR, Every (Shrinkable be) n → Packed n → Packed (n.shrink be)
  | .list kd hd cs, he, hp => by
    have hk : (0 : ℚ) < 7 / 10 := by norm_num
    have hl : hd.box.size - 1 < numSizeLevels := by have h6 : hd.box.size ≤ 6 := he.1.1; unfold numSizeLevels; omega
    refine ⟨?_, C47_shrinkAll be cs he.2 hp.2⟩
    refine scaled_fits hk (scaled_shrinkAll be cs he.2) kd hd _ ?_ ?_ ?_ ?_ ?_ ?_ hp.1 <;>
      simp only [LHead.shrink, BoxD.shrink, if_pos hl, shrinkFactor_fin]
  | .box _, _, _ => trivial
  | .char _, _, _ => trivial
  | .accent _, _, _ => trivial
  | .rule _, _, _ => trivial
  | .glue _, _, _ => trivial
  | .kern _, _, _ => trivial
theorem C47_shrinkAll (be : Backend XR) : ∀ l : List (TNode XR), EveryAll (Shrinkable be) l → PackedAll l → PackedAll (shrinkAll be l)
  | [], _, _ => trivial
  | n :: l, he, hp => ⟨C47_shrink be n he.1 hp.1, C47_shrinkAll be l he.2 hp.2⟩
end

mutual
/-- **C47** (exact) `Grow` keeps a packed tree packed. -/
theorem C47_grow (be : Backend XR) : ∀ n : TNode XR, Every (AccentScales be (.fin (10 / 7))) n → Packed n → Packed (n.grow be)
  | .list kd hd cs, he, hp => by
    have hk : (0 : ℚ) < 10 / 7 := by norm_num
    refine ⟨?_, C47_growAll be cs he.2 hp.2⟩
    refine scaled_fits hk (scaled_growAll be cs he.2) kd hd _ ?_ ?_ ?_ ?_ ?_ ?_ hp.1 <;>
      simp only [LHead.grow, BoxD.grow, growFactor_fin]
  | .box _, _, _ => trivial
  | .char _, _, _ => trivial
  | .accent _, _, _ => trivial
  | .rule _, _, _ => trivial
  | .glue _, _, _ => trivial
  | .kern _, _, _ => trivial
theorem C47_growAll (be : Backend XR) : ∀ l : List (TNode XR), EveryAll (AccentScales be (.fin (10 / 7))) l → PackedAll l → PackedAll (growAll be l)
  | [], _, _ => trivial
  | n :: l, he, hp => ⟨C47_grow be n he.1 hp.1, C47_growAll be l he.2 hp.2⟩
end


theorem hsum_fold (cs : List (TNode XR)) (p : Dims XR) :
    (hsum cs p).a = ((cs.filterMap reach).map (·.1)).foldl GoFloat.max p.a ∧
    (hsum cs p).b = ((cs.filterMap reach).map (·.2)).foldl GoFloat.max p.b := by
  induction cs generalizing p with
  | nil => exact ⟨rfl, rfl⟩
  | cons n l ih =>
    have h := hpackDims_ab n p
    rw [hsum_cons, List.filterMap_cons]
    cases hr : reach n with
    | none => simp only [hr, Prod.mk.injEq] at h; rw [(ih _).1, (ih _).2, h.1, h.2]; exact ⟨rfl, rfl⟩
    | some q => simp only [hr, Prod.mk.injEq] at h; rw [(ih _).1, (ih _).2, h.1, h.2]; exact ⟨rfl, rfl⟩

theorem sub_self_eq (x : XR) (q : ℚ) (h : x = .fin q) : GoFloat.eq (x - x) zero = true := by subst h; simp

/-- **C47** (exact) What `HListOf` builds from finite packed material is packed. -/
theorem C47_hlistOf (be : Backend XR) (els : List (TNode XR)) (doKern : Bool)
    (hp : PackedAll (if doKern then insertKerns be els else els)) (n : ℚ)
    (hn : naturalWidth (if doKern then insertKerns be els else els) = .fin n) : Packed (hlistOf be els doKern) := by
  have hf := C44_hpack LHead.zero (if doKern then insertKerns be els else els) zero true
  have hw := (C40_hpack_width LHead.zero (if doKern then insertKerns be els else els) zero).2
  refine ⟨⟨?_, ?_, ?_⟩, hp⟩
  · have : (hpack LHead.zero (if doKern then insertKerns be els else els) zero true).sign = 0 := by
      unfold GlueRule at hf
      have hx : GoFloat.eq ((hpack LHead.zero (if doKern then insertKerns be els else els) zero true).box.width -
          naturalWidth (if doKern then insertKerns be els else els)) zero = true := by
        rw [hw, hn, zero_fin, zero_add', fin_sub, sub_self]; simp
      rw [if_pos hx] at hf
      exact hf.1
    rw [hw, glueTaken, if_pos this, add_zero', zero_fin, zero_add']
  · rw [hpack_eq]; simp only [(finishGlue_box _ _ _ _).1]; rw [(hsum_fold _ _).1]; simp [Dims.zero]
  · rw [hpack_eq]; simp only [(finishGlue_box _ _ _ _).1]; rw [(hsum_fold _ _).2]; simp [Dims.zero]

/-- **C47** (exact) A list packed to another width is packed if it found finite glue to take up the slack. -/
theorem C47_hpack (hd : LHead XR) (cs : List (TNode XR)) (w n q : ℚ) (hp : PackedAll cs) (hn : naturalWidth cs = .fin n)
    (hs : (hpack hd cs (.fin w) false).sign ≠ 0)
    (ht : (if (hpack hd cs (.fin w) false).sign = 1 then stretchTotal cs (hpack hd cs (.fin w) false).order
      else shrinkTotal cs (hpack hd cs (.fin w) false).order) = .fin q) :
    Packed (.list .h (hpack hd cs (.fin w) false) cs) := by
  refine ⟨⟨?_, ?_, ?_⟩, hp⟩
  · have h := C44_fills hd cs w n q hn hs ht
    rw [(C40_hpack_width _ _ _).1, glueTaken, if_neg hs]
    refine h.symm.trans ?_
    congr 1
    split
    · rw [if_pos ‹_›] at ht; rw [ht]
    · rw [if_neg ‹_›] at ht; rw [ht]
  · rw [hpack_eq]; simp only [(finishGlue_box _ _ _ _).1]; rw [(hsum_fold _ _).1]; simp [Dims.zero]
  · rw [hpack_eq]; simp only [(finishGlue_box _ _ _ _).1]; rw [(hsum_fold _ _).2]; simp [Dims.zero]

/-- the hypotheses hold of a stretched list holding a list: packed at width 40, shrunk to 28 -/
def exTree : TNode XR := .list .h (hpack LHead.zero exKids (.fin 40) false) exKids
example : (exTree.shrink exBe).width = .fin 28 ∧ naturalWidth (shrinkAll exBe exKids) = .fin (21 / 2) ∧
    (exTree.shrink exBe).height = .fin 7 := by decide +kernel
example : Every (Shrinkable exBe) exTree := by
  simp [exTree, exKids, Every, EveryAll, Shrinkable, level, AccentScales, newKern, LHead.zero, hpack_eq, (finishGlue_box _ _ _ _).1]

end Verif.Props
