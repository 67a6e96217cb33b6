import Verif.Lemmas.GridWalk
/-! # Drawing boxes on a grid -/

set_option linter.unusedSectionVars false

namespace Verif
open Spec GoFloat

variable {k : ℤ} {M : ℕ}

theorem near_size {m : ℕ} {x : F64} (h : In k (-(m : ℤ)) m x) : size64 x ≤ m * 2 ^ k := by
  have := h.size
  simpa using this

theorem ghead_tame {hd : LHead F64} {cs : List (TNode F64)} (h : GHead k M hd cs) {v : Bool} (hc : GTs k M v cs) : TameList (16 * (M * 2 ^ k)) hd cs := by
  refine ⟨h.width.num, h.height.num, h.depth.num, h.shift.num, fun hs => ?_⟩
  obtain ⟨h1, h2⟩ := h.set hs
  refine ⟨h1.num, fun g hg => ?_, ?_⟩
  · have := gts_iff.1 hc _ hg
    simp only [GT] at this
    exact ⟨this.2.1, this.2.2.1⟩
  · have h3 := near_size h1
    have h4 := size64_nonneg hd.set
    push_cast at h3
    have := two_zpow_pos k
    nlinarith

mutual
theorem gt_tameH : ∀ n : TNode F64, GT k M false n → TameH (16 * (M * 2 ^ k)) n
  | .box b, h => by simp only [GT] at h; exact h.1.num
  | .char c, h => by simp only [GT] at h; exact h.2.num
  | .accent c, h => by simp only [GT] at h
  | .rule b, h => by simp only [GT] at h; cases h.1
  | .glue g, h => by simp only [GT] at h; exact h.1.num
  | .kern q, h => by simp only [GT] at h; exact h.num
  | .list .plain hd cs, h => by simp only [GT] at h; exact absurd rfl h.1
  | .list .h hd cs, h => by
    simp only [GT] at h
    simp only [TameH]
    exact ⟨ghead_tame h.2.1 h.2.2, gts_tameH cs h.2.2⟩
  | .list .v hd cs, h => by
    simp only [GT] at h
    simp only [TameH]
    exact ⟨ghead_tame h.2.1 h.2.2, gts_tameV cs h.2.2⟩
theorem gts_tameH : ∀ l : List (TNode F64), GTs k M false l → TameHs (16 * (M * 2 ^ k)) l
  | [], _ => trivial
  | n :: l, h => by
    simp only [GTs] at h
    simp only [TameHs]
    exact ⟨gt_tameH n h.1, gts_tameH l h.2⟩
theorem gt_tameV : ∀ n : TNode F64, GT k M true n → TameV (16 * (M * 2 ^ k)) n
  | .box b, h => by simp only [GT] at h; exact ⟨h.2.1.num, h.2.2.num⟩
  | .char c, h => by simp only [GT] at h; cases h.1
  | .accent c, h => by simp only [GT] at h
  | .rule b, h => by simp only [GT] at h; exact ⟨h.2.2.1.num, h.2.2.2.num, .inl (by rw [h.2.1]; rfl)⟩
  | .glue g, h => by simp only [GT] at h; exact h.1.num
  | .kern q, h => by simp only [GT] at h; exact h.num
  | .list .plain hd cs, h => by simp only [GT] at h; exact absurd rfl h.1
  | .list .h hd cs, h => by
    simp only [GT] at h
    simp only [TameV]
    exact ⟨ghead_tame h.2.1 h.2.2, gts_tameH cs h.2.2⟩
  | .list .v hd cs, h => by
    simp only [GT] at h
    simp only [TameV]
    exact ⟨ghead_tame h.2.1 h.2.2, gts_tameV cs h.2.2⟩
theorem gts_tameV : ∀ l : List (TNode F64), GTs k M true l → TameVs (16 * (M * 2 ^ k)) l
  | [], _ => trivial
  | n :: l, h => by
    simp only [GTs] at h
    simp only [TameVs]
    exact ⟨gt_tameV n h.1, gts_tameV l h.2⟩
end

/-! ## How much there is to add up -/

mutual
theorem steps_le : ∀ n : TNode F64, shipSteps n ≤ 6 * boxCount n
  | .list _ _ cs => by simp only [shipSteps, boxCount]; have := stepsAll_le cs; omega
  | .box _ | .char _ | .accent _ | .rule _ | .glue _ | .kern _ => by simp [shipSteps, boxCount]
theorem stepsAll_le : ∀ l : List (TNode F64), shipStepsAll l ≤ 6 * boxCounts l
  | [] => by simp [shipStepsAll]
  | n :: l => by simp only [shipStepsAll, boxCounts]; have := steps_le n; have := stepsAll_le l; omega
end

mutual
theorem lengths_le (s : Int) : ∀ (v : Bool) (n : TNode F64), GT k M v n → shipLengths (16 * (M * 2 ^ k)) s n ≤ boxCount n * (33 * (M * 2 ^ k) + 4)
  | v, .box b, h => by
    simp only [GT] at h
    simp only [shipLengths, boxSize, boxCount]
    have := near_size h.1; have := near_size h.2.1; have := near_size h.2.2
    have := mul_nonneg (Nat.cast_nonneg (α := ℚ) M) (two_zpow_pos k).le
    push_cast; linarith
  | v, .char c, h => by
    simp only [GT] at h
    simp only [shipLengths, boxCount]
    have := near_size h.2
    have := mul_nonneg (Nat.cast_nonneg (α := ℚ) M) (two_zpow_pos k).le
    push_cast; linarith
  | v, .accent c, h => by simp only [GT] at h
  | v, .rule b, h => by
    simp only [GT] at h
    simp only [shipLengths, boxSize, boxCount]
    have h0 : size64 b.width = 0 := by rw [h.2.1]; rfl
    have := near_size h.2.2.1; have := near_size h.2.2.2
    have := mul_nonneg (Nat.cast_nonneg (α := ℚ) M) (two_zpow_pos k).le
    push_cast; linarith
  | v, .glue g, h => by
    simp only [GT] at h
    simp only [shipLengths, boxCount]
    have h1 := near_size h.1
    have h2 := h.2.2.2
    have := mul_nonneg (Nat.cast_nonneg (α := ℚ) M) (two_zpow_pos k).le
    split <;> push_cast <;> linarith
  | v, .kern q, h => by
    simp only [GT] at h
    simp only [shipLengths, boxCount]
    have := near_size h
    have := mul_nonneg (Nat.cast_nonneg (α := ℚ) M) (two_zpow_pos k).le
    push_cast; linarith
  | v, .list kd hd cs, h => by
    simp only [GT] at h
    have h1 := lengthsAll_le hd.sign _ cs h.2.2
    simp only [shipLengths, boxSize, boxCount]
    have := near_size h.2.1.width; have := near_size h.2.1.height; have := near_size h.2.1.depth; have := near_size h.2.1.shift
    have := mul_nonneg (Nat.cast_nonneg (α := ℚ) M) (two_zpow_pos k).le
    push_cast; linarith
theorem lengthsAll_le (s : Int) : ∀ (v : Bool) (l : List (TNode F64)), GTs k M v l → shipLengthsAll (16 * (M * 2 ^ k)) s l ≤ boxCounts l * (33 * (M * 2 ^ k) + 4)
  | v, [], h => by simp [shipLengthsAll, boxCounts]
  | v, n :: l, h => by
    simp only [GTs] at h
    have h1 := lengths_le s v n h.1
    have h2 := lengthsAll_le s v l h.2
    simp only [shipLengthsAll, boxCounts]
    push_cast; linarith
end

theorem sameDraw_fin {e : ℚ} {d : Draw F64} {d' : Draw XR} (h : SameDraw e d d') : FinDraw d := by
  have f : ∀ {x q}, Off64 e x q → Fin64 x := fun ⟨p, hp, _⟩ => ⟨p, hp⟩
  cases d with
  | glyph x y a b c =>
    cases d' with
    | glyph => obtain ⟨⟨p, q, -, h1, -, h2⟩, -⟩ := h; exact ⟨f h1, f h2⟩
    | rect => exact h.elim
  | rect x1 y1 x2 y2 =>
    cases d' with
    | glyph => exact h.elim
    | rect => obtain ⟨⟨p, q, -, h1, -, h2⟩, p', q', -, h3, -, h4⟩ := h; exact ⟨f h1, f h2, f h3, f h4⟩

end Verif
