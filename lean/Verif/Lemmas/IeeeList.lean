import Verif.Lemmas.IeeeNear
import Verif.Lemmas.IeeeShip
import Verif.Lemmas.ShipRun
import Verif.Lemmas.Box
/-! # Sums of widths in float64 -/

namespace Verif
open GoFloat Spec F64

/-- A finite sum is the rounded sum of two finite numbers. -/
theorem add_fin {x y : F64} {r : ℚ} (h : Num64 (x + y) r) : ∃ p q, Num64 x p ∧ Num64 y q ∧ r = rnd (p + q) := by
  cases x with
  | fin s a ha =>
    cases y with
    | fin t b hb =>
      have hr := add_rounded (x := .fin s a ha) (y := .fin t b hb) rfl rfl
      by_cases hc : |rnd (value s a + value t b)| < 2 ^ (1024 : ℕ)
      · exact ⟨_, _, rfl, rfl, isNum_unique h (hr.1 hc)⟩
      · rw [hr.2 hc] at h; exact h.elim
    | inf t => exact h.elim
    | nan => exact h.elim
  | inf s =>
    cases y with
    | fin t b hb => exact h.elim
    | inf t =>
      exfalso
      have e : (F64.inf s + F64.inf t : F64) = if s = t then .inf s else .nan := rfl
      rw [e] at h
      split at h <;> exact h
    | nan => exact h.elim
  | nan => exact h.elim

/-- The rounded sum depends on the numbers only. -/
theorem add_same {x y x' y' : F64} {a b r : ℚ} (h : Num64 (x + y) r) (hx : Num64 x a) (hy : Num64 y b) (hx' : Num64 x' a) (hy' : Num64 y' b) :
    Num64 (x' + y') r := by
  obtain ⟨p, q, h1, h2, rfl⟩ := add_fin h
  cases isNum_unique h1 hx
  cases isNum_unique h2 hy
  refine (add_rounded hx' hy').1 ?_
  have := (isNum_abs h).2
  exact this

/-- The error of a sum of widths. -/
theorem fold_width (cs : List (TNode F64)) (x : F64) (r : ℚ) (h : Num64 (cs.foldl (fun x n => x + n.width) x) r) :
    ∃ a ws, Num64 x a ∧ List.Forall₂ (fun n w => Num64 n.width w) cs ws ∧
      |r - (a + ws.sum)| ≤ ((1 + unit64) ^ cs.length - 1) * (|a| + (ws.map abs).sum) := by
  induction cs generalizing x with
  | nil => exact ⟨r, [], h, .nil, by simp⟩
  | cons n l ih =>
    obtain ⟨a', ws, ha', hf, hb⟩ := ih _ h
    obtain ⟨a, w, ha, hw, rfl⟩ := add_fin ha'
    refine ⟨a, w :: ws, ha, .cons hw hf, ?_⟩
    have h1 := add_rel ha hw
    have h2 : |a + w| ≤ |a| + |w| := abs_add_le _ _
    have hu := unit64_nonneg
    have h3 : |rnd (a + w)| ≤ (1 + unit64) * (|a| + |w|) := by
      have := abs_sub_abs_le_abs_sub (rnd (a + w)) (a + w)
      nlinarith
    have hS : 0 ≤ (ws.map abs).sum := by
      clear hf hb
      induction ws with
      | nil => simp
      | cons y t iht => rw [List.map_cons, List.sum_cons]; exact add_nonneg (abs_nonneg _) iht
    have hP : 1 ≤ (1 + unit64) ^ l.length := one_le_pow₀ (by linarith)
    rw [List.sum_cons, List.map_cons, List.sum_cons, List.length_cons, pow_succ]
    generalize (1 + unit64) ^ l.length = P at hP hb ⊢
    generalize (ws.map abs).sum = S at hS hb ⊢
    have h4 : |r - (a + (w + ws.sum))| ≤ |r - (rnd (a + w) + ws.sum)| + |rnd (a + w) - (a + w)| := by
      have := abs_add_le (r - (rnd (a + w) + ws.sum)) (rnd (a + w) - (a + w))
      rwa [show r - (rnd (a + w) + ws.sum) + (rnd (a + w) - (a + w)) = r - (a + (w + ws.sum)) by ring] at this
    have h5 : (P - 1) * (|rnd (a + w)| + S) ≤ (P - 1) * ((1 + unit64) * (|a| + |w|) + S) :=
      mul_le_mul_of_nonneg_left (by linarith) (by linarith)
    have h6 : unit64 * |a + w| ≤ unit64 * (|a| + |w|) := mul_le_mul_of_nonneg_left h2 hu
    have h7 : 0 ≤ P * unit64 * S := by positivity
    nlinarith

/-- Glue at its natural size is as wide as it says. -/
theorem glueStep_rigid64 {hd : LHead F64} (hs : hd.sign = 0) {g : GlueD F64} {w : ℚ} (hg : Num64 g.width w) :
    Num64 (glueStep hd g .zero).1 w ∧ (glueStep hd g .zero).2 = .zero := by
  unfold glueStep
  rw [if_neg (by simp [hs])]
  refine ⟨?_, rfl⟩
  have hb := (isNum_abs hg).2
  have hr := rnd_num hg
  have h1 : Num64 (g.width - zero) w := by
    have := sub_num hg num_zero64 (by rw [sub_zero, hr]; exact hb)
    rwa [sub_zero, hr] at this
  have := add_num h1 num_zero64 (by rw [add_zero, hr]; exact hb)
  rwa [add_zero, hr] at this

/-- In a list whose glue is at its natural size the pen ends exactly at the sum of the widths as `HPack` computes it. -/
theorem pen64 {o : Off F64} {hd : LHead F64} {base : F64} (hs : hd.sign = 0) {q st a q1 st1 a'} (h : HRun o hd base q st a q1 st1 a') (hq : q = .zero)
    {x : F64} {p r : ℚ} (hp : Num64 st.h p) (hx : Num64 x p) (hr : Num64 (a.foldl (fun x n => x + n.width) x) r) : Num64 st1.h r := by
  induction h generalizing x p with
  | nil => cases isNum_unique hx hr; exact hp
  | @cons q st n q1 st1 n' a q2 st2 a' e _ ih =>
    obtain ⟨h1, -, h3⟩ := hNode_step e
    subst hq
    obtain ⟨b, ws, hb, -, -⟩ := fold_width a (x + n.width) r hr
    obtain ⟨c, d, hc, hd', -⟩ := add_fin hb
    have hstep : Num64 (penStep hd .zero n n.width) d ∧ glueRun hd [n] .zero = .zero := by
      cases n with
      | glue g => exact glueStep_rigid64 hs hd'
      | _ => exact ⟨hd', rfl⟩
    refine ih (h1.trans hstep.2) ?_ hb (x := x + n.width) hr
    rw [h3]
    cases isNum_unique hc hx
    exact add_same hb hx hd' hp hstep.1

end Verif
