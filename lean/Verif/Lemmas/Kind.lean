import Verif.Model.Kind
/-! # Decimal formatting and kind names -/

namespace Verif

theorem decimalN_spec : ∀ (f n : Nat), n < f → (decimalN f n).foldl (fun a d => a * 10 + (d - 48)) 0 = n ∧
    decimalN f n ≠ [] ∧ ∀ d ∈ decimalN f n, 48 ≤ d ∧ d ≤ 57 := by
  intro f
  induction f with
  | zero => intro n h; omega
  | succ f ih =>
    intro n h
    unfold decimalN
    split
    · rename_i h1
      simp
      omega
    · rename_i h1
      obtain ⟨h2, h3, h4⟩ := ih (n / 10) (by omega)
      refine ⟨?_, by simp, ?_⟩
      · rw [List.foldl_append, h2]
        simp only [List.foldl_cons, List.foldl_nil]
        omega
      · intro d hd
        rcases List.mem_append.1 hd with hd | hd
        · exact h4 d hd
        · simp only [List.mem_singleton] at hd
          omega

theorem formatInt_inj {i j : Int} (h : formatInt i = formatInt j) : i = j := by
  have key : ∀ (n m : Nat), decimalN (n + 1) n ≠ bs!"-" ++ decimalN (m + 2) (m + 1) := by
    intro n m h
    have := (decimalN_spec (n + 1) n (by omega)).2.2 45 (by rw [h]; simp)
    omega
  cases i with
  | ofNat n =>
    cases j with
    | ofNat m =>
      simp only [formatInt] at h
      have h1 := (decimalN_spec (n + 1) n (by omega)).1
      rw [h, (decimalN_spec (m + 1) m (by omega)).1] at h1
      rw [h1]
    | negSucc m => exact absurd h (key n m)
  | negSucc n =>
    cases j with
    | ofNat m => exact absurd h.symm (key m n)
    | negSucc m =>
      simp only [formatInt, List.cons_append, List.nil_append, List.cons.injEq, true_and] at h
      have h1 := (decimalN_spec (n + 2) (n + 1) (by omega)).1
      rw [h, (decimalN_spec (m + 2) (m + 1) (by omega)).1] at h1
      have : m = n := by omega
      rw [this]

end Verif
