import Verif.Lemmas.Fonts
/-! # Every call of `Fonts` comes to an end -/

namespace Verif
open Spec
variable {H : Type} {parse : Face → Option H}

/-- How far a call is from its end. -/
def PC.rank : PC H → Nat
  | .idle => 13
  | .enter => 12
  | .lock => 11
  | .check => 10
  | .rm => 9
  | .it _ => 8
  | .bf _ _ => 7
  | .bfit _ _ _ => 6
  | .store _ _ _ _ => 5
  | .finish _ => 4
  | .unlock _ => 3
  | .load => 2
  | .returned _ => 0
  | .panicked => 0

theorem step_other (s : FontMem H) {i j : Nat} (h : j ≠ i) : (s.step parse i).pc j = s.pc j := by
  have hg : ∀ (s' : FontMem H) (p : PC H), s'.pc = s.pc → (s'.goto i p).pc j = s.pc j := by
    intro s' p hs
    rw [goto_pc, if_neg h, hs]
  unfold FontMem.step
  cases s.pc i with
  | enter => dsimp only; split <;> exact hg _ _ rfl
  | check => dsimp only; split <;> exact hg _ _ rfl
  | lock => dsimp only; cases s.holder with
    | none => exact hg _ _ rfl
    | some k => rfl
  | rm => dsimp only; unfold FontMem.parse; cases parse .regular <;> exact hg _ _ rfl
  | it a => dsimp only; unfold FontMem.parse; cases parse .italic <;> exact hg _ _ rfl
  | bf a b => dsimp only; unfold FontMem.parse; cases parse .bold <;> exact hg _ _ rfl
  | bfit a b c => dsimp only; unfold FontMem.parse; cases parse .boldItalic <;> exact hg _ _ rfl
  | returned r => rfl
  | panicked => rfl
  | _ => exact hg _ _ rfl

theorem parse_rank (s : FontMem H) (i : Nat) (f : Face) (k : H → PC H) {n : Nat} (hk : ∀ x, (k x).rank ≤ n) (hn : 4 ≤ n) :
    ((s.parse parse i f k).pc i).rank ≤ n := by
  unfold FontMem.parse
  cases parse f with
  | some x => dsimp only; rw [goto_self]; exact hk x
  | none => dsimp only; rw [goto_self]; exact hn

/-- A call that has its turn, and need not wait, comes nearer to its end. -/
theorem step_rank (s : FontMem H) (i : Nat) (h : ¬ Over (s.pc i)) (hl : s.pc i = .lock → s.holder = none) :
    ((s.step parse i).pc i).rank < (s.pc i).rank := by
  unfold FontMem.step
  cases hp : s.pc i with
  | enter => dsimp only; split <;> rw [goto_self] <;> simp [PC.rank]
  | check => dsimp only; split <;> rw [goto_self] <;> simp [PC.rank]
  | lock => rw [hl hp]; dsimp only; rw [goto_self]; simp [PC.rank]
  | rm => exact Nat.lt_succ_of_le (parse_rank s i _ _ (fun _ => Nat.le_refl _) (by decide))
  | it a => exact Nat.lt_succ_of_le (parse_rank s i _ _ (fun _ => Nat.le_refl _) (by decide))
  | bf a b => exact Nat.lt_succ_of_le (parse_rank s i _ _ (fun _ => Nat.le_refl _) (by decide))
  | bfit a b c => exact Nat.lt_succ_of_le (parse_rank s i _ _ (fun _ => Nat.le_refl _) (by decide))
  | unlock b => dsimp only; rw [goto_self]; cases b <;> simp [PC.rank]
  | returned r => rw [hp] at h; exact absurd trivial h
  | panicked => rw [hp] at h; exact absurd trivial h
  | _ => dsimp only; rw [goto_self]; simp [PC.rank]

theorem over_rank {p : PC H} : Over p ↔ p.rank = 0 := by cases p <;> simp [Over, PC.rank]
theorem lock_rank {p : PC H} : p = .lock ↔ p.rank = 11 := by cases p <;> simp [PC.rank]
theorem idle_rank {p : PC H} : p = .idle ↔ p.rank = 13 := by cases p <;> simp [PC.rank]

theorem step_over (s : FontMem H) (i : Nat) (h : Over (s.pc i)) : s.step parse i = s := by
  unfold FontMem.step
  cases hp : s.pc i with
  | returned r => rfl
  | panicked => rfl
  | _ => rw [hp] at h; exact absurd h (by simp [Over])

theorem step_wait (s : FontMem H) (i : Nat) (h : s.pc i = .lock) (hh : s.holder ≠ none) : s.step parse i = s := by
  unfold FontMem.step
  rw [h]
  cases hk : s.holder with
  | none => exact absurd hk hh
  | some k => rfl

theorem step_rank_le (s : FontMem H) (i j : Nat) : ((s.step parse i).pc j).rank ≤ (s.pc j).rank := by
  by_cases hj : j = i
  · subst hj
    by_cases ho : Over (s.pc j)
    · rw [step_over s j ho]; exact Nat.le_refl _
    · by_cases hw : s.pc j = .lock ∧ s.holder ≠ none
      · rw [step_wait s j hw.1 hw.2]; exact Nat.le_refl _
      · exact Nat.le_of_lt (step_rank s j ho fun h => Decidable.byContradiction fun hh => hw ⟨h, hh⟩)
  · rw [step_other s hj]; exact Nat.le_refl _

variable {sched : Nat → Nat}

theorem after_rank_le {n m : Nat} (h : n ≤ m) (j : Nat) : ((after parse sched m).pc j).rank ≤ ((after parse sched n).pc j).rank := by
  induction h with
  | refl => exact Nat.le_refl _
  | step _ ih => exact Nat.le_trans (step_rank_le _ _ _) ih

/-- A call stays where it is until its turn. -/
theorem next_turn (hf : Fair parse sched) (j n : Nat) (h : (after parse sched n).pc j ≠ .idle) :
    ∃ m, n ≤ m ∧ sched m = j ∧ (after parse sched m).pc j = (after parse sched n).pc j := by
  obtain ⟨m, hm, hs⟩ := hf j n h
  obtain ⟨d, rfl⟩ : ∃ d, m = n + d := ⟨m - n, by omega⟩
  clear hm
  induction d generalizing n with
  | zero => exact ⟨n, Nat.le_refl _, hs, rfl⟩
  | succ d ih =>
    by_cases hn : sched n = j
    · exact ⟨n, Nat.le_refl _, hn, rfl⟩
    · have he : (after parse sched (n + 1)).pc j = (after parse sched n).pc j := step_other _ fun h => hn h.symm
      obtain ⟨m, h1, h2, h3⟩ := ih (n + 1) (by rw [he]; exact h) (by rw [← hs]; congr 1; omega)
      exact ⟨m, by omega, h2, by rw [h3, he]⟩

/-- A call that has the mutex, or is past it, comes to an end. -/
theorem past_over (hf : Fair parse sched) (j : Nat) : ∀ (r n : Nat), ((after parse sched n).pc j).rank = r → r ≤ 10 →
    ∃ m, n ≤ m ∧ Over ((after parse sched m).pc j) := by
  intro r
  induction r using Nat.strongRecOn with
  | _ r ih =>
    intro n hr hle
    by_cases ho : Over ((after parse sched n).pc j)
    · exact ⟨n, Nat.le_refl _, ho⟩
    obtain ⟨m, h1, h2, h3⟩ := next_turn hf j n (by rw [Ne, idle_rank]; omega)
    have h4 := step_rank (parse := parse) (after parse sched m) j (by rw [h3]; exact ho) (by intro h; rw [lock_rank, h3] at h; omega)
    obtain ⟨k, h5, h6⟩ := ih _ (by rw [h3, hr] at h4; exact h4) (m + 1) (by rw [after, h2]) (by rw [h3] at h4; omega)
    exact ⟨k, by omega, h6⟩

/-- The mutex is released, with the flag set. -/
theorem release (hf : Fair parse sched) (j : Nat) : ∀ (r n : Nat), ((after parse sched n).pc j).rank = r → ((after parse sched n).pc j).crit = true →
    ∃ m, n ≤ m ∧ (after parse sched m).holder = none ∧ (after parse sched m).done = true := by
  intro r
  induction r using Nat.strongRecOn with
  | _ r ih =>
    intro n hr hc
    have hni : (after parse sched n).pc j ≠ .idle := by intro h; rw [h] at hc; cases hc
    obtain ⟨m, h1, h2, h3⟩ := next_turn hf j n hni
    have hc' : ((after parse sched m).pc j).crit = true := by rw [h3]; exact hc
    have hinv := inv_after (parse := parse) sched m
    have hnl : (after parse sched m).pc j ≠ .lock := by intro h; rw [h] at hc'; cases hc'
    have hno : ¬ Over ((after parse sched m).pc j) := by
      intro h
      revert hc' h
      cases (after parse sched m).pc j <;> simp [Over, PC.crit, PC.body]
    have h4 := step_rank (parse := parse) (after parse sched m) j hno (fun h => absurd h hnl)
    by_cases hu : ∃ b, (after parse sched m).pc j = .unlock b
    · obtain ⟨b, hb⟩ := hu
      refine ⟨m + 1, by omega, ?_, ?_⟩
      · rw [after, h2]; unfold FontMem.step; rw [hb]; rfl
      · rw [after, h2]; unfold FontMem.step; rw [hb]
        exact hinv.late j (by rw [hb]; rfl)
    · have hc2 : ((after parse sched (m + 1)).pc j).crit = true := by
        rw [after, h2]
        unfold FontMem.step
        have hp : ∀ (s : FontMem H) f (k : H → PC H), (∀ x, (k x).crit = true) → ((s.parse parse j f k).pc j).crit = true := by
          intro s f k hk
          unfold FontMem.parse
          cases parse f with
          | some x => dsimp only; rw [goto_self]; exact hk x
          | none => dsimp only; rw [goto_self]; rfl
        cases hb : (after parse sched m).pc j with
        | check => dsimp only; split <;> rw [goto_self] <;> rfl
        | rm => exact hp _ _ _ fun _ => rfl
        | it a => exact hp _ _ _ fun _ => rfl
        | bf a b => exact hp _ _ _ fun _ => rfl
        | bfit a b c => exact hp _ _ _ fun _ => rfl
        | store a b c d => dsimp only; rw [goto_self]; rfl
        | finish b => dsimp only; rw [goto_self]; rfl
        | unlock b => exact absurd ⟨b, hb⟩ hu
        | _ => rw [hb] at hc'; cases hc'
      obtain ⟨k, h5, h6, h7⟩ := ih _ (by rw [h3, hr] at h4; exact h4) (m + 1) (by rw [after, h2]) hc2
      exact ⟨k, by omega, h6, h7⟩

theorem step_done (s : FontMem H) (i : Nat) (h : s.done = true) : (s.step parse i).done = true := by
  have hp : ∀ f (k : H → PC H), (s.parse parse i f k).done = true := by
    intro f k; unfold FontMem.parse; cases parse f <;> exact h
  unfold FontMem.step
  cases s.pc i with
  | enter => dsimp only; split <;> exact h
  | check => dsimp only; split <;> exact h
  | lock => dsimp only; cases s.holder <;> exact h
  | rm => exact hp _ _
  | it a => exact hp _ _
  | bf a b => exact hp _ _
  | bfit a b c => exact hp _ _
  | finish => rfl
  | _ => exact h

theorem after_done {n m : Nat} (h : n ≤ m) (hd : (after parse sched n).done = true) : (after parse sched m).done = true := by
  induction h with
  | refl => exact hd
  | step _ ih => exact step_done _ _ ih

/-- With the flag set, nobody queues any more. -/
theorem no_queue {s : FontMem H} {i j : Nat} (hd : s.done = true) (h : (s.step parse i).pc j = .lock) : s.pc j = .lock := by
  by_cases hj : j = i
  · subst hj
    by_cases ho : Over (s.pc j)
    · rw [step_over s j ho] at h; exact h
    by_cases hl : s.pc j = .lock
    · exact hl
    have h1 := step_rank (parse := parse) s j ho (fun h => absurd h hl)
    rw [lock_rank.1 h] at h1
    cases hp : s.pc j with
    | idle => unfold FontMem.step at h; rw [hp] at h; dsimp only at h; rw [goto_self] at h; cases h
    | enter => unfold FontMem.step at h; rw [hp] at h; dsimp only at h; rw [if_pos hd, goto_self] at h; cases h
    | _ => exfalso; rw [hp] at h1; simp [PC.rank] at h1
  · rw [step_other s hj] at h; exact h

theorem after_queue {n m : Nat} (h : n ≤ m) (hd : (after parse sched n).done = true) {j : Nat} (hl : (after parse sched m).pc j = .lock) :
    (after parse sched n).pc j = .lock := by
  induction h with
  | refl => exact hl
  | step h ih => exact ih (no_queue (after_done h hd) hl)

theorem taken_step {s : FontMem H} {i : Nat} (hm : s.holder = none) (hs : (s.step parse i).holder ≠ none) :
    s.pc i = .lock ∧ (s.step parse i).pc i ≠ .lock := by
  have hp : ∀ (s : FontMem H) i f (k : H → PC H), (s.parse parse i f k).holder = s.holder := by
    intro s i f k; unfold FontMem.parse; cases parse f <;> rfl
  have key : s.pc i = .lock := by
    unfold FontMem.step at hs
    cases hb : s.pc i with
    | lock => rfl
    | enter => rw [hb] at hs; dsimp only at hs; split at hs <;> exact absurd hm hs
    | check => rw [hb] at hs; dsimp only at hs; split at hs <;> exact absurd hm hs
    | rm => rw [hb] at hs; dsimp only at hs; rw [hp] at hs; exact absurd hm hs
    | it => rw [hb] at hs; dsimp only at hs; rw [hp] at hs; exact absurd hm hs
    | bf => rw [hb] at hs; dsimp only at hs; rw [hp] at hs; exact absurd hm hs
    | bfit => rw [hb] at hs; dsimp only at hs; rw [hp] at hs; exact absurd hm hs
    | unlock => rw [hb] at hs; exact absurd rfl hs
    | _ => rw [hb] at hs; exact absurd hm hs
  refine ⟨key, fun h => ?_⟩
  have h1 := step_rank (parse := parse) s i (by rw [key]; simp [Over]) (fun _ => hm)
  rw [lock_rank.1 h, lock_rank.1 key] at h1
  omega

/-- Somebody took the mutex. -/
theorem taken {m1 m2 : Nat} (h : m1 ≤ m2) (hn : (after parse sched m1).holder = none) (hs : (after parse sched m2).holder ≠ none) :
    ∃ k j, m1 ≤ k ∧ k < m2 ∧ (after parse sched k).pc j = .lock ∧ (after parse sched (k + 1)).pc j ≠ .lock := by
  induction h with
  | refl => exact absurd hn hs
  | @step m h ih =>
    by_cases hm : (after parse sched m).holder = none
    · exact ⟨m, sched m, h, Nat.lt_succ_self _, taken_step hm hs⟩
    · obtain ⟨k, j, h1, h2, h3, h4⟩ := ih hm
      exact ⟨k, j, h1, by omega, h3, h4⟩

/-- Is the call waiting for the mutex? -/
def PC.waits : PC H → Bool
  | .lock => true
  | _ => false

theorem waits_iff {p : PC H} : p.waits = true ↔ p = .lock := by cases p <;> simp [PC.waits]

theorem filter_lt {f g : Nat → Bool} : ∀ {L : List Nat}, (∀ j, f j = true → g j = true) → (∃ j ∈ L, g j = true ∧ f j = false) →
    (L.filter f).length < (L.filter g).length
  | [], _, ⟨j, hj, _⟩ => by cases hj
  | x :: L, h, ⟨j, hj, h1, h2⟩ => by
    have hle : ∀ L : List Nat, (L.filter f).length ≤ (L.filter g).length := by
      intro L
      induction L with
      | nil => simp
      | cons x L ih =>
        rw [List.filter_cons, List.filter_cons]
        by_cases hf : f x = true
        · rw [if_pos hf, if_pos (h x hf)]; simpa using ih
        · rw [if_neg hf]
          split
          · simp only [List.length_cons]; omega
          · exact ih
    rw [List.filter_cons, List.filter_cons]
    by_cases hx : f x = true
    · rw [if_pos hx, if_pos (h x hx)]
      have : j ∈ L := by
        rcases List.mem_cons.1 hj with rfl | hj
        · rw [hx] at h2; cases h2
        · exact hj
      simpa using filter_lt h ⟨j, this, h1, h2⟩
    · rw [if_neg hx]
      by_cases hg : g x = true
      · rw [if_pos hg]; have := hle L; simp only [List.length_cons]; omega
      · rw [if_neg hg]
        have : j ∈ L := by
          rcases List.mem_cons.1 hj with rfl | hj
          · exact absurd h1 hg
          · exact hj
        exact filter_lt h ⟨j, this, h1, h2⟩

/-- Nobody waits for ever, once the flag is set. -/
theorem no_wait (hf : Fair parse sched) (i : Nat) (L : List Nat) : ∀ (k n : Nat), (after parse sched n).done = true →
    (∀ j, (after parse sched n).pc j = .lock → j ∈ L) → (L.filter fun j => ((after parse sched n).pc j).waits).length = k →
    (∀ m, n ≤ m → (after parse sched m).pc i = .lock) → False := by
  intro k
  induction k using Nat.strongRecOn with
  | _ k ih =>
    intro n hd hL hk hall
    obtain ⟨m1, h1, h2⟩ : ∃ m, n ≤ m ∧ (after parse sched m).holder = none := by
      cases hh : (after parse sched n).holder with
      | none => exact ⟨n, Nat.le_refl _, hh⟩
      | some j =>
        obtain ⟨m, a, b, -⟩ := release hf j _ n rfl (((inv_after sched n).mutex j).2 hh)
        exact ⟨m, a, b⟩
    obtain ⟨m2, h3, h4⟩ := hf i m1 (by rw [hall m1 h1]; simp)
    have h5 := hall m2 (by omega)
    have h6 : (after parse sched m2).holder ≠ none := by
      intro hh
      have h7 := step_rank (parse := parse) (after parse sched m2) i (by rw [h5]; simp [Over]) (fun _ => hh)
      have h8 := hall (m2 + 1) (by omega)
      rw [after, h4] at h8
      rw [lock_rank.1 h8, lock_rank.1 h5] at h7
      omega
    obtain ⟨q, j, g1, g2, g3, g4⟩ := taken h3 h2 h6
    have g5 : (after parse sched n).pc j = .lock := after_queue (by omega) hd g3
    have g6 : (after parse sched m2).pc j ≠ .lock := fun h => g4 (after_queue (show q + 1 ≤ m2 by omega) (after_done (by omega) hd) h)
    refine ih _ ?_ m2 (after_done (by omega) hd) (fun j hj => hL j (after_queue (by omega) hd hj)) rfl (fun m hm => hall m (by omega))
    rw [← hk]
    refine filter_lt (fun j hj => waits_iff.2 (after_queue (by omega) hd (waits_iff.1 hj))) ⟨j, hL j g5, waits_iff.2 g5, ?_⟩
    rw [← Bool.not_eq_true, waits_iff]
    exact g6

theorem started (n j : Nat) (h : (after parse sched n).pc j ≠ .idle) : j ∈ (List.range n).map sched := by
  induction n with
  | zero => exact absurd rfl h
  | succ n ih =>
    rw [List.range_succ, List.map_append, List.mem_append]
    by_cases hj : j = sched n
    · right; simp [hj]
    · left
      refine ih ?_
      rw [after, step_other _ hj] at h
      exact h

/-- Every call comes to an end. -/
theorem ends (hf : Fair parse sched) (i n : Nat) (h : (after parse sched n).pc i ≠ .idle) : ∃ m, n ≤ m ∧ Over ((after parse sched m).pc i) := by
  have fromLock : ∀ n, (after parse sched n).pc i = .lock → ∃ m, n ≤ m ∧ Over ((after parse sched m).pc i) := by
    intro n hn
    by_cases hall : ∀ m, n ≤ m → (after parse sched m).pc i = .lock
    · exfalso
      obtain ⟨m, h1, h2⟩ : ∃ m, n ≤ m ∧ (after parse sched m).done = true := by
        obtain ⟨m2, h3, h4⟩ := hf i n (by rw [hn]; simp)
        have h5 := hall m2 h3
        cases hh : (after parse sched m2).holder with
        | some j =>
          obtain ⟨m, a, -, b⟩ := release hf j _ m2 rfl (((inv_after sched m2).mutex j).2 hh)
          exact ⟨m, by omega, b⟩
        | none =>
          have h7 := step_rank (parse := parse) (after parse sched m2) i (by rw [h5]; simp [Over]) (fun _ => hh)
          have h8 := hall (m2 + 1) (by omega)
          rw [after, h4] at h8
          rw [lock_rank.1 h8, lock_rank.1 h5] at h7
          omega
      exact no_wait hf i ((List.range m).map sched) _ m h2 (fun j hj => started m j (by rw [hj]; simp)) rfl (fun k hk => hall k (by omega))
    · obtain ⟨m, hm⟩ := Classical.not_forall.1 hall
      obtain ⟨h1, h2⟩ := Classical.not_imp.1 hm
      have h3 := after_rank_le (parse := parse) (sched := sched) h1 i
      rw [lock_rank.1 hn] at h3
      have h4 : ((after parse sched m).pc i).rank ≠ 11 := fun h => h2 (lock_rank.2 h)
      obtain ⟨k, h5, h6⟩ := past_over hf i _ m rfl (by omega)
      exact ⟨k, by omega, h6⟩
  by_cases hlow : ((after parse sched n).pc i).rank ≤ 10
  · exact past_over hf i _ n rfl hlow
  by_cases hl : (after parse sched n).pc i = .lock
  · exact fromLock n hl
  have he : (after parse sched n).pc i = .enter := by
    revert hlow hl h
    cases (after parse sched n).pc i <;> simp [PC.rank]
  obtain ⟨m, h1, h2, h3⟩ := next_turn hf i n h
  have h4 : (after parse sched (m + 1)).pc i = .load ∨ (after parse sched (m + 1)).pc i = .lock := by
    rw [after, h2]
    unfold FontMem.step
    rw [h3, he]
    dsimp only
    split
    · left; rw [goto_self]
    · right; rw [goto_self]
  rcases h4 with h4 | h4
  · obtain ⟨k, h5, h6⟩ := past_over hf i _ (m + 1) rfl (by rw [h4]; simp [PC.rank])
    exact ⟨k, by omega, h6⟩
  · obtain ⟨k, h5, h6⟩ := fromLock (m + 1) h4
    exact ⟨k, by omega, h6⟩

end Verif
