import Verif.Spec.Fonts
/-! # Invariants of the font packages -/

namespace Verif
open Spec
variable {H : Type} {parse : Face → Option H}

/-- inside the function given to `once.Do` -/
def PC.body : PC H → Bool
  | .rm | .it _ | .bf _ _ | .bfit _ _ _ | .store _ _ _ _ | .finish _ => true
  | _ => false
/-- with the mutex -/
def PC.crit : PC H → Bool
  | .check | .unlock _ => true
  | p => p.body
/-- after the flag is known to be set -/
def PC.late : PC H → Bool
  | .unlock _ | .load | .returned _ | .panicked => true
  | _ => false
/-- panicking or panicked -/
def PC.failing : PC H → Bool
  | .unlock true | .panicked => true
  | _ => false

/-- What is known at each place of the function. -/
def Facts (parse : Face → Option H) (s : FontMem H) : PC H → Prop
  | .rm => s.parsed = [] ∧ s.fnts = none ∧ s.heap = 0
  | .it a => s.parsed = [.regular] ∧ parse .regular = some a ∧ s.fnts = none ∧ s.heap = 0
  | .bf a b => s.parsed = [.regular, .italic] ∧ parse .regular = some a ∧ parse .italic = some b ∧ s.fnts = none ∧ s.heap = 0
  | .bfit a b c => s.parsed = [.regular, .italic, .bold] ∧ parse .regular = some a ∧ parse .italic = some b ∧ parse .bold = some c ∧
      s.fnts = none ∧ s.heap = 0
  | .store a b c d => s.parsed = order ∧ parse .regular = some a ∧ parse .italic = some b ∧ parse .bold = some c ∧ parse .boldItalic = some d ∧
      s.fnts = none ∧ s.heap = 0
  | .finish false => AllGood parse ∧ s.parsed = order ∧ s.fnts = some (0, loaded parse)
  | .finish true => FailedAt parse s.parsed ∧ s.parsed <+: order ∧ s.fnts = none
  | _ => True

structure FontInv (parse : Face → Option H) (s : FontMem H) : Prop where
  mutex : ∀ i, (s.pc i).crit = true ↔ s.holder = some i
  body : ∀ i, (s.pc i).body = true → s.done = false ∧ Facts parse s (s.pc i)
  init : s.done = false → (∀ i, (s.pc i).body = false) → s.parsed = [] ∧ s.fnts = none ∧ s.heap = 0
  late : ∀ i, (s.pc i).late = true → s.done = true
  final : s.done = true → (AllGood parse ∧ s.parsed = order ∧ s.fnts = some (0, loaded parse)) ∨ (FailedAt parse s.parsed ∧ s.parsed <+: order ∧ s.fnts = none)
  ret : ∀ i r, s.pc i = .returned r → r = s.fnts
  bad : ∀ i, (s.pc i).failing = true → s.fnts = none
  one : ∀ i j, (s.pc i).failing = true → (s.pc j).failing = true → i = j
  some : s.done = true → s.fnts = none → ∃ i, (s.pc i).failing = true

theorem inv_start : FontInv parse (FontMem.start : FontMem H) := by
  constructor <;> simp [FontMem.start, PC.crit, PC.body, PC.late, PC.failing]

theorem goto_pc (s : FontMem H) (i : Nat) (p : PC H) (j : Nat) : (s.goto i p).pc j = if j = i then p else s.pc j := rfl
@[simp] theorem goto_self (s : FontMem H) (i : Nat) (p : PC H) : (s.goto i p).pc i = p := by simp [goto_pc]

theorem PC.body_crit {p : PC H} (h : p.body = true) : p.crit = true := by
  cases p <;> first | rfl | cases h

/-- Nobody else is inside. -/
theorem FontInv.alone {s : FontMem H} (h : FontInv parse s) {i j : Nat} (hi : (s.pc i).crit = true) (hj : j ≠ i) : (s.pc j).crit = false := by
  rw [← Bool.not_eq_true]
  intro hc
  have h1 := (h.mutex i).1 hi
  have h2 := (h.mutex j).1 hc
  rw [h1] at h2
  cases h2
  exact hj rfl

/-- Moves between the four first places and the last ones, in which nothing but the thread changes. -/
theorem inv_move {s : FontMem H} (h : FontInv parse s) {i : Nat} {p : PC H} (hb : (s.pc i).body = false) (hb' : p.body = false)
    (hc : p.crit = (s.pc i).crit) (hl : p.late = true → s.done = true) (hr : ∀ r, p = .returned r → r = s.fnts)
    (hf : p.failing = (s.pc i).failing) : FontInv parse (s.goto i p) := by
  have key : ∀ (f : PC H → Bool), f p = f (s.pc i) → ∀ j, f ((s.goto i p).pc j) = f (s.pc j) := by
    intro f hf j
    rw [goto_pc]
    split
    · rename_i hj; rw [hj, hf]
    · rfl
  have kf := key PC.failing hf
  refine ⟨fun j => ?_, fun j hj => ?_, fun hd hn => ?_, fun j hj => ?_, h.final, fun j r hj => ?_, fun j hj => ?_, fun j k hj hk => ?_, fun h1 h2 => ?_⟩
  · rw [key PC.crit hc]; exact h.mutex j
  · rw [goto_pc] at hj ⊢
    split at hj
    · rw [hb'] at hj; cases hj
    · rename_i hji
      rw [if_neg hji]
      exact h.body j hj
  · exact h.init hd fun j => by rw [← key PC.body (by rw [hb, hb']) j]; exact hn j
  · rw [goto_pc] at hj
    split at hj
    · exact hl hj
    · exact h.late j hj
  · rw [goto_pc] at hj
    split at hj
    · exact hr r hj
    · exact h.ret j r hj
  · rw [kf] at hj; exact h.bad j hj
  · rw [kf] at hj hk; exact h.one j k hj hk
  · obtain ⟨j, hj⟩ := h.some h1 h2
    exact ⟨j, by rw [kf]; exact hj⟩

/-- Steps inside the function: the flag is not set. -/
theorem inv_inside {s s' : FontMem H} (h : FontInv parse s) {i : Nat} {p : PC H} (hb : (s.pc i).body = true) (hb' : p.body = true)
    (hpc : s'.pc = (s.goto i p).pc) (hd : s'.done = s.done) (hh : s'.holder = s.holder) (hf : Facts parse s' p) : FontInv parse s' := by
  have hdone := (h.body i hb).1
  have hother : ∀ j, j ≠ i → (s.pc j).crit = false := fun j hj => h.alone (PC.body_crit hb) hj
  have hlate : ∀ j, (s.pc j).late = false := by
    intro j
    rw [← Bool.not_eq_true]
    intro hl
    rw [h.late j hl] at hdone
    cases hdone
  have hlate' : ∀ j, (s'.pc j).late = false := by
    intro j
    rw [hpc, goto_pc]
    split
    · cases p <;> first | rfl | cases hb'
    · exact hlate j
  have hfail : ∀ j, (s'.pc j).failing = false := by
    intro j
    have := hlate' j
    revert this
    cases s'.pc j with
    | unlock b => cases b <;> simp [PC.late]
    | _ => simp [PC.late, PC.failing]
  refine ⟨fun j => ?_, fun j hj => ?_, fun _ hn => ?_, fun j hj => ?_, fun h1 => ?_, fun j r hj => ?_, fun j hj => ?_, fun j k hj hk => ?_, fun h1 h2 => ?_⟩
  · rw [hpc, hh, goto_pc]
    split
    · rename_i hj
      rw [hj, ← h.mutex i, PC.body_crit hb, PC.body_crit hb']
    · exact h.mutex j
  · rw [hpc, goto_pc] at hj ⊢
    split at hj
    · rename_i hji
      rw [if_pos hji]
      exact ⟨by rw [hd]; exact hdone, hf⟩
    · rename_i hji
      have := hother j hji
      rw [PC.body_crit hj] at this
      cases this
  · have := hn i
    rw [hpc, goto_self, hb'] at this
    cases this
  · rw [hlate' j] at hj; cases hj
  · rw [hd, hdone] at h1; cases h1
  · have := hlate' j
    rw [hj] at this
    cases this
  · rw [hfail] at hj; cases hj
  · rw [hfail] at hj; cases hj
  · rw [hd, hdone] at h1; cases h1

theorem inv_parse {s : FontMem H} (h : FontInv parse s) {i : Nat} {f : Face} {k : H → PC H} {l : List Face} (hb : (s.pc i).body = true)
    (hk : ∀ x, (k x).body = true) (hl : s.parsed = l) (hg : ∀ g ∈ l, (parse g).isSome = true) (ho : l ++ [f] <+: order) (hn : s.fnts = none)
    (hx : ∀ x, parse f = some x → Facts parse { s with parsed := s.parsed ++ [f] } (k x)) : FontInv parse (s.parse parse i f k) := by
  unfold FontMem.parse
  cases hp : parse f with
  | some x => exact inv_inside h hb (hk x) rfl rfl rfl (hx x hp)
  | none =>
    refine inv_inside h hb rfl rfl rfl rfl ?_
    refine ⟨⟨l, f, ?_, hp, hg⟩, ?_, hn⟩
    · show s.parsed ++ [f] = _
      rw [hl]
    · show s.parsed ++ [f] <+: _
      rw [hl]; exact ho

theorem inv_step {s : FontMem H} (h : FontInv parse s) (i : Nat) : FontInv parse (s.step parse i) := by
  unfold FontMem.step
  have hbody := h.body i
  have hcrit := h.mutex i
  have hlate := h.late i
  cases hp : s.pc i with
  | idle => exact inv_move h (by rw [hp]; rfl) rfl (by rw [hp]; rfl) (by simp [PC.late]) (by simp) (by rw [hp]; rfl)
  | enter =>
    dsimp only
    split
    · rename_i hd; exact inv_move h (by rw [hp]; rfl) rfl (by rw [hp]; rfl) (fun _ => hd) (by simp) (by rw [hp]; rfl)
    · exact inv_move h (by rw [hp]; rfl) rfl (by rw [hp]; rfl) (by simp [PC.late]) (by simp) (by rw [hp]; rfl)
  | lock =>
    dsimp only
    cases hh : s.holder with
    | some j => exact h
    | none =>
      dsimp only
      have hno : ∀ j, (s.pc j).crit = false := by
        intro j
        rw [← Bool.not_eq_true, h.mutex j, hh]
        simp
      refine ⟨fun j => ?_, fun j hj => ?_, fun hd hn => ?_, fun j hj => ?_, h.final, fun j r hj => ?_, fun j hj => ?_, fun j k hj hk => ?_, fun h1 h2 => ?_⟩
      · rw [goto_pc]
        split
        · rename_i hj; subst hj; simp [PC.crit, FontMem.goto]
        · rename_i hj
          show (s.pc j).crit = true ↔ _
          rw [hno j]
          simp only [FontMem.goto, Bool.false_eq_true, Option.some.injEq, false_iff]
          exact fun h => hj h.symm
      · rw [goto_pc] at hj
        split at hj
        · cases hj
        · have := hno j
          rw [PC.body_crit hj] at this
          cases this
      · refine h.init hd fun j => ?_
        rw [← Bool.not_eq_true]
        intro hb
        have := hno j
        rw [PC.body_crit hb] at this
        cases this
      · rw [goto_pc] at hj
        split at hj
        · cases hj
        · exact h.late j hj
      · rw [goto_pc] at hj
        split at hj
        · cases hj
        · exact h.ret j r hj
      · rw [goto_pc] at hj
        split at hj
        · cases hj
        · exact h.bad j hj
      · rw [goto_pc] at hj hk
        split at hj
        · cases hj
        · split at hk
          · cases hk
          · exact h.one j k hj hk
      · obtain ⟨j, hj⟩ := h.some h1 h2
        refine ⟨j, ?_⟩
        rw [goto_pc]
        split
        · rename_i hji; subst hji; rw [hp] at hj; cases hj
        · exact hj
  | check =>
    dsimp only
    rw [hp] at hcrit
    have hcr : (s.pc i).crit = true := by rw [hp]; rfl
    split
    · rename_i hd; exact inv_move h (by rw [hp]; rfl) rfl (by rw [hp]; rfl) (fun _ => hd) (by simp) (by rw [hp]; rfl)
    · rename_i hd
      have hd' : s.done = false := by simpa using hd
      have hnb : ∀ j, (s.pc j).body = false := by
        intro j
        by_cases hj : j = i
        · subst hj; rw [hp]; rfl
        · rw [← Bool.not_eq_true]
          intro hb
          have := h.alone hcr hj
          rw [PC.body_crit hb] at this
          cases this
      have hin := h.init hd' hnb
      refine ⟨fun j => ?_, fun j hj => ?_, fun hd hn => ?_, fun j hj => ?_, h.final, fun j r hj => ?_, fun j hj => ?_, fun j k hj hk => ?_, fun h1 h2 => ?_⟩
      · rw [goto_pc]
        split
        · rename_i hj; subst hj; exact hcrit
        · exact h.mutex j
      · rw [goto_pc] at hj ⊢
        split at hj
        · rename_i hji; rw [if_pos hji]; exact ⟨hd', hin⟩
        · rw [hnb j] at hj; cases hj
      · have := hn i; rw [goto_self] at this; cases this
      · rw [goto_pc] at hj
        split at hj
        · cases hj
        · exact h.late j hj
      · rw [goto_pc] at hj
        split at hj
        · cases hj
        · exact h.ret j r hj
      · exact hin.2.1
      · rw [goto_pc] at hj hk
        split at hj
        · cases hj
        · split at hk
          · cases hk
          · exact h.one j k hj hk
      · exact absurd h1 hd
  | rm =>
    rw [hp] at hbody
    obtain ⟨h1, h2, h3, h4⟩ := hbody rfl
    exact inv_parse h (l := []) (by rw [hp]; rfl) (fun _ => rfl) h2 (by simp) (by decide) h3 fun x hx => ⟨by show s.parsed ++ _ = _; rw [h2]; rfl, hx, h3, h4⟩
  | it a =>
    rw [hp] at hbody
    obtain ⟨h1, h2, g1, h3, h4⟩ := hbody rfl
    exact inv_parse h (l := [.regular]) (by rw [hp]; rfl) (fun _ => rfl) h2 (by simp [g1]) (by decide) h3
      fun x hx => ⟨by show s.parsed ++ _ = _; rw [h2]; rfl, g1, hx, h3, h4⟩
  | bf a b =>
    rw [hp] at hbody
    obtain ⟨h1, h2, g1, g2, h3, h4⟩ := hbody rfl
    exact inv_parse h (l := [.regular, .italic]) (by rw [hp]; rfl) (fun _ => rfl) h2 (by simp [g1, g2]) (by decide) h3
      fun x hx => ⟨by show s.parsed ++ _ = _; rw [h2]; rfl, g1, g2, hx, h3, h4⟩
  | bfit a b c =>
    rw [hp] at hbody
    obtain ⟨h1, h2, g1, g2, g3, h3, h4⟩ := hbody rfl
    exact inv_parse h (l := [.regular, .italic, .bold]) (by rw [hp]; rfl) (fun _ => rfl) h2 (by simp [g1, g2, g3]) (by decide) h3
      fun x hx => ⟨by show s.parsed ++ _ = _; rw [h2]; rfl, g1, g2, g3, hx, h3, h4⟩
  | store a b c d =>
    rw [hp] at hbody
    obtain ⟨h1, h2, g1, g2, g3, g4, h3, h4⟩ := hbody rfl
    refine inv_inside h (p := .finish false) (by rw [hp]; rfl) rfl rfl rfl rfl ⟨?_, h2, ?_⟩
    · intro f; cases f <;> simp [g1, g2, g3, g4]
    · show some (s.heap, _) = _
      simp [h4, loaded, g1, g2, g3, g4]
  | finish b =>
    rw [hp] at hbody
    obtain ⟨h1, h2⟩ := hbody rfl
    have hcr : (s.pc i).crit = true := by rw [hp]; rfl
    have hnl : ∀ j, (s.pc j).late = false := by
      intro j
      rw [← Bool.not_eq_true]
      intro hl
      rw [h.late j hl] at h1
      cases h1
    have hnf : ∀ j, (s.pc j).failing = false := by
      intro j
      have := hnl j
      revert this
      cases s.pc j with
      | unlock b => cases b <;> simp [PC.late]
      | _ => simp [PC.late, PC.failing]
    have hfin : (AllGood parse ∧ s.parsed = order ∧ s.fnts = some (0, loaded parse)) ∨ (FailedAt parse s.parsed ∧ s.parsed <+: order ∧ s.fnts = none) := by
      cases b
      · exact .inl h2
      · exact .inr h2
    refine ⟨fun j => ?_, fun j hj => ?_, fun hd hn => ?_, fun j hj => rfl, fun _ => hfin, fun j r hj => ?_, fun j hj => ?_, fun j k hj hk => ?_, fun _ h3 => ?_⟩
    · rw [goto_pc]
      split
      · rename_i hj; subst hj
        rw [hp] at hcrit
        exact hcrit
      · exact h.mutex j
    · rw [goto_pc] at hj
      split at hj
      · cases hj
      · rename_i hji
        have := h.alone hcr hji
        have h3 := PC.body_crit hj
        dsimp only at h3
        rw [this] at h3
        cases h3
    · cases hd
    · rw [goto_pc] at hj
      split at hj
      · cases hj
      · exact h.ret j r hj
    · rw [goto_pc] at hj
      split at hj
      · cases b
        · cases hj
        · exact h2.2.2
      · have := hnf j
        dsimp only at hj
        rw [this] at hj; cases hj
    · rw [goto_pc] at hj hk
      split at hj
      · split at hk
        · rename_i a1 a2; rw [a1, a2]
        · have := hnf k
          dsimp only at hk
          rw [this] at hk; cases hk
      · have := hnf j
        dsimp only at hj
        rw [this] at hj; cases hj
    · refine ⟨i, ?_⟩
      rw [goto_self]
      cases b
      · obtain ⟨-, -, h4⟩ := h2
        have h3 : s.fnts = none := h3
        rw [h4] at h3; cases h3
      · rfl
  | unlock b =>
    have hcr : (s.pc i).crit = true := by rw [hp]; rfl
    have hd : s.done = true := hlate (by rw [hp]; rfl)
    have hf : (if b = true then PC.panicked else PC.load : PC H).failing = (s.pc i).failing := by rw [hp]; cases b <;> rfl
    have kf : ∀ j, (({ s with holder := none }.goto i (if b = true then PC.panicked else PC.load)).pc j).failing = (s.pc j).failing := by
      intro j
      rw [goto_pc]
      split
      · rename_i hj; rw [hj, hf]
      · rfl
    refine ⟨fun j => ?_, fun j hj => ?_, fun hd' hn => ?_, fun j hj => hd, h.final, fun j r hj => ?_, fun j hj => ?_, fun j k hj hk => ?_, fun h1 h2 => ?_⟩
    · rw [goto_pc]
      show _ ↔ none = some j
      split
      · cases b <;> simp [PC.crit, PC.body]
      · rename_i hj
        simp [h.alone hcr hj]
    · rw [goto_pc] at hj
      split at hj
      · cases b <;> cases hj
      · exact (by have := (h.body j hj).1; rw [hd] at this; cases this)
    · exact (by have hd' : s.done = false := hd'; rw [hd] at hd'; cases hd')
    · rw [goto_pc] at hj
      split at hj
      · cases b <;> cases hj
      · exact h.ret j r hj
    · rw [kf] at hj; exact h.bad j hj
    · rw [kf] at hj hk; exact h.one j k hj hk
    · obtain ⟨j, hj⟩ := h.some h1 h2
      exact ⟨j, by rw [kf]; exact hj⟩
  | load => exact inv_move h (by rw [hp]; rfl) rfl (by rw [hp]; rfl) (fun _ => hlate (by rw [hp]; rfl)) (by simp) (by rw [hp]; rfl)
  | returned r => exact h
  | panicked => exact h

theorem inv_run (sched : List Nat) : ∀ (s : FontMem H), FontInv parse s → FontInv parse (s.run parse sched) := by
  induction sched with
  | nil => intro s h; exact h
  | cons i sched ih => intro s h; exact ih _ (inv_step h i)

theorem inv_after (sched : Nat → Nat) (n : Nat) : FontInv parse (after parse sched n : FontMem H) := by
  induction n with
  | zero => exact inv_start
  | succ n ih => exact inv_step ih _

end Verif
