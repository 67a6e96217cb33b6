import Verif.Lemmas.FontsLive
/-!
# C84: the font packages, called from any number of goroutines

`Fonts` of font/lm and font/liberation.  Every theorem holds for every schedule, every number of concurrent calls, and every outcome
`parse` of parsing the four files.
-/

namespace Verif.Props
open Verif Spec
variable {H : Type} (parse : Face → Option H)

/-- **C84.** If the files are good, every call of `Fonts` that ends returns the same pointer, to the fonts of the four files; no call panics. -/
theorem C84_same (hg : AllGood parse) (sched : List Nat) (i : Nat) :
    (∀ r, (FontMem.start.run parse sched).pc i = .returned r → r = some (0, loaded parse)) ∧ (FontMem.start.run parse sched).pc i ≠ .panicked := by
  have h := inv_run sched _ (inv_start (parse := parse))
  generalize FontMem.start.run parse sched = s at h
  have hfin : s.done = true → s.fnts = some (0, loaded parse) := by
    intro hd
    rcases h.final hd with h1 | ⟨⟨l, f, -, h2, -⟩, -⟩
    · exact h1.2.2
    · have := hg f; rw [h2] at this; cases this
  refine ⟨fun r hr => ?_, fun hp => ?_⟩
  · rw [h.ret i r hr, hfin (h.late i (by rw [hr]; rfl))]
  · have h1 := h.bad i (by rw [hp]; rfl)
    rw [hfin (h.late i (by rw [hp]; rfl))] at h1
    cases h1

/-- **C84.** No file is parsed twice, and they are parsed in this order, however many calls there are. -/
theorem C84_once (sched : List Nat) : (FontMem.start.run parse sched).parsed <+: [.regular, .italic, .bold, .boldItalic] := by
  have h := inv_run sched _ (inv_start (parse := parse))
  generalize FontMem.start.run parse sched = s at h
  show _ <+: order
  cases hd : s.done with
  | true =>
    rcases h.final hd with h1 | h1
    · rw [h1.2.1]; exact List.prefix_rfl
    · exact h1.2.1
  | false =>
    by_cases hb : ∃ i, (s.pc i).body = true
    · obtain ⟨i, hi⟩ := hb
      have h1 := (h.body i hi).2
      revert h1 hi
      cases s.pc i with
      | rm => intro _ h1; rw [h1.1]; exact List.nil_prefix
      | it a => intro _ h1; rw [h1.1]; decide
      | bf a b => intro _ h1; rw [h1.1]; decide
      | bfit a b c => intro _ h1; rw [h1.1]; decide
      | store a b c d => intro _ h1; rw [h1.1]; exact List.prefix_rfl
      | finish b =>
        cases b
        · intro _ h1; rw [h1.2.1]; exact List.prefix_rfl
        · intro _ h1; exact h1.2.1
      | _ => intro hi; cases hi
    · rw [(h.init hd fun i => by rw [← Bool.not_eq_true]; exact fun hi => hb ⟨i, hi⟩).1]
      exact List.nil_prefix

/-- **C84, finding.** If a file is bad, at most one call panics; every other call that ends returns nil, now and later.  When all calls
made are over, exactly one has panicked.  The files are parsed up to the first bad one. -/
theorem C84_bad (hb : ¬ AllGood parse) (sched : List Nat) :
    (∀ i r, (FontMem.start.run parse sched).pc i = .returned r → r = none) ∧
    (∀ i j, (FontMem.start.run parse sched).pc i = .panicked → (FontMem.start.run parse sched).pc j = .panicked → i = j) ∧
    ((∃ i, (FontMem.start.run parse sched).pc i ≠ .idle) →
      (∀ i, (FontMem.start.run parse sched).pc i = .idle ∨ Over ((FontMem.start.run parse sched).pc i)) →
      (∃ i, (FontMem.start.run parse sched).pc i = .panicked) ∧ FailedAt parse (FontMem.start.run parse sched).parsed) := by
  have h := inv_run sched _ (inv_start (parse := parse))
  generalize FontMem.start.run parse sched = s at h
  have hfin : s.done = true → FailedAt parse s.parsed ∧ s.fnts = none := by
    intro hd
    rcases h.final hd with h1 | h1
    · exact absurd h1.1 hb
    · exact ⟨h1.1, h1.2.2⟩
  refine ⟨fun i r hr => ?_, fun i j hi hj => h.one i j (by rw [hi]; rfl) (by rw [hj]; rfl), ?_⟩
  · rw [h.ret i r hr, (hfin (h.late i (by rw [hr]; rfl))).2]
  · rintro ⟨i, hi⟩ hall
    have hd : s.done = true := by
      refine h.late i ?_
      rcases hall i with h1 | h1
      · exact absurd h1 hi
      · revert h1; cases s.pc i <;> simp [Over, PC.late]
    obtain ⟨j, hj⟩ := h.some hd (hfin hd).2
    refine ⟨⟨j, ?_⟩, (hfin hd).1⟩
    rcases hall j with h1 | h1
    · rw [h1] at hj; cases hj
    · revert h1 hj; cases s.pc j with
      | unlock b => cases b <;> simp [Over]
      | _ => simp [Over, PC.failing]

/-- **C84.** No deadlock and no starvation: under every schedule that lets each call that is being made have its turn again and again, every call
ends. -/
theorem C84_ends (sched : Nat → Nat) (hf : Fair parse sched) (i n : Nat) (h : (after parse sched n).pc i ≠ .idle) :
    ∃ m, n ≤ m ∧ Over ((after parse sched m).pc i) := ends hf i n h

/-- **C84.** The faces of the fonts: regular for "default", "regular" and "rm", italic for "it", bold for "bf"; there are no others.
**Finding**: the bold italic face is never used. -/
theorem C84_faces (t : GoString) :
    (loaded parse).get t = (if t ∈ [bs!"default", bs!"regular", bs!"rm"] then parse .regular else if t = bs!"it" then parse .italic
      else if t = bs!"bf" then parse .bold else none) ∧
    ∀ f g : TtfFonts H, f.default = g.default → f.rm = g.rm → f.it = g.it → f.bf = g.bf → f.get t = g.get t := by
  refine ⟨?_, fun f g h1 h2 h3 h4 => by unfold TtfFonts.get; rw [h1, h2, h3, h4]⟩
  unfold TtfFonts.get loaded
  by_cases h1 : t = bs!"default"
  · subst h1; rfl
  by_cases h2 : t = bs!"regular"
  · subst h2; rfl
  by_cases h3 : t = bs!"rm"
  · subst h3; rfl
  have h4 : t ∉ [bs!"default", bs!"regular", bs!"rm"] := by
    simp only [List.mem_cons, List.not_mem_nil, or_false]
    rintro (h | h | h)
    · exact h1 h
    · exact h2 h
    · exact h3 h
  rw [if_neg h1, if_neg h2, if_neg h3, if_neg h4]

/-- **C84.** What `mtex.Render` makes of the pointer a call has returned: the fonts of the package if its files are good; **finding**: otherwise,
silently, the default fonts, which are those of the four Go files. -/
theorem C84_render (go : Face → Option H) (dflt : TtfFonts H) (hd : defaultFonts go = some dflt) (sched : List Nat) (i : Nat)
    (r : Option (Nat × TtfFonts H)) (hr : (FontMem.start.run parse sched).pc i = .returned r) :
    dflt = loaded go ∧ (AllGood parse → fontsFor dflt r = loaded parse) ∧ (¬ AllGood parse → fontsFor dflt r = loaded go) := by
  have he : dflt = loaded go := by
    unfold defaultFonts at hd
    unfold loaded
    revert hd
    cases go .regular <;> cases go .italic <;> cases go .bold <;> cases go .boldItalic <;> simp [eq_comm]
  refine ⟨he, fun hg => ?_, fun hb => ?_⟩
  · rw [(C84_same parse hg sched i).1 r hr]; rfl
  · rw [(C84_bad parse hb sched).1 i r hr]; exact he

/-! ## Non-vacuity -/

/-- Two calls, taking turns: both return the same pointer. -/
example : let s := FontMem.start.run (fun f => some f) ((List.range 40).map (· % 2))
    (s.pc 0 matches .returned _) ∧ (s.pc 1 matches .returned _) ∧ s.parsed = order := by decide

/-- The italic file is bad, three calls: the first panics, the others return nil. -/
example : let s := FontMem.start.run (fun f => if f = .italic then none else some f) ((List.range 60).map (· % 3))
    (s.pc 0 matches .panicked) ∧ (s.pc 1 matches .returned none) ∧ (s.pc 2 matches .returned none) ∧ s.parsed = [.regular, .italic] := by decide

theorem idle_thread (sched : Nat → Nat) (hs : ∀ n, sched n < 3) (i n : Nat) (h : 3 ≤ i) : (after parse sched n).pc i = .idle := by
  induction n with
  | zero => rfl
  | succ n ih => rw [after, step_other _ (by have := hs n; omega)]; exact ih

/-- Three calls taking turns for ever is a fair schedule. -/
example : Fair parse (· % 3) := by
  intro i n h
  have hi : i < 3 := Decidable.byContradiction fun hi => h (idle_thread parse _ (fun n => Nat.mod_lt _ (by omega)) i n (by omega))
  exact ⟨3 * n + i, by omega, by show (3 * n + i) % 3 = i; omega⟩

end Verif.Props
