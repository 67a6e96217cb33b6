import Verif.Lemmas.IeeeList
/-! # Rounding keeps the order -/

namespace Verif
open GoFloat Spec F64

theorem rounded_mono {x y : F64} {p q : ℚ} (h : p ≤ q) (hx : Rounded x p) (hy : Rounded y q) : lt y x = false := by
  have hm := rnd_mono h
  by_cases h1 : |rnd p| < 2 ^ (1024 : ℕ) <;> by_cases h2 : |rnd q| < 2 ^ (1024 : ℕ)
  · have e1 := hx.1 h1
    have e2 := hy.1 h2
    cases x with
    | fin s a ha =>
      cases y with
      | fin t b hb =>
        show decide (value t b < value s a) = false
        rw [show value s a = _ from e1, show value t b = _ from e2]
        exact decide_eq_false (not_lt.2 hm)
      | inf => exact e2.elim
      | nan => exact e2.elim
    | inf => exact e1.elim
    | nan => exact e1.elim
  · rw [hy.2 h2]
    have hq : ¬ q < 0 := by
      intro hq
      have h0 : rnd q ≤ 0 := by have := rnd_mono hq.le; rwa [rnd_zero] at this
      apply h2
      rw [abs_of_nonpos h0]
      refine lt_of_le_of_lt ?_ (abs_lt.1 h1 |>.1 |> neg_lt.1)
      exact neg_le_neg hm
    rw [decide_eq_false hq]
    cases x with
    | fin => rfl
    | inf t => cases t <;> rfl
    | nan => rfl
  · rw [hx.2 h1]
    have hp : p < 0 := by
      by_contra hp
      have h0 : 0 ≤ rnd p := by have := rnd_mono (not_lt.1 hp); rwa [rnd_zero] at this
      apply h1
      rw [abs_of_nonneg h0]
      exact lt_of_le_of_lt hm (abs_lt.1 h2).2
    rw [decide_eq_true hp]
    cases y with
    | fin => rfl
    | inf t => cases t <;> rfl
    | nan => rfl
  · rw [hx.2 h1, hy.2 h2]
    show (decide (q < 0) && !decide (p < 0)) = false
    by_cases hq : q < 0
    · rw [decide_eq_true (lt_of_le_of_lt h hq)]; simp
    · rw [decide_eq_false hq]; rfl

/-- Adding the same number keeps the order. -/
theorem add_mono64 {a b : F64} (o : F64) (h : lt b a = false) : lt (b + o) (a + o) = false := by
  cases o with
  | fin u c hc =>
    cases a with
    | fin s x hx =>
      cases b with
      | fin t y hy =>
        have hle : value s x ≤ value t y := not_lt.1 (of_decide_eq_false h)
        exact rounded_mono (p := value s x + value u c) (q := value t y + value u c) (by linarith)
          (add_rounded (x := .fin s x hx) (y := .fin u c hc) rfl rfl) (add_rounded (x := .fin t y hy) (y := .fin u c hc) rfl rfl)
      | inf t =>
        cases t
        · have e : ∀ z : F64, lt (F64.inf false) z = false := by
            intro z; cases z with
            | fin => rfl
            | inf t => cases t <;> rfl
            | nan => rfl
          exact e _
        · cases h
      | nan => rfl
    | inf s =>
      cases s
      · cases b with
        | fin t y hy => cases h
        | inf t => cases t <;> [rfl; cases h]
        | nan => rfl
      · have e : ∀ z : F64, lt z (F64.inf true) = false := by
          intro z; cases z with
          | fin => rfl
          | inf t => cases t <;> rfl
          | nan => rfl
        exact e _
    | nan =>
      have e : ∀ z : F64, lt z F64.nan = false := by
        intro z; cases z <;> rfl
      exact e _
  | inf u =>
    cases a with
    | fin s x hx =>
      cases b with
      | fin t y hy => cases u <;> rfl
      | inf t => cases t <;> cases u <;> first | rfl | cases h
      | nan => rfl
    | inf s =>
      cases b with
      | fin t y hy => cases s <;> cases u <;> first | rfl | cases h
      | inf t => cases s <;> cases t <;> cases u <;> first | rfl | cases h
      | nan => rfl
    | nan =>
      have e : ∀ z : F64, lt z F64.nan = false := by
        intro z; cases z <;> rfl
      exact e _
  | nan =>
    have e : ∀ z : F64, z + F64.nan = F64.nan := by
      intro z; cases z <;> rfl
    rw [e, e]; rfl

theorem add_comm64 (x y : F64) : x + y = y + x := by
  cases x with
  | fin s a ha =>
    cases y with
    | fin t b hb =>
      show ofQ (value s a + value t b) (s && t) = ofQ (value t b + value s a) (t && s)
      rw [add_comm, Bool.and_comm]
    | inf => rfl
    | nan => rfl
  | inf s =>
    cases y with
    | fin t b hb => rfl
    | inf t => cases s <;> cases t <;> rfl
    | nan => rfl
  | nan =>
    cases y with
    | fin t b hb => rfl
    | inf t => rfl
    | nan => rfl

/-- A number that is not negative does not take the sum back. -/
theorem add_forward {w : F64} (x : F64) (h : lt w zero = false) : lt (x + w) x = false := by
  have h1 := add_mono64 x h
  rw [add_comm64 w, add_comm64 zero] at h1
  cases x with
  | fin s a ha =>
    have hz := (add_rounded (x := .fin s a ha) (y := zero) rfl num_zero64)
    have hn : Num64 (F64.fin s a ha) (value s a) := rfl
    rw [add_zero] at hz
    have hz := hz.1 (by rw [rnd_num hn]; exact (isNum_abs hn).2)
    rw [rnd_num hn] at hz
    generalize (F64.fin s a ha + zero : F64) = z at h1 hz
    generalize (F64.fin s a ha + w : F64) = y at h1 ⊢
    cases z with
    | fin t b hb =>
      cases y with
      | fin u c hc =>
        have e : value t b = value s a := hz
        have h2 : decide (value u c < value t b) = false := h1
        show decide (value u c < value s a) = false
        rw [← e]; exact h2
      | inf t => exact h1
      | nan => rfl
    | inf => exact hz.elim
    | nan => exact hz.elim
  | inf s =>
    rw [zero64] at h1
    exact h1
  | nan => rw [zero64] at h1; exact h1

theorem forward_trans {a b c : F64} (hb : b ≠ .nan) (h : lt b a = false) (h' : lt c b = false) : lt c a = false := by
  cases b with
  | fin t y hy =>
    cases a with
    | fin s x hx =>
      cases c with
      | fin u z hz =>
        have h1 : value s x ≤ value t y := not_lt.1 (of_decide_eq_false h)
        have h2 : value t y ≤ value u z := not_lt.1 (of_decide_eq_false h')
        exact decide_eq_false (not_lt.2 (h1.trans h2))
      | inf u => cases u <;> first | rfl | cases h'
      | nan => rfl
    | inf s => cases s <;> [cases h; (cases c with | fin => rfl | inf u => cases u <;> rfl | nan => rfl)]
    | nan => cases c <;> rfl
  | inf t =>
    cases t
    · cases c with
      | fin => cases h'
      | inf u => cases u <;> [(cases a with | fin => rfl | inf s => cases s <;> rfl | nan => rfl); cases h']
      | nan => rfl
    · cases a with
      | fin => cases h
      | inf s => cases s <;> [cases h; (cases c with | fin => rfl | inf u => cases u <;> rfl | nan => rfl)]
      | nan => cases c <;> rfl
  | nan => exact absurd rfl hb

theorem nan_add64 (x : F64) : F64.nan + x = .nan := rfl

/-- Glue at its natural size does not go back. -/
theorem glueStep_forward {hd : LHead F64} (hs : hd.sign = 0) {g : GlueD F64} (h : lt g.width zero = false) :
    lt (glueStep hd g .zero).1 zero = false ∧ (glueStep hd g .zero).2 = .zero := by
  by_cases hg : ∃ w, Num64 g.width w
  · obtain ⟨w, hg⟩ := hg
    obtain ⟨h1, h2⟩ := glueStep_rigid64 hs hg
    refine ⟨?_, h2⟩
    rw [← exact64_lt] at h ⊢
    have e : ∀ {x : F64} {q : ℚ}, Num64 x q → exact64 x = .fin q := by
      intro x q hx
      cases x with
      | fin => rw [← show value _ _ = q from hx]; rfl
      | inf => exact hx.elim
      | nan => exact hx.elim
    rw [e h1]; rwa [e hg] at h
  · unfold glueStep
    rw [if_neg (by simp [hs])]
    refine ⟨?_, rfl⟩
    show lt (g.width - zero + zero) zero = false
    rw [zero64] at h ⊢
    cases hw : g.width with
    | fin s a ha => exact absurd ⟨_, (by rw [hw]; rfl)⟩ hg
    | inf s => rw [hw] at h; exact h
    | nan => rfl

/-- `b` is not before `a`. -/
def Later (a b : F64) : Prop := lt b a = false ∧ (a = .nan → b = .nan)

theorem Later.trans {a b c : F64} (h : Later a b) (h' : Later b c) : Later a c := by
  refine ⟨?_, fun e => h'.2 (h.2 e)⟩
  by_cases hb : b = .nan
  · rw [h'.2 hb]; rfl
  · exact forward_trans hb h.1 h'.1

theorem later_refl (a : F64) : Later a a := by
  refine ⟨?_, id⟩
  cases a with
  | fin s a h => exact decide_eq_false (lt_irrefl _)
  | inf s => cases s <;> rfl
  | nan => rfl

theorem later_add {w : F64} (a : F64) (h : lt w zero = false) : Later a (a + w) := ⟨add_forward a h, fun e => by rw [e]; rfl⟩

/-- The characters of a list without boxes are drawn from the left to the right. -/
theorem forward_run {o : Off F64} {hd : LHead F64} {base : F64} (hs : hd.sign = 0) {q st a q1 st1 a'} (h : HRun o hd base q st a q1 st1 a') (hq : q = .zero)
    (hi : ∀ n ∈ a, isInline n = true) (hw : ∀ n ∈ a, lt n.width zero = false) :
    ∃ l, st1.ops = st.ops ++ l ∧ (∀ d ∈ l, ∃ x, drawX d = x + o.h ∧ Later st.h x) ∧ l.Pairwise fun d e => lt (drawX e) (drawX d) = false := by
  induction h with
  | nil => exact ⟨[], by simp, by simp, .nil⟩
  | @cons q st n q1 st1 n' a q2 st2 a' e _ ih =>
    subst hq
    have hi' := fun m hm => hi m (List.mem_cons_of_mem _ hm)
    have hw' := fun m hm => hw m (List.mem_cons_of_mem _ hm)
    have h0 := hi n (List.mem_cons_self)
    have hw0 := hw n (List.mem_cons_self)
    cases n with
    | char c =>
      rw [hNode] at e
      cases e
      obtain ⟨l, h1, h2, h3⟩ := ih rfl hi' hw'
      refine ⟨c.render (st.h + o.h) (st.v + o.v) :: l, by rw [h1]; simp, ?_, ?_⟩
      · intro d hd'
        rcases List.mem_cons.1 hd' with rfl | hd'
        · exact ⟨st.h, rfl, later_refl _⟩
        · obtain ⟨x, hx, hl⟩ := h2 d hd'
          exact ⟨x, hx, (later_add st.h hw0).trans hl⟩
      · refine List.pairwise_cons.2 ⟨fun d hd' => ?_, h3⟩
        obtain ⟨x, hx, hl⟩ := h2 d hd'
        rw [hx]
        exact add_mono64 o.h ((later_add st.h hw0).trans hl).1
    | kern k =>
      rw [hNode] at e
      cases e
      obtain ⟨l, h1, h2, h3⟩ := ih rfl hi' hw'
      refine ⟨l, h1, fun d hd' => ?_, h3⟩
      obtain ⟨x, hx, hl⟩ := h2 d hd'
      exact ⟨x, hx, (later_add st.h hw0).trans hl⟩
    | glue g =>
      rw [hNode] at e
      cases e
      obtain ⟨hg, hz⟩ := glueStep_forward hs (g := g) hw0
      obtain ⟨l, h1, h2, h3⟩ := ih hz hi' hw'
      refine ⟨l, h1, fun d hd' => ?_, h3⟩
      obtain ⟨x, hx, hl⟩ := h2 d hd'
      exact ⟨x, hx, (later_add st.h hg).trans hl⟩
    | accent => cases h0
    | box => cases h0
    | rule => cases h0
    | list => cases h0

end Verif
