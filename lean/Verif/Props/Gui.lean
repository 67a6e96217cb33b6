import Verif.Spec.Gui
import Verif.Props.Draw
import Mathlib.Data.List.Induction
/-! # C80, C81: the window of mtex-render -/

namespace Verif.Props
open Verif Verif.Spec GoFloat
variable {F G H E : Type} [GoFloat F] [GoFloat G]

/-! ## What the user did last -/

theorem text_snoc (a : List UiAct) (x : UiAct) (t : GoString) :
    TextAfter (a ++ [x]) t ↔ match x with | .typed t' => t = t' | _ => TextAfter a t := by
  have hgen : (∀ t', x ≠ .typed t') → (TextAfter (a ++ [x]) t ↔ TextAfter a t) := by
    intro hx
    constructor
    · rintro (⟨a1, a2, e, h⟩ | ⟨h, h'⟩)
      · rcases List.eq_nil_or_concat a2 with rfl | ⟨a3, y, rfl⟩
        · have := (List.append_inj' e rfl).2
          simp only [List.cons.injEq, and_true] at this
          exact absurd this (hx _)
        · rw [List.concat_eq_append, ← List.cons_append, ← List.append_assoc] at e
          obtain ⟨e1, e2⟩ := List.append_inj' e rfl
          exact .inl ⟨a1, a3, e1, fun t' ht => h t' (by simp [ht])⟩
      · exact .inr ⟨fun t' ht => h t' (List.mem_append_left _ ht), h'⟩
    · rintro (⟨a1, a2, rfl, h⟩ | ⟨h, h'⟩)
      · exact .inl ⟨a1, a2 ++ [x], by simp, fun t' ht => by
          rcases List.mem_append.1 ht with ht | ht
          · exact h t' ht
          · exact hx t' (List.mem_singleton.1 ht).symm⟩
      · exact .inr ⟨fun t' ht => by
          rcases List.mem_append.1 ht with ht | ht
          · exact h t' ht
          · exact hx t' (List.mem_singleton.1 ht).symm, h'⟩
  cases x with
  | typed t' =>
    dsimp only
    constructor
    · rintro (⟨a1, a2, e, h⟩ | ⟨h, -⟩)
      · rcases List.eq_nil_or_concat a2 with rfl | ⟨a3, y, rfl⟩
        · have := (List.append_inj' e rfl).2; simpa using this.symm
        · rw [List.concat_eq_append, ← List.cons_append, ← List.append_assoc] at e
          have := (List.append_inj' e rfl).2
          simp only [List.cons.injEq, and_true] at this
          exact absurd (by rw [← this]; simp) (h t')
      · exact absurd (by simp) (h t')
    · rintro rfl
      exact .inl ⟨a, [], rfl, by simp⟩
  | commit => exact hgen (by simp)
  | image => exact hgen (by simp)

theorem expr_snoc (a : List UiAct) (x : UiAct) (t : GoString) :
    ExprAfter (a ++ [x]) t ↔ match x with | .commit => TextAfter a t | _ => ExprAfter a t := by
  have hgen : x ≠ .commit → (ExprAfter (a ++ [x]) t ↔ ExprAfter a t) := by
    intro hx
    constructor
    · rintro (⟨a1, a2, e, h, ht⟩ | ⟨h, h'⟩)
      · rcases List.eq_nil_or_concat a2 with rfl | ⟨a3, y, rfl⟩
        · have := (List.append_inj' e rfl).2
          simp only [List.cons.injEq, and_true] at this
          exact absurd this hx
        · rw [List.concat_eq_append, ← List.cons_append, ← List.append_assoc] at e
          obtain ⟨e1, e2⟩ := List.append_inj' e rfl
          exact .inl ⟨a1, a3, e1, fun ht => h (by simp [ht]), ht⟩
      · exact .inr ⟨fun ht => h (List.mem_append_left _ ht), h'⟩
    · rintro (⟨a1, a2, rfl, h, ht⟩ | ⟨h, h'⟩)
      · exact .inl ⟨a1, a2 ++ [x], by simp, fun ht => by
          rcases List.mem_append.1 ht with ht | ht
          · exact h ht
          · exact hx (List.mem_singleton.1 ht).symm, ht⟩
      · exact .inr ⟨fun ht => by
          rcases List.mem_append.1 ht with ht | ht
          · exact h ht
          · exact hx (List.mem_singleton.1 ht).symm, h'⟩
  cases x with
  | commit =>
    dsimp only
    constructor
    · rintro (⟨a1, a2, e, h, ht⟩ | ⟨h, -⟩)
      · rcases List.eq_nil_or_concat a2 with rfl | ⟨a3, y, rfl⟩
        · rw [(List.append_inj' e rfl).1]; exact ht
        · rw [List.concat_eq_append, ← List.cons_append, ← List.append_assoc] at e
          have := (List.append_inj' e rfl).2
          simp only [List.cons.injEq, and_true] at this
          exact absurd (by rw [← this]; simp) h
      · exact absurd (by simp) h
    · intro h
      exact .inl ⟨a, [], rfl, by simp, h⟩
  | typed t' => exact hgen (by simp)
  | image => exact hgen (by simp)

/-- The acts determine the text and the formula. -/
theorem text_unique (a : List UiAct) : ∀ t t', TextAfter a t → TextAfter a t' → t = t' := by
  induction a using List.reverseRecOn with
  | nil =>
    intro t t' h h'
    rcases h with ⟨a1, a2, e, -⟩ | ⟨-, rfl⟩
    · simp at e
    · rcases h' with ⟨a1, a2, e, -⟩ | ⟨-, rfl⟩
      · simp at e
      · rfl
  | append_singleton a x ih =>
    intro t t' h h'
    rw [text_snoc] at h h'
    cases x with
    | typed u => exact h.trans h'.symm
    | commit => exact ih _ _ h h'
    | image => exact ih _ _ h h'

theorem expr_unique (a : List UiAct) : ∀ t t', ExprAfter a t → ExprAfter a t' → t = t' := by
  induction a using List.reverseRecOn with
  | nil =>
    intro t t' h h'
    rcases h with ⟨a1, a2, e, -⟩ | ⟨-, rfl⟩
    · simp at e
    · rcases h' with ⟨a1, a2, e, -⟩ | ⟨-, rfl⟩
      · simp at e
      · rfl
  | append_singleton a x ih =>
    intro t t' h h'
    rw [expr_snoc] at h h'
    cases x with
    | typed u => exact ih _ _ h h'
    | commit => exact text_unique a _ _ h h'
    | image => exact ih _ _ h h'

theorem img_snoc {P : Type} (draw : GoString → Option P) (a : List UiAct) (x : UiAct) (hx : x ≠ .image) (im : Option P) (h : ImgAfter draw a im) :
    ImgAfter draw (a ++ [x]) im := by
  rcases h with ⟨a1, a2, y, t, rfl, h1, h2, h3, h4⟩ | ⟨h1, h2⟩
  · refine .inl ⟨a1, a2 ++ [x], y, t, by simp, h1, h2, h3, fun b1 b2 y e hy => ?_⟩
    rcases List.eq_nil_or_concat b2 with rfl | ⟨b3, z, rfl⟩
    · have := (List.append_inj' e rfl).2
      simp only [List.cons.injEq, and_true] at this
      exact absurd this hx
    · rw [List.concat_eq_append, ← List.cons_append, ← List.append_assoc] at e
      exact h4 b1 b3 y (List.append_inj' e rfl).1 hy
  · refine .inr ⟨fun b1 b2 y e hy => ?_, h2⟩
    rcases List.eq_nil_or_concat b2 with rfl | ⟨b3, z, rfl⟩
    · have := (List.append_inj' e rfl).2
      simp only [List.cons.injEq, and_true] at this
      exact absurd this hx
    · rw [List.concat_eq_append, ← List.cons_append, ← List.append_assoc] at e
      exact h1 b1 b3 y (List.append_inj' e rfl).1 hy

theorem img_drawn {P : Type} (draw : GoString → Option P) (a : List UiAct) (x : GoString) (hx : ExprAfter a x) (t : P) (ht : draw x = some t) :
    ImgAfter draw (a ++ [.image]) (some t) :=
  .inl ⟨a, [], x, t, rfl, hx, ht, rfl, fun b1 b2 y e _ => by simp at e⟩

theorem img_kept {P : Type} (draw : GoString → Option P) (a : List UiAct) (x : GoString) (hx : ExprAfter a x) (ht : draw x = none) (im : Option P)
    (h : ImgAfter draw a im) : ImgAfter draw (a ++ [.image]) im := by
  rcases h with ⟨a1, a2, y, t, rfl, h1, h2, h3, h4⟩ | ⟨h1, h2⟩
  · refine .inl ⟨a1, a2 ++ [.image], y, t, by simp, h1, h2, h3, fun b1 b2 y e hy => ?_⟩
    rcases List.eq_nil_or_concat b2 with rfl | ⟨b3, z, rfl⟩
    · rw [← (List.append_inj' e rfl).1] at hy
      rw [expr_unique _ _ _ hy hx]; exact ht
    · rw [List.concat_eq_append, ← List.cons_append, ← List.append_assoc] at e
      exact h4 b1 b3 y (List.append_inj' e rfl).1 hy
  · refine .inr ⟨fun b1 b2 y e hy => ?_, h2⟩
    rcases List.eq_nil_or_concat b2 with rfl | ⟨b3, z, rfl⟩
    · rw [← (List.append_inj' e rfl).1] at hy
      rw [expr_unique _ _ _ hy hx]; exact ht
    · rw [List.concat_eq_append, ← List.cons_append, ← List.append_assoc] at e
      exact h1 b1 b3 y (List.append_inj' e rfl).1 hy

/-- The state of the window is right about the acts so far. -/
def Right (w : UiEnv F G H E) (a : List UiAct) (s : UiSt F H) : Prop :=
  TextAfter a s.text ∧ ExprAfter a s.expr ∧ ImgAfter w.picture a s.image

theorem right_new (w : UiEnv F G H E) : Right w [] (UiSt.new : UiSt F H) :=
  ⟨.inr ⟨by simp, rfl⟩, .inr ⟨by simp, rfl⟩, .inr ⟨fun b1 b2 y e _ => by simp at e, rfl⟩⟩

theorem Right.typed {w : UiEnv F G H E} {a : List UiAct} {s : UiSt F H} (h : Right w a s) (t : GoString) :
    Right w (a ++ [.typed t]) { s with text := t } :=
  ⟨(text_snoc ..).2 rfl, (expr_snoc ..).2 h.2.1, img_snoc _ _ _ (by simp) _ h.2.2⟩
theorem Right.commit {w : UiEnv F G H E} {a : List UiAct} {s : UiSt F H} (h : Right w a s) :
    Right w (a ++ [.commit]) { s with expr := s.text } :=
  ⟨(text_snoc ..).2 h.1, (expr_snoc ..).2 h.1, img_snoc _ _ _ (by simp) _ h.2.2⟩

theorem imgRender_right (w : UiEnv F G H E) {a : List UiAct} {s s' : UiSt F H} (hr : Right w a s) (h : w.imgRender s = .ok s') :
    Right w (a ++ [.image]) s' ∧ s'.screen = s.screen := by
  unfold UiEnv.imgRender at h
  split at h
  · rename_i t ht
    cases h
    exact ⟨⟨(text_snoc ..).2 hr.1, (expr_snoc ..).2 hr.2.1, img_drawn _ _ _ hr.2.1 _ (by unfold UiEnv.picture; rw [ht])⟩, rfl⟩
  · rename_i x t ht
    cases h
    exact ⟨⟨(text_snoc ..).2 hr.1, (expr_snoc ..).2 hr.2.1, img_kept _ _ _ hr.2.1 (by unfold UiEnv.picture; rw [ht]) _ hr.2.2⟩, rfl⟩
  · cases h
  · cases h

theorem widget_right (w : UiEnv F G H E) (d : Wid) {a : List UiAct} {s s' : UiSt F H} {o : List (UiOut F G H)} (hr : Right w a s)
    (h : w.widget s d = .ok (s', o)) : Right w (a ++ widActs [d]) s' ∧ s'.screen = s.screen := by
  cases d with
  | editor t => cases h; exact ⟨hr.typed t, rfl⟩
  | button n =>
    cases n with
    | zero => cases h; show Right w (a ++ []) s ∧ _; rw [List.append_nil]; exact ⟨hr, rfl⟩
    | succ n => cases h; exact ⟨hr.commit, rfl⟩
  | image =>
    obtain ⟨s1, h1, h⟩ := Res.bind_eq_ok.1 h
    cases h
    exact imgRender_right w hr h1
  | formula =>
    obtain ⟨l, h1, h⟩ := Res.bind_eq_ok.1 h
    cases h
    show Right w (a ++ []) s ∧ _
    rw [List.append_nil]
    exact ⟨hr, rfl⟩

theorem widActs_append (l1 l2 : List Wid) : widActs (l1 ++ l2) = widActs l1 ++ widActs l2 := by
  induction l1 with
  | nil => rfl
  | cons d l1 ih =>
    cases d with
    | button n => cases n <;> simp [widActs, ih]
    | _ => simp [widActs, ih]

theorem layout_right (w : UiEnv F G H E) (ws : List Wid) : ∀ {a : List UiAct} {s s' : UiSt F H} {o : List (UiOut F G H)}, Right w a s →
    w.layout s ws = .ok (s', o) → Right w (a ++ widActs ws) s' ∧ s'.screen = s.screen := by
  induction ws with
  | nil => intro a s s' o hr h; cases h; show Right w (a ++ []) s ∧ _; rw [List.append_nil]; exact ⟨hr, rfl⟩
  | cons d l ih =>
    intro a s s' o hr h
    unfold UiEnv.layout at h
    obtain ⟨⟨s1, o1⟩, h1, h⟩ := Res.bind_eq_ok.1 h
    obtain ⟨⟨s2, o2⟩, h2, h⟩ := Res.bind_eq_ok.1 h
    cases h
    obtain ⟨k1, k2⟩ := widget_right w d hr h1
    obtain ⟨k3, k4⟩ := ih k1 h2
    rw [show d :: l = [d] ++ l from rfl, widActs_append, ← List.append_assoc]
    exact ⟨k3, k4.trans k2⟩

theorem layout_append (w : UiEnv F G H E) (l1 l2 : List Wid) (s : UiSt F H) :
    w.layout s (l1 ++ l2) = (w.layout s l1 >>= fun q => w.layout q.1 l2 >>= fun r => .ok (r.1, q.2 ++ r.2)) := by
  induction l1 generalizing s with
  | nil =>
    rw [List.nil_append, UiEnv.layout, Res.ok_bind]
    cases w.layout s l2 <;> rfl
  | cons d l1 ih =>
    rw [List.cons_append, UiEnv.layout, UiEnv.layout]
    cases w.widget s d with
    | ok q =>
      simp only [Res.ok_bind]
      rw [ih]
      cases w.layout q.1 l1 with
      | ok q2 =>
        simp only [Res.ok_bind]
        cases w.layout q2.1 l2 with
        | ok q3 => simp only [Res.ok_bind, List.append_assoc]
        | panic p => rfl
        | fuel => rfl
      | panic p => rfl
      | fuel => rfl
    | panic p => rfl
    | fuel => rfl

/-! ## Runs -/

/-- The events lead from one state to another, with this to be seen. -/
inductive Leads (w : UiEnv F G H E) : UiSt F H → List (UiEv E) → UiSt F H → List (List (UiOut F G H)) → Prop
  | nil (s) : Leads w s [] s []
  | cons {s s1 s2 ev l o os} : w.step s ev = .go s1 o → Leads w s1 l s2 os → Leads w s (ev :: l) s2 (o :: os)

theorem acts_append (l1 l2 : List (UiEv E)) : acts (l1 ++ l2) = acts l1 ++ acts l2 := by
  induction l1 with
  | nil => rfl
  | cons ev l1 ih =>
    rcases ev with err | k | ws | _
    · simp [acts, ih]
    · rcases k with _ | ⟨c, p⟩ | p | _
      · simp [acts, ih]
      · cases c <;> cases p <;> simp [acts, ih]
      · simp [acts, ih]
      · simp [acts, ih]
    · simp [acts, ih]
    · simp [acts, ih]

theorem asked_snoc (l : List (UiEv E)) (ev : UiEv E) :
    ShotAsked (l ++ [ev]) ↔ match ev with | .frame _ => False | .key (.f11 true) => True | _ => ShotAsked l := by
  have hgen : (∀ ws, ev ≠ .frame ws) → ev ≠ .key (.f11 true) → (ShotAsked (l ++ [ev]) ↔ ShotAsked l) := by
    intro h1 h2
    constructor
    · rintro ⟨a, b, e, h⟩
      rcases List.eq_nil_or_concat b with rfl | ⟨b, y, rfl⟩
      · have := (List.append_inj' e rfl).2
        simp only [List.cons.injEq, and_true] at this
        exact absurd this h2
      · rw [List.concat_eq_append, ← List.cons_append, ← List.append_assoc] at e
        obtain ⟨e1, -⟩ := List.append_inj' e rfl
        exact ⟨a, b, e1, fun ws hw => h ws (by simp [hw])⟩
    · rintro ⟨a, b, rfl, h⟩
      refine ⟨a, b ++ [ev], by simp, fun ws hw => ?_⟩
      rcases List.mem_append.1 hw with hw | hw
      · exact h ws hw
      · exact h1 ws (List.mem_singleton.1 hw).symm
  rcases ev with err | k | ws | _
  · exact hgen (by simp) (by simp)
  · rcases k with _ | ⟨c, p⟩ | p | _
    · exact hgen (by simp) (by simp)
    · exact hgen (by simp) (by simp)
    · cases p
      · exact hgen (by simp) (by simp)
      · exact ⟨fun _ => trivial, fun _ => ⟨l, [], rfl, by simp⟩⟩
    · exact hgen (by simp) (by simp)
  · refine ⟨?_, False.elim⟩
    rintro ⟨a, b, e, h⟩
    rcases List.eq_nil_or_concat b with rfl | ⟨b, y, rfl⟩
    · have := (List.append_inj' e rfl).2; simp at this
    · rw [List.concat_eq_append, ← List.cons_append, ← List.append_assoc] at e
      have := (List.append_inj' e rfl).2
      simp only [List.cons.injEq, and_true] at this
      exact h ws (by rw [← this]; simp)
  · exact hgen (by simp) (by simp)

/-- What is known of the state after the events `l`. -/
def Knows (w : UiEnv F G H E) (l : List (UiEv E)) (s : UiSt F H) : Prop := Right w (acts l) s ∧ (s.screen = true ↔ ShotAsked l)

theorem knows_new (w : UiEnv F G H E) : Knows w ([] : List (UiEv E)) (UiSt.new : UiSt F H) :=
  ⟨right_new w, fun h => (nomatch (show false = true from h)), fun ⟨a, b, e, _⟩ => by simp at e⟩

theorem step_frame (w : UiEnv F G H E) (s : UiSt F H) (ws : List Wid) : w.step s (.frame ws : UiEv E) =
    match w.layout s ws with
    | .ok (s', out) =>
      if s'.screen then .go { s' with screen := false } (out ++ [.frame, .screenshot]) else .go s' (out ++ [.frame])
    | .panic _ => .crash
    | .fuel => .crash := rfl

theorem step_knows (w : UiEnv F G H E) {l : List (UiEv E)} {s s' : UiSt F H} (hk : Knows w l s) (ev : UiEv E) {o : List (UiOut F G H)}
    (h : w.step s ev = .go s' o) : Knows w (l ++ [ev]) s' := by
  obtain ⟨hr, hs⟩ := hk
  unfold Knows
  rw [acts_append, asked_snoc]
  rcases ev with err | k | ws | _
  · cases h
  · rcases k with _ | ⟨c, p⟩ | p | _
    · cases h
    · cases c <;> cases p <;> cases h <;> simp only [acts, List.append_nil]
      · exact ⟨hr, hs⟩
      · exact ⟨hr, hs⟩
      · exact ⟨hr, hs⟩
      · exact ⟨hr.commit, hs⟩
    · cases p <;> cases h <;> simp only [acts, List.append_nil]
      · exact ⟨hr, hs⟩
      · exact ⟨hr, by simp⟩
    · cases h; simp only [acts, List.append_nil]; exact ⟨hr, hs⟩
  · rw [step_frame] at h
    simp only [acts, List.append_nil]
    split at h
    · rename_i s1 o1 hl
      obtain ⟨k1, k2⟩ := layout_right w ws hr hl
      split at h
      · cases h; exact ⟨k1, by simp⟩
      · rename_i hsc
        cases h; exact ⟨k1, by simp [hsc]⟩
    · cases h
    · cases h
  · cases h; simp only [acts, List.append_nil]; exact ⟨hr, hs⟩

theorem leads_knows (w : UiEnv F G H E) {s s' : UiSt F H} {l : List (UiEv E)} {os : List (List (UiOut F G H))} (h : Leads w s l s' os) :
    ∀ l0, Knows w l0 s → Knows w (l0 ++ l) s' := by
  induction h with
  | nil s => intro l0 h; simpa using h
  | cons h1 _ ih =>
    intro l0 h
    have := ih _ (step_knows w h _ h1)
    simpa using this

/-- A run follows the events as long as nothing ends it. -/
theorem leads_run (w : UiEnv F G H E) {s s' : UiSt F H} {l : List (UiEv E)} {os : List (List (UiOut F G H))} (h : Leads w s l s' os) (l2 : List (UiEv E)) :
    w.run s (l ++ l2) = ((w.run s' l2).1, os ++ (w.run s' l2).2) := by
  induction h with
  | nil s => simp
  | cons h1 _ ih =>
    rw [List.cons_append, UiEnv.run, h1]
    dsimp only
    rw [ih]
    rfl

/-- Either all events are handled, or one of them ends the program, or a frame cannot be laid out. -/
theorem run_cases (w : UiEnv F G H E) (s : UiSt F H) (l : List (UiEv E)) :
    (∃ s' os, Leads w s l s' os ∧ w.run s l = (.returned none, os)) ∨
    (∃ l1 ev l2 err s' os, l = l1 ++ ev :: l2 ∧ Leads w s l1 s' os ∧ Ends ev err ∧ w.run s l = (.returned err, os)) ∨
    (∃ l1 ws l2 s' os, l = l1 ++ .frame ws :: l2 ∧ Leads w s l1 s' os ∧ (∀ q, w.layout s' ws ≠ .ok q) ∧ w.run s l = (.crash, os)) := by
  induction l generalizing s with
  | nil => exact .inl ⟨s, [], .nil s, rfl⟩
  | cons ev l ih =>
    cases hst : w.step s ev with
    | go s1 o =>
      have hrun : w.run s (ev :: l) = ((w.run s1 l).1, o :: (w.run s1 l).2) := by rw [UiEnv.run, hst]
      rcases ih s1 with ⟨s', os, h1, h2⟩ | ⟨l1, ev', l2, err, s', os, rfl, h1, h2, h3⟩ | ⟨l1, ws, l2, s', os, rfl, h1, h2, h3⟩
      · exact .inl ⟨s', o :: os, .cons hst h1, by rw [hrun, h2]⟩
      · exact .inr (.inl ⟨ev :: l1, ev', l2, err, s', o :: os, rfl, .cons hst h1, h2, by rw [hrun, h3]⟩)
      · exact .inr (.inr ⟨ev :: l1, ws, l2, s', o :: os, rfl, .cons hst h1, h2, by rw [hrun, h3]⟩)
    | stop err =>
      refine .inr (.inl ⟨[], ev, l, err, s, [], rfl, .nil s, ?_, by rw [UiEnv.run, hst]⟩)
      rcases ev with e | k | ws | _
      · cases hst; exact .inl rfl
      · rcases k with _ | ⟨c, p⟩ | p | _
        · cases hst; exact .inr ⟨rfl, rfl⟩
        · cases c <;> cases p <;> cases hst
        · cases p <;> cases hst
        · cases hst
      · rw [step_frame] at hst
        split at hst
        · split at hst <;> cases hst
        · cases hst
        · cases hst
      · cases hst
    | crash =>
      rcases ev with e | k | ws | _
      · cases hst
      · rcases k with _ | ⟨c, p⟩ | p | _
        · cases hst
        · cases c <;> cases p <;> cases hst
        · cases p <;> cases hst
        · cases hst
      · refine .inr (.inr ⟨[], ws, l, s, [], rfl, .nil s, ?_, by rw [UiEnv.run, hst]⟩)
        intro q hq
        rw [step_frame] at hst
        rw [hq] at hst
        dsimp only at hst
        split at hst <;> cases hst
      · cases hst

theorem leads_noEnd (w : UiEnv F G H E) {s s' : UiSt F H} {l : List (UiEv E)} {os : List (List (UiOut F G H))} (h : Leads w s l s' os) :
    NoEnd l ∧ os.length = l.length := by
  induction h with
  | nil s => exact ⟨by simp [NoEnd], rfl⟩
  | @cons s s1 s2 ev l o os h1 _ ih =>
    refine ⟨fun ev' hm err he => ?_, by simp [ih.2]⟩
    rcases List.mem_cons.1 hm with rfl | hm
    · rcases he with rfl | ⟨rfl, rfl⟩ <;> cases h1
    · exact ih.1 _ hm _ he

theorem ends_step (w : UiEnv F G H E) (s : UiSt F H) {ev : UiEv E} {err : Option E} (h : Ends ev err) : w.step s ev = .stop err := by
  rcases h with rfl | ⟨rfl, rfl⟩ <;> rfl

/-- Without an event that ends the program, and without a crash, all events are handled. -/
theorem leads_of_noEnd (w : UiEnv F G H E) (s : UiSt F H) (l : List (UiEv E)) (hn : NoEnd l) (hc : (w.run s l).1 ≠ .crash) :
    ∃ s' os, Leads w s l s' os ∧ w.run s l = (.returned none, os) := by
  rcases run_cases w s l with h | ⟨l1, ev, l2, err, s', os, rfl, -, h, -⟩ | ⟨l1, ws, l2, s', os, rfl, -, -, h⟩
  · exact h
  · exact absurd h (hn ev (by simp) err)
  · rw [h] at hc; exact absurd rfl hc

/-- A crash is for good, whatever comes after. -/
theorem crash_append (w : UiEnv F G H E) (l1 l2 : List (UiEv E)) : ∀ s, (w.run s l1).1 = .crash → w.run s (l1 ++ l2) = w.run s l1 := by
  induction l1 with
  | nil => intro s h; cases h
  | cons ev l ih =>
    intro s h
    rw [List.cons_append, UiEnv.run, UiEnv.run]
    rw [UiEnv.run] at h
    cases hst : w.step s ev with
    | go s1 o => rw [hst] at h; dsimp only at h ⊢; rw [ih _ h]
    | stop err => rfl
    | crash => rfl

/-- **C80** An escape key or the closing of the window ends Run, at once and with the error the window gave (none for the key), and nothing that
happens after it matters. -/
theorem C80_ends (w : UiEnv F G H E) (l1 l2 : List (UiEv E)) (ev : UiEv E) (err : Option E) (he : Ends ev err) (hn : NoEnd l1)
    (hc : (w.run .new l1).1 ≠ .crash) : w.run .new (l1 ++ ev :: l2) = (.returned err, (w.run .new l1).2) := by
  obtain ⟨s', os, h1, h2⟩ := leads_of_noEnd w _ l1 hn hc
  rw [leads_run w h1, h2, UiEnv.run, ends_step w s' he]
  simp

/-- **C80** Without such an event Run goes on until there are no more events, and then returns without an error; every event has been handled. -/
theorem C80_goes_on (w : UiEnv F G H E) (l : List (UiEv E)) (hn : NoEnd l) (hc : (w.run .new l).1 ≠ .crash) :
    (w.run .new l).1 = .returned none ∧ (w.run .new l).2.length = l.length := by
  obtain ⟨s', os, h1, h2⟩ := leads_of_noEnd w _ l hn hc
  rw [h2]
  exact ⟨rfl, (leads_noEnd w h1).2⟩

theorem widget_shows (w : UiEnv F G H E) (d : Wid) {a : List UiAct} {s s' : UiSt F H} {o : List (UiOut F G H)} (hr : Right w a s)
    (h : w.widget s d = .ok (s', o)) : o.length = shown [d] ∧
      match (generalizing := false) d with
      | .image => ∃ im, o = [.image im] ∧ ImgAfter w.picture (a ++ [.image]) im
      | .formula => ∃ x c off, ExprAfter a x ∧ gioOffset w.gio w.textSize = .ok off ∧
          renderT w.U w.e w.num x (w.gio.f64 w.textSize) (ofInt 256) = .ok c ∧ o = [.formula (gioRender w.gio off c)]
      | _ => o = [] := by
  cases d with
  | editor t => cases h; exact ⟨rfl, rfl⟩
  | button n => cases n <;> cases h <;> exact ⟨rfl, rfl⟩
  | image =>
    obtain ⟨s1, h1, h⟩ := Res.bind_eq_ok.1 h
    cases h
    exact ⟨rfl, _, rfl, (imgRender_right w hr h1).1.2.2⟩
  | formula =>
    obtain ⟨l, h1, h⟩ := Res.bind_eq_ok.1 h
    cases h
    unfold UiEnv.gioDraw at h1
    obtain ⟨off, h2, h1⟩ := Res.bind_eq_ok.1 h1
    obtain ⟨c, h3, h1⟩ := Res.bind_eq_ok.1 h1
    cases h1
    exact ⟨rfl, _, c, off, hr.2.1, h2, h3, rfl⟩

theorem shown_append (l1 l2 : List Wid) : shown (l1 ++ l2) = shown l1 + shown l2 := by
  induction l1 with
  | nil => simp [shown]
  | cons d l ih => cases d <;> simp [shown, ih] <;> omega

theorem layout_shown (w : UiEnv F G H E) (ws : List Wid) : ∀ {a : List UiAct} {s s' : UiSt F H} {o : List (UiOut F G H)}, Right w a s →
    w.layout s ws = .ok (s', o) → o.length = shown ws ∧ .frame ∉ o ∧ .screenshot ∉ o ∧ .invalidate ∉ o := by
  induction ws with
  | nil => intro a s s' o hr h; cases h; simp [shown]
  | cons d l ih =>
    intro a s s' o hr h
    unfold UiEnv.layout at h
    obtain ⟨⟨s1, o1⟩, h1, h⟩ := Res.bind_eq_ok.1 h
    obtain ⟨⟨s2, o2⟩, h2, h⟩ := Res.bind_eq_ok.1 h
    cases h
    obtain ⟨k1, -⟩ := widget_right w d hr h1
    obtain ⟨m1, m2, m3, m4⟩ := ih k1 h2
    obtain ⟨n1, n2⟩ := widget_shows w d hr h1
    rw [show d :: l = [d] ++ l from rfl, shown_append]
    refine ⟨by rw [List.length_append, n1, m1], ?_⟩
    cases d with
    | editor t => dsimp only at n2; simp [n2, m2, m3, m4]
    | button n => dsimp only at n2; simp [n2, m2, m3, m4]
    | image => obtain ⟨im, n2, -⟩ := n2; simp [n2, m2, m3, m4]
    | formula => obtain ⟨x, c, off, -, -, -, n2⟩ := n2; simp [n2, m2, m3, m4]

/-- An event that was handled, in a run. -/
theorem run_at (w : UiEnv F G H E) (l1 l2 : List (UiEv E)) (ev : UiEv E) (hn : NoEnd (l1 ++ [ev])) (hc : (w.run .new (l1 ++ [ev])).1 ≠ .crash) :
    ∃ s os s' o os', Knows w l1 s ∧ w.step s ev = .go s' o ∧ (w.run .new (l1 ++ ev :: l2)).2 = os ++ o :: os' ∧ os.length = l1.length := by
  have hc1 : (w.run .new l1).1 ≠ .crash := fun h => by rw [crash_append w l1 [ev] _ h] at hc; exact hc h
  obtain ⟨s, os, h1, h2⟩ := leads_of_noEnd w _ l1 (fun e he => hn e (List.mem_append_left _ he)) hc1
  have hk := leads_knows w h1 [] (knows_new w)
  rw [leads_run w h1, UiEnv.run] at hc
  cases hst : w.step s ev with
  | go s' o =>
    refine ⟨s, os, s', o, (w.run s' l2).2, hk, hst, ?_, (leads_noEnd w h1).2⟩
    rw [leads_run w h1, UiEnv.run, hst]
  | stop err =>
    exfalso
    rcases ev with e | k | ws | _
    · exact hn _ (List.mem_append_right _ (List.mem_singleton.2 rfl)) _ (.inl rfl)
    · rcases k with _ | ⟨c, p⟩ | p | _
      · exact hn _ (List.mem_append_right _ (List.mem_singleton.2 rfl)) _ (.inr ⟨rfl, rfl⟩)
      · cases c <;> cases p <;> cases hst
      · cases p <;> cases hst
      · cases hst
    · rw [step_frame] at hst
      split at hst
      · split at hst <;> cases hst
      · cases hst
      · cases hst
    · cases hst
  | crash => rw [hst] at hc; exact absurd rfl hc

theorem noEnd_frame {l : List (UiEv E)} (hn : NoEnd l) (ws : List Wid) : NoEnd (l ++ [.frame ws]) := by
  intro ev hm err he
  rcases List.mem_append.1 hm with hm | hm
  · exact hn _ hm _ he
  · rw [List.mem_singleton.1 hm] at he
    rcases he with he | ⟨he, -⟩ <;> cases he

/-- **C80** What a frame shows: every image and every formula among its widgets, in order, and nothing else.  The formula is the drawing of the text the
editor had at the last commit (control-enter, or a click on the button) before that widget; the image is the picture of the last such formula of
which there was one. -/
theorem C80_shows (w : UiEnv F G H E) (l1 l2 : List (UiEv E)) (ws1 ws2 : List Wid) (d : Wid) (hn : NoEnd l1)
    (hc : (w.run .new (l1 ++ [.frame (ws1 ++ d :: ws2)])).1 ≠ .crash) :
    ∃ os o1 o2 o3 o4 os', (w.run .new (l1 ++ .frame (ws1 ++ d :: ws2) :: l2)).2 = os ++ (o1 ++ o2 ++ o3 ++ .frame :: o4) :: os' ∧
      os.length = l1.length ∧ o1.length = shown ws1 ∧ o3.length = shown ws2 ∧
      match (generalizing := false) d with
      | .image => ∃ im, o2 = [.image im] ∧ ImgAfter w.picture (acts l1 ++ widActs ws1 ++ [.image]) im
      | .formula => ∃ x c off, ExprAfter (acts l1 ++ widActs ws1) x ∧ gioOffset w.gio w.textSize = .ok off ∧
          renderT w.U w.e w.num x (w.gio.f64 w.textSize) (ofInt 256) = .ok c ∧ o2 = [.formula (gioRender w.gio off c)]
      | _ => o2 = [] := by
  obtain ⟨s, os, s', o, os', hk, hst, h1, h2⟩ := run_at w l1 l2 _ (noEnd_frame hn _) hc
  rw [step_frame, layout_append] at hst
  cases hl1 : w.layout s ws1 with
  | panic p => rw [hl1] at hst; cases hst
  | fuel => rw [hl1] at hst; cases hst
  | ok q1 =>
    rw [hl1, Res.ok_bind, UiEnv.layout] at hst
    cases hl2 : w.widget q1.1 d with
    | panic p => rw [hl2] at hst; cases hst
    | fuel => rw [hl2] at hst; cases hst
    | ok q2 =>
      rw [hl2, Res.ok_bind] at hst
      cases hl3 : w.layout q2.1 ws2 with
      | panic p => rw [hl3] at hst; cases hst
      | fuel => rw [hl3] at hst; cases hst
      | ok q3 =>
        rw [hl3] at hst
        simp only [Res.ok_bind] at hst
        obtain ⟨r1, -⟩ := layout_right w ws1 hk.1 hl1
        obtain ⟨r2, -⟩ := widget_right w d r1 hl2
        have e1 := (layout_shown w ws1 hk.1 hl1).1
        have e3 := (layout_shown w ws2 r2 hl3).1
        have e2 := (widget_shows w d r1 hl2).2
        split at hst
        · cases hst
          exact ⟨os, q1.2, q2.2, q3.2, [.screenshot], os', by rw [h1]; simp, h2, e1, e3, e2⟩
        · cases hst
          exact ⟨os, q1.2, q2.2, q3.2, [], os', by rw [h1]; simp, h2, e1, e3, e2⟩

/-- **C80** A frame is shown at every frame event, and at no other.  A screenshot is made after the frame if and only if F11 was pressed since the frame before,
and only once.  A new frame is asked for when F11 is pressed and at control-enter, and not otherwise. -/
theorem C80_screenshots (w : UiEnv F G H E) (l1 l2 : List (UiEv E)) (ev : UiEv E) (hn : NoEnd (l1 ++ [ev]))
    (hc : (w.run .new (l1 ++ [ev])).1 ≠ .crash) :
    ∃ os o os', (w.run .new (l1 ++ ev :: l2)).2 = os ++ o :: os' ∧ os.length = l1.length ∧
      (.frame ∈ o ↔ IsFrame ev) ∧ (.screenshot ∈ o ↔ IsFrame ev ∧ ShotAsked l1) ∧
      (∀ p q, o = p ++ .frame :: q → q = [] ∨ q = [.screenshot]) ∧
      (.invalidate ∈ o ↔ ev = .key (.f11 true) ∨ ev = .key (.enter true true)) := by
  obtain ⟨s, os, s', o, os', hk, hst, h1, h2⟩ := run_at w l1 l2 ev hn hc
  refine ⟨os, o, os', h1, h2, ?_⟩
  have hnil : ∀ p q : List (UiOut F G H), ([] : List (UiOut F G H)) ≠ p ++ .frame :: q := by intro p q; simp
  have hinv : ∀ p q : List (UiOut F G H), [.invalidate] ≠ p ++ .frame :: q := by
    intro p q h
    have : UiOut.frame ∈ ([.invalidate] : List (UiOut F G H)) := by rw [h]; simp
    simp at this
  rcases ev with e | k | ws | _
  · cases hst
  · rcases k with _ | ⟨c, p⟩ | p | _
    · cases hst
    · cases c <;> cases p <;> cases hst <;> simp [IsFrame, hinv]
    · cases p <;> cases hst <;> simp [IsFrame, hinv]
    · cases hst; simp [IsFrame]
  · rw [step_frame] at hst
    cases hl : w.layout s ws with
    | panic p => rw [hl] at hst; cases hst
    | fuel => rw [hl] at hst; cases hst
    | ok q =>
      obtain ⟨s1, o1⟩ := q
      rw [hl] at hst
      dsimp only at hst
      obtain ⟨-, m2, m3, m4⟩ := layout_shown w ws hk.1 hl
      have hs := (layout_right w ws hk.1 hl).2
      have huniq : ∀ r : List (UiOut F G H), .frame ∉ r → ∀ p q, o1 ++ .frame :: r = p ++ .frame :: q → q = r := by
        intro r hr p q h
        rcases List.append_eq_append_iff.1 h with ⟨a, e1, e2⟩ | ⟨a, e1, e2⟩
        · cases a with
          | nil => simp at e2; exact e2.symm
          | cons z a => simp at e2; exact absurd (by rw [e2.2]; simp) hr
        · cases a with
          | nil => simp at e2; exact e2
          | cons z a => simp at e2; exact absurd (by rw [e1, ← e2.1]; simp) m2
      by_cases hsc : s1.screen = true
      · rw [if_pos hsc] at hst
        cases hst
        have ha := hk.2.1 (hs ▸ hsc)
        refine ⟨by simp [IsFrame], by simp [IsFrame, ha], fun p q h => .inr (huniq _ (by simp) p q h), by simp [m4]⟩
      · rw [if_neg hsc] at hst
        cases hst
        have ha : ¬ ShotAsked l1 := fun h => hsc (hs ▸ hk.2.2 h)
        refine ⟨by simp [IsFrame], by simp [IsFrame, ha, m3], fun p q h => .inl (huniq _ (by simp) p q h), by simp [m4]⟩
  · cases hst; simp [IsFrame]

/-! ## Crashes -/

theorem widget_crash (w : UiEnv F G H E) (d : Wid) (s : UiSt F H) : (∀ q, w.widget s d ≠ .ok q) ↔ WidCrash w s.expr d := by
  cases d with
  | editor t => exact ⟨fun h => absurd rfl (h _), False.elim⟩
  | button n => cases n <;> exact ⟨fun h => absurd rfl (h _), False.elim⟩
  | image =>
    unfold WidCrash UiEnv.widget UiEnv.imgRender
    rcases mtexRenderImg w.U w.e w.num s.expr (w.gio.f64 w.textSize) (ofInt 256) w.img with ⟨r, t⟩
    cases r with
    | ok o => cases o <;> exact ⟨fun h => absurd rfl (h _), fun h => absurd rfl (h _)⟩
    | panic p => exact ⟨fun _ _ => by simp, fun _ _ => by simp [Res.panic_bind]⟩
    | fuel => exact ⟨fun _ _ => by simp, fun _ _ => by simp [Res.fuel_bind]⟩
  | formula =>
    unfold WidCrash UiEnv.widget UiEnv.gioDraw
    constructor
    · intro h
      by_contra hno
      push_neg at hno
      obtain ⟨⟨off, h1⟩, c, h2⟩ := hno
      rw [h1, h2] at h
      exact h _ rfl
    · rintro (h | h) q hq <;> obtain ⟨l, h1, -⟩ := Res.bind_eq_ok.1 hq <;> obtain ⟨off, h2, h1⟩ := Res.bind_eq_ok.1 h1
      · exact h _ h2
      · obtain ⟨c, h3, -⟩ := Res.bind_eq_ok.1 h1
        exact h _ h3

theorem layout_crash (w : UiEnv F G H E) (ws : List Wid) : ∀ (a : List UiAct) (s : UiSt F H), Right w a s → ((∀ q, w.layout s ws ≠ .ok q) ↔
    ∃ ws1 d ws2 x, ws = ws1 ++ d :: ws2 ∧ ExprAfter (a ++ widActs ws1) x ∧ WidCrash w x d) := by
  induction ws with
  | nil =>
    intro a s hr
    exact ⟨fun h => absurd rfl (h _), fun ⟨ws1, d, ws2, x, e, _⟩ => by simp at e⟩
  | cons d l ih =>
    intro a s hr
    have hw := widget_crash w d s
    rw [UiEnv.layout]
    cases hd : w.widget s d with
    | ok q =>
      obtain ⟨r1, -⟩ := widget_right w d hr hd
      rw [hd] at hw
      have hnw : ¬ WidCrash w s.expr d := fun h => hw.2 h _ rfl
      have hl := ih _ _ r1
      have e : (∀ q', (Res.ok q >>= fun q => w.layout q.1 l >>= fun r => Res.ok (r.1, q.2 ++ r.2)) ≠ .ok q') ↔ ∀ q', w.layout q.1 l ≠ .ok q' := by
        rw [Res.ok_bind]
        cases w.layout q.1 l with
        | ok q2 => exact ⟨fun h => absurd rfl (h _), fun h => absurd rfl (h _)⟩
        | panic p => exact ⟨fun _ _ => by simp, fun _ _ => by simp [Res.panic_bind]⟩
        | fuel => exact ⟨fun _ _ => by simp, fun _ _ => by simp [Res.fuel_bind]⟩
      rw [e, hl]
      constructor
      · rintro ⟨ws1, d', ws2, x, rfl, h1, h2⟩
        refine ⟨d :: ws1, d', ws2, x, rfl, ?_, h2⟩
        rw [show d :: ws1 = [d] ++ ws1 from rfl, widActs_append, ← List.append_assoc]
        exact h1
      · rintro ⟨ws1, d', ws2, x, e, h1, h2⟩
        cases ws1 with
        | nil =>
          simp only [List.nil_append, List.cons.injEq] at e
          obtain ⟨rfl, rfl⟩ := e
          simp only [widActs, List.append_nil] at h1
          rw [expr_unique _ _ _ h1 hr.2.1] at h2
          exact absurd h2 hnw
        | cons d0 ws1 =>
          simp only [List.cons_append, List.cons.injEq] at e
          obtain ⟨rfl, rfl⟩ := e
          refine ⟨ws1, d', ws2, x, rfl, ?_, h2⟩
          rw [show d :: ws1 = [d] ++ ws1 from rfl, widActs_append, ← List.append_assoc] at h1
          exact h1
    | panic p =>
      rw [hd] at hw
      refine ⟨fun _ => ⟨[], d, l, s.expr, rfl, by simpa [widActs] using hr.2.1, hw.1 (by simp)⟩, fun _ q => by simp [Res.panic_bind]⟩
    | fuel =>
      rw [hd] at hw
      refine ⟨fun _ => ⟨[], d, l, s.expr, rfl, by simpa [widActs] using hr.2.1, hw.1 (by simp)⟩, fun _ q => by simp [Res.fuel_bind]⟩

/-- **C80** The window is lost if and only if, before anything ends the program, an image or a formula is laid out and drawing the formula in force then
panics. -/
theorem C80_crash (w : UiEnv F G H E) (l : List (UiEv E)) :
    (w.run .new l).1 = .crash ↔ ∃ l1 ws1 d ws2 l2 x, l = l1 ++ .frame (ws1 ++ d :: ws2) :: l2 ∧ NoEnd l1 ∧
      ExprAfter (acts l1 ++ widActs ws1) x ∧ WidCrash w x d := by
  constructor
  · intro h
    rcases run_cases w .new l with ⟨s', os, -, h1⟩ | ⟨l1, ev, l2, err, s', os, -, -, -, h1⟩ | ⟨l1, ws, l2, s', os, rfl, h1, h2, -⟩
    · rw [h1] at h; cases h
    · rw [h1] at h; cases h
    · have hk := leads_knows w h1 [] (knows_new w)
      obtain ⟨ws1, d, ws2, x, rfl, h3, h4⟩ := (layout_crash w ws _ _ hk.1).1 h2
      exact ⟨l1, ws1, d, ws2, l2, x, rfl, (leads_noEnd w h1).1, h3, h4⟩
  · rintro ⟨l1, ws1, d, ws2, l2, x, rfl, hn, h3, h4⟩
    by_cases hc : (w.run .new l1).1 = .crash
    · rw [crash_append w _ _ _ hc]; exact hc
    · obtain ⟨s, os, h1, h2⟩ := leads_of_noEnd w _ l1 hn hc
      have hk := leads_knows w h1 [] (knows_new w)
      have hl := (layout_crash w (ws1 ++ d :: ws2) _ _ hk.1).2 ⟨ws1, d, ws2, x, rfl, h3, h4⟩
      rw [leads_run w h1, UiEnv.run, step_frame]
      cases hq : w.layout s (ws1 ++ d :: ws2) with
      | ok q => exact absurd hq (hl q)
      | panic p => rfl
      | fuel => rfl

/-- **C80** When that is, for fonts that are complete and libraries that succeed: the formula in force does not parse, or has a construct that cannot be
drawn, or a glyph without an outline.  (finding) So one commit of such a formula, as `$x^2$`, ends the program at the next frame. -/
theorem C80_crash_when [EqLaws F] [ZeroLaws F] (w : UiEnv F G H E) (he : Complete w.e) (h72 : eq (ofInt 72 : F) (ofInt 72) = true)
    (hf : ∀ f dpi size, w.img.newFace f dpi size = true) (hi : ∀ x y, w.img.newContext x y = true) (hm : w.gio.metrics ≠ none) (l : List (UiEv E)) :
    (w.run .new l).1 = .crash ↔ ∃ l1 ws1 d ws2 l2 x, l = l1 ++ .frame (ws1 ++ d :: ws2) :: l2 ∧ NoEnd l1 ∧
      ExprAfter (acts l1 ++ widActs ws1) x ∧ (d = .image ∨ d = .formula) ∧
      ¬ ∃ root, parseExpr w.U x = .ok root ∧ drawable fontHas (fun _ => true) w.num bs!"rm" false false root = true ∧
        ∀ i ∈ ink bs!"rm" (w.gio.f64 w.textSize) false false root, Inkable (w.gio.f64 w.textSize) i := by
  rw [C80_crash]
  have key : ∀ x d, WidCrash w x d ↔ (d = .image ∨ d = .formula) ∧ ¬ ∃ root, parseExpr w.U x = .ok root ∧
      drawable fontHas (fun _ => true) w.num bs!"rm" false false root = true ∧
        ∀ i ∈ ink bs!"rm" (w.gio.f64 w.textSize) false false root, Inkable (w.gio.f64 w.textSize) i := by
    intro x d
    rw [← C69_renders_iff w.U w.e he w.num x (w.gio.f64 w.textSize) (ofInt 256) h72]
    cases d with
    | editor t => simp [WidCrash]
    | button n => simp [WidCrash]
    | image =>
      unfold WidCrash mtexRenderImg
      cases renderT w.U w.e w.num x (w.gio.f64 w.textSize) (ofInt 256) with
      | ok c =>
        dsimp only
        rw [(C75_image w.img c ⟨hi _ _, fun _ _ _ _ => hf _ _ _⟩).1]
        simp
      | panic p => simp
      | fuel => simp
    | formula =>
      unfold WidCrash gioOffset
      cases hm' : w.gio.metrics with
      | none => exact absurd hm' hm
      | some q => simp
  simp only [key]

/-! ## C81 -/

theorem marks_op (lib : GioLib F G) (off : G × G) (dpi : F) (op : COp F H) (s : GioSt G) :
    ∃ p, (drawOpG lib off dpi op).foldl GioSt.step s = { s with path := p, marks := s.marks ++ [gioMark lib.f32 s.origin off dpi op] } := by
  cases op with
  | glyph x y g => exact ⟨s.path, rfl⟩
  | rect x1 y1 x2 y2 => exact ⟨[], rfl⟩

/-- **C81** What the gio renderer draws: one mark for each operation of the canvas, in order, each at its place scaled from points to pixels; the
origin, the clip and the stack of the toolkit are as before. -/
theorem C81_marks (lib : GioLib F G) (off : G × G) (c : RenderCall F H) (s : GioSt G) :
    ∃ p, (gioRender lib off c).foldl GioSt.step s =
      { s with path := p, marks := s.marks ++ c.ops.map (gioMark lib.f32 s.origin off (c.dpi / ofInt 72)) } := by
  unfold gioRender
  generalize c.dpi / ofInt 72 = k
  generalize c.ops = ops
  induction ops generalizing s with
  | nil => exact ⟨s.path, by simp⟩
  | cons op l ih =>
    obtain ⟨p1, h1⟩ := marks_op lib off k op s
    obtain ⟨p2, h2⟩ := ih { s with path := p1, marks := s.marks ++ [gioMark lib.f32 s.origin off k op] }
    refine ⟨p2, ?_⟩
    rw [List.flatMap_cons, List.foldl_append, h1, h2]
    simp

/-- **C81** The offset of the lines (exact arithmetic): making the renderer needs the measures of the font, and fails without them. With them, lines
are drawn one pixel to the left of their place, and above it by one pixel and the part of the line height that is not above the baseline, in the text
size of the theme. -/
theorem C81_offset (lib : GioLib F XR) (hu : lib.unitsPerEm ≠ 0) (t : ℚ) (off : XR × XR) :
    gioOffset lib (.fin t) = .ok off ↔ ∃ height ascent : Int, lib.metrics = some (height, ascent) ∧
      off = (.fin (-1), .fin (-(1 + t * (height - ascent) / lib.unitsPerEm))) := by
  have hq : (lib.unitsPerEm : ℚ) ≠ 0 := by exact_mod_cast hu
  unfold gioOffset
  cases lib.metrics with
  | none => simp
  | some q =>
    obtain ⟨h, a⟩ := q
    have e : (-(XR.fin t / GoFloat.ofInt lib.unitsPerEm) * GoFloat.ofInt (h - a) - GoFloat.ofInt 1 : XR) =
        .fin (-(1 + t * (h - a) / lib.unitsPerEm)) := by
      have ei : ∀ i : Int, (GoFloat.ofInt i : XR) = .fin i := fun i => by show XR.fin _ = _; norm_num
      rw [ei, ei, ei, XR.fin_div _ _ hq, XR.fin_neg, XR.fin_mul, XR.fin_sub]
      congr 1
      push_cast
      field_simp
      ring
    have e1 : (GoFloat.ofInt (-1) : XR) = .fin (-1) := by show XR.fin _ = _; norm_num
    dsimp only
    rw [e, e1, Res.ok.injEq]
    constructor
    · rintro rfl; exact ⟨h, a, rfl, rfl⟩
    · rintro ⟨h', a', he, rfl⟩
      simp only [Option.some.injEq, Prod.mk.injEq] at he
      obtain ⟨rfl, rfl⟩ := he
      rfl

/-- **C81** finding: the face a glyph was measured in is not passed on, only whether it is slanted: bold glyphs are drawn as if they were not. -/
theorem C81_face_lost (lib : GioLib F G) (off : G × G) (w h dpi : F) (ops ops' : List (COp F H)) (hs : List.Forall₂ SameButFace ops ops') :
    gioRender lib off ⟨w, h, dpi, ops⟩ = gioRender lib off ⟨w, h, dpi, ops'⟩ := by
  unfold gioRender
  dsimp only
  induction hs with
  | nil => rfl
  | @cons a b l l' h1 _ ih =>
    rw [List.flatMap_cons, List.flatMap_cons, ih]
    congr 1
    cases a <;> cases b <;> unfold SameButFace at h1
    · obtain ⟨rfl, rfl, e1, e2, e3⟩ := h1
      unfold drawOpG drawGlyphG; dsimp only
      rw [e1, e2, e3]
    · exact h1.elim
    · exact h1.elim
    · obtain ⟨rfl, rfl, rfl, rfl⟩ := h1; rfl

/-! ## Concrete cases -/

/-- A window with libraries that succeed, except that the encoder refuses an empty image. -/
def exUi : UiEnv XR XR Unit Unit :=
  ⟨exU, exEnv, exNum, { newFace := fun _ _ _ => true, encode := fun w _ => if eq w zero then some () else none }, ⟨id, id, 1000, some (1000, 800)⟩, .fin 12⟩

def exEnd (l : List (UiEv Unit)) : UiEnd Unit := (exUi.run .new l).1

/-- The symbols written on the images of a run, event by event. -/
def exImages (l : List (UiEv Unit)) : List (List (List GoString)) :=
  (exUi.run .new l).2.map fun o => o.flatMap fun
    | .image (some t) => (images t).map fun i => i.marks.map fun | .text _ _ _ _ s _ _ => s | .area _ _ => []
    | .image none => [[bs!"blank"]]
    | _ => []

/-- The texts written on the window itself. -/
def exTexts (l : List (UiEv Unit)) : List (List GoString) :=
  (exUi.run .new l).2.map fun o => o.flatMap fun
    | .formula cs => cs.filterMap fun | .label _ s _ => some s | _ => none
    | _ => []

/-- The lines of a window with a text size of 12: one pixel to the left, 3.4 pixels above. -/
example : gioOffset exUi.gio exUi.textSize = .ok (.fin (-1), .fin (-17 / 5)) := by decide +kernel
example : exEnd [.frame [.image, .formula]] = .returned none := by decide +kernel
/-- Typing is not enough, a commit is needed. -/
example : exTexts [.frame [.editor bs!"$x$", .button 1, .formula], .frame [.editor bs!"$yz$", .button 0, .formula], .key (.enter true true),
    .frame [.editor bs!"$a$", .formula], .key .escape, .frame [.formula]] = [[bs!"x"], [bs!"x"], [], [bs!"y", bs!"z"]] := by decide +kernel
/-- finding: an empty formula leaves the old image in place, and clears the formula below it. -/
example : exImages [.frame [.editor bs!"$x$", .button 1, .image, .formula], .frame [.editor bs!"", .button 1, .image, .formula]] =
    [[[bs!"x"]], [[bs!"x"]]] ∧
  exTexts [.frame [.editor bs!"$x$", .button 1, .image, .formula], .frame [.editor bs!"", .button 1, .image, .formula]] = [[bs!"x"], []] := by
  decide +kernel
/-- finding: a formula that cannot be drawn takes the window with it, at the first frame after it was committed. -/
theorem C80_lost : exEnd [.frame [.editor bs!"$x^2$", .button 0, .image, .formula], .key (.enter true true), .other] = .returned none ∧
    exEnd [.frame [.editor bs!"$x^2$", .button 0, .image, .formula], .key (.enter true true), .frame [.formula]] = .crash := by decide +kernel
example : ShotAsked ([.key (.f11 true), .other] : List (UiEv Unit)) ∧ ¬ ShotAsked ([.key (.f11 true), .frame []] : List (UiEv Unit)) :=
  ⟨⟨[], [.other], rfl, by simp⟩, fun h => (asked_snoc [.key (.f11 true)] (.frame [])).1 h⟩
example : ExprAfter [.typed bs!"$x$", .commit, .typed bs!"$y$", .image] bs!"$x$" :=
  .inl ⟨[.typed bs!"$x$"], [.typed bs!"$y$", .image], rfl, by decide, .inl ⟨[], [], rfl, by simp⟩⟩

end Verif.Props
