import Verif.Lemmas.GrammarParse
import Verif.Spec.Errors
import Mathlib.Tactic.Common
/-! # Sources put together -/

namespace Verif
open Spec
variable {U : Nat → Bool}

/-! ## A lexeme sees one character of what follows, and nothing of it after a line break -/

/-- `a` ends with a line break. -/
def EndsNl (a : List Ch) : Prop := ∃ n, a.getLast? = some n ∧ n.r = 10

/-- What comes after `a` may be `rest'` instead of `rest`. -/
def After (a rest rest' : List Ch) : Prop := rest ≠ [] ∧ (rest.head? = rest'.head? ∨ EndsNl a)

theorem After.tail {c : Ch} {a rest rest' : List Ch} (h : After (c :: a) rest rest') (ha : a ≠ []) : After a rest rest' := by
  refine ⟨h.1, h.2.imp id ?_⟩
  rintro ⟨n, h1, h2⟩
  obtain ⟨d, b, rfl⟩ := List.exists_cons_of_ne_nil ha
  rw [List.getLast?_cons_cons] at h1
  exact ⟨n, h1, h2⟩

theorem endsNl_mem {a : List Ch} (h : EndsNl a) : ∃ c ∈ a, c.r = 10 := by
  obtain ⟨n, h1, h2⟩ := h
  exact ⟨n, List.mem_of_getLast? h1, h2⟩

/-- If there is no line break in it, it is the next character. -/
theorem After.head {a rest rest' : List Ch} (h : After a rest rest') (ha : ∀ c ∈ a, c.r ∉ bs!"\"\n") : rest.head? = rest'.head? := by
  rcases h.2 with h | h
  · exact h
  · obtain ⟨c, h1, h2⟩ := endsNl_mem h
    exact absurd (by rw [h2]; decide) (ha c h1)

theorem head_append {a rest rest' : List Ch} (h : rest.head? = rest'.head?) : (a ++ rest).head? = (a ++ rest').head? := by
  cases a with
  | nil => exact h
  | cons => rfl

theorem run_after {p : Nat → Bool} {a rest rest' : List Ch} (h : Run p a rest) (e : rest.head? = rest'.head?) : Run p a rest' :=
  ⟨h.1, fun c hc => h.2 c (e.trans hc)⟩

theorem exponent_after {a rest rest' : List Ch} (h : Exponent a rest) (e : rest.head? = rest'.head?) : Exponent a rest' := by
  cases h with
  | none h => exact .none fun c hc => h c (e.trans hc)
  | some h1 h2 h3 => exact .some h1 (fun c hc => h2 c ((head_append e).trans hc)) (run_after h3 e)
  | signed h1 h2 h3 => exact .signed h1 h2 (run_after h3 e)

theorem fraction_after {p : Nat → Bool} {a rest rest' : List Ch} (h : Fraction p a rest) (e : rest.head? = rest'.head?) : Fraction p a rest' := by
  cases h with
  | none h => exact .none fun c hc => h c (e.trans hc)
  | some h1 h2 => exact .some h1 (run_after h2 e)

theorem begins_after {p : Nat → Bool} {a rest rest' : List Ch} (h : Begins a p rest) (e : rest.head? = rest'.head?) : Begins a p rest' := by
  cases h with
  | hex h1 h2 => exact .hex h1 h2
  | other h1 h2 => exact .other h1 h2
  | digit h1 h2 => exact .digit h1 fun h0 c hc => h2 h0 c (e.trans hc)

theorem number_after {a rest rest' : List Ch} (h : Number a rest) (e : rest.head? = rest'.head?) : Number a rest' := by
  cases h with
  | mk h1 h2 h3 h4 =>
    exact .mk (begins_after h1 (head_append e)) (run_after h2 (head_append e)) (fraction_after h3 (head_append e)) (exponent_after h4 e)
  | dot h1 h2 h3 h4 => exact .dot h1 h2 (run_after h3 (head_append e)) (exponent_after h4 e)

theorem quoted_ne {a rest : List Ch} (h : Quoted a rest) (hr : rest ≠ []) : a ≠ [] := by
  cases h with
  | eof => exact absurd rfl hr
  | _ => simp

theorem quoted_after {a rest rest' : List Ch} (h : Quoted a rest) (e : After a rest rest') : Quoted a rest' := by
  induction h with
  | eof => exact absurd rfl e.1
  | close h => exact .close h
  | guarded h1 h2 h3 ih =>
    have hne := quoted_ne h3 e.1
    exact .guarded h1 h2 (ih ((e.tail (by simp)).tail hne))
  | @plain c a rest h1 h2 h3 ih =>
    have hne := quoted_ne h3 e.1
    refine .plain h1 (fun hc d hd => h2 hc d ?_) (ih (e.tail hne))
    obtain ⟨f, b, rfl⟩ := List.exists_cons_of_ne_nil hne
    exact hd

theorem comment_ne {a rest : List Ch} (h : Comment a rest) (hr : rest ≠ []) : a ≠ [] := by
  cases h with
  | eof => exact absurd rfl hr
  | _ => simp

theorem comment_after {a rest rest' : List Ch} (h : Comment a rest) (e : After a rest rest') : Comment a rest' := by
  induction h with
  | eof => exact absurd rfl e.1
  | close h => exact .close h
  | plain h1 h3 ih => exact .plain h1 (ih (e.tail (comment_ne h3 e.1)))
  | @quoted q a b rest h1 h2 h3 ih =>
    have hne := comment_ne h3 e.1
    refine .quoted h1 (quoted_after h2 ⟨by simp [hne], .inl ?_⟩) (ih ⟨e.1, e.2.imp id ?_⟩)
    · obtain ⟨f, c, rfl⟩ := List.exists_cons_of_ne_nil hne
      rfl
    · rintro ⟨n, h4, h5⟩
      obtain ⟨f, c, rfl⟩ := List.exists_cons_of_ne_nil hne
      refine ⟨n, ?_, h5⟩
      rw [← h4, List.getLast?_append]
      simp [List.getLast?_cons]

theorem name_after {a rest rest' : List Ch} (h : Name U a rest) (e : After a rest rest') : Name U a rest' := by
  cases h with
  | nothing => exact absurd rfl e.1
  | word h1 h2 =>
    refine .word h1 (run_after h2 (e.head ?_))
    intro c hc
    rcases List.mem_cons.1 hc with rfl | hc
    · exact letter_plain h1
    · exact letter_plain (h2.1 c hc)
  | number h => exact .number (number_after h (e.head (number_plain h)))
  | @quoted q a rest h1 h2 => exact .quoted h1 (quoted_after h2 (e.tail (quoted_ne h2 e.1)))
  | @char c rest h1 h2 h3 =>
    refine .char h1 h2 fun hc d hd => h3 hc d ?_
    rcases e.2 with e | e
    · exact e.trans hd
    · obtain ⟨n, h4, h5⟩ := endsNl_mem e
      rw [List.mem_singleton.1 h4, hc] at h5
      cases h5

theorem name_ne {a rest : List Ch} (h : Name U a rest) (hr : rest ≠ []) : a ≠ [] := by
  cases h with
  | nothing => exact absurd rfl hr
  | number h => exact number_ne h
  | _ => simp

theorem lexeme_after {a rest rest' : List Ch} {k : Lex} (h : Lexeme U a k rest) (e : After a rest rest') : Lexeme U a k rest' := by
  cases h with
  | word h1 h2 =>
    refine .word h1 (run_after h2 (e.head ?_))
    intro c hc
    rcases List.mem_cons.1 hc with rfl | hc
    · exact letter_plain h1
    · exact letter_plain (h2.1 c hc)
  | number h => exact .number (number_after h (e.head (number_plain h)))
  | blank h => exact .blank h
  | escaped h1 h2 => exact .escaped h1 h2
  | comment h1 h2 => exact .comment h1 (comment_after h2 (e.tail (comment_ne h2 e.1)))
  | @name b w a rest h1 h2 h3 h4 =>
    have hne := name_ne h4 e.1
    obtain ⟨f, d, rfl⟩ := List.exists_cons_of_ne_nil hne
    refine .name h1 (fun c hc => h2 c ?_) h3 (name_after h4 ⟨e.1, e.2.imp id ?_⟩)
    · cases w <;> exact hc
    · rintro ⟨n, h5, h6⟩
      refine ⟨n, ?_, h6⟩
      rw [← h5, List.getLast?_append]
      simp [List.getLast?_cons]
  | quoted h1 h2 => exact .quoted h1 (quoted_after h2 (e.tail (quoted_ne h2 e.1)))
  | mark h1 h2 =>
    refine .mark h1 fun hc d hd => h2 hc d ?_
    rcases e.2 with e | e
    · exact e.trans hd
    · obtain ⟨n, h4, h5⟩ := endsNl_mem e
      rw [List.mem_singleton.1 h4, hc] at h5
      cases h5

/-! ## Lexemes of sources put together -/

theorem lexeme_start {a rest : List Ch} {k : Lex} (h : Lexeme U a k rest) : ∃ c b, a = c :: b ∧ isBreak c.r = false := by
  cases h with
  | word h1 h2 => exact ⟨_, _, rfl, letter_ws h1⟩
  | number h =>
    obtain ⟨c, b, rfl⟩ := List.exists_cons_of_ne_nil (number_ne h)
    exact ⟨c, b, rfl, number_ws h c rfl⟩
  | blank h => exact ⟨_, _, rfl, by rw [h]; rfl⟩
  | escaped h => exact ⟨_, _, rfl, by rw [h]; rfl⟩
  | comment h => exact ⟨_, _, rfl, by rw [h]; rfl⟩
  | name h => exact ⟨_, _, rfl, by rw [h]; rfl⟩
  | quoted h => exact ⟨_, _, rfl, by rw [h]; rfl⟩
  | mark h => exact ⟨_, _, rfl, (mark_facts (U := U) h).2.2.2.1⟩

theorem bytes_append (a b : List Ch) : (bytesOf (a ++ b)).length = (bytesOf a).length + (bytesOf b).length := by
  rw [bytesOf, List.flatMap_append, List.length_append]; rfl

theorem bytes_pos {a : List Ch} (hW : ∀ c ∈ a, c.Ok) (h : a ≠ []) : 0 < (bytesOf a).length := by
  rcases Nat.eq_zero_or_pos (bytesOf a).length with h1 | h1
  · exact absurd (bytesOf_eq_nil hW (List.length_eq_zero_iff.1 h1)) h
  · exact h1

/-- Of two beginnings of a text the one with fewer bytes is a beginning of the other. -/
theorem beginning {p q p' q' : List Ch} (e : p ++ q = p' ++ q') (hW : ∀ c ∈ p ++ q, c.Ok) (h : (bytesOf p).length ≤ (bytesOf p').length) :
    ∃ c, p' = p ++ c ∧ q = c ++ q' := by
  rcases List.append_eq_append_iff.1 e with ⟨c, h1, h2⟩ | ⟨c, h1, h2⟩
  · exact ⟨c, h1, h2⟩
  · have hc : c = [] := by
      by_contra hc
      have hp := bytes_pos (a := c) (fun d hd => hW d (by rw [h1]; simp [hd])) hc
      rw [h1, bytes_append] at h
      omega
    subst hc
    exact ⟨[], by simpa using h1.symm, by simpa using h2.symm⟩

theorem lexes_ge {o : Nat} {cs : List Ch} {L : List Lexed} (h : Lexes U o cs L) : ∀ x ∈ L, o ≤ x.start := by
  induction h with
  | done => simp
  | more h1 h2 h3 ih =>
    intro x hx
    rcases List.mem_cons.1 hx with rfl | hx
    · exact Nat.le_add_right _ _
    · have := ih x hx; omega

/-- Line breaks before lexemes. -/
theorem lexes_breaks {w cs : List Ch} (hw : ∀ c ∈ w, isBreak c.r = true) (o : Nat) (L : List Lexed) :
    Lexes U o (w ++ cs) L ↔ Lexes U (o + (bytesOf w).length) cs L := by
  constructor
  · intro h
    generalize hx : w ++ cs = x at h
    cases h with
    | @done _ v h =>
      exact .done fun c hc => h c (by rw [← hx]; simp [hc])
    | @more _ v a k rest M h1 h2 h3 =>
      obtain ⟨c, b, rfl, hc⟩ := lexeme_start h2
      rw [List.append_assoc] at hx
      rcases List.append_eq_append_iff.1 hx with ⟨d, e1, e2⟩ | ⟨d, e1, e2⟩
      · subst e1
        have e3 : o + (bytesOf (w ++ d)).length = o + (bytesOf w).length + (bytesOf d).length := by rw [bytes_append]; omega
        rw [e3] at h3 ⊢
        rw [e2, ← List.append_assoc]
        exact .more (fun c hc => h1 c (by simp [hc])) h2 h3
      · cases d with
        | nil =>
          rw [List.nil_append] at e2
          rw [List.append_nil] at e1
          subst e1
          rw [← e2]
          exact .more (w := []) (by simp) h2 h3
        | cons f d =>
          rw [List.cons_append, List.cons_append] at e2
          injection e2 with e2 _
          have := hw f (by rw [e1]; simp)
          rw [← e2, hc] at this
          cases this
  · intro h
    cases h with
    | done h =>
      refine .done fun c hc => ?_
      rcases List.mem_append.1 hc with hc | hc
      · exact hw c hc
      · exact h c hc
    | @more _ v a k rest M h1 h2 h3 =>
      have e3 : o + (bytesOf w).length + (bytesOf v).length = o + (bytesOf (w ++ v)).length := by rw [bytes_append]; omega
      rw [e3] at h3 ⊢
      rw [show w ++ (v ++ a ++ rest) = w ++ v ++ a ++ rest by simp]
      refine .more (fun c hc => ?_) h2 h3
      rcases List.mem_append.1 hc with hc | hc
      · exact hw c hc
      · exact h1 c hc

theorem reads_breaks {w cs : List Ch} (hw : ∀ c ∈ w, isBreak c.r = true) (o : Nat) (L : List Lexed) :
    Reads U o (w ++ cs) L ↔ Reads U (o + (bytesOf w).length) cs L := by
  have split : ∀ {v r : List Ch} {c : Ch}, w ++ cs = v ++ c :: r → isBreak c.r = false → ∃ d, v = w ++ d ∧ cs = d ++ c :: r := by
    intro v r c hx hc
    rcases List.append_eq_append_iff.1 hx with ⟨d, e1, e2⟩ | ⟨d, e1, e2⟩
    · exact ⟨d, e1, e2⟩
    · cases d with
      | nil => exact ⟨[], by simpa using e1.symm, by simpa using e2.symm⟩
      | cons f d =>
        rw [List.cons_append] at e2
        injection e2 with e2 _
        have := hw f (by rw [e1]; simp)
        rw [← e2, hc] at this
        cases this
  have both : ∀ {v : List Ch}, (∀ c ∈ v, isBreak c.r = true) → ∀ c ∈ w ++ v, isBreak c.r = true := by
    intro v h c hc
    rcases List.mem_append.1 hc with hc | hc
    · exact hw c hc
    · exact h c hc
  constructor
  · intro h
    generalize hx : w ++ cs = x at h
    cases h with
    | @done _ v h =>
      exact .done fun c hc => h c (by rw [← hx]; simp [hc])
    | @stuck _ v c rest h1 h2 =>
      have hc : isBreak c.r = false := by
        obtain ⟨-, h3, -⟩ := h2
        simp only [List.mem_cons, List.not_mem_nil, not_or, or_false] at h3
        simp only [isBreak, Bool.or_eq_false_iff, beq_eq_false_iff_ne]
        omega
      obtain ⟨d, rfl, rfl⟩ := split hx hc
      have e3 : o + (bytesOf (w ++ d)).length = o + (bytesOf w).length + (bytesOf d).length := by rw [bytes_append]; omega
      rw [e3]
      exact .stuck (fun c hc => h1 c (by simp [hc])) h2
    | @more _ v a k rest M h1 h2 h3 =>
      obtain ⟨c, b, rfl, hc⟩ := lexeme_start h2
      rw [List.append_assoc, List.cons_append] at hx
      obtain ⟨d, rfl, rfl⟩ := split hx hc
      have e3 : o + (bytesOf (w ++ d)).length = o + (bytesOf w).length + (bytesOf d).length := by rw [bytes_append]; omega
      rw [e3] at h3 ⊢
      rw [← List.cons_append, ← List.append_assoc]
      exact .more (fun c hc => h1 c (by simp [hc])) h2 h3
  · intro h
    cases h with
    | done h => exact .done (both h)
    | @stuck _ v c rest h1 h2 =>
      have e3 : o + (bytesOf w).length + (bytesOf v).length = o + (bytesOf (w ++ v)).length := by rw [bytes_append]; omega
      rw [e3, ← List.append_assoc]
      exact .stuck (both h1) h2
    | @more _ v a k rest M h1 h2 h3 =>
      have e3 : o + (bytesOf w).length + (bytesOf v).length = o + (bytesOf (w ++ v)).length := by rw [bytes_append]; omega
      rw [e3] at h3 ⊢
      rw [show w ++ (v ++ a ++ rest) = w ++ v ++ a ++ rest by simp]
      exact .more (both h1) h2 h3

/-- What a first lexeme is. -/
theorem lexes_first {o : Nat} {w a rest : List Ch} {k : Lex} {M : List Lexed} (hW : ∀ c ∈ w ++ a ++ rest, c.Ok) (hw : ∀ c ∈ w, isBreak c.r = true)
    (h : Lexeme U a k rest) (hM : Lexes U o (w ++ a ++ rest) M) :
    ∃ M', M = ⟨k, o + (bytesOf w).length, o + (bytesOf w).length + (bytesOf a).length⟩ :: M' ∧ Lexes U (o + (bytesOf w).length + (bytesOf a).length) rest M' := by
  obtain ⟨t, s', e1, e2, e3, e4, e5, e6⟩ := lexeme_scan (s := ⟨w ++ a ++ rest, o⟩) (fun c hc => (hW c hc).1) rfl hw h
  cases M with
  | nil =>
    obtain ⟨t', s1', f1, f2, -⟩ := lexes_done (s := ⟨w ++ a ++ rest, o⟩) hM
    rw [e1] at f1
    cases f1
    exact absurd f2 e2
  | cons x M =>
    obtain ⟨t', s1', f1, f2, f3, f4, f5, f6, f7⟩ := lexes_scan (s := ⟨w ++ a ++ rest, o⟩) hW hM
    rw [e1] at f1
    cases f1
    have hk := tokFor_unique e3 f3
    refine ⟨M, ?_, by rw [e4] at f6; rw [← e6]; exact f6⟩
    cases x
    dsimp only at hk e5 e6 f4 f5
    rw [hk, ← e6, ← e5, f4, f5]

/-- A text that ends with a line break, or is empty, and after which a lexeme begins, has lexemes of its own. -/
theorem lexes_cut {o : Nat} {c1 z : List Ch} {A B : List Lexed} {X : Lexed} (hW : ∀ c ∈ c1 ++ z, c.Ok) (hnl : c1 = [] ∨ EndsNl c1)
    (h : Lexes U o (c1 ++ z) (A ++ X :: B)) (hX : X.start = o + (bytesOf c1).length) :
    (∀ x ∈ A, x.start < X.start) ∧ (∀ y, (∀ c ∈ y, c.Ok) → ∀ M, Lexes U o (c1 ++ y) M ↔ ∃ M', M = A ++ M' ∧ Lexes U (o + (bytesOf c1).length) y M') ∧
    ∀ y M', Reads U (o + (bytesOf c1).length) y M' → Reads U o (c1 ++ y) (A ++ M') := by
  induction A generalizing o c1 with
  | nil =>
    suffices hc : ∀ c ∈ c1, isBreak c.r = true by
      refine ⟨by simp, fun y hy M => ?_, fun y M' hM => (reads_breaks hc _ _).2 hM⟩
      simp only [List.nil_append, exists_eq_left']
      exact lexes_breaks hc _ _
    generalize hx : c1 ++ z = x at h
    rw [List.nil_append] at h
    cases h with
    | @more _ w a k rest _ h1 h2 h3 =>
      rw [List.append_assoc] at hx
      have hX' : o + (bytesOf w).length = o + (bytesOf c1).length := hX
      obtain ⟨d, e1, e2⟩ := beginning hx hW (by omega)
      intro c hc
      exact h1 c (by rw [e1]; simp [hc])
  | cons x A ih =>
    generalize hx : c1 ++ z = cs at h
    rw [List.cons_append] at h
    cases h with
    | @more _ w a k rest _ h1 h2 h3 =>
      have hge := lexes_ge h3 X (by simp)
      obtain ⟨c0, b0, ha, hbr⟩ := lexeme_start h2
      have hWa : ∀ c ∈ w ++ a ++ rest, c.Ok := by rw [← hx]; exact hW
      have hpos := bytes_pos (a := a) (fun c hc => hWa c (by simp [hc])) (by rw [ha]; simp)
      obtain ⟨c2, e1, e2⟩ := beginning (p := w ++ a) (q := rest) (p' := c1) (q' := z) hx.symm hWa (by rw [bytes_append]; omega)
      subst e1 e2
      have hb : (bytesOf (w ++ a ++ c2)).length = (bytesOf w).length + (bytesOf a).length + (bytesOf c2).length := by rw [bytes_append, bytes_append]
      have hnl' : EndsNl (w ++ a ++ c2) := by
        rcases hnl with h | h
        · rw [ha] at h; simp at h
        · exact h
      have hnl2 : c2 = [] ∨ EndsNl c2 := by
        cases c2 with
        | nil => exact .inl rfl
        | cons d c2 =>
          obtain ⟨n, h4, h5⟩ := hnl'
          refine .inr ⟨n, ?_, h5⟩
          rw [List.getLast?_append, List.getLast?_cons] at h4
          rw [List.getLast?_cons]
          exact h4
      obtain ⟨i1, i2, i3⟩ := ih (o := o + (bytesOf w).length + (bytesOf a).length) (c1 := c2) (fun c hc => hWa c (by simp only [List.mem_append] at hc ⊢; tauto)) hnl2 h3 (by rw [hX, hb]; omega)
      have hz : c2 ++ z ≠ [] := by
        intro hz
        rw [hz] at h3
        generalize hL : A ++ X :: B = L at h3
        generalize he : ([] : List Ch) = e at h3
        cases h3 with
        | done => simp at hL
        | more _ h4 _ =>
          obtain ⟨_, _, rfl, _⟩ := lexeme_start h4
          simp at he
      have haf : ∀ y, Lexeme U a k (c2 ++ y) := by
        intro y
        refine lexeme_after h2 ⟨hz, ?_⟩
        cases c2 with
        | cons d c2 => exact .inl rfl
        | nil =>
          obtain ⟨n, h4, h5⟩ := hnl'
          refine .inr ⟨n, ?_, h5⟩
          rw [ha] at h4 ⊢
          rw [List.append_nil, List.getLast?_append, List.getLast?_cons] at h4
          rw [List.getLast?_cons]
          exact h4
      refine ⟨?_, fun y hy M => ?_, fun y M' hM => ?_⟩
      · intro y hy
        rcases List.mem_cons.1 hy with rfl | hy
        · show o + (bytesOf w).length < X.start
          omega
        · exact i1 y hy
      · rw [List.append_assoc (w ++ a) c2 y, hb, ← Nat.add_assoc, ← Nat.add_assoc]
        constructor
        · intro hM
          obtain ⟨M', rfl, h4⟩ := lexes_first (fun c hc => by
            simp only [List.mem_append] at hc
            rcases hc with (hc | hc) | hc | hc
            · exact hWa c (by simp [hc])
            · exact hWa c (by simp [hc])
            · exact hWa c (by simp [hc])
            · exact hy c hc) h1 (haf y) hM
          obtain ⟨M2, rfl, h5⟩ := (i2 y hy M').1 h4
          exact ⟨M2, rfl, h5⟩
        · rintro ⟨M', rfl, h4⟩
          exact .more h1 (haf y) ((i2 y hy _).2 ⟨M', rfl, h4⟩)
      · rw [hb, ← Nat.add_assoc, ← Nat.add_assoc] at hM
        rw [List.append_assoc (w ++ a) c2 y]
        exact .more h1 (haf y) (i3 y M' hM)

/-! ## Items of sources put together -/

mutual
theorem item1_suffix : ∀ {m L n L'}, Item1 m L n L' → ∃ D, D ≠ [] ∧ L = D ++ L'
  | _, _, _, _, .word => ⟨[_], by simp, rfl⟩
  | _, _, _, _, .number => ⟨[_], by simp, rfl⟩
  | _, _, _, _, .comment => ⟨[_], by simp, rfl⟩
  | _, _, _, _, .blank => ⟨[_], by simp, rfl⟩
  | _, _, _, _, .mathBlank => ⟨[_], by simp, rfl⟩
  | _, _, _, _, .symbol _ => ⟨[_], by simp, rfl⟩
  | _, _, _, _, .math h => by obtain ⟨D, rfl⟩ := items_suffix h; exact ⟨_ :: D, by simp, rfl⟩
  | _, _, _, _, .group h => by obtain ⟨D, rfl⟩ := items_suffix h; exact ⟨_ :: D, by simp, rfl⟩
  | _, _, _, _, .supGroup h => by obtain ⟨D, rfl⟩ := items_suffix h; exact ⟨_ :: _ :: D, by simp, rfl⟩
  | _, _, _, _, .sup h => by obtain ⟨D, _, rfl⟩ := item1_suffix h; exact ⟨_ :: D, by simp, rfl⟩
  | _, _, _, _, .subGroup h => by obtain ⟨D, rfl⟩ := items_suffix h; exact ⟨_ :: _ :: D, by simp, rfl⟩
  | _, _, _, _, .sub h => by obtain ⟨D, _, rfl⟩ := item1_suffix h; exact ⟨_ :: D, by simp, rfl⟩
  | _, _, _, _, .root h1 h2 => by
    obtain ⟨D, rfl⟩ := items_suffix h1
    obtain ⟨D', rfl⟩ := args_suffix h2
    exact ⟨_ :: _ :: (D ++ D'), by simp, by rw [← List.append_assoc]; rfl⟩
  | _, _, _, _, .macro _ h _ => by obtain ⟨D, rfl⟩ := args_suffix h; exact ⟨_ :: D, by simp, rfl⟩
theorem items_suffix : ∀ {m u L l p L'}, Items m u L l p L' → ∃ D, L = D ++ L'
  | _, _, _, _, _, _, .eof => ⟨[], rfl⟩
  | _, _, _, _, _, _, .close _ => ⟨[_], rfl⟩
  | _, _, _, _, _, _, .item _ h1 h2 => by
    obtain ⟨D, _, e⟩ := item1_suffix h1
    obtain ⟨D', rfl⟩ := items_suffix h2
    exact ⟨D ++ D', by rw [e, List.append_assoc]⟩
theorem args_suffix : ∀ {m n L l L'}, Args m n L l L' → ∃ D, L = D ++ L'
  | _, _, _, _, _, .done => ⟨[], rfl⟩
  | _, _, _, _, _, .more h1 h2 => by
    obtain ⟨D, rfl⟩ := items_suffix h1
    obtain ⟨D', rfl⟩ := args_suffix h2
    exact ⟨_ :: (D ++ D'), by rw [← List.append_assoc]; rfl⟩
end

mutual
/-- An item does not depend on what comes after it. -/
theorem item1_after : ∀ {m L n L'}, Item1 m L n L' → ∀ {D C Z}, Z ≠ [] → L = D ++ (C ++ Z) → L' = C ++ Z → ∀ Y, Item1 m (D ++ (C ++ Y)) n (C ++ Y)
  | _, _, _, _, .word, D, C, Z, hZ, e, e', Y => by
    subst e'
    obtain rfl : [_] = D := List.append_cancel_right e
    exact .word
  | _, _, _, _, .number, D, C, Z, hZ, e, e', Y => by
    subst e'
    obtain rfl : [_] = D := List.append_cancel_right e
    exact .number
  | _, _, _, _, .comment, D, C, Z, hZ, e, e', Y => by
    subst e'
    obtain rfl : [_] = D := List.append_cancel_right e
    exact .comment
  | _, _, _, _, .blank, D, C, Z, hZ, e, e', Y => by
    subst e'
    obtain rfl : [_] = D := List.append_cancel_right e
    exact .blank
  | _, _, _, _, .mathBlank, D, C, Z, hZ, e, e', Y => by
    subst e'
    obtain rfl : [_] = D := List.append_cancel_right e
    exact .mathBlank
  | _, _, _, _, .symbol h, D, C, Z, hZ, e, e', Y => by
    subst e'
    obtain rfl : [_] = D := List.append_cancel_right e
    exact .symbol h
  | _, _, _, _, .math h, D, C, Z, hZ, e, e', Y => by
    obtain ⟨E, e1⟩ := items_suffix h
    rw [e1, e'] at e
    obtain rfl : _ :: E = D := List.append_cancel_right e
    exact .math (items_after h hZ (e1.trans (by rw [e'])) e' Y)
  | _, _, _, _, .group h, D, C, Z, hZ, e, e', Y => by
    obtain ⟨E, e1⟩ := items_suffix h
    rw [e1, e'] at e
    obtain rfl : _ :: E = D := List.append_cancel_right e
    exact .group (items_after h hZ (e1.trans (by rw [e'])) e' Y)
  | _, _, _, _, .supGroup h, D, C, Z, hZ, e, e', Y => by
    obtain ⟨E, e1⟩ := items_suffix h
    rw [e1, e'] at e
    obtain rfl : _ :: _ :: E = D := List.append_cancel_right e
    exact .supGroup (items_after h hZ (e1.trans (by rw [e'])) e' Y)
  | _, _, _, _, .sup h, D, C, Z, hZ, e, e', Y => by
    obtain ⟨E, _, e1⟩ := item1_suffix h
    rw [e1, e'] at e
    obtain rfl : _ :: E = D := List.append_cancel_right e
    exact .sup (item1_after h hZ (e1.trans (by rw [e'])) e' Y)
  | _, _, _, _, .subGroup h, D, C, Z, hZ, e, e', Y => by
    obtain ⟨E, e1⟩ := items_suffix h
    rw [e1, e'] at e
    obtain rfl : _ :: _ :: E = D := List.append_cancel_right e
    exact .subGroup (items_after h hZ (e1.trans (by rw [e'])) e' Y)
  | _, _, _, _, .sub h, D, C, Z, hZ, e, e', Y => by
    obtain ⟨E, _, e1⟩ := item1_suffix h
    rw [e1, e'] at e
    obtain rfl : _ :: E = D := List.append_cancel_right e
    exact .sub (item1_after h hZ (e1.trans (by rw [e'])) e' Y)
  | _, _, _, _, .root h1 h2, D, C, Z, hZ, e, e', Y => by
    obtain ⟨E, e1⟩ := items_suffix h1
    obtain ⟨E', e2⟩ := args_suffix h2
    rw [e1, e2, e'] at e
    rw [← List.append_assoc E E'] at e
    obtain rfl : _ :: _ :: (E ++ E') = D := List.append_cancel_right e
    have h3 := items_after h1 (D := E) (C := E' ++ C) hZ (by rw [e1, e2, e']; simp) (by rw [e2, e']; simp) Y
    have h4 := args_after h2 hZ (e2.trans (by rw [e'])) e' Y
    rw [List.append_assoc E'] at h3
    rw [List.cons_append, List.cons_append, List.append_assoc]
    exact .root h3 h4
  | _, _, _, _, .macro (t := t) h1 h2 h3, D, C, Z, hZ, e, e', Y => by
    obtain ⟨E, e1⟩ := args_suffix h2
    rw [e1, e'] at e
    obtain rfl : _ :: E = D := List.append_cancel_right e
    refine .macro h1 (args_after h2 hZ (e1.trans (by rw [e'])) e' Y) fun ht e0 => ?_
    rw [e1, e'] at h2 h3
    cases E with
    | nil =>
      have : arity t = 1 := by rw [ht]; rfl
      rw [this] at h2
      generalize hq : [] ++ (C ++ Z) = q at h2
      cases h2 with
      | more h5 h6 =>
        obtain ⟨E1, e5⟩ := items_suffix h5
        obtain ⟨E2, e6⟩ := args_suffix h6
        rw [e5, e6] at hq
        have := congrArg List.length hq
        simp at this
        omega
    | cons x E => exact h3 ht e0
/-- The same for items up to an end. -/
theorem items_after : ∀ {m u L l p L'}, Items m u L l p L' → ∀ {D C Z}, Z ≠ [] → L = D ++ (C ++ Z) → L' = C ++ Z → ∀ Y, Items m u (D ++ (C ++ Y)) l p (C ++ Y)
  | _, _, _, _, _, _, .eof, D, C, Z, hZ, e, e', Y => by simp at e'; exact absurd e'.2 hZ
  | _, _, _, _, _, _, .close h, D, C, Z, hZ, e, e', Y => by
    subst e'
    obtain rfl : [_] = D := List.append_cancel_right e
    exact .close h
  | _, _, _, _, _, _, .item h1 h2 h3, D, C, Z, hZ, e, e', Y => by
    obtain ⟨E, hE, e1⟩ := item1_suffix h2
    obtain ⟨E', e2⟩ := items_suffix h3
    have h4 := item1_after h2 (C := E' ++ C) (D := E) hZ (by rw [e1, e2, e']; simp) (by rw [e2, e']; simp) Y
    have h5 := items_after h3 hZ (e2.trans (by rw [e'])) e' Y
    obtain rfl : E ++ E' = D := List.append_cancel_right (by rw [← e, e1, e2, e']; simp)
    cases E with
    | nil => exact absurd rfl hE
    | cons x E =>
      rw [List.cons_append] at e1
      injection e1 with e3 e4
      subst e3
      have := Items.item h1 (by simpa using h4) (by simpa using h5)
      simpa using this
/-- The same for arguments. -/
theorem args_after : ∀ {m n L l L'}, Args m n L l L' → ∀ {D C Z}, Z ≠ [] → L = D ++ (C ++ Z) → L' = C ++ Z → ∀ Y, Args m n (D ++ (C ++ Y)) l (C ++ Y)
  | _, _, _, _, _, .done, D, C, Z, hZ, e, e', Y => by
    subst e'
    obtain rfl : [] = D := List.append_cancel_right e
    exact .done
  | _, _, _, _, _, .more h1 h2, D, C, Z, hZ, e, e', Y => by
    obtain ⟨E, e1⟩ := items_suffix h1
    obtain ⟨E', e2⟩ := args_suffix h2
    rw [e1, e2, e'] at e
    rw [← List.append_assoc E E'] at e
    obtain rfl : _ :: (E ++ E') = D := List.append_cancel_right e
    have h3 := items_after h1 (D := E) (C := E' ++ C) hZ (by rw [e1, e2, e']; simp) (by rw [e2, e']; simp) Y
    have h4 := args_after h2 hZ (e2.trans (by rw [e'])) e' Y
    rw [List.append_assoc E'] at h3
    rw [List.cons_append, List.append_assoc]
    exact .more h3 h4
end

/-- A brace as an item. -/
theorem item1_brace {m : Bool} {o e : Nat} {L L' : List Lexed} {n : Node} (h : Item1 m (⟨.mark ch!"{", o, e⟩ :: L) n L') :
    m = true ∧ ∃ l p, n = .list l ∧ Items true .brace L l p L' := by
  generalize hx : (⟨.mark ch!"{", o, e⟩ : Lexed) = x at h
  cases h with
  | group h => cases hx; exact ⟨rfl, _, _, rfl, h⟩
  | symbol h => cases hx; exact absurd h (by decide)
  | _ => cases hx

/-- The lexemes determine an item. -/
theorem item1_unique {m L n L1} (h : Item1 m L n L1) : ∀ {n' L1'}, Item1 m L n' L1' → n = n' ∧ L1 = L1' := by
  refine Item1.rec (motive_1 := fun m L n L1 _ => ∀ {n' L1'}, Item1 m L n' L1' → n = n' ∧ L1 = L1')
    (motive_2 := fun m u L l p L1 _ => ∀ {l' p' L1'}, Items m u L l' p' L1' → l = l' ∧ p = p' ∧ L1 = L1')
    (motive_3 := fun m n L l L1 _ => ∀ {l' L1'}, Args m n L l' L1' → l = l' ∧ L1 = L1')
    ?_ ?_ ?_ ?_ ?_ ?_ ?_ ?_ ?_ ?_ ?_ ?_ ?_ ?_ ?_ ?_ ?_ ?_ ?_ h
  · intro _ _ _ _ _ _ _ h'; cases h'; exact ⟨rfl, rfl⟩
  · intro _ _ _ _ _ _ _ h'; cases h'; exact ⟨rfl, rfl⟩
  · intro _ _ _ _ _ _ h'; cases h'; exact ⟨rfl, rfl⟩
  · intro _ _ _ _ _ _ h'; cases h'; exact ⟨rfl, rfl⟩
  · intro _ _ _ _ _ _ h'; cases h'; exact ⟨rfl, rfl⟩
  · intro _ _ _ _ _ h _ _ h'
    cases h' with
    | symbol => exact ⟨rfl, rfl⟩
    | _ => exact absurd h (by decide)
  · intro _ _ _ _ _ _ _ _ ih _ _ h'
    cases h' with
    | symbol h => exact absurd h (by decide)
    | math h' => obtain ⟨rfl, rfl, rfl⟩ := ih h'; exact ⟨rfl, rfl⟩
  · intro _ _ _ _ _ _ _ ih _ _ h'
    cases h' with
    | symbol h => exact absurd h (by decide)
    | group h' => obtain ⟨rfl, rfl, rfl⟩ := ih h'; exact ⟨rfl, rfl⟩
  · intro _ _ _ _ _ _ _ _ _ ih _ _ h'
    cases h' with
    | symbol h => exact absurd h (by decide)
    | supGroup h' => obtain ⟨rfl, rfl, rfl⟩ := ih h'; exact ⟨rfl, rfl⟩
    | sup h' =>
      obtain ⟨rfl, l, p, rfl, h2⟩ := item1_brace h'
      obtain ⟨rfl, rfl, rfl⟩ := ih h2; exact ⟨rfl, rfl⟩
  · intro _ _ _ _ _ _ h ih _ _ h'
    cases h' with
    | symbol h => exact absurd h (by decide)
    | supGroup h' =>
      obtain ⟨rfl, -⟩ := item1_brace h
      obtain ⟨rfl, rfl⟩ := ih (.group h'); exact ⟨rfl, rfl⟩
    | sup h' => obtain ⟨rfl, rfl⟩ := ih h'; exact ⟨rfl, rfl⟩
  · intro _ _ _ _ _ _ _ _ _ ih _ _ h'
    cases h' with
    | symbol h => exact absurd h (by decide)
    | subGroup h' => obtain ⟨rfl, rfl, rfl⟩ := ih h'; exact ⟨rfl, rfl⟩
    | sub h' =>
      obtain ⟨rfl, l, p, rfl, h2⟩ := item1_brace h'
      obtain ⟨rfl, rfl, rfl⟩ := ih h2; exact ⟨rfl, rfl⟩
  · intro _ _ _ _ _ _ h ih _ _ h'
    cases h' with
    | symbol h => exact absurd h (by decide)
    | subGroup h' =>
      obtain ⟨rfl, -⟩ := item1_brace h
      obtain ⟨rfl, rfl⟩ := ih (.group h'); exact ⟨rfl, rfl⟩
    | sub h' => obtain ⟨rfl, rfl⟩ := ih h'; exact ⟨rfl, rfl⟩
  · intro _ _ _ _ _ _ _ _ _ _ _ _ ih1 ih2 _ _ h'
    cases h' with
    | root h1' h2' =>
      obtain ⟨rfl, rfl, rfl⟩ := ih1 h1'
      obtain ⟨rfl, rfl⟩ := ih2 h2'
      exact ⟨rfl, rfl⟩
    | «macro» _ _ h3 => exact absurd rfl (h3 rfl _)
  · intro _ _ _ _ _ _ _ _ _ h3 ih _ _ h'
    cases h' with
    | root => exact absurd rfl (h3 rfl _)
    | «macro» _ h2' _ => obtain ⟨rfl, rfl⟩ := ih h2'; exact ⟨rfl, rfl⟩
  · intro _ _ _ _ _ h'; cases h'; exact ⟨rfl, rfl, rfl⟩
  · intro _ _ _ _ _ _ h _ _ _ h'
    cases h' with
    | close => exact ⟨rfl, rfl, rfl⟩
    | item h1 => exact absurd h h1
  · intro _ _ _ _ _ _ _ _ _ h1 _ _ ih1 ih2 _ _ _ h'
    cases h' with
    | close h => exact absurd h h1
    | item _ h2' h3' =>
      obtain ⟨rfl, rfl⟩ := ih1 h2'
      obtain ⟨rfl, rfl, rfl⟩ := ih2 h3'
      exact ⟨rfl, rfl, rfl⟩
  · intro _ _ _ _ h'; cases h'; exact ⟨rfl, rfl⟩
  · intro _ _ _ _ _ _ _ _ _ _ _ _ ih1 ih2 _ _ h'
    cases h' with
    | more h1' h2' =>
      obtain ⟨rfl, rfl, rfl⟩ := ih1 h1'
      obtain ⟨rfl, rfl⟩ := ih2 h2'
      exact ⟨rfl, rfl⟩

theorem item1_word {m : Bool} {x : Lexed} {L L' : List Lexed} {o : Nat} {t : GoString} (h : Item1 m (x :: L) (.word o t) L') : x.start = o := by
  generalize hn : Node.word o t = n at h
  cases h with
  | word => cases hn; rfl
  | _ => cases hn

theorem keep_cases (n : Node) (l : List Node) : n = .nil ∧ keep n l = l ∨ n ≠ .nil ∧ keep n l = n :: l := by
  cases n <;> simp [keep]

/-- Items after which a word is an item by itself. -/
theorem items_cut {A : List Lexed} {X : Lexed} {la : List Node} {o : Nat} {t : GoString} (hX : X.start = o) (hA : ∀ x ∈ A, x.start < X.start) {p : Nat}
    (h : Items false .eof (A ++ [X]) (la ++ [.word o t]) p []) :
    (∀ Y l, Items false .eof (A ++ Y) l 0 [] ↔ ∃ ly, l = la ++ ly ∧ Items false .eof Y ly 0 []) ∧
    ∀ Y q, FailIn false .eof Y q → FailIn false .eof (A ++ Y) q := by
  generalize hn : A.length = n
  induction n using Nat.strongRecOn generalizing A la with
  | _ n ih =>
    generalize hL : A ++ [X] = L at h
    generalize hl : la ++ [.word o t] = l at h
    cases h with
    | eof => simp at hL
    | close h => cases h
    | @item _ _ x L0 n1 L1 l1 _ _ h1 h2 h3 =>
      obtain ⟨D, hD, e1⟩ := item1_suffix h2
      cases A with
      | nil =>
        rw [List.nil_append] at hL
        injection hL with hL1 hL2
        subst hL1 hL2
        have hL1 : L1 = [] := by
          have := congrArg List.length e1
          simp at this
          have := List.length_pos_iff.2 hD
          exact List.length_eq_zero_iff.1 (by omega)
        subst hL1
        cases h3 with
        | eof =>
          have : la = [] := by
            have := congrArg List.length hl
            rcases keep_cases n1 [] with ⟨_, h⟩ | ⟨_, h⟩ <;> rw [h] at this <;> simp at this
            exact this
          subst this
          refine ⟨fun Y l => ?_, fun Y q h => h⟩
          simp
      | cons x' A =>
        rw [List.cons_append] at hL
        injection hL with hL1 hL2
        subst hL1 hL2
        have hxX := hA x' (by simp)
        have hsplit : (∃ C, L1 = C ++ [X]) ∨ L1 = [] := by
          rw [← List.cons_append] at e1
          rcases List.append_eq_append_iff.1 e1 with ⟨c, h4, h5⟩ | ⟨c, h4, h5⟩
          · cases c with
            | nil => exact .inl ⟨[], by simpa using h5.symm⟩
            | cons d c =>
              rw [List.cons_append] at h5
              injection h5 with h5 h6
              exact .inr (List.append_eq_nil_iff.1 h6.symm).2
          · exact .inl ⟨c, h5⟩
        rcases hsplit with ⟨C, rfl⟩ | rfl
        · have hA' : x' :: A = D ++ C := List.append_cancel_right (by rw [List.cons_append, e1, List.append_assoc])
          have hrest : ∃ la', la ++ [.word o t] = keep n1 (la' ++ [.word o t]) ∧ l1 = la' ++ [.word o t] ∧ ∀ ly, keep n1 (la' ++ ly) = la ++ ly := by
            rcases keep_cases n1 l1 with ⟨rfl, h⟩ | ⟨hne, h⟩
            · exact ⟨la, rfl, by rw [← h, hl], fun ly => rfl⟩
            · cases la with
              | nil =>
                rw [h, List.nil_append] at hl
                injection hl with hl1 hl2
                subst hl1
                have := item1_word h2
                omega
              | cons n2 la =>
                rw [h, List.cons_append] at hl
                injection hl with hl1 hl2
                subst hl1
                have hk : ∀ l, keep n2 l = n2 :: l := by
                  intro l
                  rcases keep_cases n2 l with ⟨h', _⟩ | ⟨_, h'⟩
                  · exact absurd h' hne
                  · exact h'
                exact ⟨la, by rw [hk]; rfl, hl2.symm, fun ly => by rw [hk]; rfl⟩
          obtain ⟨la', hl1, rfl, hl3⟩ := hrest
          have hlen : C.length < n := by
            have := congrArg List.length hA'
            simp at this hn
            have := List.length_pos_iff.2 hD
            omega
          obtain ⟨hi, hf⟩ := ih C.length hlen (A := C) (la := la') (fun y hy => hA y (by rw [hA']; simp [hy])) h3 rfl
          have hitem : ∀ Y, Item1 false (x' :: (A ++ Y)) n1 (C ++ Y) := by
            intro Y
            have := item1_after h2 (D := D) (C := C) (Z := [X]) (by simp) e1 rfl Y
            rw [← List.append_assoc, ← hA'] at this
            exact this
          refine ⟨fun Y l => ?_, fun Y q h => .later h1 (hitem Y) (hf Y q h)⟩
          have hitem := hitem Y
          constructor
          · intro h
            rw [List.cons_append] at h
            generalize hz : ([] : List Lexed) = z at h
            cases h with
            | close h => cases h
            | item _ g2 g3 =>
              subst hz
              obtain ⟨rfl, rfl⟩ := item1_unique hitem g2
              obtain ⟨ly, rfl, g4⟩ := (hi Y _).1 g3
              exact ⟨ly, hl3 ly, g4⟩
          · rintro ⟨ly, rfl, g4⟩
            rw [← hl3 ly, List.cons_append]
            exact .item h1 hitem ((hi Y _).2 ⟨ly, rfl, g4⟩)
        · cases h3 with
          | eof =>
            exfalso
            rcases keep_cases n1 [] with ⟨_, h⟩ | ⟨_, h⟩
            · rw [h] at hl; simp at hl
            · rw [h] at hl
              have : n1 = .word o t := by
                have := congrArg List.getLast? hl
                simpa using this.symm
              subst this
              have := item1_word h2
              omega

end Verif
