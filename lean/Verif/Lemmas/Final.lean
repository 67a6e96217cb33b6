import Verif.Lemmas.GrammarFail
import Mathlib.Tactic.Common
/-! # A reason to panic is final unless it is that something is missing at the end -/

namespace Verif
open Spec
variable {U : Nat → Bool}

/-- The panics that may be about the end of the source. -/
def EndPanic (p : Panic) : Prop :=
  (∃ r, p = .expected r) ∨ p = .impossible ∨ ∃ t, p = .unknownMacro t ∧ (t = bs!"\\" ∨ ∃ u, t = bs!"\\\"" ++ u)

/-- What the last lexeme of a text can be if something is written on the next line: a comment and a quoted string may go on,
and so may a name that is empty or quoted. -/
def Changed (x x' : Lexed) : Prop :=
  (x.lex = .comment ∧ x'.lex = .comment) ∨ (x.lex = .quoted ∧ x'.lex = .quoted) ∨
    ∃ t t', x.lex = .name t ∧ x'.lex = .name t' ∧ (t = bs!"\\" ∨ ∃ u, t = bs!"\\\"" ++ u)

/-- `L2` are the lexemes `L` and more, but the last may be a different one. -/
inductive Grows : List Lexed → List Lexed → Prop where
  | nil {Y} : Grows [] Y
  | last {x x' Y} : Changed x x' → Grows [x] (x' :: Y)
  | cons {x L L2} : Grows L L2 → Grows (x :: L) (x :: L2)

theorem grows_cons {x : Lexed} {L L2 : List Lexed} (h : Grows (x :: L) L2) :
    ∃ x' L', L2 = x' :: L' ∧ ((x' = x ∧ Grows L L') ∨ (L = [] ∧ Changed x x')) := by
  cases h with
  | last h => exact ⟨_, _, rfl, .inr ⟨rfl, h⟩⟩
  | cons h => exact ⟨_, _, rfl, .inl ⟨rfl, h⟩⟩

theorem changed_mark {x x' : Lexed} (h : Changed x x') : (∀ c, x.lex ≠ .mark c) ∧ ∀ c, x'.lex ≠ .mark c := by
  rcases h with ⟨h1, h2⟩ | ⟨h1, h2⟩ | ⟨t, t', h1, h2, -⟩ <;> rw [h1, h2] <;> exact ⟨nofun, nofun⟩

theorem grows_mark {c o e : Nat} {L L2 : List Lexed} (h : Grows (⟨.mark c, o, e⟩ :: L) L2) : ∃ L', L2 = ⟨.mark c, o, e⟩ :: L' ∧ Grows L L' := by
  obtain ⟨x', L', rfl, ⟨rfl, h1⟩ | ⟨-, h1⟩⟩ := grows_cons h
  · exact ⟨_, rfl, h1⟩
  · exact absurd rfl ((changed_mark h1).1 c)

theorem grows_next {x : Lexed} {L L2 : List Lexed} (h : Grows (x :: L) L2) (hL : L ≠ []) : ∃ L', L2 = x :: L' ∧ Grows L L' := by
  obtain ⟨x', L', rfl, ⟨rfl, h1⟩ | ⟨h1, -⟩⟩ := grows_cons h
  · exact ⟨_, rfl, h1⟩
  · exact absurd h1 hL

theorem grows_append {D L L2 : List Lexed} (h : Grows (D ++ L) L2) (hL : L ≠ []) : ∃ L', L2 = D ++ L' ∧ Grows L L' := by
  induction D generalizing L2 with
  | nil => exact ⟨L2, rfl, h⟩
  | cons x D ih =>
    obtain ⟨L', rfl, h'⟩ := grows_next h (by simp [hL])
    obtain ⟨L'', rfl, h''⟩ := ih h'
    exact ⟨L'', rfl, h''⟩

/-- An item, or items, with something after it. -/
theorem item1_grows {m x L n L1 L2} (h : Item1 m (x :: L) n L1) (hL : L1 ≠ []) (hg : Grows (x :: L) L2) :
    ∃ L' L1', L2 = x :: L' ∧ Item1 m (x :: L') n L1' ∧ Grows L1 L1' := by
  obtain ⟨D, hD, e⟩ := item1_suffix h
  obtain ⟨d, D, rfl⟩ := List.exists_cons_of_ne_nil hD
  rw [e] at hg
  obtain ⟨L1', rfl, hg'⟩ := grows_append hg hL
  have := item1_after h (D := d :: D) (C := []) hL e rfl L1'
  rw [List.cons_append] at e
  injection e with e1 e2
  subst e1
  exact ⟨D ++ L1', L1', rfl, this, hg'⟩

theorem items_grows {m u L l q L1 L2} (h : Items m u L l q L1) (hL : L1 ≠ []) (hg : Grows L L2) :
    ∃ L1', Items m u L2 l q L1' ∧ Grows L1 L1' := by
  obtain ⟨D, e⟩ := items_suffix h
  rw [e] at hg
  obtain ⟨L1', rfl, hg'⟩ := grows_append hg hL
  exact ⟨L1', items_after h (D := D) (C := []) hL e rfl L1', hg'⟩

theorem end_impossible : EndPanic .impossible := .inr (.inl rfl)
theorem end_expected {r : Nat} : EndPanic (.expected r) := .inl ⟨r, rfl⟩

theorem failIn_ne {m u L p} (h : FailIn m u L p) : L ≠ [] := by cases h <;> simp
theorem fail1_ne {m L p} (h : Fail1 m L p) (hp : ¬ EndPanic p) : L ≠ [] := by
  cases h with
  | eof => exact absurd end_impossible hp
  | _ => simp
theorem failArgs_ne {m n L p} (h : FailArgs m n L p) (hp : ¬ EndPanic p) : L ≠ [] := by
  cases h with
  | eof => exact absurd end_expected hp
  | _ => simp

mutual
theorem fail1_grows : ∀ {m L p}, Fail1 m L p → ¬ EndPanic p → ∀ {L2}, Grows L L2 → Fail1 m L2 p
  | _, _, _, .eof, hp, _, _ => absurd end_impossible hp
  | _, _, _, .wrong, hp, _, hg => by
    obtain ⟨x', L', rfl, ⟨rfl, -⟩ | ⟨-, h⟩⟩ := grows_cons hg
    · exact .wrong
    · rcases h with ⟨h1, -⟩ | ⟨h1, -⟩ | ⟨t, t', h1, -⟩ <;> cases h1
  | _, _, _, .quoted, hp, _, hg => by
    obtain ⟨x', L', rfl, ⟨rfl, -⟩ | ⟨-, h⟩⟩ := grows_cons hg
    · exact .quoted
    · rcases h with ⟨h1, -⟩ | ⟨-, h2⟩ | ⟨t, t', h1, -⟩
      · cases h1
      · obtain ⟨k, o, e⟩ := x'
        dsimp only at h2
        subst h2
        exact .quoted
      · cases h1
  | _, _, _, .group, hp, _, hg => by
    obtain ⟨L', rfl, -⟩ := grows_mark hg
    exact .group
  | _, _, _, .brace, hp, _, hg => by
    obtain ⟨L', rfl, -⟩ := grows_mark hg
    exact .brace
  | _, _, _, .unknown h1 h2, hp, _, hg => by
    obtain ⟨x', L', rfl, ⟨rfl, -⟩ | ⟨-, h⟩⟩ := grows_cons hg
    · exact .unknown h1 h2
    · rcases h with ⟨h1, -⟩ | ⟨h1, -⟩ | ⟨t, t', h1, -, h3⟩
      · cases h1
      · cases h1
      · cases h1
        exact absurd (.inr (.inr ⟨_, rfl, h3⟩)) hp
  | _, _, _, .genfrac, hp, _, hg => by
    obtain ⟨x', L', rfl, ⟨rfl, -⟩ | ⟨-, h⟩⟩ := grows_cons hg
    · exact .genfrac
    · rcases h with ⟨h1, -⟩ | ⟨h1, -⟩ | ⟨t, t', h1, -, h3⟩
      · cases h1
      · cases h1
      · cases h1
        rcases h3 with h3 | ⟨u, h3⟩ <;> cases h3
  | _, _, _, .inMath h, hp, _, hg => by
    obtain ⟨L', rfl, hg1⟩ := grows_mark hg
    exact .inMath (failIn_grows h hp hg1)
  | _, _, _, .inGroup h, hp, _, hg => by
    obtain ⟨L', rfl, hg2⟩ := grows_mark hg
    exact .inGroup (failIn_grows h hp hg2)
  | _, _, _, .inScript hc h, hp, _, hg => by
    obtain ⟨L', rfl, hg3⟩ := grows_mark hg
    obtain ⟨L', rfl, hg4⟩ := grows_mark hg3
    exact .inScript hc (failIn_grows h hp hg4)
  | _, _, _, .script hc hb h, hp, _, hg => by
    obtain ⟨L', rfl, hg5⟩ := grows_mark hg
    refine .script hc ?_ (fail1_grows h hp hg5)
    rintro ⟨e', he⟩
    obtain ⟨y, L, rfl⟩ := List.exists_cons_of_ne_nil (fail1_ne h hp)
    obtain ⟨x', L', rfl, ⟨rfl, -⟩ | ⟨-, h⟩⟩ := grows_cons hg5
    · exact hb ⟨e', he⟩
    · cases he
      exact (changed_mark h).2 _ rfl
  | _, _, _, .inRoot h, hp, _, hg => by
    obtain ⟨L', rfl, hg'⟩ := grows_next hg (by simp)
    obtain ⟨L', rfl, hg6⟩ := grows_mark hg'
    exact .inRoot (failIn_grows h hp hg6)
  | _, _, _, .root hi h, hp, _, hg => by
    obtain ⟨L', rfl, hg'⟩ := grows_next hg (by simp)
    obtain ⟨L', rfl, hg7⟩ := grows_mark hg'
    obtain ⟨L1', hi', hg8⟩ := items_grows hi (failArgs_ne h hp) hg7
    exact .root hi' (failArgs_grows h hp hg8)
  | _, _, _, .args hk hb h, hp, _, hg => by
    obtain ⟨L', rfl, hg'⟩ := grows_next hg (failArgs_ne h hp)
    refine .args hk (fun ht => ?_) (failArgs_grows h hp hg')
    rintro ⟨e', he⟩
    obtain ⟨y, L, rfl⟩ := List.exists_cons_of_ne_nil (failArgs_ne h hp)
    obtain ⟨x', L', rfl, ⟨rfl, -⟩ | ⟨-, h⟩⟩ := grows_cons hg'
    · exact hb ht ⟨e', he⟩
    · cases he
      exact (changed_mark h).2 _ rfl
theorem failIn_grows : ∀ {m u L p}, FailIn m u L p → ¬ EndPanic p → ∀ {L2}, Grows L L2 → FailIn m u L2 p
  | _, u, _, _, .here hu h, hp, _, hg => by
    have h' := fail1_grows h hp hg
    obtain ⟨x', L', rfl, ⟨rfl, -⟩ | ⟨-, hc⟩⟩ := grows_cons hg
    · exact .here hu h'
    · refine .here (fun he => ?_) h'
      have := (changed_mark hc).2
      cases u <;> simp [Until.mark] at he
      · exact this _ he.symm
      · exact this _ he.symm
      · exact this _ he.symm
  | _, _, _, _, .later hu h1 h2, hp, _, hg => by
    obtain ⟨L', L1', rfl, h1', hg'⟩ := item1_grows h1 (failIn_ne h2) hg
    exact .later hu h1' (failIn_grows h2 hp hg')
theorem failArgs_grows : ∀ {m n L p}, FailArgs m n L p → ¬ EndPanic p → ∀ {L2}, Grows L L2 → FailArgs m n L2 p
  | _, _, _, _, .eof, hp, _, _ => absurd end_expected hp
  | _, _, _, _, .wrong, hp, _, hg => by
    obtain ⟨x', L', rfl, ⟨rfl, -⟩ | ⟨-, h⟩⟩ := grows_cons hg
    · exact .wrong
    · rcases h with ⟨h1, -⟩ | ⟨h1, -⟩ | ⟨t, t', h1, -⟩ <;> cases h1
  | _, _, _, _, .other _ _, hp, _, _ => absurd end_expected hp
  | _, _, _, _, .inside h, hp, _, hg => by
    obtain ⟨L', rfl, hg9⟩ := grows_mark hg
    exact .inside (failIn_grows h hp hg9)
  | _, _, _, _, .later hi h, hp, _, hg => by
    obtain ⟨L', rfl, hg10⟩ := grows_mark hg
    obtain ⟨L1', hi', hg11⟩ := items_grows hi (failArgs_ne h hp) hg10
    exact .later hi' (failArgs_grows h hp hg11)
end

/-! ## The lexemes of a text that goes on -/

/-- The first lexeme of a text that begins with a character that is not a line break and begins a lexeme. -/
theorem reads_head {o : Nat} {c : Ch} {r : List Ch} {L : List Lexed} (h : Reads U o (c :: r) L) (hb : isBreak c.r = false) (hs : ¬ Stuck U c.r) :
    ∃ a k rest e L', c :: r = c :: a ++ rest ∧ Lexeme U (c :: a) k rest ∧ L = ⟨k, o, e⟩ :: L' := by
  generalize hx : c :: r = x at h
  cases h with
  | done hw =>
    subst hx
    have := hw c (by simp)
    rw [hb] at this; cases this
  | @stuck _ w d rest hw hd =>
    cases w with
    | nil => cases hx; exact absurd hd hs
    | cons f w =>
      cases hx
      have := hw c (by simp)
      rw [hb] at this; cases this
  | @more _ w a k rest L' hw hl hr =>
    cases w with
    | nil =>
      obtain ⟨d, b, rfl, -⟩ := lexeme_start hl
      simp only [List.nil_append, List.cons_append] at hx
      injection hx with h1 h2
      subst h1
      exact ⟨b, k, rest, _, L', by simp, hl, rfl⟩
    | cons f w =>
      cases hx
      have := hw c (by simp)
      rw [hb] at this; cases this

section
variable {n : Ch} {y : List Ch}

theorem head_nl (hn : n.r = 10) (a : List Ch) (P : Nat → Prop) (hP : P 10) (h : ∀ c, (a ++ []).head? = some c → P c.r) :
    ∀ c, (a ++ n :: y).head? = some c → P c.r := by
  intro c hc
  cases a with
  | nil => cases hc; rw [hn]; exact hP
  | cons d a => exact h c hc

theorem run_nl (hn : n.r = 10) {p : Nat → Bool} (hp : p 10 = false) {a b : List Ch} (h : Run p a (b ++ [])) : Run p a (b ++ n :: y) :=
  ⟨h.1, head_nl hn b (fun r => p r = false) hp h.2⟩

theorem exponent_nl (hn : n.r = 10) {a : List Ch} (h : Exponent a []) : Exponent a (n :: y) := by
  cases h with
  | none h => exact .none (head_nl hn [] (fun r => r ∉ bs!"eEpP") (by decide) h)
  | some h1 h2 h3 => exact .some h1 (head_nl hn _ (fun r => r ∉ bs!"+-") (by decide) h2) (run_nl (b := []) hn (by decide) h3)
  | signed h1 h2 h3 => exact .signed h1 h2 (run_nl (b := []) hn (by decide) h3)

theorem fraction_nl (hn : n.r = 10) {p : Nat → Bool} (hp : p 10 = false) {a b : List Ch} (h : Fraction p a (b ++ [])) : Fraction p a (b ++ n :: y) := by
  cases h with
  | none h => exact .none (head_nl hn b (fun r => r ≠ ch!".") (by decide) h)
  | some h1 h2 => exact .some h1 (run_nl hn hp h2)

theorem begins_nl (hn : n.r = 10) {p : Nat → Bool} {a b : List Ch} (h : Begins a p (b ++ [])) : Begins a p (b ++ n :: y) ∧ p 10 = false := by
  cases h with
  | hex h1 h2 => exact ⟨.hex h1 h2, by decide⟩
  | other h1 h2 => exact ⟨.other h1 h2, by decide⟩
  | digit h1 h2 => exact ⟨.digit h1 fun h => head_nl hn b (fun r => r ∉ bs!"xXoObB") (by decide) (h2 h), by decide⟩

theorem number_nl (hn : n.r = 10) {a : List Ch} (h : Number a []) : Number a (n :: y) := by
  cases h with
  | mk h1 h2 h3 h4 =>
    obtain ⟨h1', hp⟩ := begins_nl (y := y) hn h1
    exact .mk h1' (run_nl hn hp h2) (fraction_nl hn hp h3) (exponent_nl hn h4)
  | dot h1 h2 h3 h4 => exact .dot h1 h2 (run_nl hn (by decide) h3) (exponent_nl hn h4)

theorem letter_nl : isLetter U 10 = false := by
  cases h : isLetter U 10 with
  | false => rfl
  | true => have := letter_range h (by decide); omega
end

theorem reads_grow {o : Nat} {cs : List Ch} {L : List Lexed} (h : Reads U o cs L) (hW : ∀ c ∈ cs, c.Ok) {n : Ch} {y : List Ch} (hn : n.r = 10)
    (hy : ∀ c ∈ n :: y, c.Ok) : ∃ L2, Reads U o (cs ++ n :: y) L2 ∧ Grows L L2 := by
  induction h with
  | @done o w hw =>
    obtain ⟨L2, h2⟩ := reads_total (U := U) _ ⟨w ++ n :: y, o⟩ (Nat.lt_succ_self _)
      (fun c hc => (List.mem_append.1 hc).elim (hW c) (hy c))
    exact ⟨L2, h2, .nil⟩
  | @stuck o w c rest hw hc =>
    rw [List.append_assoc, List.cons_append]
    exact ⟨_, .stuck hw hc, .cons .nil⟩
  | @more o w a k rest L hw hl hr ih =>
    obtain ⟨L2, h2, hg⟩ := ih (fun c hc => hW c (by simp [hc]))
    have same : Lexeme U a k (rest ++ n :: y) → ∃ L2, Reads U o (w ++ a ++ rest ++ n :: y) L2 ∧
        Grows (⟨k, o + (bytesOf w).length, o + (bytesOf w).length + (bytesOf a).length⟩ :: L) L2 := fun hl' => by
      rw [List.append_assoc (w ++ a)]
      exact ⟨_, .more hw hl' h2, .cons hg⟩
    cases rest with
    | cons d rest => exact same (lexeme_after hl ⟨by simp, .inl rfl⟩)
    | nil =>
      have hL : L = [] := by
        generalize hz : ([] : List Ch) = z at hr
        cases hr with
        | done => rfl
        | stuck => simp at hz
        | more _ hl' _ =>
          obtain ⟨_, _, rfl, _⟩ := lexeme_start hl'
          simp at hz
      subst hL
      have other : ∀ c b, a = c :: b → isBreak c.r = false → ¬ Stuck U c.r →
          (∀ b' k' rest' e e', Lexeme U (c :: b') k' rest' → c :: b ++ n :: y = c :: b' ++ rest' → Changed ⟨k, o + (bytesOf w).length, e⟩ ⟨k', o + (bytesOf w).length, e'⟩) →
          ∃ L2, Reads U o (w ++ a ++ [] ++ n :: y) L2 ∧
            Grows [⟨k, o + (bytesOf w).length, o + (bytesOf w).length + (bytesOf a).length⟩] L2 := by
        rintro c b rfl hb hs hch
        obtain ⟨L3, h3⟩ := reads_total (U := U) _ ⟨c :: b ++ n :: y, o + (bytesOf w).length⟩ (Nat.lt_succ_self _)
          (fun c hc => (List.mem_append.1 hc).elim (fun hc => hW c (by simp only [List.mem_append]; exact .inl (.inr hc))) (hy c))
        obtain ⟨b', k', rest', e', L', e1, hl', rfl⟩ := reads_head h3 hb hs
        have h4 := (reads_breaks hw _ _).2 h3
        rw [← List.append_assoc] at h4
        exact ⟨⟨k', o + (bytesOf w).length, e'⟩ :: L', by rw [List.append_nil]; exact h4, .last (hch b' k' rest' _ e' hl' e1)⟩
      cases hl with
      | word h1 h2 => exact same (.word h1 (run_nl (b := []) hn letter_nl h2))
      | number h => exact same (.number (number_nl hn h))
      | blank h => exact same (.blank h)
      | escaped h1 h3 => exact same (.escaped h1 h3)
      | mark h1 h2 => exact same (.mark h1 fun h => head_nl hn [] (fun r => r ∉ bs!"0123456789") (by decide) (h2 h))
      | @comment c b _ h1 h2 =>
        refine other _ _ rfl (by rw [h1]; rfl) (fun hs => hs.2.1 (by rw [h1]; decide)) fun b' k' rest' e e' hl' _ => ?_
        have : k' = .comment := by
          cases hl' with
          | word h => rw [h1] at h; exact absurd (letter_range h (by decide)) (by decide)
          | number h => rcases number_head h with h | ⟨h, -⟩ <;> rw [h1] at h <;> exact absurd h (by decide)
          | blank h => rw [h1] at h; cases h
          | escaped h => rw [h1] at h; cases h
          | comment => rfl
          | name h => rw [h1] at h; cases h
          | quoted h => rw [h1] at h; cases h
          | mark h => rw [h1] at h; exact absurd h (by decide)
        exact .inl ⟨rfl, this⟩
      | @quoted c b _ h1 h2 =>
        refine other _ _ rfl (by rw [h1]; rfl) (fun hs => hs.2.1 (by rw [h1]; decide)) fun b' k' rest' e e' hl' _ => ?_
        have : k' = .quoted := by
          cases hl' with
          | word h => rw [h1] at h; exact absurd (letter_range h (by decide)) (by decide)
          | number h => rcases number_head h with h | ⟨h, -⟩ <;> rw [h1] at h <;> exact absurd h (by decide)
          | blank h => rw [h1] at h; cases h
          | escaped h => rw [h1] at h; cases h
          | comment h => rw [h1] at h; cases h
          | name h => rw [h1] at h; cases h
          | quoted => rfl
          | mark h => rw [h1] at h; exact absurd h (by decide)
        exact .inr (.inl ⟨rfl, this⟩)
      | @name c v b _ h1 h2 h3 h4 =>
        have h2' := head_nl (y := y) hn (v ++ b) (fun r => r ≠ ch!" ") (by decide) h2
        have odd : (bs!"\\" ++ bytesOf b = bs!"\\" ∨ ∃ u, bs!"\\" ++ bytesOf b = bs!"\\\"" ++ u) →
            ∃ L2, Reads U o (w ++ (c :: v ++ b) ++ [] ++ n :: y) L2 ∧
            Grows [⟨.name (bs!"\\" ++ bytesOf b), o + (bytesOf w).length, o + (bytesOf w).length + (bytesOf (c :: v ++ b)).length⟩] L2 := by
          intro hodd
          refine other c (v ++ b) rfl (by rw [h1]; rfl) (fun hs => hs.2.1 (by rw [h1]; decide)) fun b' k' rest' e e' hl' he => ?_
          have : ∃ t', k' = .name t' := by
            cases hl' with
            | word h => rw [h1] at h; exact absurd (letter_range h (by decide)) (by decide)
            | number h => rcases number_head h with h | ⟨h, -⟩ <;> rw [h1] at h <;> exact absurd h (by decide)
            | blank h => rw [h1] at h; cases h
            | escaped h h' =>
              simp only [List.cons_append] at he
              injection he with _ he
              exact absurd h' (h2' _ (by rw [he]; rfl))
            | comment h => rw [h1] at h; cases h
            | name => exact ⟨_, rfl⟩
            | quoted h => rw [h1] at h; cases h
            | mark h => rw [h1] at h; exact absurd h (by decide)
          obtain ⟨t', ht⟩ := this
          exact .inr (.inr ⟨_, t', rfl, ht, hodd⟩)
        have h2'' : ∀ c, (v ++ b ++ ([] ++ n :: y)).head? = some c → c.r ≠ ch!" " := h2'
        cases h4 with
        | nothing => exact odd (.inl rfl)
        | @quoted q b _ h5 h6 =>
          have hq := (hW q (by simp)).1.2 (by rw [h5]; decide)
          exact odd (.inr ⟨bytesOf b, by simp [bytesOf, hq, h5]⟩)
        | word h5 h6 => exact same (.name h1 h2'' h3 (.word h5 (run_nl (b := []) hn letter_nl h6)))
        | number h => exact same (.name h1 h2'' h3 (.number (number_nl hn h)))
        | char h5 h6 h7 => exact same (.name h1 h2'' h3 (.char h5 h6 fun h => head_nl hn [] (fun r => r ∉ bs!"0123456789") (by decide) (h7 h)))

end Verif
