import Verif.Lemmas.Hope
import Mathlib.Tactic.Common
/-! # The lexemes of a source that goes on -/

namespace Verif
open Spec
variable {U : Nat → Bool}

abbrev nlCh : Ch := ⟨10, [10]⟩

/-- A quoted string that ends with the text is closed, or closed by a line break. -/
theorem quoted_break {a z : List Ch} (h : Quoted a z) (hz : z = []) : (∀ rest, Quoted a rest) ∨ ∀ rest, Quoted (a ++ [nlCh]) rest := by
  induction h with
  | eof => exact .inr fun rest => .close (by decide)
  | close h => exact .inl fun rest => .close h
  | guarded h1 h2 h ih =>
    rcases ih hz with ih | ih
    · exact .inl fun rest => .guarded h1 h2 (ih rest)
    · exact .inr fun rest => .guarded h1 h2 (ih rest)
  | @plain c a z h1 h2 h ih =>
    subst hz
    cases a with
    | nil =>
      refine .inr fun rest => .plain h1 (fun _ d hd => ?_) (.close (by decide))
      cases hd; decide
    | cons d a =>
      rcases ih rfl with ih | ih
      · exact .inl fun rest => .plain h1 h2 (ih rest)
      · exact .inr fun rest => .plain h1 h2 (ih rest)

/-- A comment that ends with the text ends with the next line break, or the one after it. -/
theorem comment_break {a z : List Ch} (h : Comment a z) (hz : z = []) :
    (∀ rest, Comment a rest) ∨ (∀ rest, Comment (a ++ [nlCh]) rest) ∨ ∀ rest, Comment (a ++ [nlCh, nlCh]) rest := by
  induction h with
  | eof => exact .inr (.inl fun rest => .close rfl)
  | close h => exact .inl fun rest => .close h
  | plain h1 h ih =>
    rcases ih hz with ih | ih | ih
    · exact .inl fun rest => .plain h1 (ih rest)
    · exact .inr (.inl fun rest => .plain h1 (ih rest))
    · exact .inr (.inr fun rest => .plain h1 (ih rest))
  | @quoted q a b z h1 h2 h ih =>
    subst hz
    by_cases hb : b = []
    · subst hb
      rcases quoted_break h2 rfl with h3 | h3
      · refine .inr (.inl fun rest => ?_)
        have := Comment.quoted (q := q) (a := a) (b := [nlCh]) (rest := rest) h1 (h3 _) (.close rfl)
        simpa using this
      · refine .inr (.inr fun rest => ?_)
        have := Comment.quoted (q := q) (a := a ++ [nlCh]) (b := [nlCh]) (rest := rest) h1 (h3 _) (.close rfl)
        simpa using this
    · have aft : ∀ w, Quoted a (b ++ w) := fun w => quoted_after h2 ⟨by simp [hb], .inl (by
        obtain ⟨d, b, rfl⟩ := List.exists_cons_of_ne_nil hb
        rfl)⟩
      rcases ih rfl with ih | ih | ih
      · exact .inl fun rest => .quoted h1 (aft _) (ih rest)
      · refine .inr (.inl fun rest => ?_)
        have := Comment.quoted (q := q) (a := a) (b := b ++ [nlCh]) (rest := rest) h1 (by rw [List.append_assoc]; exact aft _) (ih rest)
        simpa using this
      · refine .inr (.inr fun rest => ?_)
        have := Comment.quoted (q := q) (a := a) (b := b ++ [nlCh, nlCh]) (rest := rest) h1 (by rw [List.append_assoc]; exact aft _) (ih rest)
        simpa using this

theorem odd_exists : ∃ f : GoString, ∃ u, f = bs!"\\\"" ++ u := ⟨_, [], rfl⟩

theorem turn_refl (x : Lexed) : ∃ f, (∃ u, f = bs!"\\\"" ++ u) ∧ Turn f x x := by
  by_cases h : ∃ u, x.lex = .name (bs!"\\\"" ++ u)
  · obtain ⟨u, h⟩ := h
    exact ⟨_, ⟨u, rfl⟩, .inr (.inr (.inr (.inr ⟨⟨u, h⟩, h⟩)))⟩
  · obtain ⟨f, hf⟩ := odd_exists
    by_cases h' : x.lex = .name bs!"\\"
    · exact ⟨f, hf, .inr (.inr (.inr (.inl ⟨h', _, h'⟩)))⟩
    · exact ⟨f, hf, .inl ⟨rfl, h', fun u hu => h ⟨u, hu⟩⟩⟩

theorem reads_nil {o : Nat} {L : List Lexed} {z : List Ch} (hr : Reads U o z L) (hz : z = []) : L = [] := by
  cases hr with
  | done => rfl
  | stuck => simp at hz
  | more _ hl' _ =>
    obtain ⟨_, _, rfl, _⟩ := lexeme_start hl'
    simp at hz

/-- What the first lexeme is by its first character. -/
theorem lexeme_comment {c : Ch} {b rest : List Ch} {k : Lex} (h1 : c.r = ch!"%") (hl' : Lexeme U (c :: b) k rest) : k = .comment := by
  cases hl' with
  | word h => rw [h1] at h; exact absurd (letter_range h (by decide)) (by decide)
  | number h => rcases number_head h with h | ⟨h, -⟩ <;> rw [h1] at h <;> exact absurd h (by decide)
  | blank h => rw [h1] at h; cases h
  | escaped h => rw [h1] at h; cases h
  | comment => rfl
  | name h => rw [h1] at h; cases h
  | quoted h => rw [h1] at h; cases h
  | mark h => rw [h1] at h; exact absurd h (by decide)
theorem lexeme_quoted {c : Ch} {b rest : List Ch} {k : Lex} (h1 : c.r = ch!"\"") (hl' : Lexeme U (c :: b) k rest) : k = .quoted := by
  cases hl' with
  | word h => rw [h1] at h; exact absurd (letter_range h (by decide)) (by decide)
  | number h => rcases number_head h with h | ⟨h, -⟩ <;> rw [h1] at h <;> exact absurd h (by decide)
  | blank h => rw [h1] at h; cases h
  | escaped h => rw [h1] at h; cases h
  | comment h => rw [h1] at h; cases h
  | name h => rw [h1] at h; cases h
  | quoted => rfl
  | mark h => rw [h1] at h; exact absurd h (by decide)
theorem lexeme_name {c : Ch} {b rest : List Ch} {k : Lex} (h1 : c.r = ch!"\\") (h2 : ∀ d, (b ++ rest).head? = some d → d.r ≠ ch!" ")
    (hl' : Lexeme U (c :: b) k rest) : ∃ t, k = .name t := by
  cases hl' with
  | word h => rw [h1] at h; exact absurd (letter_range h (by decide)) (by decide)
  | number h => rcases number_head h with h | ⟨h, -⟩ <;> rw [h1] at h <;> exact absurd h (by decide)
  | blank h => rw [h1] at h; cases h
  | escaped h h' => exact absurd h' (h2 _ rfl)
  | comment h => rw [h1] at h; cases h
  | name => exact ⟨_, rfl⟩
  | quoted h => rw [h1] at h; cases h
  | mark h => rw [h1] at h; exact absurd h (by decide)

/-- What a lexeme at the end of the text becomes: it stays, it is a comment, a quoted string, or a name that is empty or quoted. -/
theorem lexeme_last {a : List Ch} {k : Lex} (hW : ∀ c ∈ a, c.Ok) (h : Lexeme U a k []) : (k ≠ .name bs!"\\" ∧ ∀ y, Lexeme U a k (nlCh :: y)) ∨
    (∃ c b, a = c :: b ∧ c.r = ch!"%" ∧ k = .comment ∧ Comment b []) ∨ (∃ c b, a = c :: b ∧ c.r = ch!"\"" ∧ k = .quoted ∧ Quoted b []) ∨
    (∃ c v, a = c :: v ∧ c.r = ch!"\\" ∧ (∀ c ∈ v, isBreak c.r = true) ∧ k = .name bs!"\\") ∨
    ∃ c v q b, a = c :: (v ++ q :: b) ∧ c.r = ch!"\\" ∧ (∀ c ∈ v, isBreak c.r = true) ∧ q.r = ch!"\"" ∧ k = .name (bs!"\\" ++ bytesOf (q :: b)) ∧ Quoted b [] := by
  have hn : nlCh.r = 10 := rfl
  cases h with
  | word h1 h2 => exact .inl ⟨nofun, fun y => .word h1 (run_nl (b := []) hn letter_nl h2)⟩
  | number h => exact .inl ⟨nofun, fun y => .number (number_nl hn h)⟩
  | blank h => exact .inl ⟨nofun, fun y => .blank h⟩
  | escaped h1 h3 => exact .inl ⟨nofun, fun y => .escaped h1 h3⟩
  | mark h1 h2 => exact .inl ⟨nofun, fun y => .mark h1 fun h => head_nl hn [] (fun r => r ∉ bs!"0123456789") (by decide) (h2 h)⟩
  | comment h1 h2 => exact .inr (.inl ⟨_, _, rfl, h1, rfl, h2⟩)
  | quoted h1 h2 => exact .inr (.inr (.inl ⟨_, _, rfl, h1, rfl, h2⟩))
  | @name c v b _ h1 h2 h3 h4 =>
    have h2' : ∀ y, ∀ c, (v ++ b ++ nlCh :: y).head? = some c → c.r ≠ ch!" " := fun y => head_nl hn (v ++ b) (fun r => r ≠ ch!" ") (by decide) h2
    by_cases hb : b = []
    · subst hb
      refine .inr (.inr (.inr (.inl ⟨c, v, by simp, h1, h3, rfl⟩)))
    have hne : (Lex.name (bs!"\\" ++ bytesOf b)) ≠ .name bs!"\\" := by
      intro h
      injection h with h
      have : bytesOf b = [] := by simpa using h
      exact hb (bytesOf_eq_nil (fun c hc => hW c (by simp [hc])) this)
    cases h4 with
    | nothing => exact absurd rfl hb
    | @quoted q b _ h5 h6 => exact .inr (.inr (.inr (.inr ⟨c, v, q, b, by simp, h1, h3, h5, rfl, h6⟩)))
    | word h5 h6 => exact .inl ⟨hne, fun y => .name h1 (h2' y) h3 (.word h5 (run_nl (b := []) hn letter_nl h6))⟩
    | number h => exact .inl ⟨hne, fun y => .name h1 (h2' y) h3 (.number (number_nl hn h))⟩
    | char h5 h6 h7 =>
      exact .inl ⟨hne, fun y => .name h1 (h2' y) h3 (.char h5 h6 fun h => head_nl hn [] (fun r => r ∉ bs!"0123456789") (by decide) (h7 h))⟩

theorem not_bare {a rest : List Ch} {k : Lex} (hW : ∀ c ∈ a, c.Ok) (h : Lexeme U a k rest) (hr : rest ≠ []) : k ≠ .name bs!"\\" := by
  cases h with
  | @name c v b _ h1 h2 h3 h4 =>
    intro h
    injection h with h
    have : bytesOf b = [] := by simpa using h
    exact name_ne h4 hr (bytesOf_eq_nil (fun c hc => hW c (by simp [hc])) this)
  | _ => nofun

/-- Whatever is written on the next line, the lexemes are these, but for the last. -/
theorem reads_turn {o : Nat} {cs : List Ch} {L : List Lexed} (h : Reads U o cs L) (hW : ∀ c ∈ cs, c.Ok) :
    ∃ f, (∃ u, f = bs!"\\\"" ++ u) ∧ ∀ y, (∀ c ∈ nlCh :: y, c.Ok) → ∃ L2, Reads U o (cs ++ nlCh :: y) L2 ∧ Onward (Turn f) (fun _ => True) L L2 := by
  induction h with
  | @done o w hw =>
    obtain ⟨f, hf⟩ := odd_exists
    refine ⟨f, hf, fun y hy => ?_⟩
    obtain ⟨L2, h2⟩ := reads_total (U := U) _ ⟨w ++ nlCh :: y, o⟩ (Nat.lt_succ_self _)
      (fun c hc => (List.mem_append.1 hc).elim (hW c) (hy c))
    exact ⟨L2, h2, .nil trivial⟩
  | @stuck o w c rest hw hc =>
    obtain ⟨f, hf, ht⟩ := turn_refl ⟨.wrong c.r, o + (bytesOf w).length, o + (bytesOf w).length⟩
    refine ⟨f, hf, fun y hy => ?_⟩
    rw [List.append_assoc, List.cons_append]
    exact ⟨_, .stuck hw hc, .last ht trivial⟩
  | @more o w a k rest L hw hl hr ih =>
    obtain ⟨f, hf, ih⟩ := ih (fun c hc => hW c (by simp [hc]))
    have same : (∀ y, Lexeme U a k (rest ++ nlCh :: y)) → ∃ f, (∃ u, f = bs!"\\\"" ++ u) ∧ ∀ y, (∀ c ∈ nlCh :: y, c.Ok) →
        ∃ L2, Reads U o (w ++ a ++ rest ++ nlCh :: y) L2 ∧
        Onward (Turn f) (fun _ => True) (⟨k, o + (bytesOf w).length, o + (bytesOf w).length + (bytesOf a).length⟩ :: L) L2 := fun hl' => by
      by_cases hL : L = []
      · subst hL
        obtain ⟨f, hf, ht⟩ := turn_refl ⟨k, o + (bytesOf w).length, o + (bytesOf w).length + (bytesOf a).length⟩
        refine ⟨f, hf, fun y hy => ?_⟩
        obtain ⟨L2, h2, -⟩ := ih y hy
        rw [List.append_assoc (w ++ a)]
        exact ⟨_, .more hw (hl' y) h2, .last ht trivial⟩
      · refine ⟨f, hf, fun y hy => ?_⟩
        obtain ⟨L2, h2, hg⟩ := ih y hy
        rw [List.append_assoc (w ++ a)]
        exact ⟨_, .more hw (hl' y) h2, .cons hL hg⟩
    cases rest with
    | cons d rest => exact same fun y => lexeme_after hl ⟨by simp, .inl rfl⟩
    | nil =>
      obtain rfl := reads_nil hr rfl
      have hWa : ∀ c ∈ a, c.Ok := fun c hc => hW c (by simp [hc])
      have other : ∀ f, (∃ u, f = bs!"\\\"" ++ u) → ∀ c b, a = c :: b → isBreak c.r = false → ¬ Stuck U c.r →
          (∀ y b' k' rest' e e', Lexeme U (c :: b') k' rest' → c :: b ++ nlCh :: y = c :: b' ++ rest' → Turn f ⟨k, o + (bytesOf w).length, e⟩ ⟨k', o + (bytesOf w).length, e'⟩) →
          ∃ f, (∃ u, f = bs!"\\\"" ++ u) ∧ ∀ y, (∀ c ∈ nlCh :: y, c.Ok) → ∃ L2, Reads U o (w ++ a ++ [] ++ nlCh :: y) L2 ∧
            Onward (Turn f) (fun _ => True) [⟨k, o + (bytesOf w).length, o + (bytesOf w).length + (bytesOf a).length⟩] L2 := by
        rintro f hf c b rfl hb hs hch
        refine ⟨f, hf, fun y hy => ?_⟩
        obtain ⟨L3, h3⟩ := reads_total (U := U) _ ⟨c :: b ++ nlCh :: y, o + (bytesOf w).length⟩ (Nat.lt_succ_self _)
          (fun c hc => (List.mem_append.1 hc).elim (hWa c) (hy c))
        obtain ⟨b', k', rest', e', L', e1, hl', rfl⟩ := reads_head h3 hb hs
        have h4 := (reads_breaks hw _ _).2 h3
        rw [← List.append_assoc] at h4
        exact ⟨⟨k', o + (bytesOf w).length, e'⟩ :: L', by rw [List.append_nil]; exact h4, .last (hch y b' k' rest' _ e' hl' e1) trivial⟩
      have hf0 : ∃ u, bs!"\\\"" = bs!"\\\"" ++ u := ⟨[], rfl⟩
      rcases lexeme_last hWa hl with ⟨-, h⟩ | ⟨c, b, e, h1, rfl, h2⟩ | ⟨c, b, e, h1, rfl, h2⟩ | ⟨c, v, e, h1, h2, rfl⟩ | ⟨c, v, q, b, e, h1, h2, h3, rfl, h4⟩
      · exact same h
      · exact other _ hf0 c b e (by rw [h1]; rfl) (fun hs => hs.2.1 (by rw [h1]; decide)) fun y b' k' rest' e e' hl' _ =>
          .inr (.inl ⟨rfl, lexeme_comment h1 hl'⟩)
      · exact other _ hf0 c b e (by rw [h1]; rfl) (fun hs => hs.2.1 (by rw [h1]; decide)) fun y b' k' rest' e e' hl' _ =>
          .inr (.inr (.inl ⟨rfl, lexeme_quoted h1 hl'⟩))
      · refine other _ hf0 c v e (by rw [h1]; rfl) (fun hs => hs.2.1 (by rw [h1]; decide)) fun y b' k' rest' e e' hl' he =>
          .inr (.inr (.inr (.inl ⟨rfl, lexeme_name h1 (fun d hd => ?_) hl'⟩)))
        rw [List.cons_append, List.cons_append] at he
        injection he with _ he
        rw [← he] at hd
        cases v with
        | nil => cases hd; decide
        | cons f v =>
          cases hd
          have := h2 d (by simp)
          intro h; rw [h] at this; cases this
      · subst e
        have hspace : ∀ z, ∀ d, (v ++ (q :: b ++ z)).head? = some d → d.r ≠ ch!" " := by
          intro z d hd
          cases v with
          | nil => cases hd; rw [h3]; decide
          | cons f v =>
            cases hd
            have := h2 d (by simp)
            intro h; rw [h] at this; cases this
        have hq : bytesOf (q :: b) = 34 :: bytesOf b := by
          have := (hWa q (by simp)).1.2 (by rw [h3]; decide)
          simp [bytesOf, this, h3]
        rcases quoted_break h4 rfl with h5 | h5
        · refine same fun y => ?_
          have := Lexeme.name (U := U) (b := c) (w := v) (a := q :: b) (rest := nlCh :: y) h1 (by simpa using hspace (nlCh :: y)) h2 (.quoted h3 (h5 _))
          simpa using this
        · refine ⟨bs!"\\" ++ bytesOf (q :: (b ++ [nlCh])), ?_, fun y hy => ?_⟩
          · have : bytesOf (q :: (b ++ [nlCh])) = 34 :: bytesOf (b ++ [nlCh]) := by
              have := (hWa q (by simp)).1.2 (by rw [h3]; decide)
              simp [bytesOf, this, h3]
            exact ⟨bytesOf (b ++ [nlCh]), by rw [this]; rfl⟩
          · have hx := Lexeme.name (U := U) (b := c) (w := v) (a := q :: (b ++ [nlCh])) (rest := y) h1
              (by have := hspace (nlCh :: y); simpa using this) h2 (.quoted h3 (h5 _))
            obtain ⟨L2, h6⟩ := reads_total (U := U) _ ⟨y, o + (bytesOf w).length + (bytesOf (c :: v ++ q :: (b ++ [nlCh]))).length⟩ (Nat.lt_succ_self _)
              (fun c hc => hy c (by simp [hc]))
            have h7 := Reads.more hw hx h6
            rw [show w ++ c :: (v ++ q :: b) ++ [] ++ nlCh :: y = w ++ (c :: v ++ q :: (b ++ [nlCh])) ++ y by simp]
            refine ⟨_, h7, .last (.inr (.inr (.inr (.inr ⟨⟨bytesOf b, ?_⟩, rfl⟩)))) trivial⟩
            rw [hq]; rfl

/-- A lexeme of an accepted source. -/
def FineLex (x : Lexed) : Prop := (∀ r, x.lex ≠ .wrong r) ∧ ∀ t, x.lex = .name t → Known t

theorem fine_mark {c o e : Nat} : FineLex ⟨.mark c, o, e⟩ := ⟨nofun, nofun⟩
theorem fine_name {t : GoString} {o e : Nat} (h : Known t) : FineLex ⟨.name t, o, e⟩ := ⟨nofun, fun t' h' => by cases h'; exact h⟩
theorem fine_other {x : Lexed} (h1 : ∀ r, x.lex ≠ .wrong r) (h2 : ∀ t, x.lex ≠ .name t) : FineLex x := ⟨h1, fun t h => absurd h (h2 t)⟩

theorem known_sqrt : Known bs!"\\sqrt" := (knownOf (name := bs!"\\sqrt") (sig := bs!"OA") (by krfl)).1

theorem fine_one {x : Lexed} {L : List Lexed} (hx : FineLex x) : ∀ y ∈ x :: L, FineLex y ∨ y ∈ L := fun y hy => by
  rcases List.mem_cons.1 hy with rfl | hy
  · exact .inl hx
  · exact .inr hy
theorem fine_then {L L1 L2 : List Lexed} (h : ∀ y ∈ L, FineLex y ∨ y ∈ L1) (h' : ∀ y ∈ L1, FineLex y ∨ y ∈ L2) : ∀ y ∈ L, FineLex y ∨ y ∈ L2 :=
  fun y hy => (h y hy).elim .inl (h' y)

mutual
theorem item1_fine : ∀ {m L n L'}, Item1 m L n L' → ∀ y ∈ L, FineLex y ∨ y ∈ L'
  | _, _, _, _, .word => fine_one (fine_other nofun nofun)
  | _, _, _, _, .number => fine_one (fine_other nofun nofun)
  | _, _, _, _, .comment => fine_one (fine_other nofun nofun)
  | _, _, _, _, .blank => fine_one (fine_other nofun nofun)
  | _, _, _, _, .mathBlank => fine_one (fine_other nofun nofun)
  | _, _, _, _, .symbol _ => fine_one fine_mark
  | _, _, _, _, .math h => fine_then (fine_one fine_mark) (items_fine h)
  | _, _, _, _, .group h => fine_then (fine_one fine_mark) (items_fine h)
  | _, _, _, _, .supGroup h => fine_then (fine_one fine_mark) (fine_then (fine_one fine_mark) (items_fine h))
  | _, _, _, _, .sup h => fine_then (fine_one fine_mark) (item1_fine h)
  | _, _, _, _, .subGroup h => fine_then (fine_one fine_mark) (fine_then (fine_one fine_mark) (items_fine h))
  | _, _, _, _, .sub h => fine_then (fine_one fine_mark) (item1_fine h)
  | _, _, _, _, .root h1 h2 => fine_then (fine_one (fine_name known_sqrt)) (fine_then (fine_one fine_mark) (fine_then (items_fine h1) (args_fine h2)))
  | _, _, _, _, .macro hk h _ => fine_then (fine_one (fine_name hk)) (args_fine h)
theorem items_fine : ∀ {m u L l p L'}, Items m u L l p L' → ∀ y ∈ L, FineLex y ∨ y ∈ L'
  | _, _, _, _, _, _, .eof => nofun
  | _, u, _, _, _, _, .close h => fine_one (by cases u <;> cases h <;> exact fine_mark)
  | _, _, _, _, _, _, .item _ h1 h2 => fine_then (item1_fine h1) (items_fine h2)
theorem args_fine : ∀ {m n L l L'}, Args m n L l L' → ∀ y ∈ L, FineLex y ∨ y ∈ L'
  | _, _, _, _, _, .done => fun y hy => .inr hy
  | _, _, _, _, _, .more h1 h2 => fine_then (fine_one fine_mark) (fine_then (items_fine h1) (args_fine h2))
end

/-- There are always lexemes as `Onward KeptLex` says. -/
theorem kept_exists (Y : List Lexed) : ∀ L, ∃ L2, Onward KeptLex (· = Y) L L2 ∧ ∀ x ∈ L, x.lex = .name bs!"\\" ∨ x ∈ L2
  | [] => ⟨Y, .nil rfl, nofun⟩
  | [x] => by
    by_cases hx : x.lex = .name bs!"\\"
    · exact ⟨⟨.name bs!"\\alpha", x.start, x.stop⟩ :: Y, .last (.inr (.inr (.inr ⟨hx, rfl⟩))) rfl, fun y hy => by
        rw [List.mem_singleton.1 hy]; exact .inl hx⟩
    · exact ⟨x :: Y, .last (.inl ⟨rfl, hx⟩) rfl, fun y hy => by rw [List.mem_singleton.1 hy]; exact .inr List.mem_cons_self⟩
  | x :: z :: L => by
    obtain ⟨L2, h1, h2⟩ := kept_exists Y (z :: L)
    refine ⟨x :: L2, .cons (by simp) h1, fun y hy => ?_⟩
    rcases List.mem_cons.1 hy with rfl | hy
    · exact .inr List.mem_cons_self
    · exact (h2 y hy).imp id (List.mem_cons_of_mem _)

theorem nl_breaks : isBreak nlCh.r = true := rfl

/-- The text `s`, on the next line, lets what follows begin anew. -/
theorem reads_comp {o : Nat} {cs : List Ch} {L : List Lexed} (h : Reads U o cs L) (hW : ∀ c ∈ cs, c.Ok)
    (hL : ∀ x ∈ L, (∀ r, x.lex ≠ .wrong r) ∧ ∀ u, x.lex ≠ .name (bs!"\\\"" ++ u)) :
    ∃ s, (s = bs!"\n" ∨ s = bs!"alpha\n") ∧ ∀ y, ∃ o', ∀ L3, Reads U o' y L3 → ∃ L2, Reads U o (cs ++ nlCh :: ascii s ++ y) L2 ∧ Onward KeptLex (· = L3) L L2 := by
  induction h with
  | @done o w hw =>
    refine ⟨bs!"\n", .inl rfl, fun y => ⟨o + (bytesOf (w ++ [nlCh, nlCh])).length, fun L3 h3 => ⟨L3, ?_, .nil rfl⟩⟩⟩
    have hb : ∀ c ∈ w ++ [nlCh, nlCh], isBreak c.r = true := by
      intro c hc
      rcases List.mem_append.1 hc with hc | hc
      · exact hw c hc
      · simp only [List.mem_cons, List.not_mem_nil, or_false, or_self] at hc
        rw [hc]; rfl
    exact (reads_breaks hb o L3).2 h3
  | stuck => exact absurd rfl ((hL _ List.mem_cons_self).1 _)
  | @more o w a k rest L hw hl hr ih =>
    have hWa : ∀ c ∈ a, c.Ok := fun c hc => hW c (by simp [hc])
    cases rest with
    | cons d rest =>
      obtain ⟨s, hs, ih⟩ := ih (fun c hc => hW c (by simp [hc])) fun x hx => hL x (List.mem_cons_of_mem _ hx)
      refine ⟨s, hs, fun y => ?_⟩
      obtain ⟨o', ih⟩ := ih y
      refine ⟨o', fun L3 h3 => ?_⟩
      obtain ⟨L2, h2, hg⟩ := ih L3 h3
      have hl' : Lexeme U a k (d :: rest ++ nlCh :: ascii s ++ y) := lexeme_after hl ⟨by simp, .inl rfl⟩
      have := Reads.more hw hl' h2
      rw [← List.append_assoc, ← List.append_assoc] at this
      refine ⟨_, this, ?_⟩
      by_cases hL' : L = []
      · subst hL'
        cases hg with
        | nil hg => exact .last (.inl ⟨rfl, not_bare hWa hl (by simp)⟩) hg
      · exact .cons hL' hg
    | nil =>
      obtain rfl := reads_nil hr rfl
      -- the lexeme `a'`, which goes on up to `s'`
      have key : ∀ (s : GoString) (a' s' : List Ch) (k' : Lex), (s = bs!"\n" ∨ s = bs!"alpha\n") → a ++ nlCh :: ascii s = a' ++ s' → (∀ c ∈ s', isBreak c.r = true) →
          (∀ y, Lexeme U a' k' (s' ++ y)) → KeptLex ⟨k, o + (bytesOf w).length, o + (bytesOf w).length + (bytesOf a).length⟩ ⟨k', o + (bytesOf w).length, o + (bytesOf w).length + (bytesOf a').length⟩ →
          ∃ s, (s = bs!"\n" ∨ s = bs!"alpha\n") ∧ ∀ y, ∃ o', ∀ L3, Reads U o' y L3 → ∃ L2, Reads U o (w ++ a ++ [] ++ nlCh :: ascii s ++ y) L2 ∧
            Onward KeptLex (· = L3) [⟨k, o + (bytesOf w).length, o + (bytesOf w).length + (bytesOf a).length⟩] L2 := by
        intro s a' s' k' hs e hs' hl' hk
        refine ⟨s, hs, fun y => ⟨o + (bytesOf w).length + (bytesOf a').length + (bytesOf s').length, fun L3 h3 => ?_⟩⟩
        · have := Reads.more hw (hl' y) ((reads_breaks hs' _ _).2 h3)
          have e1 : w ++ a ++ [] ++ nlCh :: ascii s ++ y = w ++ a' ++ (s' ++ y) := by
            rw [List.append_nil, List.append_assoc w a, e]; simp
          rw [e1]
          exact ⟨_, this, .last hk rfl⟩
      have nl2 : ∀ c ∈ nlCh :: ascii bs!"\n", isBreak c.r = true := by decide
      have nl1 : ∀ c ∈ [nlCh], isBreak c.r = true := by decide
      rcases lexeme_last hWa hl with ⟨hk, h⟩ | ⟨c, b, e, h1, rfl, h2⟩ | ⟨c, b, e, h1, rfl, h2⟩ | ⟨c, v, e, h1, h2, rfl⟩ | ⟨c, v, q, b, e, h1, h2, h3, rfl, h4⟩
      · exact key bs!"\n" a (nlCh :: ascii bs!"\n") k (.inl rfl) rfl nl2 (fun y => h _) (.inl ⟨rfl, hk⟩)
      · subst e
        have kk : ∀ i e e', KeptLex ⟨.comment, i, e⟩ ⟨.comment, i, e'⟩ := fun _ _ _ => .inr (.inl ⟨rfl, rfl⟩)
        rcases comment_break h2 rfl with h3 | h3 | h3
        · exact key bs!"\n" (c :: b) _ _ (.inl rfl) rfl nl2 (fun y => .comment h1 (h3 _)) (kk _ _ _)
        · exact key bs!"\n" (c :: (b ++ [nlCh])) [nlCh] _ (.inl rfl) (by simp [ascii]) nl1 (fun y => .comment h1 (h3 _)) (kk _ _ _)
        · exact key bs!"\n" (c :: (b ++ [nlCh, nlCh])) [] _ (.inl rfl) (by simp [ascii]) nofun (fun y => .comment h1 (h3 _)) (kk _ _ _)
      · subst e
        have kk : ∀ i e e', KeptLex ⟨.quoted, i, e⟩ ⟨.quoted, i, e'⟩ := fun _ _ _ => .inr (.inr (.inl ⟨rfl, rfl⟩))
        rcases quoted_break h2 rfl with h3 | h3
        · exact key bs!"\n" (c :: b) _ _ (.inl rfl) rfl nl2 (fun y => .quoted h1 (h3 _)) (kk _ _ _)
        · exact key bs!"\n" (c :: (b ++ [nlCh])) [nlCh] _ (.inl rfl) (by simp [ascii]) nl1 (fun y => .quoted h1 (h3 _)) (kk _ _ _)
      · subst e
        refine key bs!"alpha\n" (c :: (v ++ [nlCh]) ++ ascii bs!"alpha") [nlCh] (.name bs!"\\alpha") (.inr rfl) (by simp [ascii]) nl1 (fun y => ?_)
          (.inr (.inr (.inr ⟨rfl, rfl⟩)))
        have hbr : ∀ c ∈ v ++ [nlCh], isBreak c.r = true := by
          intro c hc
          rcases List.mem_append.1 hc with hc | hc
          · exact h2 c hc
          · rw [List.mem_singleton.1 hc]; rfl
        have hx := Lexeme.name (U := U) (b := c) (w := v ++ [nlCh]) (a := ascii bs!"alpha") (rest := [nlCh] ++ y) h1 ?_ hbr
          (.word (c := ⟨97, [97]⟩) (a := ascii bs!"lpha") (by simp [isLetter]) ⟨by simp [ascii, isLetter], ?_⟩)
        · exact hx
        · intro d hd
          cases v with
          | nil => cases hd; decide
          | cons f v =>
            cases hd
            have := h2 d (by simp)
            intro h; rw [h] at this; cases this
        · intro d hd; cases hd; exact letter_nl
      · have hq : bytesOf (q :: b) = 34 :: bytesOf b := by
          have := (hWa q (by rw [e]; simp)).1.2 (by rw [h3]; decide)
          simp [bytesOf, this, h3]
        exact absurd (by rw [hq]; rfl) ((hL _ List.mem_cons_self).2 (bytesOf b))

/-- A text whose lexemes are of the given kinds. -/
theorem closers_text : ∀ ks : List Lex, (∀ k ∈ ks, k ∈ closers) → ∃ t : GoString, (∀ c ∈ t, c ∈ bs!"\nx{}]$") ∧ ∀ o, ∃ Y, Reads U o (ascii t) Y ∧ Y.map (·.lex) = ks
  | [], _ => ⟨[], nofun, fun o => ⟨[], .done nofun, rfl⟩⟩
  | k :: ks, h => by
    obtain ⟨t, h1, h2⟩ := closers_text ks fun k hk => h k (List.mem_cons_of_mem _ hk)
    have hk := h k List.mem_cons_self
    have key : ∀ c : Nat, c ∈ bs!"\nx{}]$" → (∀ y, Lexeme U [⟨c, [c]⟩] k (nlCh :: y)) →
        ∃ t : GoString, (∀ c ∈ t, c ∈ bs!"\nx{}]$") ∧ ∀ o, ∃ Y, Reads U o (ascii t) Y ∧ Y.map (·.lex) = k :: ks := by
      intro c hc hl
      refine ⟨c :: 10 :: t, fun d hd => ?_, fun o => ?_⟩
      · rcases List.mem_cons.1 hd with rfl | hd
        · exact hc
        · rcases List.mem_cons.1 hd with rfl | hd
          · decide
          · exact h1 d hd
      · obtain ⟨Y, h3, h4⟩ := h2 (o + (bytesOf []).length + (bytesOf [⟨c, [c]⟩]).length + (bytesOf [nlCh]).length)
        refine ⟨_, .more (w := []) (a := [⟨c, [c]⟩]) (rest := [nlCh] ++ ascii t) nofun (hl _) ((reads_breaks (by decide) _ _).2 h3), by simp [h4]⟩
    have mk : ∀ c ∈ bs!"{}]$", ∀ y, Lexeme U [⟨c, [c]⟩] (.mark c) (nlCh :: y) := by
      intro c hc y
      refine .mark (c := ⟨c, [c]⟩) ?_ fun h => ?_
      · simp only [List.mem_cons, List.not_mem_nil, or_false] at hc
        rcases hc with rfl | rfl | rfl | rfl <;> decide
      · intro d hd; cases hd; decide
    simp only [closers, List.mem_cons, List.not_mem_nil, or_false] at hk
    rcases hk with rfl | rfl | rfl | rfl | rfl
    · exact key 120 (by decide) fun y => .word (c := ⟨120, [120]⟩) (a := []) (by simp [isLetter]) ⟨by simp, fun d hd => by cases hd; exact letter_nl⟩
    · exact key 123 (by decide) (mk _ (by decide))
    · exact key 125 (by decide) (mk _ (by decide))
    · exact key 93 (by decide) (mk _ (by decide))
    · exact key 36 (by decide) (mk _ (by decide))
end Verif
