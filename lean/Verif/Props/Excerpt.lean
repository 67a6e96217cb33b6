import Verif.Lemmas.Excerpt
import Verif.Props.Template
/-!
# C97: parts of formulas are formulas

The positions in the tree can be used to cut a formula out of a source: what is between the dollar signs of a MathExpr, or, in math, between the
braces or brackets of an argument or the braces of a group, is a whole formula by itself, and its trees are those that the node has in the tree of the
source (but for the positions). With C93 it can then be put elsewhere.
-/

namespace Verif.Props
open Verif Spec
variable {U : Nat → Bool}

/-- A lexeme that is a character, and the characters around it. -/
theorem lexes_mark {o : Nat} {cs : List Ch} {A B : List Lexed} {c a e : Nat} (hW : ∀ k ∈ cs, k.Ok) (hc : c < 128) (h : Lexes U o cs (A ++ ⟨.mark c, a, e⟩ :: B)) :
    ∃ pre post, cs = pre ++ ⟨c, [c]⟩ :: post ∧ a = o + (bytesOf pre).length ∧ e = a + 1 ∧ Lexes U (a + 1) post B := by
  induction A generalizing o cs with
  | nil =>
    rw [List.nil_append] at h
    generalize hx : (⟨.mark c, a, e⟩ : Lexed) = x at h
    cases h with
    | @more _ w p k rest _ h1 h2 h3 =>
      simp only [Lexed.mk.injEq] at hx
      obtain ⟨hk, rfl, rfl⟩ := hx
      subst hk
      generalize hk : Lex.mark c = k at h2
      cases h2 <;> simp at hk
      rename_i c' _ _
      subst hk
      have hb : c'.b = [c'.r] := (hW c' (by simp)).1.2 hc
      have h1 : (bytesOf [c']).length = 1 := by simp [bytesOf, hb]
      refine ⟨w, rest, ?_, rfl, by rw [h1], ?_⟩
      · obtain ⟨r, b⟩ := c'
        dsimp only at hb
        subst hb
        simp
      · rw [h1] at h3
        exact h3
  | cons x A ih =>
    rw [List.cons_append] at h
    cases h with
    | @more _ w p k rest _ h1 h2 h3 =>
      obtain ⟨pre, post, rfl, e1, e2⟩ := ih (fun c hc => hW c (by simp only [List.mem_append]; tauto)) h3
      exact ⟨w ++ p ++ pre, post, by simp, by rw [e1, bytes_append, bytes_append]; omega, e2⟩

theorem until_mark {u : Until} {k : Lex} (h : u.mark = some k) : ∃ c, k = .mark c ∧ c < 128 ∧ c ∈ neutral ∧ (u = .dollar → c = ch!"$") ∧ (u = .brace → c = ch!"}") ∧ (u = .bracket → c = ch!"]") := by
  cases u <;> cases h
  · exact ⟨_, rfl, by decide, by decide, by simp, by simp, by simp⟩
  · exact ⟨_, rfl, by decide, by decide, by simp, by simp, by simp⟩
  · exact ⟨_, rfl, by decide, by decide, by simp, by simp, by simp⟩

/-- What is between an opening character and the end of the items is a formula. -/
theorem excerpt {x : GoString} {L : List Lexed} (hL : LexesOf U x L) {u : Until} {c a b : Nat} (hc : c < 128) {l : List Node} {S : List Lexed → Prop}
    (h : Here true u c L a l b S) (hS : b ≠ 0 ∨ ∀ L2, S L2 → L2 ≠ []) (hm : ∀ d o k p, Node.math d o k p ∉ l) :
    a < b ∧ x[a]? = some c ∧ (∃ k, u.mark = some (.mark k) ∧ x[b]? = some k) ∧ ∃ l', l = shiftL a l' ∧ Formula U (slice x (a + 1) b) l' := by
  obtain ⟨pre, e, D, L2, m', rfl, h1, h2, h3⟩ := h
  obtain rfl := h1 rfl
  obtain ⟨B, X, g1, g2, rfl, g4⟩ := items_ended h2 (hS.imp id fun h => h _ h3)
  obtain ⟨k, hk, hk1, hk2, -⟩ := until_mark g1
  obtain ⟨kX, b', eX⟩ := X
  dsimp only at hk g2
  subst hk g2
  unfold LexesOf at hL
  have hW : ∀ c ∈ decode (stripBom x), c.Ok := decode_ok _
  obtain ⟨p0, post, e1, e2, -, e3⟩ := lexes_mark hW hc hL
  have hW2 : ∀ c ∈ post, c.Ok := fun c hc => hW c (by rw [e1]; simp [hc])
  obtain ⟨mid, post2, rfl, e4, -, e5⟩ := lexes_mark hW2 hk1 e3
  have hmid : decode (bytesOf mid) = mid := by
    have s1 := decode_suffix (p0 ++ [⟨c, [c]⟩]) (mid ++ ⟨k, [k]⟩ :: post2) _ (by rw [e1]; simp)
    exact decode_prefix _ _ s1
  have hx : ∃ bom, bom.length = x.length - (stripBom x).length ∧ x = bom ++ (bytesOf p0 ++ c :: (bytesOf mid ++ k :: bytesOf post2)) := by
    have : stripBom x = bytesOf p0 ++ c :: (bytesOf mid ++ k :: bytesOf post2) := by
      rw [← bytesOf_decode (stripBom x), e1]
      simp [bytesOf]
    obtain ⟨bom, hb⟩ : ∃ bom, x = bom ++ stripBom x := by
      unfold stripBom
      split
      · rename_i y; exact ⟨[0xEF, 0xBB, 0xBF], rfl⟩
      · exact ⟨[], rfl⟩
    refine ⟨bom, ?_, by rw [← this]; exact hb⟩
    have := congrArg List.length hb
    simp at this
    omega
  obtain ⟨bom, hb, hx⟩ := hx
  rw [← hb] at e2
  have hslice : slice x (a + 1) b' = bytesOf mid := by
    unfold slice
    have hd : x.drop (a + 1) = bytesOf mid ++ k :: bytesOf post2 := by
      rw [hx, show bom ++ (bytesOf p0 ++ c :: (bytesOf mid ++ k :: bytesOf post2)) = (bom ++ bytesOf p0 ++ [c]) ++ (bytesOf mid ++ k :: bytesOf post2) by simp]
      exact List.drop_left' (by simp; omega)
    rw [hd, e4, show a + 1 + (bytesOf mid).length - (a + 1) = (bytesOf mid).length by omega, List.take_left]
  refine ⟨by omega, ?_, ⟨k, g1, ?_⟩, ?_⟩
  · rw [hx, ← List.append_assoc, List.getElem?_append_right (by simp; omega)]
    simp [e2]
  · rw [hx, show bom ++ (bytesOf p0 ++ c :: (bytesOf mid ++ k :: bytesOf post2)) = (bom ++ bytesOf p0 ++ c :: bytesOf mid) ++ (k :: bytesOf post2) by simp,
      List.getElem?_append_right (by simp; omega)]
    rw [show b' - (bom ++ bytesOf p0 ++ c :: bytesOf mid).length = 0 by simp; omega]
    rfl
  rw [hslice]
  -- the lexemes, moved back
  obtain ⟨L0, hL0, hL1⟩ := lexes_back (o := 1) (d := a) (by rw [Nat.add_comm 1 a]; exact e3)
  obtain ⟨B0, L3, rfl, rfl, hL3⟩ := List.map_eq_append_iff.1 hL0.symm
  obtain ⟨X0, L4, rfl, hX0, rfl⟩ := map_cons_back hL3
  obtain ⟨f1, f2, f3⟩ := mv_eq hX0
  have hXs : X0.start = 1 + (bytesOf mid).length := by omega
  obtain ⟨q1, q2⟩ := lexes_part (c1 := mid) (z := ⟨k, [k]⟩ :: post2) hW2 hL1 hXs
  have hi := g4 hm (1 + (bytesOf mid).length + a) (1 + (bytesOf mid).length + 1 + a) []
  obtain ⟨l', p', L1', rfl, hp', hn, hi⟩ := items_back hi a (B0 ++ [⟨.mark ch!"$", 1 + (bytesOf mid).length, 1 + (bytesOf mid).length + 1⟩]) (by
    intro y hy
    rcases List.mem_append.1 hy with hy | hy
    · have := (q1 y hy).1; omega
    · rw [List.mem_singleton.1 hy]; dsimp only; omega) (by simp [Lexed.mv])
  obtain rfl := List.map_eq_nil_iff.1 hn.symm
  have hp' : p' = 1 + (bytesOf mid).length := by
    unfold mvEnd at hp'
    split at hp' <;> omega
  subst hp'
  refine ⟨l', rfl, ?_⟩
  unfold Formula
  rw [C83_grammar]
  refine ⟨⟨.mark ch!"$", 0, 1⟩ :: (B0 ++ [⟨.mark ch!"$", 1 + (bytesOf mid).length, 1 + (bytesOf mid).length + 1⟩]), [.math bs!"$" 0 l' (1 + (bytesOf mid).length)], ?_, ?_, ?_⟩
  · rw [lexesOf_dollar, hmid]
    refine lex_mark (by decide) (by decide) ?_
    have := q2 0 [⟨36, [36]⟩] [⟨.mark ch!"$", 1 + (bytesOf mid).length, 1 + (bytesOf mid).length + 1⟩] ⟨_, rfl, by decide⟩
      (lex_mark (by decide) (by decide) (.done (by simp)))
    rw [show (Lexed.mv 0) = id from funext fun _ => rfl, List.map_id] at this
    exact this
  · exact .item (n := .math bs!"$" 0 l' (1 + (bytesOf mid).length)) (by simp [Until.mark]) (.math hi) .eof
  · rw [Nat.add_comm]

theorem items_dollar {m L l p L1} (h : Items m .dollar L l p L1) : ∀ d o k q, Node.math d o k q ∉ l := by
  generalize hn : L.length = n
  induction n using Nat.strongRecOn generalizing L l with
  | _ n ih =>
    intro d o k q hm
    cases h with
    | eof => cases hm
    | close _ => cases hm
    | @item _ _ x L n1 L2 l2 _ _ hx h1 h2 =>
      obtain ⟨D, hD, e⟩ := item1_suffix h1
      have hl : L2.length < n := by
        have := congrArg List.length e
        have := List.length_pos_iff.2 hD
        simp at *
        omega
      have : n1 = .math d o k q ∨ Node.math d o k q ∈ l2 := by
        rcases keep_cases n1 l2 with ⟨_, h⟩ | ⟨_, h⟩ <;> rw [h] at hm
        · exact .inr hm
        · rcases List.mem_cons.1 hm with h | h
          · exact .inl h.symm
          · exact .inr h
      rcases this with rfl | hm
      · generalize hx : x :: L = Z at h1
        cases h1
        cases hx
        exact hx rfl
      · exact ih _ hl h2 rfl d o k q hm

/-- What is between the dollar signs of a MathExpr, anywhere in the tree, is a formula, and its trees are those of the node, but for the positions. -/
theorem C97_math (x : GoString) (t : Node) (h : parseExpr U x = .ok t) (d : GoString) (a b : Nat) (l : List Node) (hn : .math d a l b ∈ allNodes t) (hb : b ≠ 0) :
    a < b ∧ x[a]? = some ch!"$" ∧ x[b]? = some ch!"$" ∧ ∃ l', l = shiftL a l' ∧ Formula U (slice x (a + 1) b) l' := by
  rw [C83_grammar] at h
  obtain ⟨L, l0, h1, h2, rfl⟩ := h
  have hf := items_found h2 _ (by simpa [allNodes] using hn)
  obtain ⟨g1, g2, ⟨k, hk, g3⟩, g4⟩ := excerpt h1 (by decide) hf (.inl hb) (by
    obtain ⟨_, _, _, _, _, _, _, hi, _⟩ := hf
    exact items_dollar hi)
  cases hk
  exact ⟨g1, g2, g3, g4⟩

/-- Inside a MathExpr that is closed, everything is closed, and found. -/
theorem found_inside {x : GoString} {t : Node} (h : parseExpr U x = .ok t) {d : GoString} {a0 b0 : Nat} {l0 : List Node} (hn : .math d a0 l0 b0 ∈ allNodes t) (hb : b0 ≠ 0)
    {k : Node} (hk : k ∈ allNodesL l0) : ∃ L, LexesOf U x L ∧ Found true L (fun L2 => L2 ≠ []) k := by
  rw [C83_grammar] at h
  obtain ⟨L, l, h1, h2, rfl⟩ := h
  obtain ⟨pre, e, D, L2, m', rfl, hm, hi, _⟩ : Here true .dollar ch!"$" L a0 l0 b0 _ := items_found h2 (.math d a0 l0 b0) (by simpa [allNodes] using hn)
  obtain rfl := hm rfl
  refine ⟨_, h1, ?_⟩
  have := (items_found hi k hk).mono (m2 := true) (S2 := fun L2 => L2 ≠ []) (fun _ => rfl) (pre ++ [⟨.mark ch!"$", a0, e⟩]) fun _ h => h.2 hb
  rwa [List.append_assoc] at this

/-- In math: what is between the braces of an argument is a formula, and its trees are those of the node. (A dollar sign in it, outside of inner braces, would
end the formula.) -/
theorem C97_argument (x : GoString) (t : Node) (h : parseExpr U x = .ok t) (d : GoString) (a0 b0 : Nat) (l0 : List Node) (hn : .math d a0 l0 b0 ∈ allNodes t) (hb : b0 ≠ 0)
    (a b : Nat) (l : List Node) (ha : .arg a l b ∈ allNodesL l0) (hm : ∀ d o k p, Node.math d o k p ∉ l) :
    a < b ∧ x[a]? = some ch!"{" ∧ x[b]? = some ch!"}" ∧ ∃ l', l = shiftL a l' ∧ Formula U (slice x (a + 1) b) l' := by
  obtain ⟨L, h1, h2⟩ := found_inside h hn hb ha
  obtain ⟨g1, g2, ⟨k, hk, g3⟩, g4⟩ := excerpt h1 (by decide) h2 (.inr fun _ h => h) hm
  cases hk
  exact ⟨g1, g2, g3, g4⟩

/-- The same for an argument in brackets. -/
theorem C97_optional (x : GoString) (t : Node) (h : parseExpr U x = .ok t) (d : GoString) (a0 b0 : Nat) (l0 : List Node) (hn : .math d a0 l0 b0 ∈ allNodes t) (hb : b0 ≠ 0)
    (a b : Nat) (l : List Node) (ha : .optArg a l b ∈ allNodesL l0) (hm : ∀ d o k p, Node.math d o k p ∉ l) :
    a < b ∧ x[a]? = some ch!"[" ∧ x[b]? = some ch!"]" ∧ ∃ l', l = shiftL a l' ∧ Formula U (slice x (a + 1) b) l' := by
  obtain ⟨L, h1, h2⟩ := found_inside h hn hb ha
  obtain ⟨g1, g2, ⟨k, hk, g3⟩, g4⟩ := excerpt h1 (by decide) h2 (.inr fun _ h => h) hm
  cases hk
  exact ⟨g1, g2, g3, g4⟩

/-- The same for a group, which has no positions in the tree: there is a pair of braces, around a formula with the trees of the group. -/
theorem C97_group (x : GoString) (t : Node) (h : parseExpr U x = .ok t) (d : GoString) (a0 b0 : Nat) (l0 : List Node) (hn : .math d a0 l0 b0 ∈ allNodes t) (hb : b0 ≠ 0)
    (l : List Node) (ha : .list l ∈ allNodesL l0) (hm : ∀ d o k p, Node.math d o k p ∉ l) :
    ∃ a b, a < b ∧ x[a]? = some ch!"{" ∧ x[b]? = some ch!"}" ∧ ∃ l', l = shiftL a l' ∧ Formula U (slice x (a + 1) b) l' := by
  obtain ⟨L, h1, a, b, h2⟩ := found_inside h hn hb ha
  obtain ⟨g1, g2, ⟨k, hk, g3⟩, g4⟩ := excerpt h1 (by decide) h2 (.inr fun _ h => h) hm
  cases hk
  exact ⟨a, b, g1, g2, g3, g4⟩

/-- A formula has no MathExpr at its top: so every formula, put into braces by C93, can be cut out again. -/
theorem C97_top (x : GoString) (l : List Node) (h : Formula U x l) : ∀ d o k p, Node.math d o k p ∉ l := by
  unfold Formula at h
  rw [C83_grammar] at h
  obtain ⟨L, l0, h1, h2, e⟩ := h
  cases e
  obtain ⟨_, _, _, _, _, _, _, hi, _⟩ : Here true .dollar ch!"$" L 0 l (x.length + 1) _ := items_found h2 (.math bs!"$" 0 l (x.length + 1)) (by simp [allNodesL, allNodes])
  exact items_dollar hi

/-! ## Non-vacuity -/

/-- The first argument of a fraction in a line of text. -/
example : ∃ l', [.word 10 bs!"x", .sup 11 (.list [.lit 13 bs!"2"])] = shiftL 9 l' ∧ Formula U bs!"x^{2}" l' := by
  have hp : parseExpr U bs!"so $\\frac{x^{2}}{y}$." = .ok (.list [.word 0 bs!"so", .sym 2 bs!" ", .math bs!"$" 3 [.macro (some (4, bs!"\\frac"))
    [.arg 9 [.word 10 bs!"x", .sup 11 (.list [.lit 13 bs!"2"])] 15, .arg 16 [.word 17 bs!"y"] 18]] 19, .sym 20 bs!"."]) := by krfl
  exact (C97_argument _ _ hp bs!"$" 3 19 _ (by simp only [allNodes, allNodesL]; simp; rfl) (by omega) 9 15 [.word 10 bs!"x", .sup 11 (.list [.lit 13 bs!"2"])]
    (by simp [allNodes, allNodesL]) (by simp)).2.2.2

/-- The condition matters: with a dollar sign in it, what is between the braces is no formula. -/
example : parseExpr U bs!"$\\sqrt{$x$}$" = .ok (.list [.math bs!"$" 0 [.macro (some (1, bs!"\\sqrt")) [.arg 6 [.math bs!"$" 7 [.word 8 bs!"x"] 9] 10]] 11]) ∧
    ∀ l, ¬ Formula U bs!"$x$" l := by
  refine ⟨by krfl, fun l h => ?_⟩
  unfold Formula at h
  have e : parseExpr U (bs!"$" ++ bs!"$x$" ++ bs!"$") = .ok (.list [.math bs!"$" 0 [] 1, .word 2 bs!"x", .math bs!"$" 3 [] 4]) := by krfl
  rw [e] at h
  simp at h

end Verif.Props
