import Verif.Lemmas.Edit
import Verif.Props.Excerpt
/-!
# C97, continued: formulas replaced

The positions in the tree can be used to put another formula in the place of a part of a source, and the tree of the new source is the tree of the old one
with the trees of the new formula there, everything after it moved.
-/

namespace Verif.Props
open Verif Spec
variable {U : Nat → Bool}

theorem strip_same {p r : GoString} {c : Nat} (hc : c < 128) (h : stripBom (p ++ c :: r) = p ++ c :: r) (r' : GoString) : stripBom (p ++ c :: r') = p ++ c :: r' := by
  unfold stripBom
  split
  · rename_i y e
    rcases p with _ | ⟨p1, _ | ⟨p2, _ | ⟨p3, p⟩⟩⟩ <;> simp only [List.nil_append, List.cons_append, List.cons.injEq] at e
    · omega
    · omega
    · omega
    · obtain ⟨rfl, rfl, rfl, -⟩ := e
      have := congrArg List.length h
      simp [stripBom] at this
      omega
  · rfl

theorem sym_shifted {d o : Nat} {t : GoString} : ∀ {l : List Node}, Node.sym o t ∈ shiftL d l → ∃ o', Node.sym o' t ∈ l
  | [], h => by cases h
  | n :: l, h => by
    rw [shiftL] at h
    rcases List.mem_cons.1 h with h | h
    · cases n <;> simp only [shift, reduceCtorEq, Node.sym.injEq] at h
      obtain ⟨-, rfl⟩ := h
      exact ⟨_, List.mem_cons_self⟩
    · obtain ⟨o', ho⟩ := sym_shifted h
      exact ⟨o', List.mem_cons_of_mem _ ho⟩

/-- A place of a tree, and a formula `y` with trees `l'` put there instead of what is there. (In brackets, it must not have a bracket by itself.) -/
theorem C97_replace (x : GoString) (t : Node) (h : parseExpr U x = .ok t) (k : Node) (hp : k ∈ places false t) (c a b : Nat) (l : List Node)
    (hk : Delimits c a l b k) (hb : b ≠ 0) (y : GoString) (l' : List Node) (hy : Formula U y l') (hbr : c = ch!"[" → ∀ o, Node.sym o bs!"]" ∉ l') :
    parseExpr U (x.take (a + 1) ++ y ++ x.drop b) = .ok (edit a b y.length (shiftL a l') t) := by
  rw [C83_grammar] at h
  obtain ⟨L, l0, hL, hI, rfl⟩ := h
  rw [places] at hp
  obtain ⟨u, hu, hH⟩ : ∃ u, Pair c u ∧ Here true u c L a l b (fun _ => True) := by
    have := places_found.2.1 _ _ _ _ _ _ hI hp
    cases k <;> try exact hk.elim
    all_goals obtain ⟨rfl, rfl, rfl, rfl⟩ := hk
    · exact ⟨_, .inr (.inl ⟨rfl, rfl⟩), this⟩
    · exact ⟨_, .inr (.inr ⟨rfl, rfl⟩), this⟩
    · exact ⟨_, .inl ⟨rfl, rfl⟩, this⟩
  have hc : c ∈ marks1 ∧ c ≠ ch!"." ∧ c < 128 ∧ c ∈ neutral := by
    obtain ⟨rfl, -⟩ | ⟨rfl, -⟩ | ⟨rfl, -⟩ := hu <;> exact ⟨by decide, by decide, by decide, by decide⟩
  obtain ⟨pre, e, D0, Q, m', rfl, h1, h2, -⟩ := hH
  obtain rfl := h1 rfl
  obtain ⟨D, X, g1, g2, rfl, -⟩ := items_ended h2 (.inl hb)
  obtain ⟨j, hj, hj1, hj2, -⟩ := until_mark g1
  have hjm : j ∈ marks1 ∧ j ≠ ch!"." := by
    rw [hj] at g1
    cases u <;> cases g1 <;> exact ⟨by decide, by decide⟩
  obtain ⟨kX, b', eX⟩ := X
  dsimp only at hj g2
  subst hj g2
  unfold LexesOf at hL
  have hW : ∀ c ∈ decode (stripBom x), c.Ok := decode_ok _
  have hline := lexes_inLine hL hW
  obtain ⟨p0, post, e1, e2, rfl, e3⟩ := lexes_mark hW hc.2.2.1 hL
  have hW2 : ∀ c ∈ post, c.Ok := fun c hc => hW c (by rw [e1]; simp [hc])
  obtain ⟨mid, post2, rfl, e4, rfl, e5⟩ := lexes_mark hW2 hj1 e3
  have hab : a < b' := by omega
  -- the characters
  have hs1 := decode_suffix (p0 ++ [⟨c, [c]⟩] ++ mid ++ [⟨j, [j]⟩]) post2 _ (by rw [e1]; simp)
  have hs0 : decode (bytesOf p0) = p0 := by
    refine decode_prefix _ (⟨c, [c]⟩ :: (mid ++ ⟨j, [j]⟩ :: post2)) ?_
    rw [← e1, bytesOf_decode]
  have hx : stripBom x = bytesOf p0 ++ c :: (bytesOf mid ++ j :: bytesOf post2) := by
    rw [← bytesOf_decode (stripBom x), e1]
    simp [bytesOf]
  obtain ⟨bom, hbom, hb1, hb2⟩ : ∃ bom, bom.length = x.length - (stripBom x).length ∧ x = bom ++ stripBom x ∧
      ∀ r, stripBom (bom ++ (bytesOf p0 ++ c :: r)) = bytesOf p0 ++ c :: r := by
    by_cases hB : stripBom x = x
    · refine ⟨[], by rw [hB]; simp, by rw [hB]; rfl, fun r => ?_⟩
      rw [List.nil_append]
      refine strip_same hc.2.2.1 (r := bytesOf mid ++ j :: bytesOf post2) ?_ r
      rw [← hx, hB]
      exact hB
    · unfold stripBom at hB
      split at hB
      · rename_i z
        refine ⟨[0xEF, 0xBB, 0xBF], ?_, rfl, fun r => rfl⟩
        simp [stripBom]
        try omega
      · exact absurd rfl hB
  have hxx : x.take (a + 1) ++ y ++ x.drop b' = bom ++ (bytesOf p0 ++ c :: (y ++ j :: bytesOf post2)) := by
    rw [hx] at hb1
    have t1 : x.take (a + 1) = bom ++ bytesOf p0 ++ [c] := by
      rw [hb1, show bom ++ (bytesOf p0 ++ c :: (bytesOf mid ++ j :: bytesOf post2)) = (bom ++ bytesOf p0 ++ [c]) ++ (bytesOf mid ++ j :: bytesOf post2) by simp]
      exact List.take_left' (by simp; omega)
    have t2 : x.drop b' = j :: bytesOf post2 := by
      rw [hb1, show bom ++ (bytesOf p0 ++ c :: (bytesOf mid ++ j :: bytesOf post2)) = (bom ++ bytesOf p0 ++ c :: bytesOf mid) ++ (j :: bytesOf post2) by simp]
      exact List.drop_left' (by simp; omega)
    rw [t1, t2]; simp
  rw [hxx, C83_grammar]
  obtain ⟨D', hD1, hD2⟩ := formula_part hy a
  have hX : far a b' y.length ⟨.mark j, b', b' + 1⟩ = ⟨.mark j, a + 1 + y.length, a + 1 + y.length + 1⟩ := by
    simp only [far, Lexed.mk.injEq, true_and]; omega
  have hmay : MayEnd l' u := by
    obtain ⟨-, rfl⟩ | ⟨-, rfl⟩ | ⟨rfl, rfl⟩ := hu
    · exact .inl rfl
    · exact .inr (.inl rfl)
    · exact .inr (.inr ⟨rfl, hbr rfl⟩)
  have hmay' : MayEnd (shiftL a l') u := by
    rcases hmay with h | h | ⟨h, h'⟩
    · exact .inl h
    · exact .inr (.inl h)
    · refine .inr (.inr ⟨h, fun o ho => ?_⟩)
      obtain ⟨o', ho'⟩ := sym_shifted ho
      exact h' o' ho'
  have hrep := (replaced (N := y.length) (new := shiftL a l') hab hu (e0 := a + 1) (D := D) (Q := Q) (D' := D') (X := ⟨.mark j, b', b' + 1⟩) rfl hk h2
    (by
      have h3 := (InLine.tail (A := _ :: D) (InLine.tail (A := pre) (by simpa using hline)))
      intro z hz
      exact ⟨(List.pairwise_cons.1 h3.1).1 z hz, h3.2 z (List.mem_cons_of_mem _ hz)⟩)
    (by
      intro Y
      rw [hX]
      have := hD2 u hmay' _ [] _ _ (Items.close (m := true) (k := .mark j) (o := a + 1 + y.length) (e := a + 1 + y.length + 1) (L := Y) g1)
      rwa [List.append_nil] at this)).2.1 _ _ _ _ _ _ hI pre hline rfl hp
  obtain ⟨-, hrep⟩ := hrep
  rw [move_before (by omega), hX] at hrep
  refine ⟨_, _, ?_, hrep, by rw [edit]⟩
  unfold LexesOf
  rw [hb2]
  have hlen : (bom ++ (bytesOf p0 ++ c :: (y ++ j :: bytesOf post2))).length - (bytesOf p0 ++ c :: (y ++ j :: bytesOf post2)).length = x.length - (stripBom x).length := by
    rw [List.length_append]; omega
  rw [hlen, decode_append _ _ hc.2.2.1, hs0, decode_ascii_cons _ hc.2.2.1, decode_append _ _ hj1, decode_ascii_cons _ hj1, hs1]
  have hpart := (lexes_part (c1 := p0) (z := ⟨c, [c]⟩ :: (mid ++ ⟨j, [j]⟩ :: post2)) (by rwa [← e1]) (by rw [← e1]; exact hL) (X := ⟨.mark c, a, a + 1⟩) e2).2 0
    (⟨c, [c]⟩ :: (decode y ++ ⟨j, [j]⟩ :: post2)) (⟨.mark c, a, a + 1⟩ :: (D' ++ ⟨.mark j, a + 1 + y.length, a + 1 + y.length + 1⟩ :: Q.map (far a b' y.length)))
    ⟨_, rfl, hc.2.2.2⟩ (by
      rw [Nat.add_zero, ← e2]
      refine lex_mark hc.1 hc.2.1 ?_
      have := hD1 (⟨j, [j]⟩ :: post2) (⟨.mark j, a + 1 + y.length, a + 1 + y.length + 1⟩ :: Q.map (far a b' y.length)) ⟨_, rfl, hj2⟩ (by
        rw [show 1 + a + y.length = a + 1 + y.length by omega]
        refine lex_mark hjm.1 hjm.2 ?_
        have := lexes_far (a := a) (N := y.length) e5 (show b' ≤ b' + 1 by omega)
        rwa [show b' + 1 - b' + (a + 1 + y.length) = a + 1 + y.length + 1 by omega] at this)
      rwa [Nat.add_comm 1 a] at this)
  rw [Nat.add_zero, show (Lexed.mv 0) = id from funext fun _ => rfl, List.map_id] at hpart
  exact hpart

/-! ## Non-vacuity -/

/-- The first argument of a fraction in a line of text, replaced: what comes after it has moved by four. -/
example : parseExpr U bs!"so $\\frac{\\sqrt{z+1}}{y}$." = .ok (.list [.word 0 bs!"so", .sym 2 bs!" ", .math bs!"$" 3 [.macro (some (4, bs!"\\frac"))
    [.arg 9 [.macro (some (10, bs!"\\sqrt")) [.arg 15 [.word 16 bs!"z", .sym 17 bs!"+", .lit 18 bs!"1"] 19]] 20, .arg 21 [.word 22 bs!"y"] 23]] 24, .sym 25 bs!"."]) := by
  have hp : parseExpr U bs!"so $\\frac{x^{2}}{y}$." = .ok (.list [.word 0 bs!"so", .sym 2 bs!" ", .math bs!"$" 3 [.macro (some (4, bs!"\\frac"))
    [.arg 9 [.word 10 bs!"x", .sup 11 (.list [.lit 13 bs!"2"])] 15, .arg 16 [.word 17 bs!"y"] 18]] 19, .sym 20 bs!"."]) := by krfl
  exact C97_replace _ _ hp (.arg 9 [.word 10 bs!"x", .sup 11 (.list [.lit 13 bs!"2"])] 15) (by simp [places, placesL]) ch!"{" 9 15 _ ⟨rfl, rfl, rfl, rfl⟩ (by omega)
    bs!"\\sqrt{z+1}" [.macro (some (1, bs!"\\sqrt")) [.arg 6 [.word 7 bs!"z", .sym 8 bs!"+", .lit 9 bs!"1"] 10]] (by unfold Formula; krfl) (fun h => absurd h (by decide))

/-- The condition about brackets matters: `]` is a formula, but not between brackets. -/
example : Formula U bs!"]" [.sym 1 bs!"]"] ∧
    parseExpr U bs!"$\\sqrt[3]{x}$" = .ok (.list [.math bs!"$" 0 [.macro (some (1, bs!"\\sqrt")) [.optArg 6 [.lit 7 bs!"3"] 8, .arg 9 [.word 10 bs!"x"] 11]] 12]) ∧
    parseExpr U bs!"$\\sqrt[]]{x}$" = .panic (.expected ch!"{") := by
  exact ⟨by unfold Formula; krfl, by krfl, by krfl⟩

end Verif.Props
