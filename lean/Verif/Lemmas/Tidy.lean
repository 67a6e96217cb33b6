import Verif.Spec.Depends
import Verif.Lemmas.Depends
/-! # Documents without the blanks of their formulas -/

namespace Verif
open Spec

theorem prevChar_blank (s : GoString) : prevChar (s ++ [32]) = prevChar s := by
  unfold prevChar
  simp

theorem dropWhile_ne_nil {s t : GoString} {b : Nat} {r : GoString} (h : s.dropWhile (· == 32) = b :: r) :
    (s ++ t).dropWhile (· == 32) = b :: (r ++ t) := by
  induction s with
  | nil => cases h
  | cons c s ih =>
    rw [List.cons_append]
    by_cases hc : c = 32
    · subst hc
      rw [List.dropWhile_cons_of_pos (by rfl)] at h ⊢
      exact ih h
    · rw [List.dropWhile_cons_of_neg (by simpa using hc)] at h ⊢
      cases h
      rfl

theorem dropWhile_nil {s t : GoString} (h : s.dropWhile (· == 32) = []) : (s ++ t).dropWhile (· == 32) = t.dropWhile (· == 32) := by
  induction s with
  | nil => rfl
  | cons c s ih =>
    rw [List.cons_append]
    by_cases hc : c = 32
    · subst hc
      rw [List.dropWhile_cons_of_pos (by rfl)] at h ⊢
      exact ih h
    · rw [List.dropWhile_cons_of_neg (by simpa using hc)] at h
      cases h

/-- What is before is looked at only if there are blanks only after it. -/
theorem prevChar_append (u v s : GoString) (h : prevChar u = prevChar v) : prevChar (u ++ s) = prevChar (v ++ s) := by
  unfold prevChar at h ⊢
  rw [List.reverse_append, List.reverse_append]
  cases hs : s.reverse.dropWhile (· == 32) with
  | nil => rw [dropWhile_nil hs, dropWhile_nil hs]; exact h
  | cons b r => rw [dropWhile_ne_nil hs, dropWhile_ne_nil hs]

/-- Leaves with the same text and the same character before them. -/
def SameLeaf (x y : GoString) (a b : Nat × GoString) : Prop := prevChar (x.take a.1) = prevChar (y.take b.1) ∧ a.2 = b.2

theorem isNil_bare (n : Node) : (bare n).isNil = n.isNil := by cases n <;> rfl

theorem sameLeaf_at {u v : GoString} (y y' t : GoString) (h : prevChar u = prevChar v) : SameLeaf (u ++ y) (v ++ y') (u.length, t) (v.length, t) := by
  refine ⟨?_, rfl⟩
  simp only [List.take_left']
  exact h

/-- What `tidyL` changes and what not. -/
structure Kept (x y : GoString) (l k : List Node) : Prop where
  bare : bareL l = bareL k
  leaves : List.Forall₂ (SameLeaf x y) (leavesL l) (leavesL k)

/-- The same for one tree. -/
structure Kept1 (x y : GoString) (n m : Node) : Prop where
  bare : Spec.bare n = Spec.bare m
  leaves : List.Forall₂ (SameLeaf x y) (Spec.leaves n) (Spec.leaves m)

theorem Kept.list {x y : GoString} {l k : List Node} (h : Kept x y l k) : Kept1 x y (.list l) (.list k) :=
  ⟨by simp only [Spec.bare, h.bare], by simpa only [Spec.leaves] using h.leaves⟩
theorem Kept.arg {x y : GoString} {l k : List Node} (h : Kept x y l k) (a b c d : Nat) : Kept1 x y (.arg a l b) (.arg c k d) :=
  ⟨by simp only [Spec.bare, h.bare], by simpa only [Spec.leaves] using h.leaves⟩
theorem Kept.optArg {x y : GoString} {l k : List Node} (h : Kept x y l k) (a b c d : Nat) : Kept1 x y (.optArg a l b) (.optArg c k d) :=
  ⟨by simp only [Spec.bare, h.bare], by simpa only [Spec.leaves] using h.leaves⟩
theorem Kept.math {x y : GoString} {l k : List Node} (h : Kept x y l k) (g g' : GoString) (a b c d : Nat) : Kept1 x y (.math g a l b) (.math g' c k d) :=
  ⟨by simp only [Spec.bare, h.bare], by simpa only [Spec.leaves] using h.leaves⟩
theorem Kept1.sub {x y : GoString} {l k : Node} (h : Kept1 x y l k) (a b : Nat) : Kept1 x y (.sub a l) (.sub b k) :=
  ⟨by simp only [Spec.bare, h.bare], by simpa only [Spec.leaves] using h.leaves⟩
theorem Kept1.sup {x y : GoString} {l k : Node} (h : Kept1 x y l k) (a b : Nat) : Kept1 x y (.sup a l) (.sup b k) :=
  ⟨by simp only [Spec.bare, h.bare], by simpa only [Spec.leaves] using h.leaves⟩

/-- Something, a list and something else. -/
theorem around {u v a b : GoString} {l : List Item} {math : Bool} (huv : prevChar u = prevChar v)
    (ih : ∀ u v y y', prevChar u = prevChar v → prevChar (u ++ srcL l) = prevChar (v ++ srcL (tidyL math l)) ∧
      Kept (u ++ srcL l ++ y) (v ++ srcL (tidyL math l) ++ y') (nodesL math u.length l) (nodesL math v.length (tidyL math l))) (y y' : GoString) :
    prevChar (u ++ (a ++ (srcL l ++ b))) = prevChar (v ++ (a ++ (srcL (tidyL math l) ++ b))) ∧
      Kept (u ++ (a ++ (srcL l ++ b)) ++ y) (v ++ (a ++ (srcL (tidyL math l) ++ b)) ++ y') (nodesL math (u.length + a.length) l)
        (nodesL math (v.length + a.length) (tidyL math l)) := by
  obtain ⟨h1, h2⟩ := ih (u ++ a) (v ++ a) (b ++ y) (b ++ y') (prevChar_append u v a huv)
  refine ⟨?_, ?_⟩
  · have := prevChar_append _ _ b h1
    simpa only [List.append_assoc] using this
  · simpa only [List.append_assoc, List.length_append] using h2

mutual
theorem tidy_kept (math : Bool) : ∀ (i : Item) (u v y y' : GoString), prevChar u = prevChar v →
    prevChar (u ++ src i) = prevChar (v ++ src (tidy math i)) ∧
      Kept1 (u ++ src i ++ y) (v ++ src (tidy math i) ++ y') (node math u.length i) (node math v.length (tidy math i))
  | .word t, u, v, y, y', h => ⟨prevChar_append u v _ h, ⟨by simp only [tidy, node, bare], by
      simp only [tidy, node, leaves, List.append_assoc]; exact .cons (sameLeaf_at _ _ _ h) .nil⟩⟩
  | .num a f, u, v, y, y', h => ⟨prevChar_append u v _ h, ⟨by simp only [tidy, node, bare], by
      simp only [tidy, node, leaves, List.append_assoc]; exact .cons (sameLeaf_at _ _ _ h) .nil⟩⟩
  | .sym c, u, v, y, y', h => ⟨prevChar_append u v _ h, ⟨by simp only [tidy, node, bare], by
      simp only [tidy, node, leaves, List.append_assoc]; exact .cons (sameLeaf_at _ _ _ h) .nil⟩⟩
  | .blank, u, v, y, y', h => ⟨prevChar_append u v _ h, by
      cases math
      · exact ⟨by simp [tidy, node, bare], by
          simp only [tidy, node, List.append_assoc]; exact .cons (sameLeaf_at _ _ _ h) .nil⟩
      · exact ⟨by simp [tidy, node, bare], by simp only [tidy, node, if_true, leaves]; exact .nil⟩⟩
  | .escBlank, u, v, y, y', h => ⟨prevChar_append u v _ h, by
      cases math
      · exact ⟨by simp [tidy, node, bare], by
          simp only [tidy, node, List.append_assoc]; exact .cons (sameLeaf_at _ _ _ h) .nil⟩
      · exact ⟨by simp [tidy, node, bare], by simp only [tidy, node, if_true, leaves]; exact .nil⟩⟩
  | .breaks w, u, v, y, y', h => ⟨prevChar_append u v _ h, ⟨by simp only [tidy, node, bare], by simp only [tidy, node, leaves]; exact .nil⟩⟩
  | .comment b, u, v, y, y', h => ⟨prevChar_append u v _ h, ⟨by simp only [tidy, node, bare], by simp only [tidy, node, leaves]; exact .nil⟩⟩
  | .macro name args, u, v, y, y', h => by
    obtain ⟨h1, h2⟩ := around (a := name) (b := []) h (tidyL_kept math args) y y'
    simp only [tidy, src, node]
    simp only [List.append_nil] at h1 h2
    refine ⟨h1, ⟨by simp only [bare, h2.bare, Option.map_some], ?_⟩⟩
    simp only [leaves]
    refine .cons ?_ h2.leaves
    simp only [List.append_assoc]
    exact sameLeaf_at _ _ _ h
  | .arg l, u, v, y, y', h => by
    obtain ⟨h1, h2⟩ := around (a := bs!"{") (b := bs!"}") h (tidyL_kept math l) y y'
    exact ⟨h1, h2.arg _ _ _ _⟩
  | .optArg l, u, v, y, y', h => by
    obtain ⟨h1, h2⟩ := around (a := bs!"[") (b := bs!"]") h (tidyL_kept math l) y y'
    exact ⟨h1, h2.optArg _ _ _ _⟩
  | .math l, u, v, y, y', h => by
    obtain ⟨h1, h2⟩ := around (a := bs!"$") (b := bs!"$") h (tidyL_kept true l) y y'
    exact ⟨h1, h2.math _ _ _ _ _ _⟩
  | .group l, u, v, y, y', h => by
    obtain ⟨h1, h2⟩ := around (a := bs!"{") (b := bs!"}") h (tidyL_kept math l) y y'
    exact ⟨h1, h2.list⟩
  | .subGroup l, u, v, y, y', h => by
    obtain ⟨h1, h2⟩ := around (a := bs!"_{") (b := bs!"}") h (tidyL_kept math l) y y'
    exact ⟨h1, h2.list.sub _ _⟩
  | .supGroup l, u, v, y, y', h => by
    obtain ⟨h1, h2⟩ := around (a := bs!"^{") (b := bs!"}") h (tidyL_kept math l) y y'
    exact ⟨h1, h2.list.sup _ _⟩
  | .sub i, u, v, y, y', h => by
    obtain ⟨h1, h2⟩ := tidy_kept math i (u ++ bs!"_") (v ++ bs!"_") y y' (prevChar_append u v _ h)
    simp only [tidy, src, node]
    refine ⟨by simpa only [List.append_assoc] using h1, Kept1.sub ?_ _ _⟩
    simpa only [List.append_assoc, List.length_append, List.length_cons, List.length_nil] using h2
  | .sup i, u, v, y, y', h => by
    obtain ⟨h1, h2⟩ := tidy_kept math i (u ++ bs!"^") (v ++ bs!"^") y y' (prevChar_append u v _ h)
    simp only [tidy, src, node]
    refine ⟨by simpa only [List.append_assoc] using h1, Kept1.sup ?_ _ _⟩
    simpa only [List.append_assoc, List.length_append, List.length_cons, List.length_nil] using h2
theorem tidyL_kept (math : Bool) : ∀ (l : List Item) (u v y y' : GoString), prevChar u = prevChar v →
    prevChar (u ++ srcL l) = prevChar (v ++ srcL (tidyL math l)) ∧
      Kept (u ++ srcL l ++ y) (v ++ srcL (tidyL math l) ++ y') (nodesL math u.length l) (nodesL math v.length (tidyL math l))
  | [], u, v, y, y', h => ⟨by simpa only [srcL, tidyL, List.append_nil] using h, ⟨rfl, .nil⟩⟩
  | i :: l, u, v, y, y', h => by
    by_cases hb : math = true ∧ i = .blank
    · obtain ⟨rfl, rfl⟩ := hb
      obtain ⟨h1, h2⟩ := tidyL_kept true l (u ++ bs!" ") v y y' (by rw [← h]; exact prevChar_blank u)
      simp only [tidyL, srcL, src, nodesL, node, if_true, Node.isNil]
      exact ⟨by simpa only [List.append_assoc] using h1, by simpa only [List.append_assoc, List.length_append] using h2⟩
    · have e : tidyL math (i :: l) = tidy math i :: tidyL math l := by
        cases math with
        | false => simp only [tidyL]
        | true => cases i <;> first | rfl | exact absurd ⟨rfl, rfl⟩ hb
      rw [e]
      obtain ⟨h1, h2⟩ := tidy_kept math i u v (srcL l ++ y) (srcL (tidyL math l) ++ y') h
      obtain ⟨h3, h4⟩ := tidyL_kept math l (u ++ src i) (v ++ src (tidy math i)) y y' h1
      simp only [srcL, nodesL]
      simp only [List.append_assoc, List.length_append] at h2 h3 h4 ⊢
      refine ⟨h3, ?_⟩
      have hn : (node math u.length i).isNil = (node math v.length (tidy math i)).isNil := by
        rw [← isNil_bare, h2.bare, isNil_bare]
      rw [hn]
      split
      · exact h4
      · exact ⟨by simp only [bareL, h2.bare, h4.bare], by simp only [leavesL]; exact List.rel_append h2.leaves h4.leaves⟩
end

/-! ## The first full stop -/

/-- The first full stop of a text, after a digit or not: whether it is between digits. -/
def fd : Bool → GoString → Option Bool
  | _, [] => none
  | pd, c :: s => if c = 46 then some (pd && (s.head?.any isDigitB)) else fd (isDigitB c) s

theorem fd_iff (x : GoString) : ∀ pd, fd pd x = some true ↔ FirstDotDecimal x ∨ (pd = true ∧ ∃ e b, x = 46 :: e :: b ∧ 48 ≤ e ∧ e ≤ 57) := by
  induction x with
  | nil =>
    intro pd
    simp only [fd, FirstDotDecimal]
    constructor
    · intro h; cases h
    · rintro (⟨a, d, e, b, h, -⟩ | ⟨-, e, b, h, -⟩) <;> simp at h
  | cons c s ih =>
    intro pd
    rw [fd]
    split
    · rename_i hc
      subst hc
      constructor
      · intro h
        simp only [Option.some.injEq, Bool.and_eq_true, Option.any_eq_true] at h
        obtain ⟨h1, e, h2, h3⟩ := h
        right
        cases s with
        | nil => cases h2
        | cons e' b =>
          cases h2
          simp only [isDigitB, Bool.and_eq_true, decide_eq_true_eq] at h3
          exact ⟨h1, e, b, rfl, h3⟩
      · rintro (⟨a, d, e, b, h, ha, h1, h2, h3, h4⟩ | ⟨h1, e, b, h, h2⟩)
        · exfalso
          cases a with
          | nil => simp at h; omega
          | cons u a => simp at h; rw [h.1] at ha; simp at ha
        · cases h
          simp [h1, isDigitB, h2]
    · rename_i hc
      rw [ih]
      constructor
      · rintro (⟨a, d, e, b, rfl, ha, hd⟩ | ⟨h1, e, b, rfl, h2⟩)
        · exact .inl ⟨c :: a, d, e, b, rfl, by simp [ha]; omega, hd⟩
        · simp only [isDigitB, Bool.and_eq_true, decide_eq_true_eq] at h1
          exact .inl ⟨[], c, e, b, rfl, by simp, h1.1, h1.2, h2.1, h2.2⟩
      · rintro (⟨a, d, e, b, h, ha, hd⟩ | ⟨h1, e, b, h, h2⟩)
        · cases a with
          | nil =>
            cases h
            refine .inr ⟨?_, e, b, rfl, hd.2.2.1, hd.2.2.2⟩
            simp only [isDigitB, Bool.and_eq_true, decide_eq_true_eq]
            exact ⟨hd.1, hd.2.1⟩
          | cons u a =>
            cases h
            exact .inl ⟨a, d, e, b, rfl, by simp at ha; exact ha.2, hd⟩
        · cases h
          exact absurd rfl hc

/-- A text without full stop before. -/
theorem fd_free (w y : GoString) (h : 46 ∉ w) : ∀ pd, fd pd (w ++ y) = fd ((w.getLast?.map isDigitB).getD pd) y := by
  induction w with
  | nil => intro pd; rfl
  | cons c w ih =>
    intro pd
    simp only [List.mem_cons, not_or] at h
    rw [List.cons_append, fd, if_neg (fun e => h.1 e.symm), ih h.2]
    congr 1
    cases w with
    | nil => rfl
    | cons d w => rw [List.getLast?_cons_cons]; cases hg : (d :: w).getLast? with
      | none => simp at hg
      | some v => rfl

theorem fd_line (b y : GoString) : ∀ pd, fd pd (b ++ 10 :: y) = (fd pd b).or (fd false y) := by
  induction b with
  | nil => intro pd; simp [fd, isDigitB]
  | cons c b ih =>
    intro pd
    rw [List.cons_append, fd, fd]
    split
    · rw [Option.some_or]
      cases b with
      | nil => simp [isDigitB]
      | cons d b => rfl
    · exact ih _

mutual
/-- The first full stop of an item. -/
def fdI : Item → Option Bool
  | .num _ none => none
  | .num a (some b) => some (a ≠ [] && b ≠ [])
  | .sym c => if c = 46 then some false else none
  | .comment body => fd false body
  | .macro _ args => fdL args
  | .arg l => fdL l
  | .optArg l => fdL l
  | .math l => fdL l
  | .group l => fdL l
  | .subGroup l => fdL l
  | .supGroup l => fdL l
  | .sub i => fdI i
  | .sup i => fdI i
  | .word _ => none
  | .blank => none
  | .escBlank => none
  | .breaks _ => none
/-- The first full stop of a document. -/
def fdL : List Item → Option Bool
  | [] => none
  | i :: l => (fdI i).or (fdL l)
end

mutual
theorem fd_tidy (math : Bool) : ∀ i, fdI (tidy math i) = fdI i
  | .word _ => rfl
  | .num _ none => rfl
  | .num _ (some _) => rfl
  | .sym _ => rfl
  | .blank => rfl
  | .escBlank => rfl
  | .breaks _ => rfl
  | .comment _ => rfl
  | .macro _ args => by simp only [tidy, fdI, fdL_tidy math args]
  | .arg l => by simp only [tidy, fdI, fdL_tidy math l]
  | .optArg l => by simp only [tidy, fdI, fdL_tidy math l]
  | .math l => by simp only [tidy, fdI, fdL_tidy true l]
  | .group l => by simp only [tidy, fdI, fdL_tidy math l]
  | .subGroup l => by simp only [tidy, fdI, fdL_tidy math l]
  | .supGroup l => by simp only [tidy, fdI, fdL_tidy math l]
  | .sub i => by simp only [tidy, fdI, fd_tidy math i]
  | .sup i => by simp only [tidy, fdI, fd_tidy math i]
theorem fdL_tidy (math : Bool) : ∀ l, fdL (tidyL math l) = fdL l
  | [] => rfl
  | i :: l => by
    by_cases hb : math = true ∧ i = .blank
    · obtain ⟨rfl, rfl⟩ := hb
      simp only [tidyL, fdL, fdI, Option.none_or, fdL_tidy true l]
    · have e : tidyL math (i :: l) = tidy math i :: tidyL math l := by
        cases math with
        | false => simp only [tidyL]
        | true => cases i <;> first | rfl | exact absurd ⟨rfl, rfl⟩ hb
      rw [e, fdL, fdL, fd_tidy math i, fdL_tidy math l]
end

theorem word_bytes {U : Nat → Bool} {t : GoString} (h : WordText U t) (b : Nat) (hb : b ∈ t) (hlt : b < 128) :
    (65 ≤ b ∧ b ≤ 90) ∨ (97 ≤ b ∧ b ≤ 122) := by
  obtain ⟨s, u, rfl⟩ := List.append_of_mem hb
  have := h.2 ⟨b, [b]⟩ (by rw [decode_append s u hlt, decode_ascii_cons u hlt]; simp)
  simp only [isLetter, hlt, if_true, Bool.or_eq_true, Bool.and_eq_true, decide_eq_true_eq] at this
  exact this

/-- No full stop follows directly after a digit. -/
def NoJoin (pd : Bool) (y : GoString) : Prop := pd = true → y.head? ≠ some 46

/-- The first full stop is the one of the item, or else one after it. -/
def FdStep (i : Option Bool) (s y : GoString) : Prop := ∀ pd, NoJoin pd (s ++ y) → ∃ pd', NoJoin pd' y ∧ fd pd (s ++ y) = i.or (fd pd' y)

theorem fdStep_free {s y : GoString} (h : 46 ∉ s) (hl : ∀ a b, s = a ++ [b] → isDigitB b = true → y.head? ≠ some 46) : FdStep none s y := by
  intro pd hp
  refine ⟨_, ?_, fd_free s y h pd⟩
  rcases List.eq_nil_or_concat s with rfl | ⟨a, b, rfl⟩
  · exact hp
  · intro hb
    refine hl a b (List.concat_eq_append ..) ?_
    simpa using hb

theorem FdStep.append {i j : Option Bool} {s t y : GoString} (h1 : FdStep i s (t ++ y)) (h2 : FdStep j t y) : FdStep (i.or j) (s ++ t) y := by
  intro pd hp
  rw [List.append_assoc] at hp ⊢
  obtain ⟨p1, n1, e1⟩ := h1 pd hp
  obtain ⟨p2, n2, e2⟩ := h2 p1 n1
  refine ⟨p2, n2, ?_⟩
  rw [e1, e2]
  cases i <;> rfl

theorem fdStep_mark {s y : GoString} (h : 46 ∉ s) (hd : ∀ b ∈ s, isDigitB b = false) : FdStep none s y := by
  refine fdStep_free h fun a b e hb => ?_
  rw [hd b (by rw [e]; simp)] at hb
  cases hb

theorem FdStep.around {i : Option Bool} {s t u y : GoString} (h2 : FdStep i t (u ++ y)) (h : 46 ∉ s) (hd : ∀ b ∈ s, isDigitB b = false)
    (h' : 46 ∉ u) (hd' : ∀ b ∈ u, isDigitB b = false) : FdStep i (s ++ (t ++ u)) y := by
  have h3 := (fdStep_mark (y := (t ++ u) ++ y) h hd).append (t := t ++ u) (h2.append (fdStep_mark h' hd'))
  cases i <;> exact h3

variable {U : Nat → Bool}

mutual
theorem fd_item : ∀ (ctx : Ctx) (math : Bool) (i : Item) (y : GoString), Ok U ctx math i y → FdStep (fdI i) (src i) y
  | ctx, math, .word t, y, h => by
    refine fdStep_mark (fun hm => ?_) (fun b hb => ?_)
    · have := word_bytes h.1 46 hm (by omega)
      omega
    · by_contra hd
      simp only [isDigitB, Bool.not_eq_false, Bool.and_eq_true, decide_eq_true_eq] at hd
      have := word_bytes h.1 b hb (by omega)
      omega
  | ctx, math, .num a none, y, h => by
    obtain ⟨h1, h2, h3⟩ := h
    refine fdStep_free (fun hm => ?_) (fun _ _ _ _ hy => ?_)
    · have := h2 46 hm
      cases this
    · refine h3 46 hy ?_
      simp [fusesInt]
  | ctx, math, .num a (some b), y, h => by
    obtain ⟨h1, h2, h3, h4⟩ := h
    have ha : 46 ∉ a := fun hm => by have := h2 46 hm; cases this
    intro pd hp
    refine ⟨false, (fun h => nomatch h), ?_⟩
    simp only [src, numText, fdI, Option.some_or]
    rw [List.append_assoc, List.append_assoc, fd_free a _ ha]
    show fd _ (46 :: (b ++ y)) = _
    rw [fd, if_pos rfl]
    congr 1
    have e1 : (b ++ y).head?.any isDigitB = decide (b ≠ []) := by
      cases b with
      | nil =>
        cases y with
        | nil => rfl
        | cons c y =>
          have : ¬ c ∈ fusesFloat := h4 c rfl
          simp only [List.nil_append, List.head?_cons, Option.any_some, ne_eq, not_true_eq_false, decide_false]
          by_contra hd
          simp only [isDigitB, Bool.not_eq_false, Bool.and_eq_true, decide_eq_true_eq] at hd
          simp [fusesFloat] at this
          omega
      | cons c b =>
        have := h3 c (by simp)
        simp only [isDecimal] at this
        simpa [isDigitB] using this
    rw [e1]
    congr 1
    rcases List.eq_nil_or_concat a with rfl | ⟨a', d, rfl⟩
    · simp only [List.getLast?_nil, Option.map_none, Option.getD_none]
      cases pd with
      | false => rfl
      | true => exact absurd rfl (hp rfl)
    · have := h2 d (by simp)
      simp only [isDecimal] at this
      simpa [isDigitB] using this
  | ctx, math, .sym c, y, h => by
    obtain ⟨h1, h2, -⟩ := h
    by_cases hc : c = 46
    · subst hc
      intro pd hp
      refine ⟨false, (fun h => nomatch h), ?_⟩
      simp only [src, fdI, if_true, Option.some_or]
      show fd _ (46 :: y) = _
      rw [fd, if_pos rfl]
      congr 1
      have : y.head?.any isDigitB = false := by
        cases y with
        | nil => rfl
        | cons d y =>
          have := h2 rfl d rfl
          simp only [isDecimal] at this
          simpa [isDigitB] using this
      rw [this, Bool.and_false]
    · have hf : fdI (.sym c) = none := by simp only [fdI, if_neg hc]
      rw [hf]
      refine fdStep_mark (by simpa [src] using fun e => hc e.symm) (fun b hb => ?_)
      simp only [src, List.mem_singleton] at hb
      subst hb
      simp at h1
      by_contra hd
      simp only [isDigitB, Bool.not_eq_false, Bool.and_eq_true, decide_eq_true_eq] at hd
      omega
  | ctx, math, .blank, y, h => fdStep_mark (by simp [src]) (by simp [src, isDigitB])
  | ctx, math, .escBlank, y, h => fdStep_mark (by simp [src]) (by simp [src, isDigitB])
  | ctx, math, .breaks w, y, h => by
    have hb : ∀ b ∈ w, b = 9 ∨ b = 10 ∨ b = 13 := by
      intro b hb
      have := h b hb
      simp [isBreak] at this
      omega
    refine fdStep_mark (fun hm => by have := hb _ hm; omega) (fun b hm => ?_)
    rcases hb b hm with rfl | rfl | rfl <;> rfl
  | ctx, math, .comment body, y, h => by
    intro pd hp
    refine ⟨false, (fun h => nomatch h), ?_⟩
    simp only [src, fdI]
    rw [← fd_line body y false]
    simp [fd, isDigitB]
  | ctx, math, .macro name args, y, h => by
    obtain ⟨sig, -, -, h1, h2⟩ := h
    have h3 := fd_args math args y h1
    have h4 : FdStep none name (srcL args ++ y) := by
      rcases h2 with ⟨t, rfl, ht, -⟩ | ⟨c, rfl, hc⟩
      · refine fdStep_mark (fun hm => ?_) (fun b hb => ?_)
        · rcases List.mem_cons.1 hm with e | hm
          · omega
          · have := word_bytes ht 46 hm (by omega)
            omega
        · rcases List.mem_cons.1 hb with rfl | hb
          · rfl
          · by_contra hd
            simp only [isDigitB, Bool.not_eq_false, Bool.and_eq_true, decide_eq_true_eq] at hd
            have := word_bytes ht b hb (by omega)
            omega
      · obtain ⟨-, -, -, h5, -, h6⟩ := hc
        refine fdStep_mark (by simp; exact fun e => h6 e.symm) (fun b hb => ?_)
        rcases List.mem_cons.1 hb with rfl | hb
        · rfl
        · simp only [List.mem_singleton] at hb
          subst hb
          simpa [isDigitB, isDecimal] using h5
    exact h4.append h3
  | ctx, math, .arg l, y, h => h.elim
  | ctx, math, .optArg l, y, h => h.elim
  | ctx, math, .math l, y, h => (fd_list .dollar true l _ h.2).around (by simp) (by simp [isDigitB]) (by simp) (by simp [isDigitB])
  | ctx, math, .group l, y, h => (fd_list .brace math l _ h.2).around (by simp) (by simp [isDigitB]) (by simp) (by simp [isDigitB])
  | ctx, math, .subGroup l, y, h => (fd_list .brace math l _ h).around (by simp) (by simp [isDigitB]) (by simp) (by simp [isDigitB])
  | ctx, math, .supGroup l, y, h => (fd_list .brace math l _ h).around (by simp) (by simp [isDigitB]) (by simp) (by simp [isDigitB])
  | ctx, math, .sub i, y, h => (fdStep_mark (s := bs!"_") (by simp) (by simp [isDigitB])).append (fd_item .top math i y h.2)
  | ctx, math, .sup i, y, h => (fdStep_mark (s := bs!"^") (by simp) (by simp [isDigitB])).append (fd_item .top math i y h.2)
theorem fd_list : ∀ (ctx : Ctx) (math : Bool) (l : List Item) (y : GoString), OkL U ctx math l y → FdStep (fdL l) (srcL l) y
  | ctx, math, [], y, h => fdStep_mark (by simp [srcL]) (by simp [srcL])
  | ctx, math, i :: l, y, h => (fd_item ctx math i _ h.1).append (fd_list ctx math l y h.2)
theorem fd_args : ∀ (math : Bool) (l : List Item) (y : GoString), OkArgs U math l y → FdStep (fdL l) (srcL l) y
  | math, [], y, h => fdStep_mark (by simp [srcL]) (by simp [srcL])
  | math, .arg l :: as, y, h => ((fd_list .brace math l _ h.1).around (by simp) (by simp [isDigitB]) (by simp) (by simp [isDigitB])).append (fd_args math as y h.2)
  | math, .optArg l :: as, y, h => ((fd_list .bracket math l _ h.1).around (by simp) (by simp [isDigitB]) (by simp) (by simp [isDigitB])).append (fd_args math as y h.2)
end

/-- The first full stop of a document. -/
theorem fd_doc (d : List Item) (h : OkL U .top false d []) : FirstDotDecimal (srcL d) ↔ fdL d = some true := by
  obtain ⟨pd, -, e⟩ := fd_list .top false d [] h false (fun h => nomatch h)
  have h1 := fd_iff (srcL d) false
  rw [List.append_nil] at e
  rw [e] at h1
  simp only [fd, Option.or_none] at h1
  simpa using h1.symm

end Verif
