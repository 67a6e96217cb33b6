import Verif.Spec.Size
import Verif.Lemmas.Ink
import Verif.Lemmas.GrammarParse
/-! # Sizes: from the source to the tree, from the tree to the boxes, from the boxes to the drawing -/

set_option linter.unusedSectionVars false

namespace Verif
open Spec GoFloat
variable {F : Type} [GoFloat F] {U : Nat → Bool}

/-! ## Lexemes -/

/-- The width of a lexeme in bytes. -/
def Spec.Lexed.width (x : Lexed) : Nat := x.stop - x.start

/-- The text of a lexeme. -/
def Spec.Lex.text : Lex → GoString
  | .word t | .number t | .blank t | .name t => t
  | _ => []

/-- A lexeme is as wide as its text, and not empty. -/
def Fit (x : Lexed) : Prop := 1 ≤ x.width ∧ x.lex.text.length ≤ x.width

/-- The total width. -/
def total : List Lexed → Nat
  | [] => 0
  | x :: L => x.width + total L

theorem one_le_bytes {a : List Ch} (h : ∀ c ∈ a, c.Ok) : a.length ≤ (bytesOf a).length := by
  induction a with
  | nil => simp
  | cons c a ih =>
    have h1 := (h c (by simp)).1.1
    have h2 := ih fun c hc => h c (by simp [hc])
    have h3 : 1 ≤ c.b.length := List.length_pos_iff.2 h1
    simp only [bytesOf, List.flatMap_cons, List.length_append, List.length_cons] at h2 ⊢
    omega

theorem lexeme_fit {a rest : List Ch} {k : Lex} {o : Nat} (ha : ∀ c ∈ a, c.Ok) (h : Lexeme U a k rest) :
    Fit ⟨k, o, o + (bytesOf a).length⟩ := by
  have hl := one_le_bytes ha
  have hn : ∀ {a rest}, Number a rest → 1 ≤ a.length := by
    intro a rest h
    cases h with
    | mk hb _ _ _ => cases hb <;> simp <;> omega
    | dot => simp
  unfold Fit Lexed.width
  dsimp only
  rw [Nat.add_sub_cancel_left]
  cases h with
  | word => exact ⟨by simp only [List.length_cons] at hl; omega, Nat.le_refl _⟩
  | number h => have := hn h; exact ⟨by omega, Nat.le_refl _⟩
  | blank => exact ⟨by simpa using hl, by simpa [Lex.text] using hl⟩
  | escaped => exact ⟨by simp only [List.length_cons] at hl; omega, by simpa [Lex.text] using hl⟩
  | comment => exact ⟨by simp only [List.length_cons] at hl; omega, by simp [Lex.text]⟩
  | @name b w a rest hb h1 h2 h3 =>
    refine ⟨by simp only [List.length_cons, List.length_append, List.cons_append, List.nil_append] at hl; simp only [List.cons_append]; omega, ?_⟩
    have h4 : 1 ≤ b.b.length := List.length_pos_iff.2 (ha b (by simp)).1.1
    simp only [Lex.text, bytesOf, List.flatMap_append, List.flatMap_cons, List.length_append, List.cons_append,
      List.length_cons, List.nil_append]
    omega
  | quoted => exact ⟨by simp only [List.length_cons] at hl; omega, by simp [Lex.text]⟩
  | mark => exact ⟨by simpa using hl, by simp [Lex.text]⟩

theorem lexes_fit {o : Nat} {cs : List Ch} {L : List Lexed} (h : Lexes U o cs L) : (∀ c ∈ cs, c.Ok) →
    (∀ x ∈ L, Fit x) ∧ total L ≤ (bytesOf cs).length := by
  induction h with
  | done _ => intro _; exact ⟨by simp, Nat.zero_le _⟩
  | @more o w a k rest L hw ha _ ih =>
    intro hok
    obtain ⟨h1, h2⟩ := ih fun c hc => hok c (by simp [hc])
    refine ⟨fun x hx => ?_, ?_⟩
    · rcases List.mem_cons.1 hx with rfl | hx
      · exact lexeme_fit (fun c hc => hok c (by simp [hc])) ha
      · exact h1 x hx
    · simp only [total, Lexed.width, bytesOf, List.flatMap_append, List.length_append] at h2 ⊢
      omega

/-- The names of macros have at least two bytes. -/
theorem known_length {t : GoString} (h : Known t) : 2 ≤ t.length := by
  rcases h.2 with h | ⟨k, rfl, hk⟩
  · have : ∀ s ∈ latexMacros.map Prod.fst, 2 ≤ s.length := by decide +kernel
    exact this t h
  · have h1 : ∀ s ∈ tex2uni.map Prod.fst, 1 ≤ s.length := by decide +kernel
    have := h1 k hk
    rw [List.length_append]; simp only [List.length_cons, List.length_nil]; omega

/-! ## Trees -/

mutual
/-- A number between the size of a tree and the bytes it takes. -/
def weight : Node → Nat
  | .list l => 1 + weights l
  | .macro none l => 1 + weights l
  | .macro (some (_, t)) l => max 1 t.length + weights l
  | .arg _ l _ => 1 + weights l
  | .optArg _ l _ => 1 + weights l
  | .math _ _ l _ => 1 + weights l
  | .sub _ n => 1 + weight n
  | .sup _ n => 1 + weight n
  | .word _ t | .lit _ t | .sym _ t | .ident _ t => max 1 t.length
  | .nil => 1
/-- The same for several trees. -/
def weights : List Node → Nat
  | [] => 0
  | n :: l => weight n + weights l
end

theorem keep_le (f : Node → Nat) (g : List Node → Nat) (h : ∀ n l, g (n :: l) = f n + g l) (n : Node) (l : List Node) : g (keep n l) ≤ f n + g l := by
  cases n <;> simp only [keep, h] <;> omega

/-- The lexemes of a tree are wide enough for its nodes and its text. -/
theorem items_size {m u L l p L1} (h : Items m u L l p L1) : (∀ x ∈ L, Fit x) →
    (∀ x ∈ L1, Fit x) ∧ nodeCounts l + total L1 ≤ total L ∧ weights l + total L1 ≤ total L := by
  refine Items.rec
    (motive_1 := fun m L n L1 _ => (∀ x ∈ L, Fit x) → (∀ x ∈ L1, Fit x) ∧ nodeCount n + total L1 ≤ total L ∧ weight n + total L1 ≤ total L)
    (motive_2 := fun m u L l p L1 _ => (∀ x ∈ L, Fit x) → (∀ x ∈ L1, Fit x) ∧ nodeCounts l + total L1 ≤ total L ∧ weights l + total L1 ≤ total L)
    (motive_3 := fun m n L l L1 _ => (∀ x ∈ L, Fit x) → (∀ x ∈ L1, Fit x) ∧ nodeCounts l + total L1 ≤ total L ∧ weights l + total L1 ≤ total L)
    ?_ ?_ ?_ ?_ ?_ ?_ ?_ ?_ ?_ ?_ ?_ ?_ ?_ ?_ ?_ ?_ ?_ ?_ ?_ h
  -- word, number, comment, blank, blank in math, symbol
  · intro m t o e L hf
    obtain ⟨⟨h1, h2⟩, h3⟩ := List.forall_mem_cons.1 hf
    simp only [Lex.text] at h2
    refine ⟨h3, ?_, ?_⟩ <;> simp only [nodeCount, weight, total] <;> omega
  · intro m t o e L hf
    obtain ⟨⟨h1, h2⟩, h3⟩ := List.forall_mem_cons.1 hf
    simp only [Lex.text] at h2
    refine ⟨h3, ?_, ?_⟩ <;> simp only [nodeCount, weight, total] <;> omega
  · intro m o e L hf
    obtain ⟨⟨h1, h2⟩, h3⟩ := List.forall_mem_cons.1 hf
    refine ⟨h3, ?_, ?_⟩ <;> simp only [nodeCount, weight, total] <;> omega
  · intro t o e L hf
    obtain ⟨⟨h1, h2⟩, h3⟩ := List.forall_mem_cons.1 hf
    simp only [Lex.text] at h2
    refine ⟨h3, ?_, ?_⟩ <;> simp only [nodeCount, weight, total] <;> omega
  · intro t o e L hf
    obtain ⟨⟨h1, h2⟩, h3⟩ := List.forall_mem_cons.1 hf
    refine ⟨h3, ?_, ?_⟩ <;> simp only [nodeCount, weight, total] <;> omega
  · intro m c o e L _ hf
    obtain ⟨⟨h1, h2⟩, h3⟩ := List.forall_mem_cons.1 hf
    refine ⟨h3, ?_, ?_⟩ <;> simp only [nodeCount, weight, total, List.length_singleton] <;> omega
  -- math, group
  · intro m o e L l p L' _ ih hf
    obtain ⟨⟨h1, h2⟩, h3⟩ := List.forall_mem_cons.1 hf
    obtain ⟨i1, i2, i3⟩ := ih h3
    refine ⟨i1, ?_, ?_⟩ <;> simp only [nodeCount, weight, total] <;> omega
  · intro o e L l p L' _ ih hf
    obtain ⟨⟨h1, h2⟩, h3⟩ := List.forall_mem_cons.1 hf
    obtain ⟨i1, i2, i3⟩ := ih h3
    refine ⟨i1, ?_, ?_⟩ <;> simp only [nodeCount, weight, total] <;> omega
  -- scripts
  · intro m o e e' L l p L' _ ih hf
    obtain ⟨⟨h1, h2⟩, h3⟩ := List.forall_mem_cons.1 hf
    obtain ⟨⟨h4, h5⟩, h6⟩ := List.forall_mem_cons.1 h3
    obtain ⟨i1, i2, i3⟩ := ih h6
    refine ⟨i1, ?_, ?_⟩ <;> simp only [nodeCount, weight, total] <;> omega
  · intro m o e L n L' _ ih hf
    obtain ⟨⟨h1, h2⟩, h3⟩ := List.forall_mem_cons.1 hf
    obtain ⟨i1, i2, i3⟩ := ih h3
    refine ⟨i1, ?_, ?_⟩ <;> simp only [nodeCount, weight, total] <;> omega
  · intro m o e e' L l p L' _ ih hf
    obtain ⟨⟨h1, h2⟩, h3⟩ := List.forall_mem_cons.1 hf
    obtain ⟨⟨h4, h5⟩, h6⟩ := List.forall_mem_cons.1 h3
    obtain ⟨i1, i2, i3⟩ := ih h6
    refine ⟨i1, ?_, ?_⟩ <;> simp only [nodeCount, weight, total] <;> omega
  · intro m o e L n L' _ ih hf
    obtain ⟨⟨h1, h2⟩, h3⟩ := List.forall_mem_cons.1 hf
    obtain ⟨i1, i2, i3⟩ := ih h3
    refine ⟨i1, ?_, ?_⟩ <;> simp only [nodeCount, weight, total] <;> omega
  -- root, macro
  · intro m o e e' L l p L1 args L' _ _ ih1 ih2 hf
    obtain ⟨⟨h1, h2⟩, h3⟩ := List.forall_mem_cons.1 hf
    obtain ⟨⟨h4, h5⟩, h6⟩ := List.forall_mem_cons.1 h3
    obtain ⟨i1, i2, i3⟩ := ih1 h6
    obtain ⟨j1, j2, j3⟩ := ih2 i1
    simp only [Lex.text, List.length_cons, List.length_nil] at h2
    refine ⟨j1, ?_, ?_⟩ <;> simp only [nodeCount, nodeCounts, weight, weights, total, List.length_cons, List.length_nil] <;> omega
  · intro m t o e L args L' hk _ _ ih hf
    obtain ⟨⟨h1, h2⟩, h3⟩ := List.forall_mem_cons.1 hf
    obtain ⟨i1, i2, i3⟩ := ih h3
    have := known_length hk
    simp only [Lex.text] at h2
    refine ⟨i1, ?_, ?_⟩ <;> simp only [nodeCount, weight, total] <;> omega
  -- items
  · intro m u hf; exact ⟨hf, by simp [nodeCounts, total], by simp [weights, total]⟩
  · intro m u k o e L _ hf
    obtain ⟨⟨h1, h2⟩, h3⟩ := List.forall_mem_cons.1 hf
    refine ⟨h3, ?_, ?_⟩ <;> simp only [nodeCounts, weights, total] <;> omega
  · intro m u x L n L1 l p L' _ _ _ ih1 ih2 hf
    obtain ⟨i1, i2, i3⟩ := ih1 hf
    obtain ⟨j1, j2, j3⟩ := ih2 i1
    have k1 := keep_le nodeCount nodeCounts (fun _ _ => rfl) n l
    have k2 := keep_le weight weights (fun _ _ => rfl) n l
    exact ⟨j1, by omega, by omega⟩
  -- arguments
  · intro m L hf; exact ⟨hf, by simp [nodeCounts], by simp [weights]⟩
  · intro m n o e L l p L1 args L' _ _ ih1 ih2 hf
    obtain ⟨⟨h1, h2⟩, h3⟩ := List.forall_mem_cons.1 hf
    obtain ⟨i1, i2, i3⟩ := ih1 h3
    obtain ⟨j1, j2, j3⟩ := ih2 i1
    refine ⟨j1, ?_, ?_⟩ <;> simp only [nodeCounts, nodeCount, weight, weights, total] <;> omega

mutual
theorem textLen_le : ∀ n : Node, textLen n ≤ weight n
  | .nil => by simp [textLen, weight]
  | .list l => by have := textLens_le l; simp only [textLen, weight]; omega
  | .macro none l => by have := textLens_le l; simp only [textLen, weight]; omega
  | .macro (some (_, t)) l => by have := textLens_le l; simp only [textLen, weight]; omega
  | .arg _ l _ => by have := textLens_le l; simp only [textLen, weight]; omega
  | .optArg _ l _ => by have := textLens_le l; simp only [textLen, weight]; omega
  | .math _ _ l _ => by have := textLens_le l; simp only [textLen, weight]; omega
  | .sub _ n => by have := textLen_le n; simp only [textLen, weight]; omega
  | .sup _ n => by have := textLen_le n; simp only [textLen, weight]; omega
  | .word _ t | .lit _ t | .sym _ t | .ident _ t => by simp only [textLen, weight]; omega
theorem textLens_le : ∀ l : List Node, textLens l ≤ weights l
  | [] => Nat.le_refl _
  | n :: l => by have := textLen_le n; have := textLens_le l; simp only [textLens, weights]; omega
end

mutual
theorem treeDepth_le : ∀ n : Node, treeDepth n ≤ nodeCount n
  | .nil => Nat.le_refl _
  | .list l => by have := treeDepths_le l; simp only [treeDepth, nodeCount]; omega
  | .macro none l => by have := treeDepths_le l; simp only [treeDepth, nodeCount]; omega
  | .macro (some (_, t)) l => by have := treeDepths_le l; simp only [treeDepth, nodeCount]; omega
  | .arg _ l _ => by have := treeDepths_le l; simp only [treeDepth, nodeCount]; omega
  | .optArg _ l _ => by have := treeDepths_le l; simp only [treeDepth, nodeCount]; omega
  | .math _ _ l _ => by have := treeDepths_le l; simp only [treeDepth, nodeCount]; omega
  | .sub _ n => by have := treeDepth_le n; simp only [treeDepth, nodeCount]; omega
  | .sup _ n => by have := treeDepth_le n; simp only [treeDepth, nodeCount]; omega
  | .word _ t | .lit _ t | .sym _ t | .ident _ t => by simp only [treeDepth, nodeCount]; omega
theorem treeDepths_le : ∀ l : List Node, treeDepths l ≤ nodeCounts l
  | [] => Nat.le_refl _
  | n :: l => by have := treeDepth_le n; have := treeDepths_le l; simp only [treeDepths, nodeCounts]; omega
end

/-! ## Boxes -/

mutual
/-- The characters, accents and rules in a tree of boxes. -/
def markCount : TNode F → Nat
  | .list _ _ cs => markCounts cs
  | .char _ | .accent _ | .rule _ => 1
  | _ => 0
/-- The same for several trees. -/
def markCounts : List (TNode F) → Nat
  | [] => 0
  | n :: l => markCount n + markCounts l
end

/-- With room for a kern after each node, there are at most `b` boxes and `m` marks. -/
def Small (l : List (TNode F)) (b m : Nat) : Prop := boxCounts l + l.length ≤ b ∧ markCounts l ≤ m

theorem boxCounts_append (a b : List (TNode F)) : boxCounts (a ++ b) = boxCounts a + boxCounts b := by
  induction a with
  | nil => simp [boxCounts]
  | cons n a ih => simp only [List.cons_append, boxCounts, ih]; omega

theorem markCounts_append (a b : List (TNode F)) : markCounts (a ++ b) = markCounts a + markCounts b := by
  induction a with
  | nil => simp [markCounts]
  | cons n a ih => simp only [List.cons_append, markCounts, ih]; omega

theorem Small.mono {l : List (TNode F)} {b m b' m' : Nat} (h : Small l b m) (hb : b ≤ b') (hm : m ≤ m') : Small l b' m' :=
  ⟨Nat.le_trans h.1 hb, Nat.le_trans h.2 hm⟩

theorem Small.append {l l' : List (TNode F)} {b m b' m' : Nat} (h : Small l b m) (h' : Small l' b' m') : Small (l ++ l') (b + b') (m + m') := by
  obtain ⟨h1, h2⟩ := h
  obtain ⟨h3, h4⟩ := h'
  exact ⟨by rw [boxCounts_append, List.length_append]; omega, by rw [markCounts_append]; omega⟩

theorem small_insertKerns (be : Backend F) (l : List (TNode F)) :
    boxCounts (insertKerns be l) ≤ boxCounts l + l.length ∧ markCounts (insertKerns be l) = markCounts l := by
  induction l with
  | nil => exact ⟨Nat.le_refl _, rfl⟩
  | cons n l ih =>
    unfold insertKerns
    dsimp only
    split
    · simp only [boxCounts, markCounts, newKern, boxCount, markCount, List.length_cons]; omega
    · simp only [boxCounts, markCounts, List.length_cons]; omega

theorem small_hlistOf {be : Backend F} {l : List (TNode F)} {b m : Nat} (h : Small l b m) : Small [hlistOf be l true] (b + 2) m := by
  have h1 := small_insertKerns be l
  obtain ⟨h2, h3⟩ := h
  refine ⟨?_, ?_⟩ <;> simp only [hlistOf, if_true, boxCounts, boxCount, markCounts, markCount, List.length_cons, List.length_nil] <;> omega

theorem small_hbody {be : Backend F} {l : List (TNode F)} {b m : Nat} (h : Small l b m) :
    boxCounts (hbody be l).2 ≤ b ∧ markCounts (hbody be l).2 ≤ m := by
  have h1 := small_insertKerns be l
  obtain ⟨h2, h3⟩ := h
  exact ⟨by simp only [hbody]; omega, by simp only [hbody]; omega⟩

mutual
theorem count_shrink (be : Backend F) : ∀ n : TNode F, boxCount (n.shrink be) = boxCount n ∧ markCount (n.shrink be) = markCount n
  | .box _ | .char _ | .accent _ | .rule _ | .glue _ | .kern _ => ⟨rfl, rfl⟩
  | .list k hd cs => by
    have := counts_shrink be cs
    simp only [TNode.shrink, boxCount, markCount]
    omega
theorem counts_shrink (be : Backend F) : ∀ l : List (TNode F), boxCounts (shrinkAll be l) = boxCounts l ∧ markCounts (shrinkAll be l) = markCounts l
  | [] => ⟨rfl, rfl⟩
  | n :: l => by
    have := count_shrink be n
    have := counts_shrink be l
    simp only [shrinkAll, boxCounts, markCounts]
    omega
end

/-! ## The boxes made of a tree -/

theorem Small.nil : Small ([] : List (TNode F)) 0 0 := ⟨Nat.le_refl _, Nat.le_refl _⟩

theorem Small.cons {n : TNode F} {l : List (TNode F)} {b m b' m' : Nat} (h : Small [n] b m) (h' : Small l b' m') :
    Small (n :: l) (b + b') (m + m') := h.append h'

theorem Small.list {k : LKind} {hd : LHead F} {l : List (TNode F)} {b m : Nat} (h : boxCounts l ≤ b ∧ markCounts l ≤ m) :
    Small [.list k hd l] (b + 2) m := by
  refine ⟨?_, ?_⟩ <;> simp only [boxCounts, boxCount, markCounts, markCount, List.length_cons, List.length_nil] <;> omega

theorem Small.wrap {k : LKind} {hd : LHead F} {l : List (TNode F)} {b m : Nat} (h : Small l b m) :
    Small [.list k hd l] (b + 2) m := Small.list ⟨by have := h.1; omega, h.2⟩

theorem Small.shrink {be : Backend F} {n : TNode F} {b m : Nat} (h : Small [n] b m) : Small [n.shrink be] b m := by
  obtain ⟨h1, h2⟩ := count_shrink be n
  obtain ⟨h3, h4⟩ := h
  simp only [boxCounts, markCounts, List.length_cons, List.length_nil] at h3 h4
  refine ⟨?_, ?_⟩ <;> simp only [boxCounts, markCounts, List.length_cons, List.length_nil] <;> omega

theorem small_char (c : CharD F) : Small [.char c] 2 1 := ⟨Nat.le_refl _, Nat.le_refl _⟩
theorem small_box (b : BoxD F) : Small [.box b] 2 0 := ⟨Nat.le_refl _, Nat.le_refl _⟩
theorem small_glue (g : GlueD F) : Small [.glue g] 2 0 := ⟨Nat.le_refl _, Nat.le_refl _⟩
theorem small_kern (w : F) : Small [newKern w] 2 0 := ⟨Nat.le_refl _, Nat.le_refl _⟩
theorem small_hrule (be : Backend F) (st : TState F) (t : F) : Small [hrule be st t] 2 1 := ⟨Nat.le_refl _, Nat.le_refl _⟩
theorem small_hbox (w : F) : Small [hbox w] 2 0 := ⟨Nat.le_refl _, Nat.le_refl _⟩
theorem small_vbox (w h : F) : Small [vbox w h] 2 0 := ⟨Nat.le_refl _, Nat.le_refl _⟩

theorem makeSpace_small {be : Backend F} {st : TState F} {w : F} {n : TNode F} (h : makeSpace be st w = .ok n) : Small [n] 2 0 := by
  unfold makeSpace at h
  dsimp only at h
  split at h
  · simp only [Res.ok.injEq] at h; subst h; exact small_kern _
  · cases h

theorem handleSymbol_small {be : Backend F} {x : GoString} {pos : Nat} {t : GoString} {st : TState F} {m : Bool} {n : TNode F}
    (h : handleSymbol be x pos t st m = .ok n) : Small [n] 8 1 := by
  unfold handleSymbol at h
  obtain ⟨ch, hc, h⟩ := Res.bind_eq_ok.1 h
  have g : Small [TNode.char ch] 8 1 := (small_char ch).mono (by omega) (by omega)
  split at h
  · dsimp only at h
    split at h
    · simp only [Res.ok.injEq] at h; subst h; exact g
    · obtain ⟨k1, e1, h⟩ := Res.bind_eq_ok.1 h
      obtain ⟨k2, e2, h⟩ := Res.bind_eq_ok.1 h
      simp only [Res.ok.injEq] at h; subst h
      exact small_hlistOf ((makeSpace_small e1).cons ((small_char ch).cons (makeSpace_small e2)))
  · split at h
    · split at h
      · split at h
        · simp only [Res.ok.injEq] at h; subst h; exact g
        · obtain ⟨k1, e1, h⟩ := Res.bind_eq_ok.1 h
          simp only [Res.ok.injEq] at h; subst h
          exact (small_hlistOf ((small_char ch).cons (makeSpace_small e1))).mono (by omega) (by omega)
      · cases h
    · simp only [Res.ok.injEq] at h; subst h; exact g

theorem handleSpace_small {be : Backend F} {t : GoString} {st : TState F} {n : TNode F} (h : handleSpace be t st = .ok n) :
    Small [n] 2 0 := by
  unfold handleSpace at h
  split at h
  · exact makeSpace_small h
  · cases h

theorem newChars_small {be : Backend F} {st : TState F} {m : Bool} : ∀ {l : List Ch} {r : List (TNode F)},
    newChars be st m l = .ok r → Small r (2 * l.length) l.length
  | [], r, h => by simp only [newChars, Res.ok.injEq] at h; subst h; exact Small.nil
  | c :: l, r, h => by
    rw [newChars] at h
    obtain ⟨ch, hc, h⟩ := Res.bind_eq_ok.1 h
    obtain ⟨r', hr, h⟩ := Res.bind_eq_ok.1 h
    simp only [Res.ok.injEq] at h; subst h
    exact ((small_char ch).cons (newChars_small hr)).mono (by simp only [List.length_cons]; omega) (by simp only [List.length_cons]; omega)

theorem literalChars_small {be : Backend F} {x : GoString} {st : TState F} {m : Bool} : ∀ {l : List Ch} {r : List (TNode F)},
    literalChars be x st m l = .ok r → Small r (8 * l.length) l.length
  | [], r, h => by simp only [literalChars, Res.ok.injEq] at h; subst h; exact Small.nil
  | c :: l, r, h => by
    rw [literalChars] at h
    obtain ⟨ch, hc, h⟩ := Res.bind_eq_ok.1 h
    obtain ⟨r', hr, h⟩ := Res.bind_eq_ok.1 h
    simp only [Res.ok.injEq] at h; subst h
    exact ((handleSymbol_small hc).cons (literalChars_small hr)).mono (by simp only [List.length_cons]; omega) (by simp only [List.length_cons]; omega)

theorem handleFunction_small {be : Backend F} {t : GoString} {st : TState F} {m : Bool} {n : TNode F}
    (h : handleFunction be t st m = .ok n) : Small [n] (8 * max 1 t.length) (max 1 t.length) := by
  unfold handleFunction at h
  obtain ⟨r, hr, h⟩ := Res.bind_eq_ok.1 h
  simp only [Res.ok.injEq] at h; subst h
  have := decode_length (t.drop 1)
  rw [List.length_drop] at this
  exact (small_hlistOf (newChars_small hr)).mono (by omega) (by omega)

theorem autoHeightChar_small {be : Backend F} {c : GoString} {hh d : F} {st : TState F} {k : F} {n : TNode F}
    (h : autoHeightChar be c hh d st k = .ok n) : Small [n] 4 1 := by
  replace h := autoHeightChar_ok h
  unfold autoHeightBody at h
  obtain ⟨ch, hc, h⟩ := Res.bind_eq_ok.1 h
  have w : ∀ (c : CharD F) (hd : LHead F), Small [.list .h hd (insertKerns be [.char c])] 4 1 := fun c hd => by
    have := small_insertKerns be [.char c]
    exact Small.list ⟨this.1, by rw [this.2]; exact Nat.le_refl _⟩
  dsimp only at h
  split at h
  · obtain ⟨ch', hc', h⟩ := Res.bind_eq_ok.1 h
    simp only [Res.ok.injEq] at h; subst h
    exact w _ _
  · simp only [Res.ok.injEq] at h; subst h
    exact w _ _

theorem ruled_small {be : Backend F} {st : TState F} {body : TNode F} {hh d : F} {n : TNode F} {b m : Nat}
    (g : Small [body] b m) (h : ruled be st body hh d = .ok n) : Small [n] (b + 6) (m + 1) := by
  unfold ruled at h
  obtain ⟨gl, -, h⟩ := Res.bind_eq_ok.1 h
  obtain ⟨hd, -, h⟩ := Res.bind_eq_ok.1 h
  obtain ⟨hd', -, h⟩ := Res.bind_eq_ok.1 h
  simp only [Res.ok.injEq] at h; subst h
  exact (Small.wrap ((small_hrule be st _).cons ((small_glue gl).cons g))).mono (by omega) (by omega)

theorem centredTo_small {n : TNode F} {w : F} {b m : Nat} (g : Small [n] b m) : Small (centredTo n w).2 (b + 4) m :=
  ((small_glue ssGlue).cons (g.cons (small_glue ssGlue))).mono (by omega) (by omega)

theorem genfrac_small {be : Backend F} {delims : Bool} {rule : F} {display : Bool} {a b n : TNode F} {st : TState F}
    {p q p' q' : Nat} (ga : Small [a] p q) (gb : Small [b] p' q') (h : genfrac be delims rule display a b st = .ok n) :
    Small [n] (p + p' + 34) (q + q' + 3) ∧ (delims = false → Small [n] (p + p' + 24) (q + q' + 1)) := by
  unfold genfrac at h
  dsimp only at h
  obtain ⟨hd, -, h⟩ := Res.bind_eq_ok.1 h
  have ga' : Small [if display then a else a.shrink be] p q := by
    split
    · exact ga
    · exact ga.shrink
  have gb' : Small [if display then b else b.shrink be] p' q' := by
    split
    · exact gb
    · exact gb.shrink
  split at h
  · have gbox : ∀ hd' w, Small [hlistOf be [.list .v hd'
        [.list .h (centredTo (if display then a else a.shrink be) w).1 (centredTo (if display then a else a.shrink be) w).2,
        vbox zero (be.underline st.font st.dpi * ofInt 2), hrule be st rule, vbox zero (be.underline st.font st.dpi * ofInt 2),
        .list .h (centredTo (if display then b else b.shrink be) w).1 (centredTo (if display then b else b.shrink be) w).2],
        hbox (ofInt 2 * be.underline st.font st.dpi)] true] (p + p' + 24) (q + q' + 1) := fun hd' w =>
      (small_hlistOf ((Small.wrap ((Small.wrap (centredTo_small ga')).cons ((small_vbox _ _).cons ((small_hrule be st _).cons
        ((small_vbox _ _).cons (Small.wrap (centredTo_small gb'))))))).cons (small_hbox _))).mono (by omega) (by omega)
    cases delims
    · simp only [Bool.false_eq_true, if_false, Res.ok.injEq] at h
      subst h
      exact ⟨(gbox _ _).mono (by omega) (by omega), fun _ => gbox _ _⟩
    · simp only [if_true] at h
      unfold autoSizedDelimiter at h
      dsimp only at h
      obtain ⟨l, hl, h⟩ := Res.bind_eq_ok.1 h
      obtain ⟨r, hr, h⟩ := Res.bind_eq_ok.1 h
      simp only [Res.ok.injEq] at h; subst h
      exact ⟨(small_hlistOf (((autoHeightChar_small hl).cons (gbox _ _)).append (autoHeightChar_small hr))).mono (by omega) (by omega),
        fun e => by cases e⟩
  · cases h

theorem buildSqrt_small {be : Backend F} {root : Option (TNode F)} {hd : LHead F} {cs : List (TNode F)} {st : TState F}
    {n : TNode F} {p q p' q' : Nat} (ga : ∀ r, root = some r → Small [r] p q) (hp : 2 ≤ p)
    (gb : boxCounts cs ≤ p' ∧ markCounts cs ≤ q') (h : buildSqrt be root hd cs st = .ok n) :
    Small [n] (p + p' + 26) (q + q' + 2) := by
  unfold buildSqrt at h
  dsimp only at h
  obtain ⟨check, hc, h⟩ := Res.bind_eq_ok.1 h
  obtain ⟨rhs, hr, h⟩ := Res.bind_eq_ok.1 h
  obtain ⟨hd', -, h⟩ := Res.bind_eq_ok.1 h
  simp only [Res.ok.injEq] at h; subst h
  have gr := ruled_small (small_hlistOf ((small_hbox _).cons ((Small.list gb).cons (small_hbox _)))) hr
  have g : Small [match root with
      | none => hbox (check.width * ofRat 5 10)
      | some r => (r.shrink be).shrink be] p q := by
    cases root with
    | none => exact (small_hbox _).mono hp (Nat.zero_le _)
    | some r => exact (ga r rfl).shrink.shrink
  exact (small_hlistOf ((Small.wrap (small_hlistOf g)).cons ((small_kern _).cons ((autoHeightChar_small hc).cons gr)))).mono (by omega) (by omega)

theorem buildOverline_small {be : Backend F} {hd : LHead F} {cs : List (TNode F)} {st : TState F}
    {n : TNode F} {p q : Nat} (gb : boxCounts cs ≤ p ∧ markCounts cs ≤ q)
    (h : buildOverline be hd cs st = .ok n) : Small [n] (p + 12) (q + 1) := by
  unfold buildOverline at h
  dsimp only at h
  obtain ⟨rhs, hr, h⟩ := Res.bind_eq_ok.1 h
  simp only [Res.ok.injEq] at h; subst h
  exact (small_hlistOf (ruled_small (small_hlistOf (Small.list gb)) hr)).mono (by omega) (by omega)

section
variable {be : Backend F} {num : GoString → Option F} {x : GoString}

/-- The result, if any, is as small as prescribed. -/
def SmallRes (w : Nat) (r : Res (List (TNode F))) : Prop := ∀ l, r = .ok l → Small l (8 * w) w

theorem SmallRes.mono {w w' : Nat} {r : Res (List (TNode F))} (h : SmallRes w r) (hw : w ≤ w') : SmallRes w' r :=
  fun l hl => (h l hl).mono (by omega) hw

theorem smallRes_panic {w : Nat} {p : Panic} : SmallRes w (.panic p : Res (List (TNode F))) := fun _ h => by cases h

theorem small_two {args : List Node} {rs : List (Res (List (TNode F)))} {n : TNode F}
    {f : List (TNode F) → List (TNode F) → Res (TNode F)} {e : Panic}
    (h : List.Forall₂ (fun r a => SmallRes (weight a) r) rs args)
    (hok : (match args, rs with
      | .arg .. :: .arg .. :: _, r1 :: r2 :: _ => r1 >>= fun a => r2 >>= fun b => f a b
      | _, _ => .panic e) = .ok n) :
    ∃ a b v w, Small a (8 * v) v ∧ Small b (8 * w) w ∧ f a b = .ok n ∧ v + w ≤ weights args := by
  split at hok
  · rcases h with _ | ⟨h1, _ | ⟨h2, h3⟩⟩
    obtain ⟨a, ha, hok⟩ := Res.bind_eq_ok.1 hok
    obtain ⟨b, hb, hok⟩ := Res.bind_eq_ok.1 hok
    exact ⟨a, b, _, _, h1 a ha, h2 b hb, hok, by simp only [weights]; omega⟩
  · cases hok

theorem small_hl {l : List (TNode F)} {b m : Nat} (h : Small l b m) : Small [hl be l] (b + 2) m := by
  rw [hl_eq]; exact small_hlistOf h

theorem chain_cases (k : Hk) (h : k ≠ .space ∧ k ≠ .symbol ∧ k ≠ .hspace ∧ k ≠ .function) (a b c d e f g i j k' l : Prop)
    [Decidable a] [Decidable b] [Decidable c] [Decidable d] [Decidable e] [Decidable f] [Decidable g] [Decidable i] [Decidable j]
    [Decidable k'] [Decidable l] (hk : (if a then some Hk.space else if b then some .symbol else if c then some .hspace
      else if d then some .function else if e then some .frac else if f then some .dfrac else if g then some .tfrac
      else if i then some .binom else if j then some .sqrt else if k' then some .overline else if l then some .symbol else none) = some k) :
    (e ∧ k = .frac) ∨ (f ∧ k = .dfrac) ∨ (g ∧ k = .tfrac) ∨ i ∨ (j ∧ k = .sqrt) ∨ (k' ∧ k = .overline) := by
  obtain ⟨h1, h2, h3, h4⟩ := h
  by_cases a
  · simp_all
  by_cases b
  · simp_all
  by_cases c
  · simp_all
  by_cases d
  · simp_all
  by_cases e
  · simp_all
  by_cases f
  · simp_all
  by_cases g
  · simp_all
  by_cases i
  · simp_all
  by_cases j
  · simp_all
  by_cases k'
  · simp_all
  by_cases l <;> simp_all

/-- The names of the macros that draw rules. -/
theorem handler_length {t : GoString} {k : Hk} (hk : handlerOf t = some k)
    (h : k ≠ .space ∧ k ≠ .symbol ∧ k ≠ .hspace ∧ k ≠ .function) : 5 ≤ t.length ∧ (k = .binom → 6 ≤ t.length) := by
  unfold handlerOf at hk
  have := chain_cases k h _ _ _ _ _ _ _ _ _ _ _ hk
  clear hk
  rcases this with ⟨h, e⟩ | ⟨h, e⟩ | ⟨h, e⟩ | h | ⟨h, e⟩ | ⟨h, e⟩
  case inr.inr.inr.inl => subst h; exact ⟨by decide, fun _ => by decide⟩
  all_goals (subst h; exact ⟨by decide, fun e' => by rw [e] at e'; cases e'⟩)

theorem build_small (st : TState F) (math : Bool) (k : Hk) (pos : Nat) (t : GoString)
    (hk : handlerOf t = some k) (args : List Node) (rs : List (Res (List (TNode F))))
    (h : List.Forall₂ (fun r a => SmallRes (weight a) r) rs args) (n : TNode F)
    (hn : build be num x st math k pos t args rs = .ok n) :
    Small [n] (8 * (max 1 t.length + weights args)) (max 1 t.length + weights args) := by
  have hlen := handler_length hk
  cases k <;> unfold build at hn <;> dsimp only at hn
  case space => exact (handleSpace_small hn).mono (by omega) (by omega)
  case symbol => exact (handleSymbol_small hn).mono (by omega) (by omega)
  case function => exact (handleFunction_small hn).mono (by omega) (by omega)
  case hspace =>
    split at hn
    · split at hn
      · exact (makeSpace_small hn).mono (by omega) (by omega)
      · cases hn
    · cases hn
  case frac | tfrac | dfrac =>
    have := (hlen (by simp)).1
    obtain ⟨a, b, v, w, ga, gb, e, hw⟩ := small_two h hn
    exact ((genfrac_small (small_hl ga) (small_hl gb) e).2 rfl).mono (by omega) (by omega)
  case binom =>
    have := (hlen (by simp)).2 rfl
    obtain ⟨a, b, v, w, ga, gb, e, hw⟩ := small_two h hn
    exact (genfrac_small (small_hl ga) (small_hl gb) e).1.mono (by omega) (by omega)
  case sqrt =>
    have := (hlen (by simp)).1
    split at hn
    · rcases h with _ | ⟨h1, _ | ⟨h2, h3⟩⟩
      obtain ⟨a, ha, hn⟩ := Res.bind_eq_ok.1 hn
      obtain ⟨b, hb, hn⟩ := Res.bind_eq_ok.1 hn
      simp only [weights]
      exact (buildSqrt_small (fun r hr => by cases hr; exact small_hl (h1 a ha)) (by omega) (small_hbody (h2 b hb)) hn).mono (by omega) (by omega)
    · rcases h with _ | ⟨h1, h2⟩
      obtain ⟨b, hb, hn⟩ := Res.bind_eq_ok.1 hn
      simp only [weights]
      exact (buildSqrt_small (q := 0) (fun r hr => by cases hr) (Nat.le_refl 2) (small_hbody (h1 b hb)) hn).mono (by omega) (by omega)
    · cases hn
  case overline =>
    have := (hlen (by simp)).1
    split at hn
    · rcases h with _ | ⟨h1, h2⟩
      obtain ⟨b, hb, hn⟩ := Res.bind_eq_ok.1 hn
      simp only [weights]
      exact (buildOverline_small (small_hbody (h1 b hb)) hn).mono (by omega) (by omega)
    · cases hn

theorem smallRes_one {r : Res (TNode F)} {w : Nat} (h : ∀ n, r = .ok n → Small [n] (8 * w) w) :
    SmallRes w (r >>= fun n => .ok [n]) := by
  intro l hl
  obtain ⟨n, hn, e⟩ := Res.bind_eq_ok.1 hl
  simp only [Res.ok.injEq] at e; subst e
  exact h n hn

theorem smallRes_append {r s : Res (List (TNode F))} {v w : Nat} (h : SmallRes v r)
    (h' : SmallRes w s) : SmallRes (v + w) (r >>= fun a => s >>= fun b => .ok (a ++ b)) := by
  intro l hl
  obtain ⟨a, ha, hl⟩ := Res.bind_eq_ok.1 hl
  obtain ⟨b, hb, hl⟩ := Res.bind_eq_ok.1 hl
  simp only [Res.ok.injEq] at hl; subst hl
  exact ((h a ha).append (h' b hb)).mono (by omega) (by omega)

theorem smallRes_nil {w : Nat} : SmallRes w (.ok [] : Res (List (TNode F))) := fun l hl => by
  cases hl; exact Small.nil.mono (Nat.zero_le _) (Nat.zero_le _)

theorem sym_small (p : Nat) (t : GoString) (st : TState F) (math : Bool) :
    SmallRes (max 1 t.length) (visitN be num x st math (.sym p t)) := by
  simp only [visitN]
  cases math
  · simp only [Bool.false_eq_true, if_false]
    intro l hl
    obtain ⟨c, hc, hl⟩ := Res.bind_eq_ok.1 hl
    simp only [Res.ok.injEq] at hl; subst hl
    exact (small_char c).mono (by omega) (by omega)
  · simp only [if_true]
    refine smallRes_one fun n hn => ?_
    cases hk : handlerOf t with
    | none => rw [hk] at hn; cases hn
    | some k =>
      rw [hk] at hn
      cases k <;> try (cases hn)
      case space => exact (handleSpace_small hn).mono (by omega) (by omega)
      case symbol => exact (handleSymbol_small hn).mono (by omega) (by omega)

theorem word_small (p : Nat) (t : GoString) (st : TState F) (math : Bool) :
    SmallRes (max 1 t.length) (visitN be num x st math (.word p t)) := by
  simp only [visitN]
  intro l hl
  obtain ⟨c, hc, hl⟩ := Res.bind_eq_ok.1 hl
  simp only [Res.ok.injEq] at hl; subst hl
  have := decode_length t
  exact (small_hlistOf (newChars_small hc)).mono (by omega) (by omega)

theorem lit_small (p : Nat) (t : GoString) (st : TState F) (math : Bool) :
    SmallRes (max 1 t.length) (visitN be num x st math (.lit p t)) := by
  simp only [visitN]
  intro l hl
  have := decode_length t
  exact (literalChars_small hl).mono (by omega) (by omega)

mutual
theorem visit_small : ∀ (n : Node) (st : TState F) (math : Bool), SmallRes (weight n) (visitN be num x st math n)
  | .list l, st, math => by simp only [visitN]; exact smallRes_nil
  | .nil, st, math => by simp only [visitN]; exact smallRes_nil
  | .sym p t, st, math => sym_small p t st math
  | .word p t, st, math => word_small p t st math
  | .lit p t, st, math => lit_small p t st math
  | .math d a l b, st, math => by
    simp only [visitN, weight]
    exact (visitAll_small l (st.withType mathDefault) true).mono (by omega)
  | .macro none _, _, _ => by simp only [visitN]; exact smallRes_panic
  | .macro (some (p, name)) args, st, math => by
    simp only [visitN, weight]
    cases hk : handlerOf name with
    | none => exact smallRes_panic
    | some k => exact smallRes_one fun n hn => build_small st math k p name hk args _ (walkArgs_small args st math) n hn
  | .arg .., _, _ => by simp only [visitN]; exact smallRes_panic
  | .optArg .., _, _ => by simp only [visitN]; exact smallRes_panic
  | .ident .., _, _ => by simp only [visitN]; exact smallRes_panic
  | .sub .., _, _ => by simp only [visitN]; exact smallRes_panic
  | .sup .., _, _ => by simp only [visitN]; exact smallRes_panic
theorem visitAll_small : ∀ (l : List Node) (st : TState F) (math : Bool), SmallRes (weights l) (visitAll be num x st math l)
  | [], st, math => by simp only [visitAll]; exact smallRes_nil
  | n :: l, st, math => by
    simp only [visitAll, weights]
    exact smallRes_append (visit_small n st math) (visitAll_small l st math)
theorem walk_small : ∀ (n : Node) (st : TState F) (math : Bool), SmallRes (weight n) (walkN be num x st math n)
  | .list l, st, math => by
    simp only [walkN, weight]; exact (walkAll_small l st math).mono (by omega)
  | .nil, st, math => by simp only [walkN]; exact smallRes_panic
  | .sym p t, st, math => by rw [walkN]; exact sym_small p t st math
  | .word p t, st, math => by rw [walkN]; exact word_small p t st math
  | .lit p t, st, math => by rw [walkN]; exact lit_small p t st math
  | .math d a l b, st, math => by
    simp only [walkN, weight]
    exact (visitAll_small l (st.withType mathDefault) true).mono (by omega)
  | .macro none _, _, _ => by simp only [walkN, visitN]; exact smallRes_panic
  | .macro (some (p, name)) args, st, math => by
    simp only [walkN, visitN, weight]
    cases hk : handlerOf name with
    | none => exact smallRes_panic
    | some k => exact smallRes_one fun n hn => build_small st math k p name hk args _ (walkArgs_small args st math) n hn
  | .arg .., _, _ => by simp only [walkN]; exact smallRes_panic
  | .optArg .., _, _ => by simp only [walkN]; exact smallRes_panic
  | .ident .., _, _ => by simp only [walkN]; exact smallRes_panic
  | .sub .., _, _ => by simp only [walkN]; exact smallRes_panic
  | .sup .., _, _ => by simp only [walkN]; exact smallRes_panic
theorem walkAll_small : ∀ (l : List Node) (st : TState F) (math : Bool), SmallRes (weights l) (walkAll be num x st math l)
  | [], st, math => by simp only [walkAll]; exact smallRes_nil
  | n :: l, st, math => by
    simp only [walkAll, weights]
    exact smallRes_append (walk_small n st math) (walkAll_small l st math)
theorem walkArg_small : ∀ (n : Node) (st : TState F) (math : Bool), SmallRes (weight n) (walkArg be num x st math n)
  | .arg _ l _, st, math => by
    simp only [walkArg, weight]; exact (walkAll_small l st math).mono (by omega)
  | .optArg _ l _, st, math => by
    simp only [walkArg, weight]; exact (walkAll_small l st math).mono (by omega)
  | .nil, st, math => by simp only [walkArg]; exact smallRes_panic
  | .list _, st, math => by simp only [walkArg]; exact smallRes_panic
  | .macro _ _, st, math => by simp only [walkArg]; exact smallRes_panic
  | .ident _ _, st, math => by simp only [walkArg]; exact smallRes_panic
  | .math _ _ _ _, st, math => by simp only [walkArg]; exact smallRes_panic
  | .word _ _, st, math => by simp only [walkArg]; exact smallRes_panic
  | .lit _ _, st, math => by simp only [walkArg]; exact smallRes_panic
  | .sym _ _, st, math => by simp only [walkArg]; exact smallRes_panic
  | .sub _ _, st, math => by simp only [walkArg]; exact smallRes_panic
  | .sup _ _, st, math => by simp only [walkArg]; exact smallRes_panic
theorem walkArgs_small : ∀ (l : List Node) (st : TState F) (math : Bool),
    List.Forall₂ (fun r a => SmallRes (weight a) r) (walkArgs be num x st math l) l
  | [], st, math => by simp only [walkArgs]; exact .nil
  | n :: as, st, math => by
    simp only [walkArgs]
    exact .cons (walkArg_small n st math) (walkArgs_small as st math)
end

end

/-! ## The drawing of boxes -/

mutual
theorem bars_le : ∀ (n : TNode F), (∀ H, (glyphs n).length + (barsH H n).length ≤ markCount n) ∧ ∀ W, (glyphs n).length + (barsV W n).length ≤ markCount n
  | .box _ | .glue _ | .kern _ => ⟨fun _ => Nat.le_refl _, fun _ => Nat.le_refl _⟩
  | .char _ | .accent _ => ⟨fun _ => Nat.le_refl _, fun _ => Nat.le_refl _⟩
  | .rule b => by
    refine ⟨fun H => ?_, fun W => ?_⟩ <;> simp only [glyphs, barsH, barsV, markCount, List.length_nil, Nat.zero_add]
    · split <;> (split <;> simp)
    · split <;> simp
  | .list .plain _ cs => ⟨fun _ => Nat.zero_le _, fun _ => Nat.zero_le _⟩
  | .list .h _ cs => ⟨fun _ => (bars_all cs).1 _, fun _ => (bars_all cs).1 _⟩
  | .list .v _ cs => ⟨fun _ => (bars_all cs).2 _, fun _ => (bars_all cs).2 _⟩
theorem bars_all : ∀ (l : List (TNode F)), (∀ H, (glyphsAll l).length + (barsHs H l).length ≤ markCounts l) ∧
    ∀ W, (glyphsAll l).length + (barsVs W l).length ≤ markCounts l
  | [] => ⟨fun _ => Nat.le_refl _, fun _ => Nat.le_refl _⟩
  | n :: l => by
    have h1 := bars_le n
    have h2 := bars_all l
    refine ⟨fun H => ?_, fun W => ?_⟩
    · have := h1.1 H
      have := h2.1 H
      simp only [glyphsAll, barsHs, markCounts, List.length_append]
      omega
    · have := h1.2 W
      have := h2.2 W
      simp only [glyphsAll, barsVs, markCounts, List.length_append]
      omega
end

theorem ops_length (l : List (Draw F)) : l.length = (l.filterMap opGlyph).length + (l.filterMap opRect).length := by
  induction l with
  | nil => rfl
  | cons d l ih => cases d <;> rw [List.filterMap_cons, List.filterMap_cons] <;> simp only [opGlyph, opRect, List.length_cons] <;> omega

end Verif
