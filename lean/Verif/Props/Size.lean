import Verif.Lemmas.Size
import Verif.Props.Grammar
import Verif.Props.Render
/-! # C92: sizes are linear -/

set_option linter.unusedSectionVars false

namespace Verif.Props
open Verif Verif.Spec GoFloat
variable {F H : Type} [GoFloat F] {U : Nat → Bool}

theorem stripBom_length (x : GoString) : (stripBom x).length ≤ x.length := by
  unfold stripBom
  split
  · simp only [List.length_cons]; omega
  · exact Nat.le_refl _

theorem parse_size {x : GoString} {t : Node} (h : parseExpr U x = .ok t) :
    ∃ l, t = .list l ∧ nodeCounts l ≤ x.length ∧ weights l ≤ x.length := by
  obtain ⟨L, l, h1, h2, rfl⟩ := (C83_grammar x t).1 h
  obtain ⟨h3, h4⟩ := lexes_fit h1 (decode_ok _)
  obtain ⟨-, h5, h6⟩ := items_size h2 h3
  rw [bytesOf_decode] at h4
  have := stripBom_length x
  simp only [total] at h5 h6
  exact ⟨l, rfl, by omega, by omega⟩

/-- **C92** The tree of an expression has at most one node for each byte, and the root; its texts are together no longer
than the source; and it is nested no deeper than it has nodes. -/
theorem C92_nodes (x : GoString) (t : Node) (h : parseExpr U x = .ok t) :
    nodeCount t ≤ x.length + 1 ∧ textLen t ≤ x.length ∧ treeDepth t ≤ nodeCount t := by
  obtain ⟨l, rfl, h1, h2⟩ := parse_size h
  have := textLens_le l
  exact ⟨by simp only [nodeCount]; omega, by simp only [textLen]; omega, treeDepth_le _⟩

/-- **C92** Laying an expression out makes at most eight boxes for each byte of it, whatever the fonts. -/
theorem C92_boxes (be : Backend F) (num : GoString → Option F) (x : GoString) (size dpi : F) (hd : LHead F) (cs : List (TNode F))
    (h : mtexParse U be num x size dpi = .ok (hd, cs)) : boxCounts cs ≤ 8 * x.length := by
  rw [mtexParse] at h
  obtain ⟨root, hp, h'⟩ := Res.bind_eq_ok.1 h
  obtain ⟨l, hl, e⟩ := Res.bind_eq_ok.1 h'
  rw [collect_eq] at hl
  obtain ⟨nl, rfl, -, h2⟩ := parse_size hp
  rw [walkN] at hl
  have g := small_hbody (be := be) (walkAll_small nl (initState size dpi) false l hl)
  cases e
  exact Nat.le_trans g.1 (by omega)

/-- **C92** Drawing an expression, anywhere, takes at most one call of the drawing interface (`RenderGlyph` or
`RenderRectFilled`) for each byte. -/
theorem C92_ops (be : Backend F) (num : GoString → Option F) (x : GoString) (size dpi : F) (hd : LHead F) (cs : List (TNode F))
    (h : mtexParse U be num x size dpi = .ok (hd, cs)) (ox oy : F) (s : ShipSt F) (cs' : List (TNode F))
    (hs : shipCall ox oy hd cs = .ok (s, cs')) : s.ops.length ≤ x.length := by
  have h1 := (bars_all cs).1 hd.box.height
  have h2 := (C48_rectangles ox oy hd cs s cs' hs).length_eq
  rw [ops_length, C48_glyphs ox oy hd cs s cs' hs, h2]
  refine Nat.le_trans h1 ?_
  rw [mtexParse] at h
  obtain ⟨root, hp, h'⟩ := Res.bind_eq_ok.1 h
  obtain ⟨l, hl, e⟩ := Res.bind_eq_ok.1 h'
  rw [collect_eq] at hl
  obtain ⟨nl, rfl, -, h4⟩ := parse_size hp
  rw [walkN] at hl
  have g := small_hbody (be := be) (walkAll_small nl (initState size dpi) false l hl)
  cases e
  exact Nat.le_trans g.2 h4

/-- **C92** And so does `mtex.Render`: the canvas handed to the renderer has at most one operation for each byte. -/
theorem C92_render [EqLaws F] (e : TtfEnv H) (num : GoString → Option F) (x : GoString) (size dpi : F)
    (hk : e.KernFine) (h72 : eq (ofInt 72 : F) (ofInt 72) = true) (c : RenderCall F H) (h : renderT U e num x size dpi = .ok c) :
    c.ops.length ≤ x.length := by
  obtain ⟨be, hd, cs, st, cs', h1, h2, h3, -⟩ := C65_call U e num x size dpi hk h72 c h
  rw [← h3.length_eq]
  exact C92_ops be num x size (ofInt 72) hd cs h1 zero zero st cs' h2

/-! ## Walk -/

section
variable {V S : Type} (visit : Visit V S)

theorem counting_ok {v : V} {n : Node} {s : S} {k : Nat} {r : Option V × S × Nat} :
    counting visit v n (s, k) = .ok r → r.2.2 = k + 1 := by
  intro h
  obtain ⟨q, hq, h⟩ := Res.bind_eq_ok.1 h
  cases h
  rfl

/-- The walk of an identifier. -/
theorem count_ident (v : V) (p : Nat) (t : GoString) (s : S) (k : Nat) (s' : S × Nat) (h : walkIdent (counting visit) v p t (s, k) = .ok s') :
    s'.2 ≤ k + 2 := by
  unfold walkIdent at h
  obtain ⟨⟨w, s1, k1⟩, h1, h⟩ := Res.bind_eq_ok.1 h
  have e1 := counting_ok visit h1
  dsimp only at e1
  cases w with
  | none => cases h; dsimp only; omega
  | some w =>
    dsimp only at h
    obtain ⟨⟨w2, s2, k2⟩, h2, h⟩ := Res.bind_eq_ok.1 h
    have e2 := counting_ok visit h2
    cases h
    dsimp only at e2 ⊢
    omega

mutual
theorem count_walk : ∀ (n : Node) (v : V) (s : S) (k : Nat) (s' : S × Nat), walk (counting visit) v n (s, k) = .ok s' → s'.2 ≤ k + 2 * nodeCount n
  | n, v, s, k, s', h => by
    have ident := count_ident visit
    rw [walk.eq_1] at h
    obtain ⟨⟨w, s1, k1⟩, h1, h⟩ := Res.bind_eq_ok.1 h
    have e1 := counting_ok visit h1
    dsimp only at e1
    cases w with
    | none => cases h; cases n <;> dsimp only <;> unfold nodeCount <;> (try split) <;> omega
    | some w =>
      dsimp only at h
      obtain ⟨⟨s2, k2⟩, h2, h⟩ := Res.bind_eq_ok.1 h
      obtain ⟨⟨w3, s3, k3⟩, h3, h⟩ := Res.bind_eq_ok.1 h
      have e3 := counting_ok visit h3
      cases h
      dsimp only at e3 ⊢
      cases n with
      | nil => cases h2
      | list l => have := count_list l w s1 k1 _ h2; dsimp only at this; simp only [nodeCount]; omega
      | «macro» o args =>
        cases o with
        | none => have := count_list args w s1 k1 _ h2; dsimp only at this; simp only [nodeCount]; omega
        | some q =>
          obtain ⟨⟨s4, k4⟩, h4, h2⟩ := Res.bind_eq_ok.1 h2
          have := count_list args w s4 k4 _ h2
          have := ident w _ _ _ _ _ h4
          dsimp only at *; simp only [nodeCount]; omega
      | arg _ l _ => have := count_list l w s1 k1 _ h2; dsimp only at this; simp only [nodeCount]; omega
      | optArg _ l _ => have := count_list l w s1 k1 _ h2; dsimp only at this; simp only [nodeCount]; omega
      | math _ _ l _ => have := count_list l w s1 k1 _ h2; dsimp only at this; simp only [nodeCount]; omega
      | sub _ m => have := count_walk m w s1 k1 _ h2; dsimp only at this; simp only [nodeCount]; omega
      | sup _ m => have := count_walk m w s1 k1 _ h2; dsimp only at this; simp only [nodeCount]; omega
      | word _ _ => cases h2; simp only [nodeCount]; omega
      | lit _ _ => cases h2; simp only [nodeCount]; omega
      | sym _ _ => cases h2; simp only [nodeCount]; omega
      | ident _ _ => cases h2; simp only [nodeCount]; omega
theorem count_list : ∀ (l : List Node) (v : V) (s : S) (k : Nat) (s' : S × Nat), walkList (counting visit) v l (s, k) = .ok s' →
    s'.2 ≤ k + 2 * nodeCounts l
  | [], v, s, k, s', h => by rw [walkList] at h; cases h; exact Nat.le_add_right _ _
  | n :: l, v, s, k, s', h => by
    rw [walkList] at h
    obtain ⟨⟨s1, k1⟩, h1, h⟩ := Res.bind_eq_ok.1 h
    have := count_walk n v s k _ h1
    have := count_list l v s1 k1 _ h
    dsimp only at *
    simp only [nodeCounts]
    omega
end

mutual
/-- Counting does not change what is counted. -/
theorem counting_same : ∀ (n : Node) (v : V) (s s' : S) (k : Nat), walk visit v n s = .ok s' → ∃ k', walk (counting visit) v n (s, k) = .ok (s', k')
  | n, v, s, s', k, h => by
    have ident : ∀ (v : V) (p : Nat) (t : GoString) (s s' : S) (k : Nat), walkIdent visit v p t s = .ok s' →
        ∃ k', walkIdent (counting visit) v p t (s, k) = .ok (s', k') := by
      intro v p t s s' k h
      unfold walkIdent at h ⊢
      obtain ⟨⟨w, s1⟩, h1, h⟩ := Res.bind_eq_ok.1 h
      simp only [counting, h1, Res.ok_bind]
      cases w with
      | none => cases h; exact ⟨_, rfl⟩
      | some w =>
        dsimp only at h
        obtain ⟨⟨w2, s2⟩, h2, h⟩ := Res.bind_eq_ok.1 h
        cases h
        simp only [h2, Res.ok_bind]
        exact ⟨_, rfl⟩
    rw [walk.eq_1] at h ⊢
    obtain ⟨⟨w, s1⟩, h1, h⟩ := Res.bind_eq_ok.1 h
    have e1 : counting visit v n (s, k) = .ok (w, (s1, k + 1)) := by simp only [counting, h1, Res.ok_bind]
    rw [e1]
    simp only [Res.ok_bind]
    cases w with
    | none => cases h; exact ⟨_, rfl⟩
    | some w =>
      dsimp only at h ⊢
      obtain ⟨s2, h2, h⟩ := Res.bind_eq_ok.1 h
      obtain ⟨⟨w3, s3⟩, h3, h⟩ := Res.bind_eq_ok.1 h
      cases h
      have fin : ∀ k2, (counting visit w .nil (s2, k2) >>= fun r2 => .ok r2.2) = .ok (s3, k2 + 1) := fun k2 => by
        simp only [counting, h3, Res.ok_bind]
      cases n with
      | nil => cases h2
      | list l =>
        obtain ⟨k2, e⟩ := counting_list l w s1 s2 (k + 1) h2
        exact ⟨k2 + 1, by dsimp only; rw [e]; exact fin k2⟩
      | «macro» o args =>
        cases o with
        | none =>
          obtain ⟨k2, e⟩ := counting_list args w s1 s2 (k + 1) h2
          exact ⟨k2 + 1, by dsimp only; rw [e]; exact fin k2⟩
        | some q =>
          obtain ⟨s4, h4, h2⟩ := Res.bind_eq_ok.1 h2
          obtain ⟨k4, e4⟩ := ident w _ _ _ _ (k + 1) h4
          obtain ⟨k2, e⟩ := counting_list args w s4 s2 k4 h2
          exact ⟨k2 + 1, by dsimp only; rw [e4, Res.ok_bind, e]; exact fin k2⟩
      | arg _ l _ =>
        obtain ⟨k2, e⟩ := counting_list l w s1 s2 (k + 1) h2
        exact ⟨k2 + 1, by dsimp only; rw [e]; exact fin k2⟩
      | optArg _ l _ =>
        obtain ⟨k2, e⟩ := counting_list l w s1 s2 (k + 1) h2
        exact ⟨k2 + 1, by dsimp only; rw [e]; exact fin k2⟩
      | math _ _ l _ =>
        obtain ⟨k2, e⟩ := counting_list l w s1 s2 (k + 1) h2
        exact ⟨k2 + 1, by dsimp only; rw [e]; exact fin k2⟩
      | sub _ m =>
        obtain ⟨k2, e⟩ := counting_same m w s1 s2 (k + 1) h2
        exact ⟨k2 + 1, by dsimp only; rw [e]; exact fin k2⟩
      | sup _ m =>
        obtain ⟨k2, e⟩ := counting_same m w s1 s2 (k + 1) h2
        exact ⟨k2 + 1, by dsimp only; rw [e]; exact fin k2⟩
      | word _ _ => cases h2; exact ⟨_, fin _⟩
      | lit _ _ => cases h2; exact ⟨_, fin _⟩
      | sym _ _ => cases h2; exact ⟨_, fin _⟩
      | ident _ _ => cases h2; exact ⟨_, fin _⟩
theorem counting_list : ∀ (l : List Node) (v : V) (s s' : S) (k : Nat), walkList visit v l s = .ok s' →
    ∃ k', walkList (counting visit) v l (s, k) = .ok (s', k')
  | [], v, s, s', k, h => by rw [walkList] at h ⊢; cases h; exact ⟨_, rfl⟩
  | n :: l, v, s, s', k, h => by
    rw [walkList] at h ⊢
    obtain ⟨s1, h1, h⟩ := Res.bind_eq_ok.1 h
    obtain ⟨k1, e1⟩ := counting_same n v s s1 k h1
    obtain ⟨k2, e2⟩ := counting_list l v s1 s' k1 h
    exact ⟨k2, by rw [e1, Res.ok_bind, e2]⟩
end

/-- **C92** `ast.Walk` calls `Visit` at most twice for each node of the tree, whatever the visitor does. -/
theorem C92_walk (v : V) (n : Node) (s s' : S) (h : walk visit v n s = .ok s') :
    ∃ k, walk (counting visit) v n (s, 0) = .ok (s', k) ∧ k ≤ 2 * nodeCount n := by
  obtain ⟨k, e⟩ := counting_same visit n v s s' 0 h
  exact ⟨k, e, by have := count_walk visit n v s 0 _ e; simpa using this⟩

/-- **C92** So walking the tree of an expression takes at most two calls for each byte, and two for the root. -/
theorem C92_walked (x : GoString) (t : Node) (hp : parseExpr U x = .ok t) (v : V) (s s' : S) (h : walk visit v t s = .ok s') :
    ∃ k, walk (counting visit) v t (s, 0) = .ok (s', k) ∧ k ≤ 2 * x.length + 2 := by
  obtain ⟨k, e, hk⟩ := C92_walk visit v t s s' h
  exact ⟨k, e, by have := (C92_nodes x t hp).1; omega⟩

end

/-! ## Concrete cases: the bounds are reached, or nearly so -/

/-- The number of nodes, the length of the texts and the nesting of the tree of `x`. -/
def exSizes (x : GoString) : Option (Nat × Nat × Nat) :=
  match parseExpr exU x with
  | .ok t => some (nodeCount t, textLen t, treeDepth t)
  | _ => none

/-- The number of operations on the canvas when `x` is rendered with the example fonts. -/
def exOps (x : GoString) : Option Nat :=
  match renderT exU exEnv exNum x (.fin 10) (.fin 100) with
  | .ok c => some c.ops.length
  | _ => none

/-- One node and one byte of text for each byte, one operation for each byte. -/
example : exSizes bs!"1+1" = some (4, 3, 2) ∧ exOps bs!"1+1" = some 3 := by decide +kernel
example : exSizes bs!"$\\frac{1}{\\sqrt{x}}$" = some (11, 12, 7) ∧ exOps bs!"$\\frac{1}{\\sqrt{x}}$" = some 5 := by decide +kernel

/-- A visitor that visits everything: two calls for each node. -/
example : walk (counting fun _ _ _ => .ok (some (), ())) () (.macro (some (0, bs!"\\frac")) [.arg 5 [.lit 6 bs!"1"] 7, .arg 8 [.word 9 bs!"x"] 10])
    ((), 0) = .ok ((), 12) ∧
    nodeCount (.macro (some (0, bs!"\\frac")) [.arg 5 [.lit 6 bs!"1"] 7, .arg 8 [.word 9 bs!"x"] 10]) = 6 := by
  decide +kernel

end Verif.Props
