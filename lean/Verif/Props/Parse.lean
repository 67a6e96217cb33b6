import Verif.Lemmas.Sublist
import Verif.Model.Krfl
/-!
# Properties of `latex.ParseExpr`: C01–C06, C11, C13–C15, C25

`U : Nat → Bool` is `unicode.IsLetter` on non-ASCII runes; every theorem holds for every `U`.
`parseExpr U x` is `ParseExpr(x)`; its outcome is a tree, a panic, or `fuel` (excluded by C01).
-/

namespace Verif.Props
open Verif Verif.Spec

variable (U : Nat → Bool)

/-- The tree used to show that hypotheses are met. -/
private def sample : GoString := bs!"a $\\sqrt[3]{x_{12}}^y$ \\frac{1}{é}"

private def sampleTree : Node := .list [.word 0 bs!"a", .sym 1 bs!" ", .math bs!"$" 2
  [.macro (some (3, bs!"\\sqrt")) [.optArg 8 [.lit 9 bs!"3"] 10,
    .arg 11 [.word 12 bs!"x", .sub 13 (.list [.lit 15 bs!"12"])] 18], .sup 19 (.word 20 bs!"y")] 21,
  .sym 22 bs!" ", .macro (some (23, bs!"\\frac")) [.arg 28 [.lit 29 bs!"1"] 30,
    .arg 31 [.word 32 bs!"é"] 34]]

private theorem sample_parses : parseExpr (fun _ => true) sample = .ok sampleTree := by krfl

/-! ## C01 -/

/-- C01: every input has an outcome (a tree or a panic), reached at every recursion bound from
`2·len(x) + 1` upwards: `ParseExpr` stops on every input, and never nests deeper than that. -/
theorem C01_terminates (x : GoString) :
    ∃ r : Res Node, r ≠ .fuel ∧ parseExpr U x = r ∧
      ∀ bound, 2 * x.length + 1 ≤ bound → parseExprN U bound x = r := by
  refine ⟨parseExprN U (2 * x.length + 1) x, parseExprN_ne_fuel U (Nat.le_refl _), ?_, ?_⟩
  · exact Res.le_of_ne (parseExprN_mono U (by omega) x) (parseExprN_ne_fuel U (Nat.le_refl _))
  · intro b hb
    exact Res.le_of_ne (parseExprN_mono U hb x) (parseExprN_ne_fuel U (Nat.le_refl _))

/-- The bound is not vacuous: with too small a bound the model reports `fuel`. -/
example : parseExprN U 2 bs!"$x^{y}$" = .fuel := by krfl
example : parseExpr U bs!"$x^{y}$" = .ok (.list [.math bs!"$" 0
    [.word 1 bs!"x", .sup 2 (.list [.word 4 bs!"y"])] 6]) := by krfl

/-! ## C02 -/

/-- C02: a result of `ParseExpr` is a list, and no list, argument or math expression at any
depth has a nil element.  (The error result of the Go function is the literal `nil` on the only
return path, parser.go:19 and 55; it is not represented in the model.) -/
theorem C02_list_without_nil (x : GoString) (root : Node) (h : parseExpr U x = .ok root) :
    (∃ l, root = .list l) ∧ ∀ k ∈ allNodes root, Node.nil ∉ elements k := by
  obtain ⟨l, rfl, hs⟩ := parse_shape h
  refine ⟨⟨l, rfl⟩, fun k hk => ?_⟩
  simp only [allNodes, List.mem_cons] at hk
  rcases hk with rfl | hk
  · exact hs.not_nil
  · exact nil_not_elem l false hs k hk

example : ∃ U x root, parseExpr U x = .ok root ∧ 10 ≤ (allNodes root).length :=
  ⟨_, _, _, sample_parses, by decide⟩

/-! ## C03 -/

/-- C03: for every word, literal and symbol node, `Pos()` and `End()` are positions of the
source and the slice between them is the text of the node. -/
theorem C03_leaf_text (x : GoString) (root : Node) (h : parseExpr U x = .ok root)
    (k : Node) (hk : k ∈ allNodes root) (p : Nat) (text : GoString)
    (hl : k = .word p text ∨ k = .lit p text ∨ k = .sym p text) :
    ∃ a e : Nat, k.posOf = some (a : Int) ∧ k.endOf = some (e : Int) ∧ e ≤ x.length ∧
      text ≠ [] ∧ slice x a e = text := by
  have h1 := parse_local h k hk
  obtain ⟨lo, hi, h2, h3, h4⟩ := (parse_ordered h).infix (marks_infix root k hk)
  refine ⟨p, p + text.length, ?_, ?_, ?_, ?_, ?_⟩
  all_goals rcases hl with rfl | rfl | rfl <;> simp only [marks, Ordered] at h4 <;>
    first
      | rfl
      | exact h1
      | omega
      | (rintro rfl; simp at h4)

example : ∃ U x root k, parseExpr U x = .ok root ∧ k ∈ allNodes root ∧
    k = .word 32 bs!"é" ∧ slice x 32 34 = bs!"é" :=
  ⟨_, _, _, _, sample_parses, by simp [allNodes, allNodesL, sampleTree], rfl, by decide⟩

/-! ## C04 -/

/-- C04: at the recorded position of a macro name the source has a backslash, then a run of
tabs, newlines and carriage returns, then the rest of the recorded name. -/
theorem C04_macro_name (x : GoString) (root : Node) (h : parseExpr U x = .ok root)
    (p : Nat) (name : GoString) (args : List Node)
    (hk : Node.macro (some (p, name)) args ∈ allNodes root) :
    ∃ breaks rest after, name = ch!"\\" :: rest ∧ (∀ b ∈ breaks, isBreak b = true) ∧
      x.drop p = bs!"\\" ++ breaks ++ rest ++ after := by
  obtain ⟨⟨w, rest, y, h1, h2, h3⟩, _⟩ := parse_local h _ hk
  exact ⟨w, rest, y, h2, h1, by rw [h3]; simp⟩

/-- C04, the finding: the run can be non-empty, and then the source text between `Pos()` and
`End()` of the name differs from the name. -/
theorem C04_name_differs : ∃ x root p name, parseExpr U x = .ok root ∧
    Node.macro (some (p, name)) [] ∈ allNodes root ∧ slice x p (p + name.length) ≠ name := by
  refine ⟨bs!"\\\nalpha", .list [.macro (some (0, bs!"\\alpha")) []], 0, bs!"\\alpha", by krfl, ?_, ?_⟩
  · simp [allNodes, allNodesL]
  · decide

/-! ## C05 -/

/-- C05: leaves in depth-first order have strictly increasing positions and disjoint extents. -/
theorem C05_source_order (x : GoString) (root : Node) (h : parseExpr U x = .ok root) :
    ((leaves root).Pairwise fun a b => a.1 < b.1 ∧ a.1 + a.2.length ≤ b.1) ∧
      ∀ q ∈ leaves root, q.2 ≠ [] ∧ q.1 + q.2.length ≤ x.length := by
  have ho := parse_ordered h
  have hs := leaves_sublist root
  have hf : ∀ q ∈ leaves root, q.2 ≠ [] ∧ q.1 + q.2.length ≤ x.length := by
    intro q hq
    have := ho.forall _ (hs.subset (List.mem_map_of_mem hq))
    simp only [extent] at this
    refine ⟨?_, this.2.2⟩
    intro h0
    simp [h0] at this
  refine ⟨?_, hf⟩
  have hp : ((leaves root).map extent).Pairwise fun a b => a.2 ≤ b.1 := ho.pairwise.sublist hs
  rw [List.pairwise_map] at hp
  refine hp.imp_of_mem ?_
  intro a b ha hb hab
  have := List.length_pos_iff.2 (hf a ha).1
  simp only [extent] at hab
  omega

example : ∃ U x root, parseExpr U x = .ok root ∧ (leaves root).length = 11 :=
  ⟨_, _, _, sample_parses, by decide⟩

/-! ## C06 -/

theorem init_bytes (x : GoString) : bytesOf (SS.init x).rest = stripBom x := by
  unfold stripBom
  split
  · rw [SS.init_bom]; exact bytesOf_decode _
  · rename_i h
    rw [SS.init_of_not_bom, bytesOf_decode]
    rintro ⟨t, ht⟩
    exact h t ht.symm

theorem clean_of {x : GoString} (h1 : ch!"%" ∉ x) (h2 : ¬ bs!"\\ " <:+: x) : Clean (SS.init x).rest := by
  have hd : Clean (decode x) := by
    refine ⟨fun c hc hr => h1 ?_, fun a c d b he hc hd => h2 ?_⟩
    · have hb := (decode_wf x c hc).2 (by omega)
      have : ch!"%" ∈ bytesOf (decode x) := by
        simp only [bytesOf, List.mem_flatMap]
        exact ⟨c, hc, by rw [hb, hr]; simp⟩
      rwa [bytesOf_decode] at this
    · have hcb := (decode_wf x c (by rw [he]; simp)).2 (by omega)
      have hdb := (decode_wf x d (by rw [he]; simp)).2 (by omega)
      have := bytesOf_decode x
      rw [he] at this
      rw [← this]
      simp only [bytesOf_append, bytesOf_cons, hcb, hdb, hc, hd]
      exact ⟨bytesOf a, bytesOf b, by simp⟩
  obtain ⟨pre, hp, _⟩ := Src.init x
  rw [hp] at hd
  exact hd.suffix

/-- C06, nothing is invented or reordered: for every input the leaf texts, concatenated in
depth-first order, are a subsequence of the source. -/
theorem C06_subsequence (x : GoString) (root : Node) (h : parseExpr U x = .ok root) :
    List.Sublist (leafText root) x := by
  obtain ⟨l, s', rfl, hp, _⟩ := parseExpr_sound h
  obtain ⟨mid, h1, h2⟩ := hp.sublist (x := x) (Src.init x)
  obtain ⟨pre, hpre, _⟩ := Src.init x
  rw [h1] at hpre
  have hx := bytesOf_decode x
  rw [hpre] at hx
  simp only [bytesOf_append] at hx
  have : leafText (.list l) = leafTextL l := by simp [leafText, leaves, leafTextL]
  rw [this, ← hx]
  exact (h2.trans (List.sublist_append_left _ _)).trans (List.sublist_append_right _ _)

/-- C06, nothing is lost: for an input without `%` and without a backslash followed by a blank,
leaf texts and source agree up to blanks, line breaks, brackets, braces, dollars, carets and
underscores (and a leading byte-order mark). -/
theorem C06_conservation (x : GoString) (root : Node) (h : parseExpr U x = .ok root)
    (h1 : ch!"%" ∉ x) (h2 : ¬ bs!"\\ " <:+: x) :
    content (leafText root) = content (stripBom x) := by
  obtain ⟨l, s', rfl, hp, hr⟩ := parseExpr_sound h
  obtain ⟨mid, h3, h4⟩ := hp.content (x := x) (Src.init x) (clean_of h1 h2)
  rw [hr, List.append_nil] at h3
  rw [← init_bytes, h3, h4]
  simp [leafText, leaves, leafTextL]

example : ∃ U x root, parseExpr U x = .ok root ∧ ch!"%" ∉ x ∧ ¬ bs!"\\ " <:+: x ∧
    content (stripBom x) = bs!"a\\sqrt3x12y\\frac1é" :=
  ⟨_, _, _, sample_parses, by decide, by decide, by decide⟩

/-- C06, why backslash-blank is excluded: in math it is dropped altogether. -/
theorem C06_escaped_blank_lost : parseExpr U bs!"$a\\ b$" =
    .ok (.list [.math bs!"$" 0 [.word 1 bs!"a", .word 4 bs!"b"] 5]) := by krfl

/-! ## C11 -/

/-- C11: recorded delimiter positions point at the delimiters; a closing position is 0 or points
at the closing delimiter; and nothing that is recorded in the tree comes after a node whose
closing delimiter is missing. -/
theorem C11_delimiters (x : GoString) (root : Node) (h : parseExpr U x = .ok root) :
    ∀ k ∈ allNodes root,
      (∀ d a l b, k = .math d a l b → slice x a (a + 1) = bs!"$" ∧
        (b = 0 ∨ slice x b (b + 1) = bs!"$")) ∧
      (∀ a l b, k = .arg a l b → slice x a (a + 1) = bs!"{" ∧
        (b = 0 ∨ slice x b (b + 1) = bs!"}")) ∧
      (∀ a l b, k = .optArg a l b → slice x a (a + 1) = bs!"[" ∧
        (b = 0 ∨ slice x b (b + 1) = bs!"]")) ∧
      (∀ p n, k = .sub p n → slice x p (p + 1) = bs!"_") ∧
      (∀ p n, k = .sup p n → slice x p (p + 1) = bs!"^") ∧
      (isOpen k = true → marks k <:+ marks root) := by
  intro k hk
  have h1 := parse_local h k hk
  refine ⟨?_, ?_, ?_, ?_, ?_, ?_⟩
  · rintro d a l b rfl; exact h1
  · rintro a l b rfl; exact h1
  · rintro a l b rfl; exact h1
  · rintro p n rfl; exact h1
  · rintro p n rfl; exact h1
  · intro ho
    obtain ⟨l, s', rfl, hp, _⟩ := parseExpr_sound h
    have h2 := (hp.last (x := x) (Src.init x) (.inl rfl)).2
    simp only [allNodes, List.mem_cons] at hk
    rcases hk with rfl | hk
    · simp [isOpen] at ho
    · simp only [marks]; exact (h2 k hk ho).1

/-- All five kinds of delimited nodes occur, and missing closers occur. -/
example : ∃ U x root, parseExpr U x = .ok root ∧ 20 ≤ (marks root).length :=
  ⟨_, _, _, sample_parses, by decide⟩
example : parseExpr U bs!"$\\sqrt[3]{x_{12" = .ok (.list [.math bs!"$" 0 [.macro (some (1, bs!"\\sqrt"))
    [.optArg 6 [.lit 7 bs!"3"] 8, .arg 9 [.word 10 bs!"x", .sub 11 (.list [.lit 13 bs!"12"])] 0]] 0]) := by
  krfl

/-! ## C13 -/

/-- C13: every macro of a result has a name, which is known and is not `\genfrac`, and has
exactly the arguments its signature prescribes. -/
theorem C13_macro_arity (x : GoString) (root : Node) (h : parseExpr U x = .ok root)
    (nm : Option (Nat × GoString)) (args : List Node) (hk : Node.macro nm args ∈ allNodes root) :
    ∃ p name, nm = some (p, name) ∧ name ≠ bs!"\\genfrac" ∧
      ((latexMacros.lookup name).isSome ∨ ∃ k, name = ch!"\\" :: k ∧ (tex2uni.lookup k).isSome) ∧
      ArgsOf name args := by
  have h1 := parse_local h _ hk
  match nm with
  | none =>
    exfalso
    obtain ⟨l, rfl, hs⟩ := parse_shape h
    simp only [allNodes, List.mem_cons, reduceCtorEq, false_or] at hk
    exact shape_forallL (U := U) (x := x) (Q := fun k => ∀ as, k ≠ .macro none as)
      (fun m k hk => by rintro as rfl; simp [Operand] at hk) (by simp) (by simp) (by simp) l false hs _ hk
      args rfl
  | some (p, name) =>
    obtain ⟨_, sig, h2, sig', h3, h4⟩ := h1
    obtain ⟨h5, h6, h7⟩ := macroLookup_sig h2
    subst h5
    exact ⟨p, name, rfl, h6, h7, argsOf_of_match (by rw [h3] at h4; exact h4)⟩

example : ∃ U x root args, parseExpr U x = .ok root ∧
    Node.macro (some (3, bs!"\\sqrt")) args ∈ allNodes root ∧ args.length = 2 :=
  ⟨_, _, _, _, sample_parses, by simp [allNodes, allNodesL, sampleTree]; rfl, rfl⟩

/-! ## C14 -/

/-- C14: the elements of the returned list have the shape described by `Spec.Shape`, outside
math at top level. -/
theorem C14_shape (x : GoString) (root : Node) (h : parseExpr U x = .ok root) :
    ∃ l, root = .list l ∧ ShapeL U x false l := parse_shape h

example : ∃ U x l, parseExpr U x = .ok (.list l) ∧ l.length = 5 := ⟨_, _, _, sample_parses, rfl⟩

/-! ## C15 -/

/-- C15: the operand of a script is nil only if the script character is followed (after line
breaks) by a comment, a blank or an escaped blank; otherwise it is a group or a single node. -/
theorem C15_operand (x : GoString) (root : Node) (h : parseExpr U x = .ok root)
    (p : Nat) (n : Node) (hk : Node.sub p n ∈ allNodes root ∨ Node.sup p n ∈ allNodes root) :
    n = .nil ∧ BlankOrComment x true (p + 1) ∨ ∃ math, Operand U x math n := by
  obtain ⟨l, rfl, hs⟩ := parse_shape h
  simp only [allNodes, List.mem_cons, reduceCtorEq, false_or] at hk
  rcases hk with hk | hk
  · exact script_allL l false hs _ hk p n (.inl rfl)
  · exact script_allL l false hs _ hk p n (.inr rfl)

/-- C15, outside math: only a comment can stand for the missing operand. -/
theorem C15_operand_text (x : GoString) (root : Node) (h : parseExpr U x = .ok root)
    (p : Nat) (n : Node) (hk : Node.sub p n ∈ textNodes root ∨ Node.sup p n ∈ textNodes root) :
    n = .nil ∧ bs!"%" <+: afterBreaks x (p + 1) ∨ ∃ math, Operand U x math n := by
  obtain ⟨l, rfl, hs⟩ := parse_shape h
  simp only [textNodes, List.mem_cons, reduceCtorEq, false_or] at hk
  have key : ScriptOK U x false (.sub p n) ∨ ScriptOK U x false (.sup p n) :=
    hk.imp (script_textL l hs _) (script_textL l hs _)
  have fin : ∀ k, (k = Node.sub p n ∨ k = Node.sup p n) → ScriptOK U x false k →
      n = .nil ∧ bs!"%" <+: afterBreaks x (p + 1) ∨ ∃ math, Operand U x math n := by
    intro k hk hs
    refine (hs p n hk).imp (fun h => ⟨h.1, ?_⟩) id
    rcases h.2 with h | ⟨h, _⟩
    · exact h
    · simp at h
  exact key.elim (fin _ (.inl rfl)) (fin _ (.inr rfl))

/-- C15, the finding: such trees exist, and `End()` and `Walk` panic on them (`Walk` for every
visitor that goes on and does not itself panic). -/
theorem C15_nil_operand : ∃ x root, parseExpr U x = .ok root ∧ Node.sup 1 .nil ∈ allNodes root ∧
    (Node.sup 1 .nil).endOf = none ∧
    ∀ (V S : Type) (visit : Visit V S), (∀ v n s, ∃ w s', visit v n s = .ok (some w, s')) →
      ∀ v s, ∃ site, walk visit v root s = .panic site := by
  refine ⟨bs!"$^ $", .list [.math bs!"$" 0 [.sup 1 .nil] 3], by krfl, by simp [allNodes, allNodesL],
    by simp [Node.endOf], ?_⟩
  intro V S visit hv v s
  refine ⟨.other "ast.Walk: unknown ast node", ?_⟩
  simp only [walk, walkList]
  obtain ⟨w1, s1, e1⟩ := hv v (.list [.math bs!"$" 0 [.sup 1 .nil] 3]) s
  obtain ⟨w2, s2, e2⟩ := hv w1 (.math bs!"$" 0 [.sup 1 .nil] 3) s1
  obtain ⟨w3, s3, e3⟩ := hv w2 (.sup 1 .nil) s2
  obtain ⟨w4, s4, e4⟩ := hv w3 .nil s3
  simp [e1, e2, e3, e4]

/-! ## C25 -/

/-- C25: on a subtree without missing closers, missing operands and empty groups, `Pos()` and
`End()` are positions of the source and `Pos()` is at most `End()`. -/
theorem C25_pos_le_end (x : GoString) (root : Node) (h : parseExpr U x = .ok root)
    (k : Node) (hk : k ∈ allNodes root) (hp : ∀ j ∈ allNodes k, Plain j) :
    ∃ p e : Nat, k.posOf = some (p : Int) ∧ k.endOf = some (e : Int) ∧ p ≤ e ∧ e ≤ x.length := by
  obtain ⟨lo, hi, h2, h3, h4⟩ := (parse_ordered h).infix (marks_infix root k hk)
  obtain ⟨a, ms, b, h5, h6, h7, h8⟩ := plain_pos k hp
  have hb := h4.forall b (List.mem_of_getLast? h6)
  have hab : a.1 ≤ b.1 := by
    rw [h5] at h4 h6
    rcases List.mem_cons.1 (List.mem_of_getLast? h6) with rfl | hm
    · exact Nat.le_refl _
    · have := h4.2.2.forall b hm
      have := h4.2.1
      omega
  rcases h8 with h8 | h8
  · exact ⟨a.1, b.1, h7, h8, hab, by omega⟩
  · exact ⟨a.1, b.2, h7, h8, by omega, by omega⟩

/-- C25: everything recorded inside a terminated argument or math expression lies between its
opening and its closing delimiter; in particular so do `Pos()` and `End()` of its elements. -/
theorem C25_children_inside (x : GoString) (root : Node) (h : parseExpr U x = .ok root)
    (k : Node) (hk : k ∈ allNodes root) (a b : Nat) (l : List Node) (hb : b ≠ 0)
    (he : k = .arg a l b ∨ k = .optArg a l b ∨ ∃ d, k = .math d a l b) :
    a < b ∧ b < x.length ∧ (∀ q ∈ marksL l, a + 1 ≤ q.1 ∧ q.2 ≤ b) ∧
    ∀ c ∈ l, (∀ j ∈ allNodes c, Plain j) →
      ∃ p e : Nat, c.posOf = some (p : Int) ∧ c.endOf = some (e : Int) ∧ a < p ∧ e ≤ b := by
  obtain ⟨lo, hi, h2, h3, h4⟩ := (parse_ordered h).infix (marks_infix root k hk)
  have hm : marks k = (a, a + 1) :: (marksL l ++ [(b, b + 1)]) := by
    rcases he with rfl | rfl | ⟨d, rfl⟩ <;> simp [marks, closer, hb]
  rw [hm] at h4
  obtain ⟨h5, h6, h7⟩ := h4
  obtain ⟨mid, h8, h9, h10, h11⟩ := h7.split
  have hle := h8.le
  have hq : ∀ q ∈ marksL l, a + 1 ≤ q.1 ∧ q.2 ≤ b := by
    intro q hq
    have := h8.forall q hq
    have h9' : mid ≤ b := h9
    omega
  have h12 := h11.le
  have h9' : mid ≤ b := h9
  have h12' : b + 1 ≤ hi := h12
  have hle' : a + 1 ≤ mid := hle
  refine ⟨by omega, by omega, hq, ?_⟩
  intro c hc hpl
  obtain ⟨q, ms, b', h13, h14, h15, h16⟩ := plain_pos c hpl
  have hsub : ∀ r ∈ marks c, r ∈ marksL l := by
    have : ∀ l : List Node, c ∈ l → ∀ r ∈ marks c, r ∈ marksL l := by
      intro l
      induction l with
      | nil => simp
      | cons n l ih =>
        intro hc r hr
        simp only [marksL, List.mem_append]
        rcases List.mem_cons.1 hc with rfl | hc
        · exact .inl hr
        · exact .inr (ih hc r hr)
    exact this l hc
  have hq1 := hq q (hsub q (by rw [h13]; simp))
  have hb1 := hq b' (hsub b' (List.mem_of_getLast? h14))
  have hb2 := h8.forall b' (hsub b' (List.mem_of_getLast? h14))
  rcases h16 with h16 | h16
  · exact ⟨q.1, b'.1, h15, h16, by omega, by omega⟩
  · exact ⟨q.1, b'.2, h15, h16, by omega, by omega⟩

/-- C25, the finding: `End()` of every terminated argument and math expression is the position
*of* its closing delimiter, one less than the documented "first character immediately after the
node"; and `End()` of a macro with arguments, too, is the position of a closing delimiter. -/
theorem C25_end_off_by_one (x : GoString) (root : Node) (h : parseExpr U x = .ok root)
    (k : Node) (hk : k ∈ allNodes root) (a b : Nat) (l : List Node) (hb : b ≠ 0)
    (he : k = .arg a l b ∨ k = .optArg a l b ∨ ∃ d, k = .math d a l b) :
    k.endOf = some (b : Int) ∧
    slice x b (b + 1) = (match k with | .arg .. => bs!"}" | .optArg .. => bs!"]" | _ => bs!"$") ∧
    ∀ nm args, Node.endOf (.macro (some nm) (args ++ [k])) = some (b : Int) := by
  have h1 := parse_local h k hk
  have hlast : ∀ (d : Option Int) (args : List Node), Node.endOfLast d (args ++ [k]) = k.endOf := by
    intro d args
    induction args with
    | nil => simp [Node.endOfLast]
    | cons c args ih =>
      cases args with
      | nil => simp [Node.endOfLast]
      | cons c' args => simp only [List.cons_append, Node.endOfLast] at ih ⊢; exact ih
  have hk2 : k.endOf = some (b : Int) := by
    rcases he with rfl | rfl | ⟨d, rfl⟩ <;> simp [Node.endOf]
  refine ⟨hk2, ?_, ?_⟩
  · rcases he with rfl | rfl | ⟨d, rfl⟩ <;> exact h1.2.resolve_left hb
  · rintro ⟨p, name⟩ args
    simp only [Node.endOf, hlast, hk2]

/-- C25, why empty groups are excluded: the `End()` of `_{}` is -1, before its `Pos()`. -/
theorem C25_empty_group : parseExpr U bs!"$x_{}$" =
      .ok (.list [.math bs!"$" 0 [.word 1 bs!"x", .sub 2 (.list [])] 5]) ∧
    (Node.sub 2 (.list [])).posOf = some 2 ∧ (Node.sub 2 (.list [])).endOf = some (-1) := by
  refine ⟨by krfl, by simp [Node.posOf], by simp [Node.endOf, Node.endOfLast]⟩

example : ∀ j ∈ allNodes sampleTree, Plain j := by
  simp [allNodes, allNodesL, sampleTree, Plain, isOpen]

end Verif.Props
