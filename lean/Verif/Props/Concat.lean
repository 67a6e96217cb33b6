import Verif.Lemmas.Concat
import Verif.Props.Grammar
import Verif.Props.Errors
import Verif.Props.Context
/-!
# C89: sources can be put together

A source is complete if a word on the next line is an item by itself (`Complete`): this says that nothing in it is left open.
What is then written on the next line is read as if it stood alone, whatever it is.
-/

namespace Verif.Props
open Verif Spec
variable {U : Nat → Bool}

/-- The source `a` has the trees `la`, and a word `x` on the next line is an item after them. -/
def Complete (U : Nat → Bool) (a : GoString) (la : List Node) : Prop :=
  parseExpr U (a ++ bs!"\nx") = .ok (.list (la ++ [.word (a.length + 1) bs!"x"]))

theorem items_has_word {m : Bool} {u : Until} {L l : _} {p : Nat} {L' : List Lexed} {o : Nat} {t : GoString} (h : Items m u L l p L') (hw : Node.word o t ∈ l) :
    ∃ A X B, L = A ++ X :: B ∧ X.start = o := by
  generalize hn : L.length = n
  induction n using Nat.strongRecOn generalizing L l with
  | _ n ih =>
    cases h with
    | eof => cases hw
    | close => cases hw
    | @item _ _ x L0 n1 L1 l1 _ _ h1 h2 h3 =>
      obtain ⟨D, hD, e⟩ := item1_suffix h2
      have hlt : L1.length < n := by
        have := congrArg List.length e
        have := List.length_pos_iff.2 hD
        rw [← hn]
        simp at *
        omega
      have hrest : Node.word o t ∈ l1 → ∃ A X B, x :: L0 = A ++ X :: B ∧ X.start = o := by
        intro hw
        obtain ⟨A, X, B, e1, e2⟩ := ih _ hlt h3 hw rfl
        exact ⟨D ++ A, X, B, by rw [e, e1, List.append_assoc], e2⟩
      rcases keep_cases n1 l1 with ⟨_, h⟩ | ⟨_, h⟩
      · rw [h] at hw; exact hrest hw
      · rw [h] at hw
        rcases List.mem_cons.1 hw with rfl | hw
        · exact ⟨[], x, L0, rfl, item1_word h2⟩
        · exact hrest hw

theorem stripBom_break (a b : GoString) : stripBom (a ++ 10 :: b) = stripBom a ++ 10 :: b := by
  match a with
  | [] => rfl
  | [c] =>
    unfold stripBom
    split
    · rename_i h; simp at h
    · split
      · rename_i h'; simp at h'
      · rfl
  | [c, d] =>
    unfold stripBom
    split
    · rename_i h; simp at h
    · split
      · rename_i h'; simp at h'
      · rfl
  | c :: d :: e :: a =>
    unfold stripBom
    split
    · rename_i h
      simp only [List.cons_append, List.cons.injEq] at h
      obtain ⟨rfl, rfl, rfl, rfl⟩ := h
      rfl
    · rename_i h
      split
      · rename_i h'
        simp only [List.cons.injEq] at h'
        obtain ⟨rfl, rfl, rfl, rfl⟩ := h'
        exact absurd rfl (h _)
      · rfl

theorem stripBom_le (a : GoString) : (stripBom a).length ≤ a.length := by
  unfold stripBom
  split
  · simp; omega
  · exact Nat.le_refl _

/-- The lexemes of two sources on lines of their own. -/
theorem lexesOf_lines (a b : GoString) (M : List Lexed) : LexesOf U (a ++ 10 :: b) M ↔
    Lexes U (a.length - (stripBom a).length) (decode (stripBom a) ++ [⟨10, [10]⟩] ++ decode b) M := by
  unfold LexesOf
  rw [stripBom_break, decode_append _ _ (by omega), decode_ascii_cons _ (by omega), List.append_assoc]
  have : (a ++ 10 :: b).length - (stripBom a ++ 10 :: b).length = a.length - (stripBom a).length := by
    simp only [List.length_append, List.length_cons]; omega
  rw [this]
  rfl

theorem readsOf_lines (a b : GoString) (M : List Lexed) : ReadsOf U (a ++ 10 :: b) M ↔
    Reads U (a.length - (stripBom a).length) (decode (stripBom a) ++ [⟨10, [10]⟩] ++ decode b) M := by
  unfold ReadsOf
  rw [stripBom_break, decode_append _ _ (by omega), decode_ascii_cons _ (by omega), List.append_assoc]
  have : (a ++ 10 :: b).length - (stripBom a ++ 10 :: b).length = a.length - (stripBom a).length := by
    simp only [List.length_append, List.length_cons]; omega
  rw [this]
  rfl

/-- The lexemes of a complete source. -/
theorem complete_cut {a : GoString} {la : List Node} (ha : Complete U a la) : ∃ A : List Lexed,
    (∀ b M, LexesOf U (a ++ 10 :: b) M ↔ ∃ M', M = A ++ M' ∧ Lexes U (a.length + 1) (decode b) M') ∧
    (∀ b M', Reads U (a.length + 1) (decode b) M' → ReadsOf U (a ++ 10 :: b) (A ++ M')) ∧
    (∀ Y l, Items false .eof (A ++ Y) l 0 [] ↔ ∃ ly, l = la ++ ly ∧ Items false .eof Y ly 0 []) ∧
    ∀ Y q, FailIn false .eof Y q → FailIn false .eof (A ++ Y) q := by
  have hc1 : (bytesOf (decode (stripBom a) ++ [⟨10, [10]⟩])).length = (stripBom a).length + 1 := by
    rw [bytes_append, bytesOf_decode]; rfl
  have hoff : a.length - (stripBom a).length + (bytesOf (decode (stripBom a) ++ [⟨10, [10]⟩])).length = a.length + 1 := by
    have := stripBom_le a
    rw [hc1]; omega
  have hok1 : ∀ c ∈ decode (stripBom a) ++ [⟨10, [10]⟩], c.Ok := by
    intro c hc
    rcases List.mem_append.1 hc with hc | hc
    · exact decode_ok _ c hc
    · exact decode_ok [10] c (by rw [decode_ascii (by simp)]; exact hc)
  -- the first source
  obtain ⟨L, l, h1, h2, h3⟩ := (C83_grammar _ _).1 ha
  injection h3 with h3
  subst h3
  rw [show a ++ bs!"\nx" = a ++ 10 :: bs!"x" from rfl, lexesOf_lines] at h1
  obtain ⟨A, X, B, rfl, hX⟩ := items_has_word h2 (o := a.length + 1) (t := bs!"x") (by simp)
  have hnl : EndsNl (decode (stripBom a) ++ [⟨10, [10]⟩]) := ⟨⟨10, [10]⟩, by simp, rfl⟩
  obtain ⟨g1, g2, g3⟩ := lexes_cut (fun c hc => (List.mem_append.1 hc).elim (hok1 c) (decode_ok _ c)) (.inr hnl) h1 (by rw [hX, hoff])
  have hB : B = [] := by
    obtain ⟨M', e1, e2⟩ := (g2 _ (decode_ok _) _).1 h1
    have e1 := List.append_cancel_left e1
    subst e1
    have hd : decode bs!"x" = [⟨120, [120]⟩] := decode_ascii (by simp)
    rw [hd] at e2
    obtain ⟨M', e3, e4⟩ := lexes_first (w := []) (a := [⟨120, [120]⟩]) (rest := []) (k := .word (bytesOf [⟨120, [120]⟩]))
      (fun c hc => decode_ok bs!"x" c (by rw [hd]; simpa using hc)) (by simp) (.word (by simp [isLetter]) ⟨by simp, by simp⟩) e2
    injection e3 with _ e3
    subst e3
    generalize hz : ([] : List Ch) = z at e4
    cases e4 with
    | done => rfl
    | more _ h4 _ =>
      obtain ⟨_, _, rfl, _⟩ := lexeme_start h4
      simp at hz
  subst hB
  obtain ⟨g4, g5⟩ := items_cut hX g1 h2
  rw [hoff] at g2 g3
  refine ⟨A, fun b M => ?_, fun b M' hM => ?_, g4, g5⟩
  · rw [lexesOf_lines]; exact g2 _ (decode_ok _) M
  · rw [readsOf_lines]; exact g3 _ _ hM

theorem breaks_facts (n : Nat) : (∀ c ∈ ascii (List.replicate n 10), isBreak c.r = true) ∧ (∀ c ∈ (List.replicate n 10 : GoString), c < 0x80) ∧
    bytesOf (ascii (List.replicate n 10)) = List.replicate n 10 := by
  refine ⟨fun c hc => ?_, fun c hc => ?_, ?_⟩
  · simp only [ascii, List.mem_map] at hc
    obtain ⟨d, hd, rfl⟩ := hc
    rw [List.eq_of_mem_replicate hd]; rfl
  · rw [List.eq_of_mem_replicate hc]; omega
  · generalize (List.replicate n 10 : GoString) = w
    induction w with
    | nil => rfl
    | cons c w ih => simp only [ascii, List.map_cons, bytesOf, List.flatMap_cons] at ih ⊢; rw [ih]; rfl

/-- **C89.** A complete source and, on the next line, any source: it is accepted exactly if the second source is, and its
trees are those of the first and those of the second, moved. -/
theorem C89_lines (a b : GoString) (la : List Node) (ha : Complete U a la) (hb : ¬ bom <+: b) (t : Node) :
    parseExpr U (a ++ bs!"\n" ++ b) = .ok t ↔ ∃ lb, parseExpr U b = .ok (.list lb) ∧ t = .list (la ++ shiftL (a.length + 1) lb) := by
  obtain ⟨A, g1, -, g3, -⟩ := complete_cut ha
  -- the second source, after line breaks
  have hlen : (List.replicate (a.length + 1) 10 : GoString).length = a.length + 1 := List.length_replicate ..
  obtain ⟨hbr, hasc, hbytes⟩ := breaks_facts (a.length + 1)
  have hshift := C07_leading_breaks U (List.replicate (a.length + 1) 10) b (fun c hc => by rw [List.eq_of_mem_replicate hc]; rfl) hb
  rw [hlen] at hshift
  have hsb : stripBom (List.replicate (a.length + 1) 10 ++ b) = List.replicate (a.length + 1) 10 ++ b := by
    rw [List.replicate_succ, List.cons_append]; rfl
  have hly : ∀ ly, (∃ M', Lexes U (a.length + 1) (decode b) M' ∧ Items false .eof M' ly 0 []) ↔ ∃ lb, parseExpr U b = .ok (.list lb) ∧ ly = shiftL (a.length + 1) lb := by
    intro ly
    have h4 : (∃ M', Lexes U (a.length + 1) (decode b) M' ∧ Items false .eof M' ly 0 []) ↔ parseExpr U (List.replicate (a.length + 1) 10 ++ b) = .ok (.list ly) := by
      rw [C83_grammar]
      unfold Sentence LexesOf
      rw [hsb, Nat.sub_self, decode_ascii_append hasc]
      constructor
      · rintro ⟨M', h5, h6⟩
        refine ⟨M', ly, (lexes_breaks hbr 0 M').2 ?_, h6, rfl⟩
        rw [hbytes, hlen, Nat.zero_add]; exact h5
      · rintro ⟨M', l, h5, h6, h7⟩
        injection h7 with h7
        subst h7
        refine ⟨M', ?_, h6⟩
        have := (lexes_breaks hbr 0 M').1 h5
        rwa [hbytes, hlen, Nat.zero_add] at this
    rw [h4, hshift]
    constructor
    · intro h
      cases hp : parseExpr U b with
      | ok t =>
        obtain ⟨lb, _, rfl, -, -⟩ := parseExpr_sound hp
        rw [hp] at h
        simp only [Res.map, shift, Res.ok.injEq, Node.list.injEq] at h
        exact ⟨lb, rfl, h.symm⟩
      | panic p => rw [hp] at h; cases h
      | fuel => rw [hp] at h; cases h
    · rintro ⟨lb, h, rfl⟩
      rw [h]
      simp only [Res.map, shift]
  -- both
  rw [C83_grammar]
  unfold Sentence
  rw [show a ++ bs!"\n" ++ b = a ++ 10 :: b by simp]
  constructor
  · rintro ⟨M, l, h4, h5, rfl⟩
    obtain ⟨M', rfl, h6⟩ := (g1 _ M).1 h4
    obtain ⟨ly, rfl, h7⟩ := (g3 M' l).1 h5
    obtain ⟨lb, h8, rfl⟩ := (hly ly).1 ⟨M', h6, h7⟩
    exact ⟨lb, h8, rfl⟩
  · rintro ⟨lb, h4, rfl⟩
    obtain ⟨M', h6, h7⟩ := (hly _).2 ⟨lb, h4, rfl⟩
    exact ⟨A ++ M', la ++ shiftL (a.length + 1) lb, (g1 _ _).2 ⟨M', rfl, h6⟩, (g3 _ _).2 ⟨_, rfl, h7⟩, rfl⟩

/-- **C89.** It panics exactly if the second source by itself does, and in the same way. -/
theorem C89_panics (a b : GoString) (la : List Node) (ha : Complete U a la) (hb : ¬ bom <+: b) (p : Panic) :
    parseExpr U (a ++ bs!"\n" ++ b) = .panic p ↔ parseExpr U b = .panic p := by
  have key : ∀ {p}, parseExpr U b = .panic p → parseExpr U (a ++ bs!"\n" ++ b) = .panic p := by
    intro p h
    obtain ⟨A, -, g2, -, g4⟩ := complete_cut ha
    have hlen : (List.replicate (a.length + 1) 10 : GoString).length = a.length + 1 := List.length_replicate ..
    obtain ⟨hbr, hasc, hbytes⟩ := breaks_facts (a.length + 1)
    have hshift := C07_leading_breaks U (List.replicate (a.length + 1) 10) b (fun c hc => by rw [List.eq_of_mem_replicate hc]; rfl) hb
    rw [h] at hshift
    obtain ⟨L, h1, h2⟩ := (C90_panics _ p).1 hshift
    have hsb : stripBom (List.replicate (a.length + 1) 10 ++ b) = List.replicate (a.length + 1) 10 ++ b := by
      rw [List.replicate_succ, List.cons_append]; rfl
    unfold ReadsOf at h1
    rw [hsb, Nat.sub_self, decode_ascii_append hasc, reads_breaks hbr, hbytes, hlen, Nat.zero_add] at h1
    rw [show a ++ bs!"\n" ++ b = a ++ 10 :: b by simp]
    exact (C90_panics _ p).2 ⟨A ++ L, g2 b L h1, g4 L p h2⟩
  refine ⟨fun h => ?_, key⟩
  obtain ⟨r, h1, h2, -⟩ := C01_terminates (U := U) b
  cases r with
  | fuel => exact absurd rfl h1
  | ok t =>
    obtain ⟨lb, _, rfl, -, -⟩ := parseExpr_sound h2
    rw [(C89_lines a b la ha hb _).2 ⟨lb, h2, rfl⟩] at h
    cases h
  | panic q =>
    rw [key h2] at h
    cases h
    exact h2

theorem not_bom_break {b : GoString} (hb : ¬ bom <+: b) (c : GoString) : ¬ bom <+: b ++ 10 :: c := by
  rintro ⟨t, ht⟩
  rcases List.append_eq_append_iff.1 ht with ⟨d, e1, e2⟩ | ⟨d, e1, e2⟩
  · exact hb ⟨d, e1.symm⟩
  · cases d with
    | nil => exact hb ⟨[], by rw [e1]; simp⟩
    | cons x d =>
      rw [List.cons_append] at e2
      injection e2 with e2 _
      have : x ∈ bom := by rw [e1]; simp
      rw [← e2] at this
      revert this
      decide

theorem shiftL_append (d : Nat) (l l' : List Node) : shiftL d (l ++ l') = shiftL d l ++ shiftL d l' := by
  induction l with
  | nil => rw [List.nil_append, shiftL, List.nil_append]
  | cons n l ih => rw [List.cons_append, shiftL, shiftL, ih]; rfl

/-- **C89.** Two complete sources on lines of their own are a complete source. -/
theorem C89_closed (a b : GoString) (la lb : List Node) (ha : Complete U a la) (hb : ¬ bom <+: b) (hb' : Complete U b lb) :
    Complete U (a ++ bs!"\n" ++ b) (la ++ shiftL (a.length + 1) lb) := by
  have hb2 : ¬ bom <+: b ++ bs!"\nx" := not_bom_break hb bs!"x"
  have := (C89_lines a (b ++ bs!"\nx") la ha hb2 _).2 ⟨_, hb', rfl⟩
  unfold Complete
  rw [show a ++ bs!"\n" ++ b ++ bs!"\nx" = a ++ bs!"\n" ++ (b ++ bs!"\nx") by simp, this, shiftL_append]
  simp only [shiftL, shift, List.append_assoc, List.length_append, List.length_cons, List.length_nil]
  rw [show a.length + (0 + 1 + b.length) + 1 = b.length + 1 + (a.length + 1) by omega]

/-- Sources one after the other, each on lines of its own. -/
def allLines (ds : List (GoString × List Node)) : GoString := ds.flatMap fun d => d.1 ++ bs!"\n"
/-- Their trees, each moved to its place. -/
def allTrees : List (GoString × List Node) → List Node
  | [] => []
  | d :: ds => d.2 ++ shiftL (d.1.length + 1) (allTrees ds)

theorem not_bom_lines {ds : List (GoString × List Node)} (h : ∀ d ∈ ds, ¬ bom <+: d.1) : ¬ bom <+: allLines ds := by
  cases ds with
  | nil => rintro ⟨t, ht⟩; cases ht
  | cons d ds =>
    rw [allLines, List.flatMap_cons, List.append_assoc]
    exact not_bom_break (h d (by simp)) _

/-- **C89.** Any number of complete sources, each on lines of its own: they are read one by one. -/
theorem C89_many (ds : List (GoString × List Node)) (h : ∀ d ∈ ds, Complete U d.1 d.2 ∧ ¬ bom <+: d.1) :
    parseExpr U (allLines ds) = .ok (.list (allTrees ds)) := by
  induction ds with
  | nil => krfl
  | cons d ds ih =>
    rw [allLines, List.flatMap_cons]
    refine (C89_lines d.1 _ d.2 (h d (by simp)).1 (not_bom_lines fun e he => (h e (by simp [he])).2) _).2 ⟨allTrees ds, ih fun e he => h e (by simp [he]), rfl⟩

/-! ## Non-vacuity -/

/-- A complete source: a fraction, a formula, a comment. -/
example : Complete U bs!"a \\frac{1}{2} $x^2$ % c" [.word 0 bs!"a", .sym 1 bs!" ", .macro (some (2, bs!"\\frac")) [.arg 7 [.lit 8 bs!"1"] 9, .arg 10 [.lit 11 bs!"2"] 12], .sym 13 bs!" ",
    .math bs!"$" 14 [.word 15 bs!"x", .sup 16 (.lit 17 bs!"2")] 18, .sym 19 bs!" "] := by unfold Complete; krfl

/-- Two sources, the second of which is not complete. -/
example : parseExpr U (bs!"x_1 % c" ++ bs!"\n" ++ bs!"$y") = .ok (.list [.word 0 bs!"x", .sub 1 (.lit 2 bs!"1"), .sym 3 bs!" ", .math bs!"$" 8 [.word 9 bs!"y"] 0]) := by
  refine (C89_lines _ bs!"$y" [.word 0 bs!"x", .sub 1 (.lit 2 bs!"1"), .sym 3 bs!" "] (by unfold Complete; krfl) (by decide) _).2 ⟨[.math bs!"$" 0 [.word 1 bs!"y"] 0], by krfl, by krfl⟩

/-- The panic of the second source. -/
example : parseExpr U (bs!"x_1 % c" ++ bs!"\n" ++ bs!"\\foo") = .panic (.unknownMacro bs!"\\foo") :=
  (C89_panics _ bs!"\\foo" [.word 0 bs!"x", .sub 1 (.lit 2 bs!"1"), .sym 3 bs!" "] (by unfold Complete; krfl) (by decide) _).2 (by krfl)

/-- Sources that are not complete: a formula that is left open; a caret with nothing after it; a comment that opens a quotation, which
the end of the line closes, but not the comment. -/
example : (∀ la, ¬ Complete U bs!"$x" la) ∧ (∀ la, ¬ Complete U bs!"x^" la) ∧ ∀ la, ¬ Complete U bs!"% \"" la := by
  refine ⟨fun la h => ?_, fun la h => ?_, fun la h => ?_⟩
  · have h1 : parseExpr U bs!"$x\nx" = .ok (.list [.math bs!"$" 0 [.word 1 bs!"x", .word 3 bs!"x"] 0]) := by krfl
    have h2 : parseExpr U bs!"$x\nx" = .ok (.list (la ++ [.word 3 bs!"x"])) := h
    rw [h1] at h2
    injection h2 with h2
    injection h2 with h2
    have := congrArg List.getLast? h2
    simp at this
  · have h1 : parseExpr U bs!"x^\nx" = .ok (.list [.word 0 bs!"x", .sup 1 (.word 3 bs!"x")]) := by krfl
    have h2 : parseExpr U bs!"x^\nx" = .ok (.list (la ++ [.word 3 bs!"x"])) := h
    rw [h1] at h2
    injection h2 with h2
    injection h2 with h2
    have := congrArg List.getLast? h2
    simp at this
  · have h1 : parseExpr U bs!"% \"\nx" = .ok (.list []) := by krfl
    have h2 : parseExpr U bs!"% \"\nx" = .ok (.list (la ++ [.word 4 bs!"x"])) := h
    rw [h1] at h2
    injection h2 with h2
    injection h2 with h2
    have := congrArg List.length h2
    simp at this

end Verif.Props
