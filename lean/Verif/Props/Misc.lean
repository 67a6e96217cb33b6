import Verif.Lemmas.Print
import Verif.Lemmas.Kind
import Verif.Lemmas.Symbols
import Verif.Lemmas.Walk
import Verif.Spec.Kind
/-!
# Properties of `ast.Print`, `token.Kind` and the symbol tables: C24, C26, C30, C31
-/

namespace Verif.Props
open Verif Verif.Spec

/-! ## C24 -/

/-- C24: `Print` panics if and only if some macro of the tree has no name (in particular it
terminates on every tree).  `Pr` is the standard library's notion of a printable rune outside
ASCII, which is left open. -/
theorem C24_total (Pr : Nat → Bool) (n : Node) :
    (∃ t, print Pr n = .ok t) ↔ ∀ args, Node.macro none args ∉ allNodes n := by
  suffices h : ∀ n, (∃ t, print Pr n = .ok t) ↔ ∀ args, Node.macro none args ∉ allNodes n from h n
  have more : ∀ l : List Node, (∀ k ∈ l, (∃ t, print Pr k = .ok t) ↔ ∀ args, Node.macro none args ∉ allNodes k) →
      ((∃ t, printMore Pr l = .ok t) ↔ ∀ args, Node.macro none args ∉ allNodesL l) := by
    intro l
    induction l with
    | nil => intro _; simp [printMore, allNodesL]
    | cons k l ih =>
      intro h
      have h1 := h k (by simp)
      have h2 := ih (fun j hj => h j (by simp [hj]))
      simp only [printMore, allNodesL, List.mem_append, not_or, forall_and, ← h1, ← h2, Res.bind_eq_ok]
      constructor
      · rintro ⟨t, a, ha, b, hb, _⟩; exact ⟨⟨a, ha⟩, b, hb⟩
      · rintro ⟨⟨a, ha⟩, b, hb⟩; exact ⟨_, a, ha, b, hb, rfl⟩
  have lst : ∀ l : List Node, (∀ k ∈ l, (∃ t, print Pr k = .ok t) ↔ ∀ args, Node.macro none args ∉ allNodes k) →
      ((∃ t, printList Pr l = .ok t) ↔ ∀ args, Node.macro none args ∉ allNodesL l) := by
    intro l h
    cases l with
    | nil => simp [printList, allNodesL]
    | cons k l =>
      have h1 := h k (by simp)
      have h2 := more l (fun j hj => h j (by simp [hj]))
      simp only [printList, allNodesL, List.mem_append, not_or, forall_and, ← h1, ← h2, Res.bind_eq_ok]
      constructor
      · rintro ⟨t, a, ha, b, hb, _⟩; exact ⟨⟨a, ha⟩, b, hb⟩
      · rintro ⟨⟨a, ha⟩, b, hb⟩; exact ⟨_, a, ha, b, hb, rfl⟩
  have wrap : ∀ {r : Res GoString} {f : GoString → GoString},
      (∃ t, (r >>= fun u => Res.ok (f u)) = .ok t) ↔ ∃ t, r = .ok t := by
    intro r f
    simp only [Res.bind_eq_ok]
    constructor
    · rintro ⟨t, a, ha, _⟩; exact ⟨a, ha⟩
    · rintro ⟨a, ha⟩; exact ⟨_, a, ha, rfl⟩
  have two : ∀ {k : Node} {l : List Node} {f : GoString → GoString → GoString},
      (∃ t, (print Pr k >>= fun u => printMore Pr l >>= fun v => Res.ok (f u v)) = .ok t) ↔
        ∃ t, printList Pr (k :: l) = .ok t := by
    intro k l f
    simp only [printList, Res.bind_eq_ok]
    constructor
    · rintro ⟨t, a, ha, b, hb, _⟩; exact ⟨_, a, ha, b, hb, rfl⟩
    · rintro ⟨t, a, ha, b, hb, _⟩; exact ⟨_, a, ha, b, hb, rfl⟩
  intro n
  induction n using kids_induction with
  | step n ih =>
    cases n with
    | nil => simp [print, allNodes]
    | list l => simp only [print, wrap, lst l (fun k hk => ih k (by simpa [kids] using hk)), allNodes,
        List.mem_cons, reduceCtorEq, false_or]
    | arg a l b => simp only [print, wrap, lst l (fun k hk => ih k (by simpa [kids] using hk)), allNodes,
        List.mem_cons, reduceCtorEq, false_or]
    | optArg a l b => simp only [print, wrap, lst l (fun k hk => ih k (by simpa [kids] using hk)), allNodes,
        List.mem_cons, reduceCtorEq, false_or]
    | ident p t => simp [print, allNodes]
    | word p t => simp [print, allNodes]
    | lit p t => simp [print, allNodes]
    | sym p t => simp [print, allNodes]
    | sub p k => simp only [print, wrap, ih k (by simp [kids]), allNodes, List.mem_cons, reduceCtorEq, false_or]
    | sup p k => simp only [print, wrap, ih k (by simp [kids]), allNodes, List.mem_cons, reduceCtorEq, false_or]
    | math d a l b =>
      cases l with
      | nil => simp [print, allNodes, allNodesL]
      | cons k l => simp only [print, two, lst (k :: l) (fun k hk => ih k (by simpa [kids] using hk)), allNodes,
          List.mem_cons, reduceCtorEq, false_or]
    | «macro» nm args =>
      cases nm with
      | none =>
        simp only [print, reduceCtorEq, exists_false, allNodes, false_iff, Classical.not_forall, Classical.not_not]
        exact ⟨args, by simp⟩
      | some q =>
        obtain ⟨p, name⟩ := q
        cases args with
        | nil => simp [print, allNodes, allNodesL]
        | cons k l => simp only [print, two, lst (k :: l) (fun k hk => ih k (by simp only [kids, List.mem_cons]; exact .inr (List.mem_cons.1 hk))), allNodes,
            List.mem_cons, Node.macro.injEq, reduceCtorEq, false_and, false_or]

/-- C24: two trees printed to the same text are equal up to positions and the delimiters of math
expressions (`bare` erases exactly these). -/
theorem C24_faithful (Pr : Nat → Bool) (n m : Node) (hn : ByteTexts n) (hm : ByteTexts m) (t : GoString)
    (h1 : print Pr n = .ok t) (h2 : print Pr m = .ok t) : bare n = bare m :=
  (print_inj n m t t [] [] hn hm h1 h2 rfl).1

/-- A printable ASCII character that needs no escape. -/
def plainByte (b : Nat) : Bool := 32 ≤ b && b ≤ 126 && b != 34 && b != 92

theorem quote_plain (Pr : Nat → Bool) (t : GoString) (h : ∀ b ∈ t, plainByte b = true) : quote Pr t = bs!"\"" ++ t ++ bs!"\"" := by
  have e : (decode t).flatMap (escape Pr) = t := by
    induction t with
    | nil => simp [decode_nil]
    | cons b t ih =>
      have hb := h b (by simp)
      simp only [plainByte, Bool.and_eq_true, decide_eq_true_eq, bne_iff_ne, ne_eq] at hb
      rw [decode_ascii_cons t (by omega), List.flatMap_cons, ih (fun c hc => h c (by simp [hc]))]
      have : escape Pr ⟨b, [b]⟩ = [b] := by
        have h1 : ¬ (b = runeError ∧ ([b] : GoString).length = 1) := by simp [runeError]; omega
        have h3 : isPrint Pr b = true := by simp [isPrint, show b < 128 by omega, hb.1.1]
        unfold escape
        rw [if_neg h1, if_neg (fun h => h.elim hb.1.2 hb.2), if_pos h3]
      rw [this]; rfl
  rw [quote, e]

/-- C24: a text of printable ASCII characters without quotation marks and backslashes - blanks included - is printed as it is. -/
theorem C24_plain (Pr : Nat → Bool) (p : Nat) (t : GoString) (h : ∀ b ∈ t, plainByte b = true) :
    print Pr (.word p t) = .ok (bs!"ast.Word{\"" ++ t ++ bs!"\"}") ∧ print Pr (.lit p t) = .ok (bs!"ast.Lit{\"" ++ t ++ bs!"\"}") ∧
    print Pr (.sym p t) = .ok (bs!"ast.Symbol{\"" ++ t ++ bs!"\"}") ∧ print Pr (.ident p t) = .ok (bs!"ast.Ident{\"" ++ t ++ bs!"\"}") := by
  simp only [print, quote_plain Pr t h]
  refine ⟨?_, ?_, ?_, ?_⟩ <;> simp [List.append_assoc]

example : (∀ b ∈ bs!"two words, {x}", plainByte b = true) ∧
    print (fun _ => false) (.word 3 bs!"two words, {x}") = .ok bs!"ast.Word{\"two words, {x}\"}" := by decide +kernel

/-- C24, converse: the text does not depend on what `bare` erases. -/
theorem C24_stable (Pr : Nat → Bool) (n : Node) : print Pr (bare n) = print Pr n := by
  suffices h : ∀ n, print Pr (bare n) = print Pr n from h n
  have more : ∀ l : List Node, (∀ k ∈ l, print Pr (bare k) = print Pr k) →
      printMore Pr (bareL l) = printMore Pr l := by
    intro l
    induction l with
    | nil => intro _; rfl
    | cons k l ih =>
      intro h
      rw [bareL, printMore, printMore, h k (by simp), ih (fun j hj => h j (by simp [hj]))]
  have lst : ∀ l : List Node, (∀ k ∈ l, print Pr (bare k) = print Pr k) →
      printList Pr (bareL l) = printList Pr l := by
    intro l h
    cases l with
    | nil => rfl
    | cons k l =>
      rw [bareL, printList, printList, h k (by simp), more l (fun j hj => h j (by simp [hj]))]
  intro n
  induction n using kids_induction with
  | step n ih =>
    cases n with
    | nil => rfl
    | list l => simp only [bare, print, lst l (fun k hk => ih k (by simpa [kids] using hk))]
    | arg a l b => simp only [bare, print, lst l (fun k hk => ih k (by simpa [kids] using hk))]
    | optArg a l b => simp only [bare, print, lst l (fun k hk => ih k (by simpa [kids] using hk))]
    | ident p t => rfl
    | word p t => rfl
    | lit p t => rfl
    | sym p t => rfl
    | sub p k => simp only [bare, print, ih k (by simp [kids])]
    | sup p k => simp only [bare, print, ih k (by simp [kids])]
    | math d a l b =>
      cases l with
      | nil => rfl
      | cons k l => simp only [bare, bareL, print, ih k (by simp [kids]),
          more l (fun j hj => ih j (by simp [kids, hj]))]
    | «macro» nm args =>
      cases nm with
      | none => rfl
      | some q =>
        obtain ⟨p, name⟩ := q
        cases args with
        | nil => rfl
        | cons k l => simp only [bare, bareL, print, Option.map_some, ih k (by simp [kids]),
            more l (fun j hj => ih j (by simp [kids, hj]))]

/-- TestPrint in ast/ast_test.go, and a text with a quote and a backslash. -/
example (Pr : Nat → Bool) : print Pr (.macro (some (0, bs!"\\sqrt")) [.optArg 5 [.word 6 bs!"n"] 7, .arg 8 [.word 9 bs!"x"] 10]) =
    .ok bs!"ast.Macro{\"\\\\sqrt\", Args:[ast.Word{\"n\"}], {ast.Word{\"x\"}}}" := by krfl
example (Pr : Nat → Bool) : print Pr (.math bs!"$" 0 [.lit 1 bs!"1", .word 2 bs!"x"] 3) =
    .ok bs!"ast.MathExpr{List:ast.Lit{\"1\"}, ast.Word{\"x\"}}" := by krfl
example (Pr : Nat → Bool) : print Pr (.list [.sup 0 (.lit 1 bs!"10"), .sub 3 .nil, .ident 0 bs!"\\cos"]) =
    .ok bs!"ast.List{ast.Sup{ast.Lit{\"10\"}}, ast.Sub{<nil>}, ast.Ident{\"\\\\cos\"}}" := by krfl
example (Pr : Nat → Bool) : print Pr (.word 0 [34, 92, 10, 255, 127]) =
    .ok bs!"ast.Word{\"\\\"\\\\\\n\\xff\\x7f\"}" := by krfl
example : ByteTexts (.math bs!"$" 0 [.lit 1 bs!"1", .word 2 bs!"x"] 3) := by
  simp [ByteTexts, leaves, leavesL]
/-- Different trees that differ only by what `bare` erases do print equally. -/
example (Pr : Nat → Bool) : print Pr (.math bs!"$" 0 [.lit 1 bs!"1"] 3) = print Pr (.math bs!"$$" 7 [.lit 4 bs!"1"] 0) := by krfl

/-! ## C26 -/

/-- C26: the printed form of every integer value of type `Kind`. -/
theorem C26_names (i : Int) : kindString i = .ok (bs!"Kind(" ++ formatInt i ++ bs!")") ∧ (i < 0 ∨ 16 < i) ∨
    ∃ k : Kind, k.value = i ∧ kindString i = .ok (kindLabel k) := by
  by_cases h : i < 0 ∨ 16 < i
  · left
    refine ⟨?_, h⟩
    unfold kindString
    rw [if_pos (by simp [kindIndex]; omega)]
  · right
    obtain ⟨n, rfl⟩ : ∃ n : Nat, i = n := ⟨i.toNat, by omega⟩
    have hn : n ≤ 16 := by omega
    rcases n with _|_|_|_|_|_|_|_|_|_|_|_|_|_|_|_|_|n
    · exact ⟨.invalid, rfl, by krfl⟩
    · exact ⟨.macro, rfl, by krfl⟩
    · exact ⟨.emptyLine, rfl, by krfl⟩
    · exact ⟨.comment, rfl, by krfl⟩
    · exact ⟨.space, rfl, by krfl⟩
    · exact ⟨.word, rfl, by krfl⟩
    · exact ⟨.number, rfl, by krfl⟩
    · exact ⟨.symbol, rfl, by krfl⟩
    · exact ⟨.lbrace, rfl, by krfl⟩
    · exact ⟨.rbrace, rfl, by krfl⟩
    · exact ⟨.lbrack, rfl, by krfl⟩
    · exact ⟨.rbrack, rfl, by krfl⟩
    · exact ⟨.lparen, rfl, by krfl⟩
    · exact ⟨.rparen, rfl, by krfl⟩
    · exact ⟨.other, rfl, by krfl⟩
    · exact ⟨.verbatim, rfl, by krfl⟩
    · exact ⟨.eof, rfl, by krfl⟩
    · omega

/-- C26: `String` never panics. -/
theorem C26_total (i : Int) : ∃ s, kindString i = .ok s := by
  rcases C26_names i with ⟨h, _⟩ | ⟨k, _, h⟩ <;> exact ⟨_, h⟩

/-- C26: different integers print differently. -/
theorem C26_injective (i j : Int) (h : kindString i = kindString j) : i = j := by
  rcases C26_names i with ⟨h1, _⟩ | ⟨k, hk, h1⟩ <;> rcases C26_names j with ⟨h2, _⟩ | ⟨l, hl, h2⟩ <;>
    rw [h1, h2] at h <;> simp only [Res.ok.injEq] at h
  · refine formatInt_inj ?_
    rw [List.append_assoc, List.append_assoc] at h
    exact List.append_cancel_right (List.append_cancel_left h)
  · cases l <;> simp [kindLabel] at h
  · cases k <;> simp [kindLabel] at h
  · rw [← hk, ← hl]
    cases k <;> cases l <;> first | rfl | simp [kindLabel] at h

example : kindString 3 = .ok bs!"Comment" := by krfl
example : kindString (-12) = .ok bs!"Kind(-12)" := by krfl
example : kindString 17 = .ok bs!"Kind(17)" := by krfl

/-! ## C30 -/

/-- C30: membership in `NewSet(vs...)`. -/
theorem C30_newSet (vs : List GoString) (k : GoString) : setHas (newSet vs) k = true ↔ k ∈ vs := by
  have := (foldl_setAdd vs [] (by simp)).2 k
  simpa [setHas, newSet] using this

/-- C30: membership in `UnionOf`, whatever the orders in which the sets are iterated. -/
theorem C30_unionOf (sets orders : List SymSet) (hl : orders.length = sets.length)
    (h : ∀ q ∈ orders.zip sets, q.1.Perm q.2) (k : GoString) :
    setHas (unionOf orders) k = true ↔ ∃ s ∈ sets, setHas s k = true := by
  have h1 := (unionOf_spec orders).2 k
  have h2 : (∃ s ∈ orders, k ∈ s) ↔ ∃ s ∈ sets, k ∈ s := by
    clear h1
    induction orders generalizing sets with
    | nil =>
      cases sets with
      | nil => simp
      | cons => simp at hl
    | cons o os ih =>
      cases sets with
      | nil => simp at hl
      | cons s ss =>
        have hp : o.Perm s := h (o, s) (by simp)
        have := ih ss (by simpa using hl) (fun q hq => h q (by simp [hq]))
        simp [hp.mem_iff, this]
  simpa [setHas, h2] using h1

/-- C30: `Keys` of `NewSet(vs...)` lists exactly the elements of `vs`, each once, in strictly
increasing byte order, for every order in which the map is iterated. -/
theorem C30_keys (vs order : List GoString) (h : order.Perm (newSet vs)) :
    (setKeys order).Pairwise (· < ·) ∧ ∀ k, k ∈ setKeys order ↔ k ∈ vs := by
  obtain ⟨hn, hm⟩ := foldl_setAdd vs [] (by simp)
  refine ⟨sortStrings_strict (h.nodup_iff.2 hn), fun k => ?_⟩
  rw [show setKeys order = sortStrings order from rfl, (sortStrings_spec order).1.mem_iff, h.mem_iff]
  simpa [newSet] using hm k

/-- C30: hence `Keys` does not depend on the iteration order. -/
theorem C30_keys_deterministic (vs o1 o2 : List GoString) (h1 : o1.Perm (newSet vs)) (h2 : o2.Perm (newSet vs)) :
    setKeys o1 = setKeys o2 := by
  obtain ⟨p1, s1⟩ := sortStrings_spec o1
  obtain ⟨p2, s2⟩ := sortStrings_spec o2
  exact (p1.trans ((h1.trans h2.symm).trans p2.symm)).eq_of_pairwise
    (fun a b _ _ hab hba => List.le_antisymm hab hba) s1 s2

/-- C30, on the tables: an operator is spaced iff it is listed as a binary operator, a relation or
an arrow. -/
theorem C30_spaced (k : GoString) : isSpaced k = true ↔
    k ∈ symBinaryOperators ∨ k ∈ symRelationSymbols ∨ k ∈ symArrowSymbols := by
  have := (unionOf_spec [newSet symBinaryOperators, newSet symRelationSymbols, newSet symArrowSymbols]).2 k
  have e : ∀ vs k, k ∈ newSet vs ↔ k ∈ vs := fun vs k => by simpa [newSet] using (foldl_setAdd vs [] (by simp)).2 k
  simpa [isSpaced, setHas, spacedSymbols, e] using this

example : setKeys [bs!"b", bs!"a", bs!"ab"] = [bs!"a", bs!"ab", bs!"b"] := by decide
example : [bs!"b", bs!"a", bs!"ab"].Perm (newSet [bs!"ab", bs!"a", bs!"b", bs!"a"]) := by decide

/-! ## C31 -/

/-- C31: a known symbol is mapped to its table entry.  (The table has no repeated keys: it is a Go
map.) -/
theorem C31_symbols (k : GoString) (r : Nat) (h : (k, r) ∈ tex2uni) :
    tex2unicodeIndex (bs!"\\" ++ k) true = .ok r := by
  have hn : (tex2uni.map Prod.fst).Nodup := tex2uni_nodup
  have hk : k ≠ [] := tex2uni_nonempty (k, r) h
  have hl : tex2uni.lookup k = some r := lookup_of_nodup hn h
  unfold tex2unicodeIndex
  rw [if_pos rfl, if_neg (by simp), if_neg]
  · simp [dropBackslash, hl]
  · rintro ⟨h1, _⟩
    cases k with
    | nil => exact hk rfl
    | cons => simp at h1

/-- C31: text mode returns the rune whose UTF-8 encoding starts the string, and panics if there is
none (or if it is U+FFFD). -/
theorem C31_text (v : GoString) (r : Nat) : tex2unicodeIndex v false = .ok r ↔
    Scalar r ∧ r ≠ 0xFFFD ∧ ∃ y, v = utf8 r ++ y := by
  unfold tex2unicodeIndex
  rw [if_neg (by simp)]
  constructor
  · intro h
    split at h
    · simp at h
    · rename_i hne
      simp only [Res.ok.injEq] at h
      subst h
      obtain ⟨h1, h2⟩ := firstRune_valid hne
      exact ⟨h1, hne, h2⟩
  · rintro ⟨h1, h2, y, rfl⟩
    rw [decodeRune_utf8 h1, if_neg (by simpa [runeError] using h2)]

/-- C31: math mode on one ASCII character. -/
theorem C31_math_ascii (b : Nat) (h : b < 128) :
    tex2unicodeIndex [b] true = .ok (if b = 45 then 0x2212 else b) := by
  unfold tex2unicodeIndex
  rw [if_pos rfl]
  by_cases hb : b = 45
  · subst hb; rfl
  · rw [if_neg (by simpa using hb), if_neg hb, firstRune_ascii h, if_pos]
    simp [runeError]; omega

/-- C31: math mode returns a rune in exactly these cases, and panics otherwise: one ASCII
character, or a string that is a known symbol once its first backslash is removed. -/
theorem C31_math (v : GoString) (r : Nat) : tex2unicodeIndex v true = .ok r ↔
    (v = [45] ∧ r = 0x2212) ∨ (∃ b, v = [b] ∧ b < 128 ∧ b ≠ 45 ∧ r = b) ∨
    ((∀ b, v = [b] → 128 ≤ b) ∧ (dropBackslash v, r) ∈ tex2uni) := by
  constructor
  · intro h
    unfold tex2unicodeIndex at h
    rw [if_pos rfl] at h
    split at h
    · rename_i hv
      simp only [Res.ok.injEq] at h
      exact .inl ⟨hv, h.symm⟩
    rename_i hv
    split at h
    · rename_i h1
      simp only [Res.ok.injEq] at h
      subst h
      match v, h1, hv with
      | [b], h1, hv =>
        obtain ⟨h2, y, h3⟩ := firstRune_valid h1.2
        have h4 : firstRune [b] = b ∧ b < 128 := by
          by_cases hb : b < 128
          · exact ⟨firstRune_ascii hb [], hb⟩
          · exfalso
            have := congrArg List.length h3
            unfold utf8 at this
            split at this
            · rename_i h5
              rw [utf8, if_pos h5] at h3
              simp only [List.cons_append, List.cons.injEq] at h3
              omega
            split at this
            · simp at this
            split at this <;> simp at this
        refine .inr (.inl ⟨b, rfl, h4.2, ?_, h4.1⟩)
        rintro rfl; exact hv rfl
    · rename_i h1
      split at h
      · rename_i r' hl
        simp only [Res.ok.injEq] at h
        subst h
        refine .inr (.inr ⟨?_, mem_of_lookup hl⟩)
        rintro b rfl
        by_cases hb : b < 128
        · exfalso
          apply h1
          rw [firstRune_ascii hb]
          simp [runeError]; omega
        · omega
      · simp at h
  · rintro (⟨rfl, rfl⟩ | ⟨b, rfl, h1, h2, rfl⟩ | ⟨h1, h2⟩)
    · rfl
    · rw [C31_math_ascii _ h1, if_neg h2]
    · unfold tex2unicodeIndex
      rw [if_pos rfl, if_neg, if_neg, lookup_of_nodup tex2uni_nodup h2]
      · rintro ⟨h3, h4⟩
        match v, h1, h3, h4 with
        | [b], h1, _, h4 =>
          have hb := h1 b rfl
          obtain ⟨h5, y, h6⟩ := firstRune_valid h4
          have := congrArg List.length h6
          unfold utf8 at this
          split at this
          · rename_i h7
            rw [utf8, if_pos h7] at h6
            simp only [List.cons_append, List.cons.injEq] at h6
            omega
          split at this
          · simp at this
          split at this <;> simp at this
      · rintro rfl
        have := h1 45 rfl
        omega

/-- C31: consequently every listed symbol is found by `HasSymbol`, and nothing else is. -/
theorem C31_hasSymbol (k : GoString) : hasSymbol k = true ↔ ∃ r, (k, r) ∈ tex2uni := by
  unfold hasSymbol
  rw [Option.isSome_iff_exists]
  constructor
  · rintro ⟨r, h⟩; exact ⟨r, mem_of_lookup h⟩
  · rintro ⟨r, h⟩; exact ⟨r, lookup_of_nodup tex2uni_nodup h⟩

example : tex2unicodeIndex bs!"\\alpha" true = .ok 0x3B1 := by krfl
example : tex2unicodeIndex bs!"é" false = .ok 0xE9 := by krfl
example : ∃ p, tex2unicodeIndex bs!"é" true = .panic p := 
  ⟨.other "tex2unicode: not a valid unicode character nor a known TeX symbol", by krfl⟩

end Verif.Props
