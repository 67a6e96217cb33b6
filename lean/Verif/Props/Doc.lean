import Verif.Lemmas.Eof
import Verif.Model.Krfl
import Verif.Props.Context
/-!
# C10, C12, C16, C17: the supported language, unclosed constructs, rejected input

Documents (`Spec.Item`), their source text (`srcL`), their syntax trees (`nodesL`) and the
well-formedness condition (`OkL`) are in `Verif/Spec/Doc.lean`; a document whose source text is
followed by `y` is required not to fuse lexically with `y`.  `Spec.Open` is the beginning of a document, up to
a point where some math expressions, groups or arguments are still open.
-/

namespace Verif.Props
open Verif Verif.Spec

variable (U : Nat → Bool)

theorem not_bom_of_prefix {x y : GoString} (h : ¬ bom <+: x) (hl : 3 ≤ x.length ∨ Next y (· < 128)) : ¬ bom <+: x ++ y := by
  rintro ⟨t, ht⟩
  match x, h, hl, ht with
  | [], h, hl, ht =>
    rcases hl with hl | hl
    · simp at hl
    · have := hl 0xEF (by simpa [bom] using (congrArg List.head? ht).symm)
      omega
  | [a], h, hl, ht =>
    rcases hl with hl | hl
    · simp at hl
    · have h1 : 0xBB :: 0xBF :: t = y := by simpa using (List.cons.inj ht).2
      have := hl 0xBB (by rw [← h1]; rfl)
      omega
  | [a, b], h, hl, ht =>
    rcases hl with hl | hl
    · simp at hl
    · have h1 : 0xBF :: t = y := by simpa using (List.cons.inj (List.cons.inj ht).2).2
      have := hl 0xBF (by rw [← h1]; rfl)
      omega
  | a :: b :: c :: x, h, hl, ht =>
    simp only [bom, List.cons_append, List.nil_append, List.cons.injEq] at ht
    obtain ⟨rfl, rfl, rfl, _⟩ := ht
    exact h ⟨x, rfl⟩

/-! ## C10 -/

/-- C10: `ParseExpr` of the source text of a supported document is its syntax tree, with exact
positions.  (A document cannot start with a byte-order mark, which is not part of the text.) -/
theorem C10_documents (d : List Item) (h : OkL U .top false d []) (hb : ¬ bom <+: srcL d) :
    parseExpr U (srcL d) = .ok (.list (nodesL false 0 d)) := by
  have h1 := list_ok .top false d [] h 0 [] 0 _ (loop_eof .never (modeOf false) _)
  refine parseExpr_of_P (cl := 0) (s' := ⟨[], 0 + (srcL d).length⟩) ?_
  rw [SS.init_of_not_bom hb]
  simpa [Spec.Ctx.stop, modeOf] using h1

/-- C10, uniqueness of the source: supported documents with the same text have the same tree. -/
theorem C10_unambiguous (d e : List Item) (h : OkL U .top false d []) (h' : OkL U .top false e [])
    (hb : ¬ bom <+: srcL d) (hs : srcL d = srcL e) : nodesL false 0 d = nodesL false 0 e := by
  have h1 := C10_documents U d h hb
  rw [hs] at h1 hb
  have h2 := C10_documents U e h' hb
  rw [h1] at h2
  simpa using h2

/-- A document with every construct:
`Is \textbf{it}, 1.5?% why`, newline, tab, `$\frac{a_1}{\sqrt[3]{x}}^{2} {b+c}_\alpha \ $`. -/
def sampleDoc : List Item :=
  [.word bs!"Is", .blank, .macro bs!"\\textbf" [.arg [.word bs!"it"]], .sym ch!",", .blank,
   .num bs!"1" (some bs!"5"), .sym ch!"?", .comment bs!" why", .breaks bs!"\t",
   .math [.macro bs!"\\frac" [.arg [.word bs!"a", .sub (.num bs!"1" none)],
            .arg [.macro bs!"\\sqrt" [.optArg [.num bs!"3" none], .arg [.word bs!"x"]]]],
          .supGroup [.num bs!"2" none], .blank,
          .group [.word bs!"b", .sym ch!"+", .word bs!"c"], .sub (.macro bs!"\\alpha" []), .blank, .escBlank]]

theorem wordText_ascii {t : GoString} (h1 : t ≠ []) (h2 : ∀ b ∈ t, b < 128 ∧ ((65 ≤ b && b ≤ 90) || (97 ≤ b && b ≤ 122)) = true) :
    WordText U t := by
  refine ⟨h1, ?_⟩
  rw [decode_ascii fun b hb => (h2 b hb).1]
  intro c hc
  simp only [ascii, List.mem_map] at hc
  obtain ⟨b, hb, rfl⟩ := hc
  simp only [isLetter, (h2 b hb).1, if_true, (h2 b hb).2]

theorem next_cons {b : Nat} {y : GoString} {p : Nat → Prop} (h : p b) : Next (b :: y) p := by
  intro c hc
  simp only [List.head?_cons, Option.some.injEq] at hc
  exact hc ▸ h

instance (b : Nat) : Decidable (notLetter b) := by unfold notLetter; infer_instance

theorem sampleDoc_ok : OkL U .top false sampleDoc [] := by
  have w : ∀ {t : GoString}, t ≠ [] → (∀ b ∈ t, b < 128 ∧ ((65 ≤ b && b ≤ 90) || (97 ≤ b && b ≤ 122)) = true) →
      WordText U t := wordText_ascii U
  have m : ∀ {t y : GoString} {args : List Item} {sig}, macroLookup (ch!"\\" :: t) = some (some sig) → FitsSig sig args →
      WordText U t → OkArgs U true args y → (args = [] → Next y notLetter) →
      Ok U .brace true (.macro (ch!"\\" :: t) args) y := by
    intro t y args sig h1 h2 h3 h4 h5
    exact ⟨sig, h1, h2, h4, .inl ⟨t, rfl, h3, h5⟩⟩
  simp only [sampleDoc, OkL, Ok, srcL, src, numText, OkArgs, List.cons_append, List.nil_append, List.append_nil, and_true]
  refine ⟨⟨w (by decide) (by decide), next_cons (by decide)⟩, ?_⟩
  refine ⟨trivial, ?_⟩
  refine ⟨⟨bs!"A", by krfl, .arg .nil, ⟨w (by decide) (by decide), next_cons (by decide)⟩,
    .inl ⟨_, rfl, w (by decide) (by decide), by simp⟩⟩, ?_⟩
  refine ⟨⟨by decide, by simp, by simp⟩, trivial, ⟨by decide, by unfold Digits; decide, by unfold Digits; decide, next_cons (by decide)⟩,
    ⟨by decide, by simp, by simp⟩, by decide, by decide, by decide, ?_⟩
  refine ⟨⟨bs!"AA", by krfl, .arg (.arg .nil), ⟨⟨⟨w (by decide) (by decide), next_cons (by decide)⟩, by decide, ?_⟩, ?_⟩,
    .inl ⟨_, rfl, w (by decide) (by decide), by simp⟩⟩, ?_⟩
  · exact ⟨by decide, by unfold Digits; decide, next_cons (by decide)⟩
  · exact ⟨bs!"OA", by krfl, .opt (.arg .nil), ⟨⟨by decide, by unfold Digits; decide, next_cons (by decide)⟩,
      w (by decide) (by decide), next_cons (by decide)⟩, .inl ⟨_, rfl, w (by decide) (by decide), by simp⟩⟩
  refine ⟨⟨by decide, by unfold Digits; decide, next_cons (by decide)⟩, trivial, ⟨trivial, ⟨w (by decide) (by decide), next_cons (by decide)⟩,
    ⟨by decide, by simp, by simp⟩, w (by decide) (by decide), next_cons (by decide)⟩, by decide, ?_⟩
  exact ⟨[], by krfl, .nil, trivial, .inl ⟨_, rfl, w (by decide) (by decide), fun _ => next_cons (by decide)⟩⟩

/-- The hypotheses of C10 hold for `sampleDoc`, whose text and tree are as expected. -/
example : OkL U .top false sampleDoc [] ∧ ¬ bom <+: srcL sampleDoc ∧
    srcL sampleDoc = bs!"Is \\textbf{it}, 1.5?% why\n\t$\\frac{a_1}{\\sqrt[3]{x}}^{2} {b+c}_\\alpha \\ $" ∧
    nodesL false 0 sampleDoc =
      [.word 0 bs!"Is", .sym 2 bs!" ", .macro (some (3, bs!"\\textbf")) [.arg 10 [.word 11 bs!"it"] 13],
       .sym 14 bs!",", .sym 15 bs!" ", .lit 16 bs!"1.5", .sym 19 bs!"?",
       .math bs!"$" 27 [.macro (some (28, bs!"\\frac"))
           [.arg 33 [.word 34 bs!"a", .sub 35 (.lit 36 bs!"1")] 37,
            .arg 38 [.macro (some (39, bs!"\\sqrt")) [.optArg 44 [.lit 45 bs!"3"] 46, .arg 47 [.word 48 bs!"x"] 49]] 50],
         .sup 51 (.list [.lit 53 bs!"2"]),
         .list [.word 57 bs!"b", .sym 58 bs!"+", .word 59 bs!"c"],
         .sub 61 (.macro (some (62, bs!"\\alpha")) [])] 71] :=
  ⟨sampleDoc_ok U, by decide, by decide, by krfl⟩

/-! ## C12 -/

/-- C12: unclosed math expressions, groups and (last) arguments at the end of the input are
accepted, with closing position 0; nothing is reported. -/
theorem C12_unclosed_accepted (q : Open) (h : OkO U .top false q []) (hl : LastArgs q)
    (hb : ¬ bom <+: srcO q) : parseExpr U (srcO q) = .ok (.list (nodesO false 0 q)) := by
  obtain ⟨e, h1⟩ := open_eof q .top false 0 h hl
  refine parseExpr_of_P (cl := 0) (s' := ⟨[], e⟩) ?_
  rw [SS.init_of_not_bom hb]
  exact h1

/-- C12: in particular `d`, `$` and `e` with no closing dollar, for all documents `d` and `e`;
the math node ends before it starts. -/
theorem C12_unclosed_math (d e : List Item) (hd : OkL U .top false d (bs!"$" ++ srcL e))
    (he : OkL U .dollar true e []) (hb : ¬ bom <+: srcL d ++ (bs!"$" ++ srcL e)) :
    ∃ l, parseExpr U (srcL d ++ (bs!"$" ++ srcL e)) = .ok (.list l) ∧
      ∃ n, l.getLast? = some n ∧ n = .math bs!"$" (srcL d).length (nodesL true ((srcL d).length + 1) e) 0 ∧
        n.posOf = some ((srcL d).length : Int) ∧ n.endOf = some 0 := by
  have h := C12_unclosed_accepted U (.math d (.here e)) (by simpa [OkO, srcO] using ⟨hd, he⟩) trivial hb
  refine ⟨_, h, .math bs!"$" (srcL d).length (nodesL true ((srcL d).length + 1) e) 0, ?_, rfl, ?_, ?_⟩
  · simp [nodesO]
  · simp [Node.posOf]
  · simp [Node.endOf]

/-- C12: if a mandatory argument is missing after an unclosed one, the parser panics. -/
theorem C12_missing_argument (q : Open) (h : OkO U .top false q []) (hl : ¬ LastArgs q)
    (hb : ¬ bom <+: srcO q) : parseExpr U (srcO q) = .panic (.expected ch!"{") := by
  refine parseExpr_of_F ?_
  rw [SS.init_of_not_bom hb]
  exact open_missing q .top false 0 h hl

/-- `a $\frac{x}{y_{z` satisfies the hypotheses of C12 (first part), `\frac{x` those of the last. -/
def sampleOpen : Open :=
  .math [.word bs!"a", .blank] (.arg [] bs!"\\frac" [.arg [.word bs!"x"]] (.sub [.word bs!"y"] (.here [.word bs!"z"])))

theorem sampleOpen_ok (y : GoString) (hy : Next y notLetter) : OkO U .top false sampleOpen y := by
  have w : ∀ {t : GoString}, t ≠ [] → (∀ b ∈ t, b < 128 ∧ ((65 ≤ b && b ≤ 90) || (97 ≤ b && b ≤ 122)) = true) →
      WordText U t := wordText_ascii U
  simp only [sampleOpen, OkO, OkL, Ok, OkArgs, srcO, srcL, src, List.cons_append, List.nil_append, List.append_nil, and_true, true_and]
  exact ⟨⟨w (by decide) (by decide), next_cons (by decide)⟩, by decide, .inl ⟨_, rfl, w (by decide) (by decide)⟩,
    ⟨bs!"AA", [], by krfl, .arg (.arg .nil)⟩, ⟨w (by decide) (by decide), next_cons (by decide)⟩,
    ⟨w (by decide) (by decide), next_cons (by decide)⟩, w (by decide) (by decide), hy⟩

example : OkO U .top false sampleOpen [] ∧ LastArgs sampleOpen ∧ ¬ bom <+: srcO sampleOpen ∧
    srcO sampleOpen = bs!"a $\\frac{x}{y_{z" ∧ nodesO false 0 sampleOpen =
      [.word 0 bs!"a", .sym 1 bs!" ", .math bs!"$" 2 [.macro (some (3, bs!"\\frac"))
        [.arg 8 [.word 9 bs!"x"] 10, .arg 11 [.word 12 bs!"y", .sub 13 (.list [.word 15 bs!"z"])] 0]] 0] :=
  ⟨sampleOpen_ok U [] (by simp [Next]), ⟨⟨bs!"AA", by krfl, .arg (.arg .nil)⟩, trivial⟩, by decide, by decide, by krfl⟩

example : OkO U .top false (.arg [] bs!"\\frac" [] (.here [.word bs!"x"])) [] ∧
    ¬ LastArgs (.arg [] bs!"\\frac" [] (.here [.word bs!"x"])) := by
  constructor
  · simp only [OkO, OkL, Ok, OkArgs, srcL, true_and, and_true]
    exact ⟨.inl ⟨_, rfl, wordText_ascii U (by decide) (by decide)⟩,
      ⟨bs!"AA", [.arg []], by krfl, .arg (.arg .nil)⟩, wordText_ascii U (by decide) (by decide), by simp [Next]⟩
  · rintro ⟨⟨sig, h1, h2⟩, _⟩
    have h3 : macroLookup bs!"\\frac" = some (some bs!"AA") := by krfl
    rw [h3] at h1
    simp only [Option.some.injEq] at h1
    subst h1
    cases h2 with
    | arg h => cases h

/-! ## C16 -/

/-- C16: after a number the underscore is not a subscript operator: for all digit strings `d` and
words `w` not starting with e or p, `$d_w$` parses to the literal `d_` followed by the word. -/
theorem C16_underscore_after_number (d w : GoString) (hd : d ≠ [] ∧ Digits d) (hw : WordText U w)
    (hf : Next w (· ∉ bs!"eEpP")) :
    parseExpr U (bs!"$" ++ d ++ bs!"_" ++ w ++ bs!"$") =
      .ok (.list [.math bs!"$" 0 [.lit 1 (d ++ bs!"_"), .word (d.length + 2) w] (d.length + w.length + 2)]) := by
  have hb : ¬ bom <+: ch!"$" :: (d ++ bs!"_" ++ (w ++ bs!"$")) := by
    rintro ⟨t, ht⟩
    have := (List.cons.inj ht).1
    omega
  have e : bs!"$" ++ d ++ bs!"_" ++ w ++ bs!"$" = ch!"$" :: (d ++ bs!"_" ++ (w ++ bs!"$")) := by simp
  rw [e]
  refine parseExpr_of_P (cl := 0) (s' := ⟨[], d.length + w.length + 3⟩) ?_
  rw [SS.init_of_not_bom hb]
  have hnext : Next (w ++ bs!"$") (· ∉ bs!"0123456789_eEpP.") := by
    intro b hbm
    cases w with
    | nil => exact absurd rfl hw.1
    | cons a w =>
      simp only [List.cons_append, List.head?_cons, Option.some.injEq] at hbm
      subst hbm
      have h1 := hf a rfl
      have h2 : ¬ (a < 128 ∧ isLetter U a = false) := by
        rintro ⟨h2, h3⟩
        have := hw.2 ⟨a, [a]⟩ (by rw [decode_ascii_cons _ h2]; simp)
        simp [h3] at this
      intro hm
      have h3 : ∀ b ∈ bs!"0123456789_eEpP.", b ∈ bs!"eEpP" ∨ (b < 128 ∧ notLetter b) := by decide
      rcases h3 a hm with h3 | ⟨h3, h4⟩
      · exact h1 h3
      · exact h2 ⟨h3, notLetter_isLetter h4⟩
  have hdol : Next bs!"$" notLetter := next_cons (by decide)
  have s1 := scan_intU (U := U) (o := 1) hd.1 hd.2 hnext
  have s2 := scan_word (U := U) (o := 1 + (d ++ bs!"_").length) hw hdol
  have s3 := scan_dollar (U := U) (y := []) (o := 1 + (d ++ bs!"_").length + w.length)
  have hclose : P U (.loop .dollar) .math ⟨decode bs!"$", 1 + (d ++ bs!"_").length + w.length⟩ []
      (1 + (d ++ bs!"_").length + w.length) ⟨[], 1 + (d ++ bs!"_").length + w.length + 1⟩ :=
    P.loopStop s3 (by simp) rfl
  have nd : ∀ {t : GoString}, t ≠ bs!"$" → (t == bs!"$") = false := by intro t h; simpa using h
  have h2 := P.loopCons (st := .dollar) s2 (by simp) (nd (word_ne hw ch!"$" rfl (by decide))) (P.word rfl) hclose
  have h1 := P.loopCons (st := .dollar) s1 (by simp) (nd (by
    cases d with
    | nil => exact absurd rfl hd.1
    | cons a d => simp)) (P.number rfl) h2
  have h0 := loop_last (st := .never) (m := .normal) (scan_dollar (U := U) (o := 0)) (by simp) rfl (P.math rfl rfl h1) rfl
  have e1 : 1 + (d ++ bs!"_").length + w.length + 1 = d.length + w.length + 3 := by simp; omega
  have e2 : 1 + (d ++ bs!"_").length + w.length = d.length + w.length + 2 := by simp; omega
  have e3 : 1 + (d ++ bs!"_").length = d.length + 2 := by simp; omega
  rw [e1, e2] at h0
  simp only [e3, Node.isNil, Bool.false_eq_true, if_false] at h0
  exact h0

example : parseExpr (fun _ => false) bs!"$12_ab$" =
    .ok (.list [.math bs!"$" 0 [.lit 1 bs!"12_", .word 4 bs!"ab"] 6]) :=
  C16_underscore_after_number _ bs!"12" bs!"ab" ⟨by decide, by unfold Digits; decide⟩ (wordText_ascii _ (by decide) (by decide))
    (next_cons (by decide))

/-- C16: hence no subscript node appears, although the source has an unescaped underscore in math. -/
theorem C16_no_subscript (d w : GoString) (hd : d ≠ [] ∧ Digits d) (hw : WordText U w)
    (hf : Next w (· ∉ bs!"eEpP")) :
    ∃ root, parseExpr U (bs!"$" ++ d ++ bs!"_" ++ w ++ bs!"$") = .ok root ∧ ∀ p n, Node.sub p n ∉ allNodes root := by
  refine ⟨_, C16_underscore_after_number U d w hd hw hf, ?_⟩
  simp [allNodes, allNodesL]

/-- C16: likewise a single letter e or p right after a number is absorbed into the literal. -/
theorem C16_letter_after_number (d : GoString) (c : Nat) (hd : d ≠ [] ∧ Digits d) (hc : c ∈ bs!"eEpP") :
    parseExpr U (d ++ [c]) = .ok (.list [.lit 0 (d ++ [c])]) := by
  have hb : ¬ bom <+: d ++ [c] := by
    obtain ⟨h1, h2⟩ := hd
    cases d with
    | nil => exact absurd rfl h1
    | cons a d =>
      rintro ⟨t, ht⟩
      have h3 : 0xEF = a := (List.cons.inj ht).1
      have := digits_lt h2 a (by simp)
      omega
  refine parseExpr_of_P (cl := 0) (s' := ⟨[], (d ++ [c]).length⟩) ?_
  rw [SS.init_of_not_bom hb]
  have s1 := scan_intE (U := U) (o := 0) (y := []) hd.1 hd.2 hc (by simp [Next])
  rw [List.append_nil, Nat.zero_add] at s1
  exact loop_last s1 (by simp) rfl (P.number rfl) rfl

example : parseExpr (fun _ => false) bs!"2e" = .ok (.list [.lit 0 bs!"2e"]) :=
  C16_letter_after_number _ bs!"2" ch!"e" ⟨by decide, by unfold Digits; decide⟩ (by decide)

/-! ## C17 -/

/-- The common form of the C17 theorems: a failure right after the beginning of a document. -/
theorem panic_after (q : Open) (y : GoString) (p : Panic) (h : OkO U .top false q y) (hb : ¬ bom <+: srcO q ++ y)
    (hf : ∀ st : Stop, (st = .rbrace ↔ endCtx .top q = .brace) → ∀ o,
      F U (.loop st) (modeOf (endMath false q)) ⟨decode y, o⟩ p) :
    parseExpr U (srcO q ++ y) = .panic p := by
  refine parseExpr_of_F ?_
  rw [SS.init_of_not_bom hb]
  refine open_fail p q .top false y 0 h (hf _ ?_ _)
  cases endCtx .top q <;> simp [Spec.Ctx.stop]

/-- C17: a closing brace that does not match an open one makes `ParseExpr` panic, whatever
follows; also inside `$...`, `[...` and so on. -/
theorem C17_stray_brace (q : Open) (y : GoString) (h : OkO U .top false q (ch!"}" :: y))
    (hq : endCtx .top q ≠ .brace) (hb : ¬ bom <+: srcO q ++ ch!"}" :: y) :
    parseExpr U (srcO q ++ ch!"}" :: y) = .panic .impossible := by
  refine panic_after U q _ _ h hb fun st hst o => ?_
  refine F.loopOne scan_rbrace (by simp) ?_ (F.rbrace rfl)
  cases st <;> first | rfl | exact absurd (hst.1 rfl) hq

/-- C17: an opening brace in text makes `ParseExpr` panic, whatever follows. -/
theorem C17_text_brace (q : Open) (y : GoString) (h : OkO U .top false q (ch!"{" :: y))
    (hq : endMath false q = false) (hb : ¬ bom <+: srcO q ++ ch!"{" :: y) :
    parseExpr U (srcO q ++ ch!"{" :: y) = .panic .lbraceNotImplemented := by
  refine panic_after U q _ _ h hb fun st hst o => ?_
  rw [hq]
  refine F.loopOne scan_lbrace (by simp) ?_ (F.lbrace rfl)
  cases st <;> rfl

/-- C17: a double quote makes `ParseExpr` panic, whatever follows. -/
theorem C17_quote (q : Open) (y : GoString) (h : OkO U .top false q (ch!"\"" :: y))
    (hb : ¬ bom <+: srcO q ++ ch!"\"" :: y) :
    parseExpr U (srcO q ++ ch!"\"" :: y) = .panic .otherNotImplemented := by
  refine panic_after U q _ _ h hb fun st hst o => ?_
  have hs : ∃ b t s', scan U ⟨decode (ch!"\"" :: y), o⟩ = .ok (⟨.other, o, ch!"\"" :: t⟩, s') ∧ b = t := by
    obtain ⟨w, body, h1⟩ := rawScan_spec U isWs ⟨decode (ch!"\"" :: y), o⟩
    have hr := h1.rest
    rw [decode_ascii_cons _ (by decide)] at h1 hr ⊢
    have hw : w = [] := by
      cases w with
      | nil => rfl
      | cons d w =>
        have h2 := h1.wsw d (by simp)
        simp only [List.cons_append, List.cons.injEq] at hr
        rw [← hr.1] at h2
        exact absurd h2 (by decide)
    subst hw
    cases body with
    | nil =>
      have h2 := (h1.eof rfl).2
      rw [h2] at hr; simp at hr
    | cons c mid =>
      simp only [List.nil_append, List.cons_append, List.cons.injEq] at hr
      have hcls : (rawScan U isWs ⟨⟨34, [34]⟩ :: decode y, o⟩).1.cls = .string := by
        have : isWs 34 = false := rfl
        have l : isLetter U 34 = false := rfl
        have d : isDecimal 34 = false := rfl
        simp [rawScan, this, scanRest, l, d]
      have htext := h1.text
      have hpos := h1.pos
      refine ⟨bytesOf mid, bytesOf mid, (rawScan U isWs ⟨⟨34, [34]⟩ :: decode y, o⟩).2, ?_, rfl⟩
      simp only [scan, hcls]
      rw [htext, hpos, ← hr.1]
      simp [bytesOf]
  obtain ⟨_, t, s', hs, _⟩ := hs
  refine F.loopOne hs (by simp) ?_ (F.other rfl)
  cases st <;> rfl

/-- The characters the scanner knows, other than letters and digits. -/
def known : GoString := bs!"\t\n\r \"%\\$_=<>^/*-+!?':,;.[]{}()"

/-- C17: a rune that is neither a letter, nor a digit, nor a known character makes `ParseExpr`
panic, whatever follows; `y` starts with that rune. -/
theorem C17_unsupported_rune (q : Open) (y : GoString) (c : Ch) (cs : List Ch) (hy : decode y = c :: cs)
    (hc : isLetter U c.r = false ∧ isDecimal c.r = false ∧ c.r ∉ known)
    (h : OkO U .top false q y) (hb : ¬ bom <+: srcO q ++ y) :
    parseExpr U (srcO q ++ y) = .panic (.unhandledToken c.r) := by
  refine panic_after U q _ _ h hb fun st hst o => ?_
  refine F.loopScan ?_
  obtain ⟨h1, h2, h3⟩ := hc
  have h4 : ∀ b ∈ known, c.r ≠ b := fun b hb he => h3 (he ▸ hb)
  have hws : isWs c.r = false := by
    simp only [isWs, Bool.or_eq_false_iff, beq_eq_false_iff_ne]
    exact ⟨⟨h4 9 (by decide), h4 10 (by decide)⟩, h4 13 (by decide)⟩
  rw [hy, scan, rawScan_char hws h1 h2 (h4 34 (by decide)) (h4 46 (by decide))]
  have hsym : c.r ∉ symbolChars := by
    intro hm
    have : ∀ b ∈ symbolChars, b ∈ known := by decide
    exact h3 (this _ hm)
  simp [h4 92 (by decide), h4 32 (by decide), h4 37 (by decide), h4 91 (by decide), h4 93 (by decide),
    h4 123 (by decide), h4 125 (by decide), h4 40 (by decide), h4 41 (by decide), hsym]

/-- C17: an unknown macro makes `ParseExpr` panic, whatever follows. -/
theorem C17_unknown_macro (q : Open) (name y : GoString) (hn : MacroName U name) (hk : macroLookup name = none)
    (hy : Next y notLetter) (h : OkO U .top false q (name ++ y)) (hb : ¬ bom <+: srcO q ++ (name ++ y)) :
    parseExpr U (srcO q ++ (name ++ y)) = .panic (.unknownMacro name) := by
  refine panic_after U q _ _ h hb fun st hst o => ?_
  refine F.loopOne (scan_macroName hn hy _) (by simp) ?_ (F.unknown rfl hk)
  have hne : name ≠ bs!"$" := by
    rcases hn with ⟨w, rfl, _⟩ | ⟨c, rfl, _⟩ <;> simp
  cases st <;> first | rfl | simpa [Stop.test] using hne

/-- C17: `\genfrac`, although listed as a macro, makes `ParseExpr` panic, whatever follows. -/
theorem C17_genfrac (q : Open) (y : GoString) (hy : Next y notLetter)
    (h : OkO U .top false q (bs!"\\genfrac" ++ y)) (hb : ¬ bom <+: srcO q ++ (bs!"\\genfrac" ++ y)) :
    parseExpr U (srcO q ++ (bs!"\\genfrac" ++ y)) = .panic .nilMacro := by
  refine panic_after U q _ _ h hb fun st hst o => ?_
  have hn : MacroName U bs!"\\genfrac" := .inl ⟨_, rfl, wordText_ascii U (by decide) (by decide)⟩
  refine F.loopOne (scan_macroName hn hy _) (by simp) ?_ (F.nilMacro rfl (by krfl))
  cases st <;> rfl

theorem dropWhile_nil {p : Nat → Bool} : ∀ {l : List Nat}, (∀ b ∈ l, p b = true) → l.dropWhile p = []
  | [], _ => rfl
  | b :: l, h => by
    rw [List.dropWhile_cons, if_pos (h b (by simp))]
    exact dropWhile_nil fun c hc => h c (by simp [hc])

theorem scan_lbrace_text {y : GoString} {o : Nat} {t : Token} {s' : SS} (hs : scan U ⟨decode y, o⟩ = .ok (t, s'))
    (ht : t.text = bs!"{") : bs!"{" <+: y.dropWhile isBreak := by
  obtain ⟨w, body, h1⟩ := scan_spec hs
  have hbody : ∃ d r, body = d :: r ∧ d.r = 123 := by
    have h2 := h1.shape
    rw [ht] at h2
    have hwf : ∀ c ∈ body, c.WF := by
      intro c hc
      refine decode_wf y c ?_
      have := h1.rest
      simp only at this
      rw [this]; simp [hc]
    have one : ∀ c, body = [c] → bs!"{" = c.b → ∃ d r, body = d :: r ∧ d.r = 123 := by
      intro c hb hcb
      refine ⟨c, [], hb, ?_⟩
      have h3 : decode bs!"{" = [⟨123, [123]⟩] := by decide
      have h4 := decode_wf y c (by have := h1.rest; simp only at this; rw [this, hb]; simp)
      have hsuf : decode (bytesOf (body ++ s'.rest)) = body ++ s'.rest :=
        decode_suffix w _ y (by have := h1.rest; simp only at this; rw [this]; simp)
      have hpre := decode_prefix body s'.rest hsuf
      rw [hb] at hpre
      simp only [bytesOf, List.flatMap_cons, List.flatMap_nil, List.append_nil, ← hcb] at hpre
      rw [h3] at hpre
      simp only [List.cons.injEq, and_true] at hpre
      rw [← hpre]
    have wtext : ∀ {bd : List Ch}, bytesOf bd = bs!"{" → decode (bytesOf bd) = bd → bd = [⟨123, [123]⟩] := by
      intro bd h3 h4
      rw [h3] at h4
      rw [← h4]; decide
    have hsuf : decode (bytesOf (body ++ s'.rest)) = body ++ s'.rest :=
      decode_suffix w _ y (by have := h1.rest; simp only at this; rw [this]; simp)
    have hpre := decode_prefix body s'.rest hsuf
    revert h2
    unfold KindBody
    split
    · intro h2; exact ⟨_, _, wtext h2.1.symm hpre, rfl⟩
    · intro h2; exact ⟨_, _, wtext h2.1.symm hpre, rfl⟩
    · rintro ⟨c, hb, hcb, _⟩; exact one c hb hcb
    · rintro ⟨c, hb, hcb, _⟩; exact one c hb hcb
    · rintro ⟨c, hb, hcb, _⟩; exact one c hb hcb
    · rintro ⟨c, hb, hcb, _⟩; exact one c hb hcb
    · rintro ⟨c, hb, hcb, _⟩; exact one c hb hcb
    · rintro ⟨c, hb, hcb, _⟩; exact one c hb hcb
    · rintro ⟨c, hb, hcb, _⟩; exact one c hb hcb
    · rintro (⟨h, _⟩ | ⟨h, _⟩) <;> simp at h
    · rintro ⟨c, w, nm, _, _, _, h, _⟩; simp at h
    · rintro ⟨c, mid, _, _, h⟩; simp at h
    · rintro ⟨h2, _⟩; exact ⟨_, _, wtext h2.symm hpre, rfl⟩
    · rintro ⟨_, h⟩; simp at h
    · intro h; exact h.elim
  obtain ⟨d, r, hbd, hr⟩ := hbody
  have hrest := h1.rest
  simp only at hrest
  have hbytes : y = bytesOf w ++ bytesOf (body ++ s'.rest) := by
    rw [← bytesOf_append, ← List.append_assoc, ← hrest, bytesOf_decode]
  have hwf : ∀ c ∈ decode y, c.WF := decode_wf y
  have hd : d.b = [123] := by
    have := (hwf d (by rw [hrest, hbd]; simp)).2 (by omega)
    rw [this, hr]
  have hww : ∀ b ∈ bytesOf w, isBreak b = true := by
    intro b hb
    simp only [bytesOf, List.mem_flatMap] at hb
    obtain ⟨c, hc, hb⟩ := hb
    have h2 := h1.wsw c hc
    have h3 : c.r < 128 := by
      simp only [isWs, Bool.or_eq_true, beq_iff_eq] at h2; omega
    have h4 := (hwf c (by rw [hrest]; simp [hc])).2 h3
    rw [h4] at hb
    simp only [List.mem_singleton] at hb
    subst hb
    exact h2
  have hdrop : y.dropWhile isBreak = ch!"{" :: bytesOf (r ++ s'.rest) := by
    rw [hbytes, List.dropWhile_append]
    have : (bytesOf w).dropWhile isBreak = [] := by
      have := dropWhile_nil (p := isBreak) (l := bytesOf w) hww
      exact this
    rw [this, hbd]
    simp only [List.isEmpty_nil, if_true, List.cons_append, bytesOf_cons, hd, List.nil_append]
    rfl
  rw [hdrop]
  exact ⟨_, rfl⟩

/-- C17: a macro whose mandatory argument does not follow makes `ParseExpr` panic, whatever does
follow: the argument must come right after tabs, newlines and carriage returns (a blank is not
skipped). -/
theorem C17_missing_argument (q : Open) (name y : GoString) (hn : MacroName U name)
    (hk : name ∈ oneArg ∨ name ∈ twoArg ∨ name = bs!"\\sqrt" ∧ ¬ bs!"[" <+: y)
    (hy : Next y notLetter) (hm : ¬ bs!"{" <+: y.dropWhile isBreak)
    (h : OkO U .top false q (name ++ y)) (hb : ¬ bom <+: srcO q ++ (name ++ y)) :
    ∃ p, parseExpr U (srcO q ++ (name ++ y)) = .panic p := by
  have hA : ∀ sig m o, ∃ p, F U (.args (ch!"A" :: sig)) m ⟨decode y, o⟩ p ∧
      ((∃ t s', scan U ⟨decode y, o⟩ = .ok (t, s')) ∧ p = .expected ch!"{" ∨ scan U ⟨decode y, o⟩ = .panic p) := by
    intro sig m o
    cases hs : scan U ⟨decode y, o⟩ with
    | ok r =>
      obtain ⟨t, s'⟩ := r
      refine ⟨_, F.argsExpected (.inl rfl) hs fun ht => hm (scan_lbrace_text U hs ht), .inl ⟨⟨t, s', rfl⟩, rfl⟩⟩
    | panic p => exact ⟨p, F.argsScan (.inl rfl) hs, .inr rfl⟩
    | fuel => exact absurd hs (scan_ne_fuel U _)
  have hargs : ∃ sig, macroLookup name = some (some sig) ∧ ∀ m o, ∃ p, F U (.args sig) m ⟨decode y, o⟩ p := by
    have t1 : (oneArg.all fun n => macroLookup n == some (some bs!"A")) = true := by krfl
    have t2 : (twoArg.all fun n => macroLookup n == some (some bs!"AA")) = true := by krfl
    rcases hk with hk | hk | ⟨rfl, hk⟩
    · refine ⟨bs!"A", by simpa using List.all_eq_true.1 t1 _ hk, fun m o => ?_⟩
      obtain ⟨p, h1, _⟩ := hA [] m o
      exact ⟨p, h1⟩
    · refine ⟨bs!"AA", by simpa using List.all_eq_true.1 t2 _ hk, fun m o => ?_⟩
      obtain ⟨p, h1, _⟩ := hA bs!"A" m o
      exact ⟨p, h1⟩
    · refine ⟨bs!"OA", by krfl, fun m o => ?_⟩
      obtain ⟨p, h1, _⟩ := hA [] m o
      refine ⟨p, F.argsNoOpt (.inl rfl) ?_ h1⟩
      intro hp
      apply hk
      cases y with
      | nil => simp [SS.peek, decode_nil] at hp
      | cons b y =>
        rw [peek_cons (hy b rfl).1] at hp
        simp only [Option.some.injEq] at hp
        subst hp
        exact ⟨y, rfl⟩
  obtain ⟨sig, hl, hF⟩ := hargs
  obtain ⟨p, hF⟩ := hF (modeOf (endMath false q)) (0 + (srcO q).length + name.length)
  refine ⟨p, parseExpr_of_F ?_⟩
  rw [SS.init_of_not_bom hb]
  refine open_fail p q .top false _ 0 h (F.loopOne (scan_macroName hn hy _) (by simp) (macroName_test hn _ _) (F.macro rfl hl hF))

/-- C17: a script character at the end of the input makes `ParseExpr` panic. -/
theorem C17_dangling_script (q : Open) (b : Nat) (hb' : b = ch!"_" ∨ b = ch!"^") (h : OkO U .top false q [b])
    (hb : ¬ bom <+: srcO q ++ [b]) : parseExpr U (srcO q ++ [b]) = .panic .impossible := by
  refine panic_after U q _ _ h hb fun st hst o => ?_
  have hs := scan_char (U := U) (c := b) (y := []) (o := o) (by rcases hb' with rfl | rfl <;> decide)
    (by rcases hb' with rfl | rfl <;> simp)
  have hk : charKind b = .symbol := by rcases hb' with rfl | rfl <;> rfl
  rw [hk] at hs
  refine F.loopOne hs (by simp) ?_ (F.scriptOne rfl (by rcases hb' with rfl | rfl <;> simp) (by simp [SS.peek, decode_nil])
    (scan_nil U _) (F.eof rfl))
  rcases hb' with rfl | rfl <;> cases st <;> rfl

/-- The hypotheses of the C17 theorems hold for `a $\frac{x}{y_{z` followed by any of these. -/
example (y : GoString) : OkO U .top false sampleOpen (ch!"\"" :: y) ∧ OkO U .top false sampleOpen (bs!"\\foo" ++ bs!" ") ∧
    OkO U .top false sampleOpen (ch!"#" :: y) ∧ OkO U .top false sampleOpen (bs!"\\frac" ++ bs!" {a}{b}") ∧
    OkO U .top false sampleOpen [ch!"_"] :=
  ⟨sampleOpen_ok U _ (next_cons (by decide)), sampleOpen_ok U _ (next_cons (by decide)), sampleOpen_ok U _ (next_cons (by decide)),
   sampleOpen_ok U _ (next_cons (by decide)), sampleOpen_ok U _ (next_cons (by decide))⟩

example : parseExpr (fun _ => false) bs!"a}b" = .panic .impossible :=
  C17_stray_brace _ (.here [.word bs!"a"]) bs!"b"
    (by simp only [OkO, OkL, Ok, srcL, and_true]; exact ⟨wordText_ascii _ (by decide) (by decide), next_cons (by decide)⟩)
    (by decide) (by decide)

example : parseExpr (fun _ => false) bs!"$a}b" = .panic .impossible :=
  C17_stray_brace _ (.math [] (.here [.word bs!"a"])) bs!"b"
    (by simp only [OkO, OkL, Ok, srcL, and_true, true_and]
        exact ⟨by decide, wordText_ascii _ (by decide) (by decide), next_cons (by decide)⟩)
    (by decide) (by decide)

example : parseExpr (fun _ => false) bs!"a#b" = .panic (.unhandledToken 35) :=
  C17_unsupported_rune _ (.here [.word bs!"a"]) bs!"#b" ⟨35, [35]⟩ _ (decode_ascii_cons _ (by decide))
    (by decide)
    (by simp only [OkO, OkL, Ok, srcL, and_true]; exact ⟨wordText_ascii _ (by decide) (by decide), next_cons (by decide)⟩)
    (by decide)

example : ∃ p, parseExpr (fun _ => false) bs!"\\frac {a}{b}" = .panic p :=
  C17_missing_argument _ (.here []) bs!"\\frac" bs!" {a}{b}" (.inl ⟨_, rfl, wordText_ascii _ (by decide) (by decide)⟩)
    (.inr (.inl (by decide))) (next_cons (by decide)) (by decide) trivial (by decide)

end Verif.Props
