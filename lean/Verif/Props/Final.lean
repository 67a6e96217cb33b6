import Verif.Lemmas.HopeLex
import Verif.Props.Concat
import Verif.Model.Draw
/-!
# C99: a panic is final unless it may be about the end

A source that is read as it is written, line by line: once ParseExpr has panicked for another reason than that something
may be missing at the end, it panics in the same way whatever is written on the lines that follow.
-/

namespace Verif.Props
open Verif Spec
variable {U : Nat → Bool}

/-- The panics that can be about the end of the source: a brace was expected, an item was missing (the same panic is that of
a brace that closes nothing), or the name of a macro is empty or quoted. -/
def MayEnd : Panic → Prop
  | .expected _ => True
  | .impossible => True
  | .unknownMacro t => t = bs!"\\" ∨ ∃ u, t = bs!"\\\"" ++ u
  | _ => False

theorem not_end {p : Panic} (h : ¬ MayEnd p) : ¬ EndPanic p := by
  rintro (⟨r, rfl⟩ | rfl | ⟨t, rfl, ht⟩)
  · exact h trivial
  · exact h trivial
  · exact h ht

/-- **C99.** A panic that is not about the end is final: whatever is written on the lines that follow, ParseExpr panics with it. -/
theorem C99_final {a : GoString} {p : Panic} (h : parseExpr U a = .panic p) (hp : ¬ MayEnd p) (b : GoString) :
    parseExpr U (a ++ bs!"\n" ++ b) = .panic p := by
  obtain ⟨L, h1, h2⟩ := (C90_panics a p).1 h
  have hy : ∀ c ∈ (⟨10, [10]⟩ : Ch) :: decode b, c.Ok := fun c hc => decode_ok (10 :: b) c (by rw [decode_ascii_cons _ (by omega)]; exact hc)
  obtain ⟨L2, h3, hg⟩ := reads_grow h1 (decode_ok _) rfl hy
  have := (C90_panics (U := U) (a ++ 10 :: b) p).2 ⟨L2, by rw [readsOf_lines, List.append_assoc]; exact h3, failIn_grows h2 (not_end hp) hg⟩
  rw [List.append_assoc]
  exact this

/-- **C99.** If a source is accepted, every beginning of it that consists of whole lines is accepted, or ParseExpr panics as it
does when something is missing at the end. -/
theorem C99_lines {a b : GoString} {t : Node} (h : parseExpr U (a ++ bs!"\n" ++ b) = .ok t) :
    (∃ t', parseExpr U a = .ok t') ∨ ∃ p, parseExpr U a = .panic p ∧ MayEnd p := by
  cases ha : parseExpr U a with
  | ok t' => exact .inl ⟨t', rfl⟩
  | fuel => exact absurd ha (parseExprN_ne_fuel U (by omega))
  | panic p =>
    refine .inr ⟨p, rfl, Classical.byContradiction fun hp => ?_⟩
    rw [C99_final ha hp b] at h
    cases h

/-- **C99.** Of the lines of a source that is not accepted, the first after which the panic is not about the end decides: two
sources that have these lines in common panic alike. -/
theorem C99_alike {a : GoString} {p : Panic} (h : parseExpr U a = .panic p) (hp : ¬ MayEnd p) (b b' : GoString) :
    parseExpr U (a ++ bs!"\n" ++ b) = parseExpr U (a ++ bs!"\n" ++ b') := (C99_final h hp b).trans (C99_final h hp b').symm

/-! ## Nothing is in between -/

/-- The lexemes of a source and of what is written on the next line. -/
theorem readsOf_next {a b : GoString} {L : List Lexed} : ReadsOf U (a ++ 10 :: b) L ↔
    Reads U (a.length - (stripBom a).length) (decode (stripBom a) ++ nlCh :: decode b) L := by
  rw [readsOf_lines, List.append_assoc]; rfl

theorem next_ok (y : GoString) : ∀ c ∈ nlCh :: decode y, c.Ok := fun c hc =>
  decode_ok (10 :: y) c (by rw [decode_ascii_cons _ (by omega)]; exact hc)

/-- If the lexemes can be completed, so can the source. -/
theorem completes {a : GoString} {L : List Lexed} (h : ReadsOf U a L) (hc : CompIn false .eof L) :
    ∃ b t, (∀ c ∈ b, c ∈ bs!"\nalphx{}]$") ∧ parseExpr U (a ++ bs!"\n" ++ b) = .ok t := by
  obtain ⟨ks, h1, h2⟩ := hc
  obtain ⟨t, ht, h3⟩ := closers_text (U := U) ks h1
  have hfine : ∀ x ∈ L, x.lex = .name bs!"\\" ∨ FineLex x := by
    obtain ⟨Y, -, h5⟩ := h3 0
    obtain ⟨L2, h6, h7⟩ := kept_exists Y L
    obtain ⟨l, q, h8⟩ := h2 Y [] L2 h5 (by rw [List.append_nil]; exact h6) (fun _ => rfl)
    exact fun x hx => (h7 x hx).imp id fun hx => ((items_fine h8) x hx).elim id (by simp)
  obtain ⟨s, hs, h4⟩ := reads_comp h (decode_ok _) fun x hx => by
    rcases hfine x hx with h | h
    · rw [h]; exact ⟨nofun, fun u h => by cases h⟩
    · exact ⟨h.1, fun u hu => odd_not_known (h.2 _ hu)⟩
  obtain ⟨o', h4⟩ := h4 (ascii t)
  obtain ⟨Y, h5, h6⟩ := h3 o'
  obtain ⟨L2, h7, h8⟩ := h4 Y h5
  obtain ⟨l, q, h9⟩ := h2 Y [] L2 h6 (by rw [List.append_nil]; exact h8) (fun _ => rfl)
  have hst : ∀ c ∈ s ++ t, c ∈ bs!"\nalphx{}]$" := by
    intro c hc
    rcases List.mem_append.1 hc with hc | hc
    · rcases hs with rfl | rfl
      · exact (by decide : ∀ c ∈ bs!"\n", c ∈ bs!"\nalphx{}]$") c hc
      · exact (by decide : ∀ c ∈ bs!"alpha\n", c ∈ bs!"\nalphx{}]$") c hc
    · exact (by decide : ∀ c ∈ bs!"\nx{}]$", c ∈ bs!"\nalphx{}]$") c (ht c hc)
  have hlt : ∀ c ∈ s ++ t, c < 0x80 := fun c hc => (by decide : ∀ c ∈ bs!"\nalphx{}]$", c < 0x80) c (hst c hc)
  refine ⟨s ++ t, .list l, hst, ?_⟩
  have hr : ReadsOf U (a ++ 10 :: (s ++ t)) L2 := by
    rw [readsOf_next, decode_ascii hlt]
    have : ascii (s ++ t) = ascii s ++ ascii t := by simp [ascii]
    rw [this, ← List.cons_append, ← List.append_assoc]
    exact h7
  have hok : ∀ c ∈ (SS.init (a ++ 10 :: (s ++ t))).rest, c.Ok := by rw [init_strip]; exact decode_ok _
  obtain ⟨s', h10, -⟩ := items_P (U := U) h9 (st := .never) (s := SS.init (a ++ 10 :: (s ++ t))) rfl hok (by rw [init_strip]; exact hr)
  rw [List.append_assoc]
  exact parseExpr_of_P h10

/-- **C99.** A source can be completed on the lines after it, and then with nothing but line breaks, the letters of `alpha` and
`x`, braces, closing brackets and dollar signs; or whatever is written on these lines, ParseExpr panics in the same way. -/
theorem C99_hope (a : GoString) : (∃ b t, (∀ c ∈ b, c ∈ bs!"\nalphx{}]$") ∧ parseExpr U (a ++ bs!"\n" ++ b) = .ok t) ∨
    ∃ p, ∀ b, parseExpr U (a ++ bs!"\n" ++ b) = .panic p := by
  obtain ⟨L, h1, -⟩ := C90_reads (U := U) a
  rcases (C90_one (U := U) a L h1).1 with ⟨l, h2⟩ | ⟨p, h2⟩
  · exact .inl (completes h1 (compItems h2 rfl))
  · obtain ⟨f, hf, h3⟩ := reads_turn h1 (decode_ok _)
    rcases hopeIn hf h2 with ⟨q, h4⟩ | hc
    · refine .inr ⟨q, fun b => ?_⟩
      obtain ⟨L2, h5, h6⟩ := h3 (decode b) (next_ok b)
      rw [List.append_assoc]
      exact (C90_panics _ q).2 ⟨L2, readsOf_next.2 h5, h4 L2 h6⟩
    · exact .inl (completes h1 hc)

/-- **C99.** A source that is accepted can be completed; so of a source that can be, every beginning of whole lines can be. -/
theorem C99_accepted {a b : GoString} {t : Node} (h : parseExpr U a = .ok t ∨ parseExpr U (a ++ bs!"\n" ++ b) = .ok t) :
    ∃ b' t', (∀ c ∈ b', c ∈ bs!"\nalphx{}]$") ∧ parseExpr U (a ++ bs!"\n" ++ b') = .ok t' := by
  rcases h with h | h
  · obtain ⟨L, l, h1, h2, -⟩ := (C83_grammar a t).1 h
    exact completes h1.reads (compItems h2 rfl)
  · rcases C99_hope (U := U) a with h' | ⟨p, h'⟩
    · exact h'
    · rw [h' b] at h; cases h

/-- **C99.** So if one continuation is accepted and another is not, no panic of the source is final. -/
theorem C99_either {a : GoString} {p : Panic} : (∀ b, parseExpr U (a ++ bs!"\n" ++ b) = .panic p) ↔
    (¬ ∃ b t, parseExpr U (a ++ bs!"\n" ++ b) = .ok t) ∧ parseExpr U (a ++ bs!"\n") = .panic p := by
  constructor
  · refine fun h => ⟨fun ⟨b, t, hb⟩ => ?_, by simpa using h []⟩
    rw [h b] at hb; cases hb
  · rintro ⟨h1, h2⟩
    rcases C99_hope (U := U) a with ⟨b, t, -, hb⟩ | ⟨q, h'⟩
    · exact absurd ⟨b, t, hb⟩ h1
    · have := h' []
      rw [List.append_nil, h2] at this
      injection this with this
      subst this
      exact h'

/-! ## What hangs on it -/

/-- **C99.** Then nothing is drawn of any of the continuations either: mtex.Parse and mtex.Render panic with it, whatever the
fonts, the size and the resolution are, the renderer is not called, and the command leaves an empty file. -/
theorem C99_draws {F H E W : Type} [GoFloat F] {a : GoString} {p : Panic}
    (h : parseExpr U a = .panic p) (hp : ¬ MayEnd p) (b : GoString) (e : TtfEnv H) (num : GoString → Option F) (size dpi : F) :
    (∀ be : Backend F, mtexParse U be num (a ++ bs!"\n" ++ b) size dpi = .panic p) ∧
    (∀ (dst : RenderCall F H → W → Option E × W) (w : W),
      mtexRender U e num (a ++ bs!"\n" ++ b) size dpi dst w = (.panic p, w)) ∧
    ∀ (lib : ImgLib F H E) (os : OsLib), os.create = true →
      mtexRenderMain U e num lib os [a ++ bs!"\n" ++ b] size dpi = (.crash, [.create, .close]) := by
  have h1 := C99_final h hp b
  have h2 : ∀ d : F, renderT U e num (a ++ bs!"\n" ++ b) size d = .panic p := fun d => by
    simp only [renderT, mtexParseT, h1]; rfl
  refine ⟨fun be => ?_, fun dst w => ?_, fun lib os ho => ?_⟩
  · simp only [mtexParse, h1]; rfl
  · simp only [mtexRender, h2]
  · simp only [mtexRenderMain, mtexRenderImg, h2, ho, reduceCtorEq, if_false]

/-- **C99.** What can be drawn has a beginning, after every line of it, that can be completed: if mtex.Render calls the renderer,
ParseExpr accepts a completion of whatever is in front of a line break. -/
theorem C99_drawn {F H : Type} [GoFloat F] {a b : GoString} {e : TtfEnv H} {num : GoString → Option F} {size dpi : F}
    {c : RenderCall F H} (h : renderT U e num (a ++ bs!"\n" ++ b) size dpi = .ok c) :
    ∃ b' t', (∀ c ∈ b', c ∈ bs!"\nalphx{}]$") ∧ parseExpr U (a ++ bs!"\n" ++ b') = .ok t' := by
  refine C99_accepted (b := b) (t := ?t) (.inr ?_)
  case t => exact (match parseExpr U (a ++ bs!"\n" ++ b) with | .ok t => t | _ => .nil)
  · cases hq : parseExpr U (a ++ bs!"\n" ++ b) with
    | ok t => rfl
    | panic p => simp only [renderT, mtexParseT, hq] at h; cases h
    | fuel => simp only [renderT, mtexParseT, hq] at h; cases h

/-! ## The exceptions are needed, and the panics are there -/

/-- Of a macro that is not known nothing is drawn, whatever follows. -/
example {F H E : Type} [GoFloat F] (b : GoString) (e : TtfEnv H) (num : GoString → Option F) (size dpi : F) (lib : ImgLib F H E) :
    mtexRenderMain U e num lib ⟨true, true⟩ [bs!"$x \\foo" ++ bs!"\n" ++ b] size dpi = (.crash, [.create, .close]) :=
  (C99_draws (W := Unit) (U := U) (a := bs!"$x \\foo") (p := .unknownMacro bs!"\\foo") (by krfl) (by rintro (h | ⟨u, h⟩) <;> cases h) b e num size dpi).2.2
    lib ⟨true, true⟩ rfl
/-- The panic that a brace was expected is not final, -/
example : parseExpr U bs!"\\sqrt" = .panic (.expected ch!"{") ∧ parseExpr U (bs!"\\sqrt" ++ bs!"\n" ++ bs!"{x}") =
    .ok (.list [.macro (some (0, bs!"\\sqrt")) [.arg 6 [.word 7 bs!"x"] 8]]) := ⟨by krfl, by krfl⟩
/-- nor that of a caret at the end, -/
example : parseExpr U bs!"$x^" = .panic .impossible ∧ parseExpr U (bs!"$x^" ++ bs!"\n" ++ bs!"2$") =
    .ok (.list [.math bs!"$" 0 [.word 1 bs!"x", .sup 2 (.lit 4 bs!"2")] 5]) := ⟨by krfl, by krfl⟩
/-- nor that of a backslash at the end; -/
example : parseExpr U bs!"\\" = .panic (.unknownMacro bs!"\\") ∧ parseExpr U (bs!"\\" ++ bs!"\n" ++ bs!"alpha") =
    .ok (.list [.macro (some (0, bs!"\\alpha")) []]) := ⟨by krfl, by krfl⟩
/-- a quoted name includes the end of the line. -/
example : parseExpr U bs!"\\\"x" = .panic (.unknownMacro bs!"\\\"x") ∧
    parseExpr U (bs!"\\\"x" ++ bs!"\n" ++ bs!"") = .panic (.unknownMacro bs!"\\\"x\n") := ⟨by krfl, by krfl⟩
/-- An unknown macro is final, although a comment at the end may go on on the next line, -/
example (b : GoString) : parseExpr U (bs!"$x \\foo % \"" ++ bs!"\n" ++ b) = .panic (.unknownMacro bs!"\\foo") :=
  C99_final (by krfl) (by rintro (h | ⟨u, h⟩) <;> cases h) b
/-- and so is a quoted string. -/
example (b : GoString) : parseExpr U (bs!"\"x" ++ bs!"\n" ++ b) = .panic .otherNotImplemented := C99_final (by krfl) id b
example (b : GoString) : parseExpr U (bs!"a {b" ++ bs!"\n" ++ b) = .panic .lbraceNotImplemented := C99_final (by krfl) id b
/-- A brace that closes nothing makes a source hopeless, although its panic is that of a caret at the end; -/
example (b : GoString) : parseExpr U (bs!"x}" ++ bs!"\n" ++ b) = .panic .impossible := by
  have hd : decode (stripBom bs!"x}") = ascii bs!"x}" := by decide
  obtain ⟨L, hL⟩ := reads_total (U := U) _ ⟨nlCh :: decode b, 0 + (bytesOf []).length + (bytesOf (ascii bs!"x")).length + (bytesOf []).length + (bytesOf (ascii bs!"}")).length⟩
    (Nat.lt_succ_self _) (next_ok b)
  have h2 := Reads.more (U := U) (w := []) (a := ascii bs!"x") (o := 0) (k := .word bs!"x") (rest := [] ++ ascii bs!"}" ++ nlCh :: decode b) nofun
    (.word (by simp [isLetter]) ⟨by simp, by intro c hc; cases hc; simp [isLetter]⟩)
    (.more (w := []) (a := ascii bs!"}") (k := .mark ch!"}") nofun (.mark (by decide) (fun h => by cases h)) hL)
  obtain ⟨M, hM, hF⟩ : ∃ M, Reads U 0 (ascii bs!"x}" ++ nlCh :: decode b) M ∧ FailIn false .eof M .impossible :=
    ⟨_, h2, .later nofun .word (.here nofun .brace)⟩
  rw [List.append_assoc]
  exact (C90_panics _ _).2 ⟨M, readsOf_next.2 (by rw [hd]; exact hM), hF⟩
/-- The text that completes a source can be much longer than what it lacks at first sight: nothing but `\frac` and a comment
with a double quote, which goes on on the next line. -/
example : parseExpr U (bs!"$x^\\frac{a%\"" ++ bs!"\n" ++ bs!"\n}{}$") =
    .ok (.list [.math bs!"$" 0 [.word 1 bs!"x", .sup 2 (.macro (some (3, bs!"\\frac")) [.arg 8 [.word 9 bs!"a"] 14, .arg 15 [] 16])] 17]) := by krfl
example : parseExpr U bs!"$x^\\frac{a%\"" = .panic (.expected ch!"{") := by krfl
example : ∃ b t, (∀ c ∈ b, c ∈ bs!"\nalphx{}]$") ∧ parseExpr U (bs!"$x^\\frac{a" ++ bs!"\n" ++ b) = .ok t :=
  (C99_hope (U := U) bs!"$x^\\frac{a").resolve_right fun ⟨p, h⟩ => by
    have h' := h bs!"}{}"
    rw [show parseExpr U (bs!"$x^\\frac{a" ++ bs!"\n" ++ bs!"}{}") = .ok (.list [.math bs!"$" 0 [.word 1 bs!"x",
      .sup 2 (.macro (some (3, bs!"\\frac")) [.arg 8 [.word 9 bs!"a"] 11, .arg 12 [] 13])] 0]) by krfl] at h'
    cases h'
/-- Without a line break in between nothing is final. -/
example : parseExpr U bs!"\\alp" = .panic (.unknownMacro bs!"\\alp") ∧ parseExpr U (bs!"\\alp" ++ bs!"ha") =
    .ok (.list [.macro (some (0, bs!"\\alpha")) []]) := ⟨by krfl, by krfl⟩

end Verif.Props
