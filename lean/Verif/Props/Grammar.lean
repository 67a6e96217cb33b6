import Verif.Lemmas.GrammarParse
import Verif.Props.Parse
/-!
# C83: ParseExpr accepts exactly the sentences of a grammar

The lexemes (`Spec.Lexes`) and the grammar (`Spec.Items`) are in `Spec/Grammar`; they do not refer to the scanner or the parser.
-/

namespace Verif.Props
open Verif Spec
variable {U : Nat → Bool}

/-- **C83.** ParseExpr returns a tree exactly if the source is a sentence of the grammar with that tree. -/
theorem C83_grammar (x : GoString) (t : Node) : parseExpr U x = .ok t ↔ Sentence U x t := by
  have hok : ∀ c ∈ (SS.init x).rest, c.Ok := by rw [init_strip]; exact decode_ok _
  constructor
  · intro h
    obtain ⟨l, s', rfl, h1, h2⟩ := parseExpr_sound h
    obtain ⟨-, h4⟩ := h1.grammar hok
    obtain ⟨L, h5, h6⟩ := h4 [] (by rw [h2]; exact .done (by simp)) (fun _ => rfl)
    rw [init_strip] at h5
    exact ⟨L, l, h5, h6, rfl⟩
  · rintro ⟨L, l, h1, h2, rfl⟩
    obtain ⟨s', h3, -⟩ := items_P (U := U) h2 (st := .never) (s := SS.init x) rfl hok (by rw [init_strip]; exact h1.reads)
    exact parseExpr_of_P h3

/-- **C83.** It panics on everything else, and only on that. -/
theorem C83_panics (x : GoString) : (∃ p, parseExpr U x = .panic p) ↔ ¬ ∃ t, Sentence U x t := by
  obtain ⟨r, h1, h2, -⟩ := C01_terminates (U := U) x
  constructor
  · rintro ⟨p, hp⟩ ⟨t, ht⟩
    rw [(C83_grammar x t).2 ht] at hp
    cases hp
  · intro h
    cases r with
    | ok t => exact absurd ⟨t, (C83_grammar x t).1 h2⟩ h
    | panic p => exact ⟨p, h2⟩
    | fuel => exact absurd rfl h1

/-- **C83.** A source has at most one sequence of lexemes, and a sentence one tree: the grammar is not ambiguous. -/
theorem C83_unambiguous (x : GoString) : (∀ L L', LexesOf U x L → LexesOf U x L' → L = L') ∧
    ∀ t t', Sentence U x t → Sentence U x t' → t = t' := by
  refine ⟨fun L L' h h' => lexes_unique (decode_ok _) h h', fun t t' h h' => ?_⟩
  have h1 := (C83_grammar x t).2 h
  rw [(C83_grammar x t').2 h'] at h1
  cases h1
  rfl

/-! ## Non-vacuity -/

/-- `x^{2}`, from the grammar alone. -/
example : Sentence U bs!"x^{2}" (.list [.word 0 bs!"x", .sup 1 (.list [.lit 3 bs!"2"])]) := by
  have hd : decode (stripBom bs!"x^{2}") = ascii bs!"x^{2}" := by decide
  refine ⟨[⟨.word bs!"x", 0, 1⟩, ⟨.mark ch!"^", 1, 2⟩, ⟨.mark ch!"{", 2, 3⟩, ⟨.number bs!"2", 3, 4⟩, ⟨.mark ch!"}", 4, 5⟩], _, ?_, ?_, rfl⟩
  · unfold LexesOf
    rw [hd]
    refine .more (w := []) (a := ascii bs!"x") (k := .word bs!"x") (rest := ascii bs!"^{2}") (by simp) (.word (by simp [isLetter]) ⟨by simp, ?_⟩) ?_
    · intro c hc; cases hc; simp [isLetter]
    refine .more (w := []) (a := ascii bs!"^") (k := .mark ch!"^") (rest := ascii bs!"{2}") (by simp) (.mark (by decide) (fun h => by cases h)) ?_
    refine .more (w := []) (a := ascii bs!"{") (k := .mark ch!"{") (rest := ascii bs!"2}") (by simp) (.mark (by decide) (fun h => by cases h)) ?_
    refine .more (w := []) (a := ascii bs!"2") (k := .number bs!"2") (rest := ascii bs!"}") (by simp) (.number ?_) ?_
    · refine .mk (start := ascii bs!"2") (p := decimal) (a := []) (f := []) (e := []) (rest := ascii bs!"}") ?_ ?_ ?_ ?_
      · exact .digit (d := ⟨ch!"2", bs!"2"⟩) (by decide) (fun h => by cases h)
      · exact ⟨by simp, fun c hc => by cases hc; decide⟩
      · exact .none (fun c hc => by cases hc; decide)
      · exact .none (fun c hc => by cases hc; decide)
    refine .more (w := []) (a := ascii bs!"}") (k := .mark ch!"}") (rest := []) (by simp) (.mark (by decide) (fun h => by cases h)) ?_
    exact .done (by simp)
  · refine .item (by simp [Until.mark]) .word ?_
    refine .item (by simp [Until.mark]) (.supGroup (p := 4) (l := [.lit 3 bs!"2"]) (L' := []) ?_) .eof
    exact .item (by simp [Until.mark]) .number (.close rfl)

/-- Outside of math, a group is not a sentence. -/
example : ¬ ∃ t, Sentence U bs!"{x}" t := by
  rw [← C83_panics]
  exact ⟨.lbraceNotImplemented, by krfl⟩

/-- A brace that is not closed is one. -/
example : Sentence U bs!"$x^{2" (.list [.math bs!"$" 0 [.word 1 bs!"x", .sup 2 (.list [.lit 4 bs!"2"])] 0]) := by
  rw [← C83_grammar]
  krfl

end Verif.Props
