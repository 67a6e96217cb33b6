import Verif.Model.Parser
import Verif.Model.Krfl
/-! # Conformance of the parser model with the repository's own tests

The cases of `TestTokenPos` and selected cases of `TestParser` (parser_test.go), replayed on
the model.  These are tests of the model, not proofs about the code. -/

namespace Verif.Conformance
open Node
variable (U : Nat → Bool)

/-- parser_test.go, TestTokenPos -/
example : parseExpr U bs!"hello" = .ok (.list [.word 0 bs!"hello"]) := by krfl
example : parseExpr U bs!"hello world" =
    .ok (.list [.word 0 bs!"hello", .sym 5 bs!" ", .word 6 bs!"world"]) := by krfl
example : parseExpr U bs!"empty equation $$" =
    .ok (.list [.word 0 bs!"empty", .sym 5 bs!" ", .word 6 bs!"equation", .sym 14 bs!" ",
      .math bs!"$" 15 [] 16]) := by krfl
example : parseExpr U bs!"$+10x$" =
    .ok (.list [.math bs!"$" 0 [.sym 1 bs!"+", .lit 2 bs!"10", .word 4 bs!"x"] 5]) := by krfl
example : parseExpr U bs!"$\\sqrt{2x\\pi}$" =
    .ok (.list [.math bs!"$" 0 [.macro (some (1, bs!"\\sqrt"))
      [.arg 6 [.lit 7 bs!"2", .word 8 bs!"x", .macro (some (9, bs!"\\pi")) []] 12]] 13]) := by krfl
example : parseExpr U bs!"$e^\\pi$" =
    .ok (.list [.math bs!"$" 0 [.word 1 bs!"e", .sup 2 (.macro (some (3, bs!"\\pi")) [])] 6]) := by
  krfl
example : parseExpr U bs!"$x_i$" =
    .ok (.list [.math bs!"$" 0 [.word 1 bs!"x", .sub 2 (.word 3 bs!"i")] 4]) := by krfl
/-- parser_test.go, TestParser (positions are not checked there) -/
example : parseExpr U bs!"${}+10x$" =
    .ok (.list [.math bs!"$" 0 [.list [], .sym 3 bs!"+", .lit 4 bs!"10", .word 6 bs!"x"] 7]) := by
  krfl
example : parseExpr U bs!"$\\cos$" =
    .ok (.list [.math bs!"$" 0 [.macro (some (1, bs!"\\cos")) []] 5]) := by krfl
example : parseExpr U bs!"$\\sqrt[n]{2x\\pi}$" =
    .ok (.list [.math bs!"$" 0 [.macro (some (1, bs!"\\sqrt"))
      [.optArg 6 [.word 7 bs!"n"] 8,
       .arg 9 [.lit 10 bs!"2", .word 11 bs!"x", .macro (some (12, bs!"\\pi")) []] 15]] 16]) := by
  krfl
example : parseExpr U bs!"$\\exp{2x\\pi}$" =
    .ok (.list [.math bs!"$" 0 [.macro (some (1, bs!"\\exp"))
      [.arg 5 [.lit 6 bs!"2", .word 7 bs!"x", .macro (some (8, bs!"\\pi")) []] 11]] 12]) := by krfl
example : parseExpr U bs!"$\\mathcal{L}$" =
    .ok (.list [.math bs!"$" 0 [.macro (some (1, bs!"\\mathcal")) [.arg 9 [.word 10 bs!"L"] 11]]
      12]) := by krfl
example : parseExpr U bs!"$\\frac{num}{den}$" =
    .ok (.list [.math bs!"$" 0 [.macro (some (1, bs!"\\frac"))
      [.arg 6 [.word 7 bs!"num"] 10, .arg 11 [.word 12 bs!"den"] 15]] 16]) := by krfl
example : parseExpr U bs!"$\\sqrt{\\frac{e^{3i\\pi}}{2\\cos 3\\pi}}$" =
    .ok (.list [.math bs!"$" 0 [.macro (some (1, bs!"\\sqrt")) [.arg 6 [
      .macro (some (7, bs!"\\frac"))
        [.arg 12 [.word 13 bs!"e",
          .sup 14 (.list [.lit 16 bs!"3", .word 17 bs!"i", .macro (some (18, bs!"\\pi")) []])] 22,
         .arg 23 [.lit 24 bs!"2", .macro (some (25, bs!"\\cos")) [], .lit 30 bs!"3",
          .macro (some (31, bs!"\\pi")) []] 34]] 35]] 36]) := by krfl
example : parseExpr U bs!"\\textbf{APLAS} Dummy -- $\\sqrt{s}=13\\,$TeV $\\mathcal{L}\\,=\\,3\\,ab^{-1}$" =
    .ok (.list [
      .macro (some (0, bs!"\\textbf")) [.arg 7 [.word 8 bs!"APLAS"] 13],
      .sym 14 bs!" ", .word 15 bs!"Dummy", .sym 20 bs!" ", .sym 21 bs!"-", .sym 22 bs!"-",
      .sym 23 bs!" ",
      .math bs!"$" 24 [.macro (some (25, bs!"\\sqrt")) [.arg 30 [.word 31 bs!"s"] 32],
        .sym 33 bs!"=", .lit 34 bs!"13", .macro (some (36, bs!"\\,")) []] 38,
      .word 39 bs!"TeV", .sym 42 bs!" ",
      .math bs!"$" 43 [.macro (some (44, bs!"\\mathcal")) [.arg 52 [.word 53 bs!"L"] 54],
        .macro (some (55, bs!"\\,")) [], .sym 57 bs!"=", .macro (some (58, bs!"\\,")) [],
        .lit 60 bs!"3", .macro (some (61, bs!"\\,")) [], .word 63 bs!"ab",
        .sup 65 (.list [.sym 67 bs!"-", .lit 68 bs!"1"])] 70]) := by krfl
example : parseExpr U bs!"$\\sum_{i=0}^{n}$" =
    .ok (.list [.math bs!"$" 0 [.macro (some (1, bs!"\\sum")) [],
      .sub 5 (.list [.word 7 bs!"i", .sym 8 bs!"=", .lit 9 bs!"0"]),
      .sup 11 (.list [.word 13 bs!"n"])] 15]) := by krfl

end Verif.Conformance
