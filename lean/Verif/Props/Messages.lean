import Verif.Lemmas.DiagText
import Verif.Props.Parse
/-!
# C98: what ParseExpr prints

The scanner of the standard library prints its messages on standard error, as its `Error` is not set (scanner.go:29).  `parseExprL` is ParseExpr with
what it prints; `Spec.Quiet` says which sources there is nothing to complain of in, without referring to the scanner.
-/

namespace Verif.Props
open Verif Spec
variable {U : Nat → Bool}

theorem exprN_sim (x : GoString) (n : Nat) : LSim U (·.2.2) (SS.init x) (parseLoop U n .normal (fun _ => false) (SS.init x))
    (parseLoopL U n .normal (fun _ => false) (SS.init x)) := sim_loop n _ _ _

/-- **C98.** What is printed makes no difference to what is returned, nor to whether it panics. -/
theorem C98_same (x : GoString) : (parseExprL U x).2 = parseExpr U x := by
  obtain ⟨h, -⟩ := exprN_sim (U := U) x (2 * x.length + 2)
  unfold parseExprL parseExprNL parseExpr parseExprN
  show (LRes.bind _ _).2 = _
  unfold LRes.bind
  rw [h]
  cases parseLoop U (2 * x.length + 2) .normal (fun _ => false) (SS.init x) <;> rfl

theorem exprL_log (x : GoString) : ∃ s' : SS, (parseExprL U x).1.chars ++ s'.rest.tail.flatMap charDiag = (decode (stripBom x)).flatMap charDiag ∧
    (∀ P, Cut U s'.rest P → Cut U (decode (stripBom x)) ((parseExprL U x).1.toks ++ P)) ∧ ((∃ t, parseExpr U x = .ok t) → s'.rest = []) := by
  obtain ⟨h1, s', ⟨h2, h3⟩, h4⟩ := exprN_sim (U := U) x (2 * x.length + 2)
  have hi : (SS.init x).rest = decode (stripBom x) := by rw [init_strip]
  have hlog : (parseExprL U x).1 = (⟨((SS.init x).rest.take 1).flatMap charDiag, []⟩ : Log) ++
      (parseLoopL U (2 * x.length + 2) .normal (fun _ => false) (SS.init x)).1 := by
    unfold parseExprL parseExprNL
    show _ ++ (LRes.bind _ _).1 = _
    unfold LRes.bind
    congr 1
    split
    · show _ ++ (⟨[], []⟩ : Log) = _
      show (⟨_ ++ [], _ ++ []⟩ : Log) = _
      simp
    · rfl
    · rfl
  refine ⟨s', ?_, ?_, ?_⟩
  · rw [hlog]
    show (_ ++ _) ++ _ = _
    rw [List.append_assoc, h2, hi, ← List.flatMap_append]
    cases decode (stripBom x) <;> rfl
  · intro P hP
    rw [hlog]
    show Cut U _ (([] ++ _) ++ P)
    rw [List.nil_append, ← hi]
    exact h3 P hP
  · rintro ⟨t, ht⟩
    obtain ⟨⟨l, c, s''⟩, k1, -⟩ := Res.bind_eq_ok.1 (show parseExprN U (2 * x.length + 2) x = .ok t from ht)
    have e := h4 _ k1
    have hP := (parse_sound (U := U) (2 * x.length + 2)).2 .normal .never _ _ _ _ k1
    have hsrc := Src.init x
    obtain ⟨_, _, h5⟩ := hP.order (x := x) hsrc (.inl rfl)
    obtain rfl := h5 rfl
    rw [← e]
    exact (hP.last (x := x) hsrc (.inl rfl)).1 rfl

/-- **C98.** A call that returns prints nothing exactly if the source, comments included, has only number and string literals of Go in it, no NUL, and no byte that is
not part of a character. -/
theorem C98_quiet {x : GoString} {t : Node} (h : parseExpr U x = .ok t) : (parseExprL U x).1 = ⟨[], []⟩ ↔ Quiet U (decode (stripBom x)) := by
  obtain ⟨s', h1, h2, h3⟩ := exprL_log (U := U) x
  have h4 := h3 ⟨t, h⟩
  rw [h4] at h1 h2
  rw [List.tail_nil, List.flatMap_nil, List.append_nil] at h1
  have h5 := h2 [] .done
  rw [List.append_nil] at h5
  have h6 := cut_pieces h5
  unfold Quiet
  rw [← chars_clean, ← h1, ← h6]
  constructor
  · intro h; rw [h]; exact ⟨rfl, rfl⟩
  · rintro ⟨ha, hb⟩
    cases hl : (parseExprL U x).1 with
    | mk a b => rw [hl] at ha hb; cases ha; cases hb; rfl

/-- **C98.** More exactly: one message about each NUL, one about each byte that is not part of a character, and at least one about each number or string
that is not a literal, in their order; and no others. -/
theorem C98_each {x : GoString} {t : Node} (h : parseExpr U x = .ok t) :
    (parseExprL U x).1.chars = (decode (stripBom x)).filterMap (fun c =>
      if c.r = 0 then some .nul else if c.r = 0xFFFD ∧ c.b.length = 1 then some .utf8 else none) ∧
    ∃ l : List (Piece × List Diag), Pieces U (decode (stripBom x)) (l.map (·.1)) ∧ (parseExprL U x).1.toks = l.flatMap (·.2) ∧
      ∀ p ∈ l, (p.2 = [] ↔ p.1.Fine) := by
  obtain ⟨s', h1, h2, h3⟩ := exprL_log (U := U) x
  have h4 := h3 ⟨t, h⟩
  rw [h4] at h1 h2
  rw [List.tail_nil, List.flatMap_nil, List.append_nil] at h1
  have h5 := h2 [] .done
  rw [List.append_nil] at h5
  refine ⟨?_, cut_each h5⟩
  rw [h1]
  generalize decode (stripBom x) = cs
  induction cs with
  | nil => rfl
  | cons c cs ih =>
    rw [List.flatMap_cons, ih, List.filterMap_cons]
    unfold charDiag
    by_cases e1 : c.r = 0
    · simp [e1]
    · by_cases e2 : c.r = 0xFFFD ∧ c.b.length = 1
      · simp [e2]
      · simp [e1, e2]

/-- **C98.** Nor does one print anything that panics, with such a source. -/
theorem C98_nothing {x : GoString} (h : Quiet U (decode (stripBom x))) : (parseExprL U x).1 = ⟨[], []⟩ := by
  obtain ⟨s', h1, h2, -⟩ := exprL_log (U := U) x
  obtain ⟨P, hP⟩ := cut_exists (U := U) s'.rest.length s'.rest (Nat.le_refl _)
  have h3 := (cut_pieces (h2 P hP)).2 h.2
  have h4 := chars_clean.2 h.1
  rw [h4] at h1
  cases hl : (parseExprL U x).1 with
  | mk a b =>
    rw [hl] at h1 h3
    obtain ⟨rfl, -⟩ := List.append_eq_nil_iff.1 h1
    obtain ⟨rfl, -⟩ := List.append_eq_nil_iff.1 h3
    rfl

theorem plain_pieces : ∀ (n : Nat) (cs : List Ch), cs.length ≤ n → (∀ c ∈ cs, c.r ∉ bs!"0123456789\"") → Pieces U cs []
  | _, [], _, _ => .done
  | 0, c :: cs, h, _ => by simp at h
  | n + 1, c :: cs, h, hc => by
    have hc' : ∀ d ∈ cs, d.r ∉ bs!"0123456789\"" := fun d hd => hc d (List.mem_cons_of_mem _ hd)
    cases hl : isLetter U c.r with
    | true =>
      obtain ⟨a, h1, h2⟩ := run_drop (isLetter U) cs
      have hlen : (cs.dropWhile fun c => isLetter U c.r).length ≤ n := by
        have := congrArg List.length h1
        simp at this h; omega
      have := plain_pieces n _ hlen fun d hd => hc' d (by rw [h1]; exact List.mem_append_right _ hd)
      have := Pieces.word hl h2 this
      rwa [List.cons_append, ← h1] at this
    | false =>
      refine .char hl (hc c List.mem_cons_self) (fun _ d hd hm => ?_) (plain_pieces n cs (by simp at h; omega) hc')
      cases cs with
      | nil => cases hd
      | cons e cs =>
        cases hd
        apply hc' d List.mem_cons_self
        revert hm; simp; omega

/-- **C98.** Every source can be read in one way as words, numbers, strings and other characters. -/
theorem C98_pieces (cs : List Ch) : ∃ P, Pieces U cs P ∧ ∀ P', Pieces U cs P' → P' = P := by
  obtain ⟨D, hD⟩ := cut_exists (U := U) cs.length cs (Nat.le_refl _)
  obtain ⟨l, hl, -⟩ := cut_each hD
  exact ⟨_, hl, fun P' h => pieces_unique _ (Nat.le_refl _) h hl⟩

/-- **C98.** In particular a source without digits and double quotes, NUL and bytes that are not part of a character. -/
theorem C98_plain {x : GoString} (h : ∀ c ∈ decode (stripBom x), CleanCh c ∧ c.r ∉ bs!"0123456789\"") : (parseExprL U x).1 = ⟨[], []⟩ :=
  C98_nothing ⟨fun c hc => (h c hc).1, [], plain_pieces _ _ (Nat.le_refl _) fun c hc => (h c hc).2, by simp⟩

/-! ## Sources that make it print -/

/-- `$2e$`: "exponent has no digits" -/
example : parseExprL U bs!"$2e$" = (⟨[], [.exponentDigits]⟩, .ok (.list [.math bs!"$" 0 [.lit 1 bs!"2e"] 3])) := by krfl
/-- `$08$`: "invalid digit '8' in octal literal" -/
example : parseExprL U bs!"$08$" = (⟨[], [.digit]⟩, .ok (.list [.math bs!"$" 0 [.lit 1 bs!"08"] 3])) := by krfl
/-- a double quote in a comment: "literal not terminated" -/
example : (parseExprL U bs!"$x$ % 3\" wide").1 = ⟨[], [.notTerminated]⟩ := by krfl
/-- an underscore behind a digit: "'_' must separate successive digits" -/
example : (parseExprL U bs!"$1_$").1 = ⟨[], [.separator]⟩ := by krfl
/-- a byte that is not part of a character -/
example : (parseExprL (fun _ => false) (bs!"x" ++ [0xFF])).1 = ⟨[.utf8], []⟩ := by krfl
/-- `$x_1$ is 2.5e3 "ok"`: nothing -/
example : (parseExprL U bs!"$x_{1}$ is 2.5e3 \"ok\"").1 = ⟨[], []⟩ := by krfl
/-- so, by `C98_quiet`, the first of these sources is not quiet -/
example : ¬ Quiet U (decode (stripBom bs!"$2e$")) := by
  rw [← C98_quiet (U := U) (x := bs!"$2e$") (t := .list [.math bs!"$" 0 [.lit 1 bs!"2e"] 3]) (by krfl)]
  intro h
  have h' : (parseExprL U bs!"$2e$").1 = ⟨[], [.exponentDigits]⟩ := by krfl
  rw [h'] at h
  cases h
/-- and a source that panics can be: nothing is printed for `\nosuch{x}` -/
example : (parseExprL U bs!"\\nosuch{x}").1 = ⟨[], []⟩ ∧ ∃ p, parseExpr U bs!"\\nosuch{x}" = .panic p := by
  refine ⟨C98_plain ?_, .unknownMacro bs!"\\nosuch", by krfl⟩
  have hd : decode (stripBom bs!"\\nosuch{x}") = ascii bs!"\\nosuch{x}" := by decide
  rw [hd]
  unfold CleanCh
  decide

end Verif.Props
