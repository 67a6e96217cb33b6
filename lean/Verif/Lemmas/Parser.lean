import Verif.Lemmas.Scanner
import Verif.Model.Parser
/-! # Big-step relation for the parser, fuel adequacy and monotonicity -/

namespace Verif

/-! ## Fuel: monotonicity -/

/-- `a` is `b`, unless the recursion bound was too small for `a`. -/
def Res.le {α : Type} (a b : Res α) : Prop := a = .fuel ∨ a = b

namespace Res
variable {α β : Type}
theorem le_refl (a : Res α) : a.le a := .inr rfl
theorem le_trans {a b c : Res α} (h : a.le b) (h' : b.le c) : a.le c := by
  rcases h with h | rfl
  · exact .inl h
  · exact h'
theorem bind_le {a a' : Res α} {f f' : α → Res β} (h : a.le a') (hf : ∀ x, (f x).le (f' x)) :
    (a >>= f).le (a' >>= f') := by
  rcases h with rfl | rfl
  · exact .inl rfl
  · cases a with
    | ok x => exact hf x
    | panic p => exact .inr rfl
    | fuel => exact .inl rfl
theorem le_of_ne {a b : Res α} (h : a.le b) (hne : a ≠ .fuel) : b = a := by
  rcases h with h | h
  · exact absurd h hne
  · exact h.symm
end Res

section Mono
variable (U : Nat → Bool)

theorem parseMacroArg_mono {l l' : Loop} (h : ∀ m st s, (l m st s).le (l' m st s)) (m : Mode) (s : SS) :
    (parseMacroArg U l m s).le (parseMacroArg U l' m s) :=
  Res.bind_le (Res.le_refl _) fun _ => Res.bind_le (h _ _ _) fun _ => Res.le_refl _

theorem parseOptMacroArg_mono {l l' : Loop} (h : ∀ m st s, (l m st s).le (l' m st s)) (m : Mode)
    (s : SS) : (parseOptMacroArg U l m s).le (parseOptMacroArg U l' m s) := by
  unfold parseOptMacroArg
  split
  · exact Res.le_refl _
  · exact Res.bind_le (Res.le_refl _) fun _ => Res.bind_le (h _ _ _) fun _ => Res.le_refl _

theorem parseArgs_mono {l l' : Loop} (h : ∀ m st s, (l m st s).le (l' m st s)) (m : Mode)
    (sig : GoString) : ∀ s, (parseArgs U l m sig s).le (parseArgs U l' m sig s) := by
  induction sig with
  | nil => intro s; exact Res.le_refl _
  | cons c sig ih =>
    intro s
    unfold parseArgs
    split
    · exact Res.bind_le (parseMacroArg_mono U h _ _) fun _ => Res.bind_le (ih _) fun _ => Res.le_refl _
    split
    · exact Res.bind_le (parseOptMacroArg_mono U h _ _) fun _ =>
        Res.bind_le (ih _) fun _ => Res.le_refl _
    · exact ih _

theorem parse_mono (n : Nat) :
    (∀ m t s, (parseNode U n m t s).le (parseNode U (n + 1) m t s)) ∧
    (∀ m st s, (parseLoop U n m st s).le (parseLoop U (n + 1) m st s)) := by
  induction n with
  | zero => exact ⟨fun _ _ _ => .inl rfl, fun _ _ _ => .inl rfl⟩
  | succ n ih =>
    obtain ⟨ihN, ihL⟩ := ih
    constructor
    · intro m t s
      unfold parseNode
      split
      · exact Res.le_refl _
      · split
        · exact Res.le_refl _
        · exact Res.le_refl _
        · exact Res.bind_le (parseArgs_mono U ihL _ _ _) fun _ => Res.le_refl _
      · exact Res.le_refl _
      · exact Res.le_refl _
      · split
        · exact Res.bind_le (ihL _ _ _) fun _ => Res.le_refl _
        split
        · split
          · exact Res.bind_le (Res.le_refl _) fun _ => Res.bind_le (ihL _ _ _) fun _ => Res.le_refl _
          · exact Res.bind_le (Res.le_refl _) fun _ => Res.bind_le (ihN _ _ _) fun _ => Res.le_refl _
        split
        · split
          · exact Res.bind_le (Res.le_refl _) fun _ => Res.bind_le (ihL _ _ _) fun _ => Res.le_refl _
          · exact Res.bind_le (Res.le_refl _) fun _ => Res.bind_le (ihN _ _ _) fun _ => Res.le_refl _
        · exact Res.le_refl _
      · split
        · exact Res.bind_le (ihL _ _ _) fun _ => Res.le_refl _
        · exact Res.le_refl _
      all_goals first | exact Res.le_refl _ | (split <;> exact Res.le_refl _)
    · intro m st s
      unfold parseLoop
      refine Res.bind_le (Res.le_refl _) fun r => ?_
      split
      · exact Res.le_refl _
      split
      · exact Res.le_refl _
      · exact Res.bind_le (ihN _ _ _) fun _ => Res.bind_le (ihL _ _ _) fun _ => Res.le_refl _

theorem parseNode_mono {n n' : Nat} (h : n ≤ n') (m t s) :
    (parseNode U n m t s).le (parseNode U n' m t s) := by
  induction h with
  | refl => exact Res.le_refl _
  | step _ ih => exact Res.le_trans ih ((parse_mono U _).1 m t s)

theorem parseLoop_mono {n n' : Nat} (h : n ≤ n') (m st s) :
    (parseLoop U n m st s).le (parseLoop U n' m st s) := by
  induction h with
  | refl => exact Res.le_refl _
  | step _ ih => exact Res.le_trans ih ((parse_mono U _).2 m st s)

theorem parseExprN_mono {n n' : Nat} (h : n ≤ n') (x) :
    (parseExprN U n x).le (parseExprN U n' x) :=
  Res.bind_le (parseLoop_mono U h _ _ _) fun _ => Res.le_refl _

end Mono

/-! ## Big-step relation -/

/-- The stopping conditions used by the parser's loops. -/
inductive Stop where
  | never | dollar | rbrace | rbrack
deriving DecidableEq, Repr

/-- The Go condition for each `Stop`. -/
def Stop.test : Stop → Token → Bool
  | .never => fun _ => false
  | .dollar => fun t => t.text == bs!"$"
  | .rbrace => fun t => t.kind == .rbrace
  | .rbrack => fun t => t.kind == .rbrack

/-- What is being parsed: one node starting with a token already read, a list of nodes up to a
closing token, or the arguments of a macro. -/
inductive Cat where
  | one (t : Token)
  | loop (st : Stop)
  | args (sig : GoString)

/-- `P U c m s l close s'`: in mode `m` and scanner state `s` the parser succeeds on `c`, yields
the nodes `l` (exactly one for `Cat.one`) and stops in state `s'`; `close` is the position of
the closing token of a loop, or 0. -/
inductive P (U : Nat → Bool) : Cat → Mode → SS → List Node → Nat → SS → Prop where
  | comment {t m s} : t.kind = .comment → P U (.one t) m s [.nil] 0 s
  | macro {t m s sig args s'} : t.kind = .macro → macroLookup t.text = some (some sig) →
      P U (.args sig) m s args 0 s' → P U (.one t) m s [.macro (some (t.pos, t.text)) args] 0 s'
  | word {t m s} : t.kind = .word → P U (.one t) m s [.word t.pos t.text] 0 s
  | number {t m s} : t.kind = .number → P U (.one t) m s [.lit t.pos t.text] 0 s
  | math {t m s l c s'} : t.kind = .symbol → t.text = bs!"$" →
      P U (.loop .dollar) .math s l c s' → P U (.one t) m s [.math t.text t.pos l c] 0 s'
  | supGroup {t m s t1 s1 l c s'} : t.kind = .symbol → t.text = bs!"^" → s.peek = some ch!"{" →
      scan U s = .ok (t1, s1) → t1.text = bs!"{" → P U (.loop .rbrace) m s1 l c s' →
      P U (.one t) m s [.sup t.pos (.list l)] 0 s'
  | supOne {t m s t1 s1 n s'} : t.kind = .symbol → t.text = bs!"^" → s.peek ≠ some ch!"{" →
      scan U s = .ok (t1, s1) → P U (.one t1) m s1 [n] 0 s' →
      P U (.one t) m s [.sup t.pos n] 0 s'
  | subGroup {t m s t1 s1 l c s'} : t.kind = .symbol → t.text = bs!"_" → s.peek = some ch!"{" →
      scan U s = .ok (t1, s1) → t1.text = bs!"{" → P U (.loop .rbrace) m s1 l c s' →
      P U (.one t) m s [.sub t.pos (.list l)] 0 s'
  | subOne {t m s t1 s1 n s'} : t.kind = .symbol → t.text = bs!"_" → s.peek ≠ some ch!"{" →
      scan U s = .ok (t1, s1) → P U (.one t1) m s1 [n] 0 s' →
      P U (.one t) m s [.sub t.pos n] 0 s'
  | symbol {t m s} : t.kind = .symbol → t.text ≠ bs!"$" → t.text ≠ bs!"^" → t.text ≠ bs!"_" →
      P U (.one t) m s [.sym t.pos t.text] 0 s
  | group {t s l c s'} : t.kind = .lbrace → P U (.loop .rbrace) .math s l c s' →
      P U (.one t) .math s [.list l] 0 s'
  | spaceMath {t s} : t.kind = .space → P U (.one t) .math s [.nil] 0 s
  | spaceText {t s} : t.kind = .space → P U (.one t) .normal s [.sym t.pos t.text] 0 s
  | delim {t m s} : t.kind = .lparen ∨ t.kind = .rparen ∨ t.kind = .lbrack ∨ t.kind = .rbrack →
      P U (.one t) m s [.sym t.pos t.text] 0 s
  | loopEof {st m s t s'} : scan U s = .ok (t, s') → t.kind = .eof → P U (.loop st) m s [] 0 s'
  | loopStop {st m s t s'} : scan U s = .ok (t, s') → t.kind ≠ .eof → st.test t = true →
      P U (.loop st) m s [] t.pos s'
  | loopCons {st m s t s1 n s2 l c s'} : scan U s = .ok (t, s1) → t.kind ≠ .eof →
      st.test t = false → P U (.one t) m s1 [n] 0 s2 → P U (.loop st) m s2 l c s' →
      P U (.loop st) m s (if n.isNil then l else n :: l) c s'
  | argsNil {m s} : P U (.args []) m s [] 0 s
  | argsArg {c sig m s t1 s1 l cl s2 as s'} : c = ch!"A" ∨ c = ch!"a" →
      scan U s = .ok (t1, s1) → t1.text = bs!"{" → P U (.loop .rbrace) m s1 l cl s2 →
      P U (.args sig) m s2 as 0 s' → P U (.args (c :: sig)) m s (.arg t1.pos l cl :: as) 0 s'
  | argsNoOpt {c sig m s as s'} : c = ch!"O" ∨ c = ch!"o" → s.peek ≠ some ch!"[" →
      P U (.args sig) m s as 0 s' → P U (.args (c :: sig)) m s as 0 s'
  | argsOpt {c sig m s t1 s1 l cl s2 as s'} : c = ch!"O" ∨ c = ch!"o" → s.peek = some ch!"[" →
      scan U s = .ok (t1, s1) → t1.text = bs!"[" → P U (.loop .rbrack) m s1 l cl s2 →
      P U (.args sig) m s2 as 0 s' → P U (.args (c :: sig)) m s (.optArg t1.pos l cl :: as) 0 s'
  | argsOther {c sig m s as s'} : ¬ (c = ch!"A" ∨ c = ch!"a") → ¬ (c = ch!"O" ∨ c = ch!"o") →
      P U (.args sig) m s as 0 s' → P U (.args (c :: sig)) m s as 0 s'

section Sound
variable {U : Nat → Bool}

theorem expect_ok {v : Nat} {s : SS} {r : Token × SS} (h : expect U v s = .ok r) :
    scan U s = .ok r ∧ r.1.text = [v] := by
  unfold expect at h
  obtain ⟨a, h1, h2⟩ := Res.bind_eq_ok.1 h
  split at h2
  · simp only [Res.ok.injEq] at h2; subst h2; exact ⟨h1, by assumption⟩
  · simp at h2

theorem parseArgs_sound {loop : Loop} {m : Mode}
    (hl : ∀ (m : Mode) (st : Stop) (s : SS) l c s', loop m st.test s = .ok (l, c, s') →
      P U (.loop st) m s l c s') (sig : GoString) :
    ∀ s as s', parseArgs U loop m sig s = .ok (as, s') → P U (.args sig) m s as 0 s' := by
  induction sig with
  | nil =>
    intro s as s' h
    simp only [parseArgs, Res.ok.injEq, Prod.mk.injEq] at h
    obtain ⟨rfl, rfl⟩ := h
    exact .argsNil
  | cons c sig ih =>
    intro s as s' h
    unfold parseArgs at h
    split at h
    · rename_i hc
      obtain ⟨⟨a, s2⟩, h1, h2⟩ := Res.bind_eq_ok.1 h
      obtain ⟨⟨as', s3⟩, h3, h4⟩ := Res.bind_eq_ok.1 h2
      simp only [Res.ok.injEq, Prod.mk.injEq] at h4
      obtain ⟨rfl, rfl⟩ := h4
      obtain ⟨⟨t1, s1⟩, h5, h6⟩ := Res.bind_eq_ok.1 h1
      obtain ⟨⟨l, cl, s4⟩, h7, h8⟩ := Res.bind_eq_ok.1 h6
      simp only [Res.ok.injEq, Prod.mk.injEq] at h8
      obtain ⟨rfl, rfl⟩ := h8
      obtain ⟨h9, h10⟩ := expect_ok h5
      exact .argsArg hc h9 h10 (hl m .rbrace _ _ _ _ h7) (ih _ _ _ h3)
    split at h
    · rename_i hc
      obtain ⟨⟨a, s2⟩, h1, h2⟩ := Res.bind_eq_ok.1 h
      obtain ⟨⟨as', s3⟩, h3, h4⟩ := Res.bind_eq_ok.1 h2
      simp only [Res.ok.injEq, Prod.mk.injEq] at h4
      obtain ⟨rfl, rfl⟩ := h4
      unfold parseOptMacroArg at h1
      split at h1
      · rename_i hp
        simp only [Res.ok.injEq, Prod.mk.injEq] at h1
        obtain ⟨rfl, rfl⟩ := h1
        exact .argsNoOpt hc hp (ih _ _ _ h3)
      · rename_i hp
        obtain ⟨⟨t1, s1⟩, h5, h6⟩ := Res.bind_eq_ok.1 h1
        obtain ⟨⟨l, cl, s4⟩, h7, h8⟩ := Res.bind_eq_ok.1 h6
        simp only [Res.ok.injEq, Prod.mk.injEq] at h8
        obtain ⟨rfl, rfl⟩ := h8
        obtain ⟨h9, h10⟩ := expect_ok h5
        exact .argsOpt hc (by simpa using hp) h9 h10 (hl m .rbrack _ _ _ _ h7) (ih _ _ _ h3)
    · rename_i h1 h2
      exact .argsOther h1 h2 (ih _ _ _ h)

theorem parse_sound (n : Nat) :
    (∀ m t s nd s', parseNode U n m t s = .ok (nd, s') → P U (.one t) m s [nd] 0 s') ∧
    (∀ m (st : Stop) s l c s', parseLoop U n m st.test s = .ok (l, c, s') →
      P U (.loop st) m s l c s') := by
  induction n with
  | zero => exact ⟨by simp [parseNode], by simp [parseLoop]⟩
  | succ n ih =>
    obtain ⟨ihN, ihL⟩ := ih
    constructor
    · intro m t s nd s' h
      unfold parseNode at h
      split at h
      · simp only [Res.ok.injEq, Prod.mk.injEq] at h
        obtain ⟨rfl, rfl⟩ := h
        exact .comment (by assumption)
      · split at h
        · simp at h
        · simp at h
        · obtain ⟨⟨as, s1⟩, h1, h2⟩ := Res.bind_eq_ok.1 h
          simp only [Res.ok.injEq, Prod.mk.injEq] at h2
          obtain ⟨rfl, rfl⟩ := h2
          exact .macro (by assumption) (by assumption) (parseArgs_sound ihL _ _ _ _ h1)
      · simp only [Res.ok.injEq, Prod.mk.injEq] at h
        obtain ⟨rfl, rfl⟩ := h
        exact .word (by assumption)
      · simp only [Res.ok.injEq, Prod.mk.injEq] at h
        obtain ⟨rfl, rfl⟩ := h
        exact .number (by assumption)
      · split at h
        · obtain ⟨⟨l, c, s1⟩, h1, h2⟩ := Res.bind_eq_ok.1 h
          simp only [Res.ok.injEq, Prod.mk.injEq] at h2
          obtain ⟨rfl, rfl⟩ := h2
          exact .math (by assumption) (by assumption) (ihL .math .dollar _ _ _ _ h1)
        split at h
        · split at h
          · obtain ⟨⟨t1, s1⟩, h1, h2⟩ := Res.bind_eq_ok.1 h
            obtain ⟨⟨l, c, s2⟩, h3, h4⟩ := Res.bind_eq_ok.1 h2
            simp only [Res.ok.injEq, Prod.mk.injEq] at h4
            obtain ⟨rfl, rfl⟩ := h4
            obtain ⟨h5, h6⟩ := expect_ok h1
            exact .supGroup (by assumption) (by assumption) (by assumption) h5 h6
              (ihL m .rbrace _ _ _ _ h3)
          · obtain ⟨⟨t1, s1⟩, h1, h2⟩ := Res.bind_eq_ok.1 h
            obtain ⟨⟨l, s2⟩, h3, h4⟩ := Res.bind_eq_ok.1 h2
            simp only [Res.ok.injEq, Prod.mk.injEq] at h4
            obtain ⟨rfl, rfl⟩ := h4
            exact .supOne (by assumption) (by assumption) (by assumption) h1 (ihN _ _ _ _ _ h3)
        split at h
        · split at h
          · obtain ⟨⟨t1, s1⟩, h1, h2⟩ := Res.bind_eq_ok.1 h
            obtain ⟨⟨l, c, s2⟩, h3, h4⟩ := Res.bind_eq_ok.1 h2
            simp only [Res.ok.injEq, Prod.mk.injEq] at h4
            obtain ⟨rfl, rfl⟩ := h4
            obtain ⟨h5, h6⟩ := expect_ok h1
            exact .subGroup (by assumption) (by assumption) (by assumption) h5 h6
              (ihL m .rbrace _ _ _ _ h3)
          · obtain ⟨⟨t1, s1⟩, h1, h2⟩ := Res.bind_eq_ok.1 h
            obtain ⟨⟨l, s2⟩, h3, h4⟩ := Res.bind_eq_ok.1 h2
            simp only [Res.ok.injEq, Prod.mk.injEq] at h4
            obtain ⟨rfl, rfl⟩ := h4
            exact .subOne (by assumption) (by assumption) (by assumption) h1 (ihN _ _ _ _ _ h3)
        · simp only [Res.ok.injEq, Prod.mk.injEq] at h
          obtain ⟨rfl, rfl⟩ := h
          exact .symbol (by assumption) (by assumption) (by assumption) (by assumption)
      · split at h
        · obtain ⟨⟨l, c, s1⟩, h1, h2⟩ := Res.bind_eq_ok.1 h
          simp only [Res.ok.injEq, Prod.mk.injEq] at h2
          obtain ⟨rfl, rfl⟩ := h2
          exact .group (by assumption) (ihL .math .rbrace _ _ _ _ h1)
        · simp at h
      · simp at h
      · split at h
        · simp only [Res.ok.injEq, Prod.mk.injEq] at h
          obtain ⟨rfl, rfl⟩ := h
          exact .spaceMath (by assumption)
        · simp only [Res.ok.injEq, Prod.mk.injEq] at h
          obtain ⟨rfl, rfl⟩ := h
          exact .spaceText (by assumption)
      iterate 4
        · rename_i hk
          simp only [Res.ok.injEq, Prod.mk.injEq] at h
          obtain ⟨rfl, rfl⟩ := h
          exact .delim (by simp [hk])
      · simp at h
    · intro m st s l c s' h
      unfold parseLoop at h
      obtain ⟨⟨t, s1⟩, h1, h2⟩ := Res.bind_eq_ok.1 h
      simp only at h2
      split at h2
      · simp only [Res.ok.injEq, Prod.mk.injEq] at h2
        obtain ⟨rfl, rfl, rfl⟩ := h2
        exact .loopEof h1 (by assumption)
      split at h2
      · simp only [Res.ok.injEq, Prod.mk.injEq] at h2
        obtain ⟨rfl, rfl, rfl⟩ := h2
        exact .loopStop h1 (by assumption) (by assumption)
      · rename_i hs
        obtain ⟨⟨nd, s2⟩, h3, h4⟩ := Res.bind_eq_ok.1 h2
        obtain ⟨⟨l', c', s3⟩, h5, h6⟩ := Res.bind_eq_ok.1 h4
        simp only [Res.ok.injEq, Prod.mk.injEq] at h6
        obtain ⟨rfl, rfl, rfl⟩ := h6
        exact .loopCons h1 (by assumption) (by simpa using hs) (ihN _ _ _ _ _ h3)
          (ihL _ _ _ _ _ _ h5)

theorem parseExprN_sound {n : Nat} {x : GoString} {nd : Node} (h : parseExprN U n x = .ok nd) :
    ∃ l c s', nd = .list l ∧ P U (.loop .never) .normal (SS.init x) l c s' := by
  obtain ⟨⟨l, c, s'⟩, h1, h2⟩ := Res.bind_eq_ok.1 h
  simp only [Res.ok.injEq] at h2
  exact ⟨l, c, s', h2.symm, (parse_sound n).2 .normal .never _ _ _ _ h1⟩

end Sound

/-! ## Fuel adequacy -/

/-- Parsing never adds to the remaining input. -/
theorem P.len {U : Nat → Bool} {c m s l cl s'} (h : P U c m s l cl s') :
    s'.rest.length ≤ s.rest.length := by
  induction h with
  | comment | word | number | symbol | spaceMath | spaceText | delim | argsNil =>
    exact Nat.le_refl _
  | «macro» _ _ _ ih => exact ih
  | math _ _ _ ih => exact ih
  | supGroup _ _ _ hs _ _ ih => have := scan_le hs; omega
  | supOne _ _ _ hs _ ih => have := scan_le hs; omega
  | subGroup _ _ _ hs _ _ ih => have := scan_le hs; omega
  | subOne _ _ _ hs _ ih => have := scan_le hs; omega
  | group _ _ ih => exact ih
  | loopEof hs _ => exact scan_le hs
  | loopStop hs _ _ => exact scan_le hs
  | loopCons hs _ _ _ _ ih1 ih2 => have := scan_le hs; omega
  | argsArg _ hs _ _ _ ih1 ih2 => have := scan_le hs; omega
  | argsNoOpt _ _ _ ih => exact ih
  | argsOpt _ _ hs _ _ _ ih1 ih2 => have := scan_le hs; omega
  | argsOther _ _ _ ih => exact ih

section Fuel
variable (U : Nat → Bool)

theorem expect_ne_fuel (v s) : expect U v s ≠ .fuel := by
  unfold expect
  intro h
  rcases Res.bind_eq_fuel.1 h with h | ⟨a, _, h⟩
  · exact scan_ne_fuel U s h
  · split at h <;> simp at h

theorem expect_le {v s r} (h : expect U v s = .ok r) : r.2.rest.length ≤ s.rest.length :=
  scan_le (expect_ok h).1

/-- A loop that does not run out of fuel on inputs of length at most `k`, and does not lengthen
the input. -/
def GoodLoop (loop : Loop) (k : Nat) : Prop :=
  ∀ m (st : Stop) s, s.rest.length ≤ k → loop m st.test s ≠ .fuel ∧
    ∀ r, loop m st.test s = .ok r → r.2.2.rest.length ≤ s.rest.length

theorem parseArgs_ne_fuel {loop : Loop} {k : Nat} (hl : GoodLoop loop k) (m : Mode)
    (sig : GoString) : ∀ s, s.rest.length ≤ k → parseArgs U loop m sig s ≠ .fuel := by
  induction sig with
  | nil => intro s _; simp [parseArgs]
  | cons c sig ih =>
    intro s hs h
    unfold parseArgs at h
    split at h
    · rcases Res.bind_eq_fuel.1 h with h | ⟨⟨a, s2⟩, h1, h⟩
      · rcases Res.bind_eq_fuel.1 h with h | ⟨⟨t1, s1⟩, h1, h⟩
        · exact expect_ne_fuel U _ _ h
        · have hle := expect_le U h1
          rcases Res.bind_eq_fuel.1 h with h | ⟨_, _, h⟩
          · exact (hl m .rbrace s1 (Nat.le_trans hle hs)).1 h
          · simp at h
      · obtain ⟨⟨t1, s1⟩, h5, h6⟩ := Res.bind_eq_ok.1 h1
        obtain ⟨⟨l, cl, s4⟩, h7, h8⟩ := Res.bind_eq_ok.1 h6
        simp only [Res.ok.injEq, Prod.mk.injEq] at h8
        obtain ⟨rfl, rfl⟩ := h8
        have hle := expect_le U h5
        have hle2 := (hl m .rbrace s1 (Nat.le_trans hle hs)).2 _ h7
        simp only at hle hle2
        rcases Res.bind_eq_fuel.1 h with h | ⟨_, _, h⟩
        · exact ih _ (by simp only; omega) h
        · simp at h
    split at h
    · rcases Res.bind_eq_fuel.1 h with h | ⟨⟨a, s2⟩, h1, h⟩
      · unfold parseOptMacroArg at h
        split at h
        · simp at h
        rcases Res.bind_eq_fuel.1 h with h | ⟨⟨t1, s1⟩, h1, h⟩
        · exact expect_ne_fuel U _ _ h
        · have hle := expect_le U h1
          rcases Res.bind_eq_fuel.1 h with h | ⟨_, _, h⟩
          · exact (hl m .rbrack s1 (Nat.le_trans hle hs)).1 h
          · simp at h
      · unfold parseOptMacroArg at h1
        split at h1
        · simp only [Res.ok.injEq, Prod.mk.injEq] at h1
          obtain ⟨rfl, rfl⟩ := h1
          rcases Res.bind_eq_fuel.1 h with h | ⟨_, _, h⟩
          · exact ih _ hs h
          · simp at h
        · obtain ⟨⟨t1, s1⟩, h5, h6⟩ := Res.bind_eq_ok.1 h1
          obtain ⟨⟨l, cl, s4⟩, h7, h8⟩ := Res.bind_eq_ok.1 h6
          simp only [Res.ok.injEq, Prod.mk.injEq] at h8
          obtain ⟨rfl, rfl⟩ := h8
          have hle := expect_le U h5
          have hle2 := (hl m .rbrack s1 (Nat.le_trans hle hs)).2 _ h7
          simp only at hle hle2
          rcases Res.bind_eq_fuel.1 h with h | ⟨_, _, h⟩
          · exact ih _ (by simp only; omega) h
          · simp at h
    · exact ih _ hs h

theorem parse_ne_fuel (n : Nat) :
    (∀ m t s, 2 * s.rest.length + 2 ≤ n → parseNode U n m t s ≠ .fuel) ∧
    (∀ m (st : Stop) s, 2 * s.rest.length + 1 ≤ n → parseLoop U n m st.test s ≠ .fuel) := by
  induction n with
  | zero => exact ⟨by omega, by omega⟩
  | succ n ih =>
    obtain ⟨ihN, ihL⟩ := ih
    have len : ∀ m (st : Stop) s r, parseLoop U n m st.test s = .ok r →
        r.2.2.rest.length ≤ s.rest.length := by
      intro m st s r h
      exact P.len ((parse_sound n).2 m st s r.1 r.2.1 r.2.2 h)
    constructor
    · intro m t s hn h
      have good : GoodLoop (parseLoop U n) s.rest.length :=
        fun m st s1 hs1 => ⟨ihL m st s1 (by omega), fun r hr => len m st s1 r hr⟩
      -- an unbraced script operand
      have one : ∀ r : Token × SS, scan U s = .ok r → parseNode U n m r.1 r.2 ≠ .fuel := by
        intro r hr
        by_cases hk : r.1.kind = .eof
        · obtain ⟨n', rfl⟩ : ∃ n', n = n' + 1 := ⟨n - 1, by omega⟩
          unfold parseNode
          simp [hk]
        · have := scan_lt hr hk
          exact ihN _ _ _ (by omega)
      unfold parseNode at h
      split at h
      · simp at h
      · split at h
        · simp at h
        · simp at h
        · rcases Res.bind_eq_fuel.1 h with h | ⟨_, _, h⟩
          · exact parseArgs_ne_fuel U good m _ s (Nat.le_refl _) h
          · simp at h
      · simp at h
      · simp at h
      · split at h
        · rcases Res.bind_eq_fuel.1 h with h | ⟨_, _, h⟩
          · exact (good .math .dollar s (Nat.le_refl _)).1 h
          · simp at h
        have script : ∀ f : List Node × Nat × SS → Node, ∀ g : Node × SS → Node, (if s.peek = some ch!"{" then
            expect U ch!"{" s >>= fun r =>
              parseLoop U n m (fun t => t.kind == .rbrace) r.2 >>= fun x => .ok (f x, x.2.2)
          else
            scan U s >>= fun r =>
              parseNode U n m r.1 r.2 >>= fun x => .ok (g x, x.2)) ≠ .fuel := by
          intro f g h
          split at h
          · rcases Res.bind_eq_fuel.1 h with h | ⟨r, h1, h⟩
            · exact expect_ne_fuel U _ _ h
            · have := expect_le U h1
              rcases Res.bind_eq_fuel.1 h with h | ⟨_, _, h⟩
              · exact (good m .rbrace r.2 (by omega)).1 h
              · simp at h
          · rcases Res.bind_eq_fuel.1 h with h | ⟨r, h1, h⟩
            · exact scan_ne_fuel U _ h
            · rcases Res.bind_eq_fuel.1 h with h | ⟨_, _, h⟩
              · exact one r h1 h
              · simp at h
        split at h
        · exact script (fun x => .sup t.pos (.list x.1)) (fun x => .sup t.pos x.1) h
        split at h
        · exact script (fun x => .sub t.pos (.list x.1)) (fun x => .sub t.pos x.1) h
        · simp at h
      · split at h
        · rcases Res.bind_eq_fuel.1 h with h | ⟨_, _, h⟩
          · exact (good .math .rbrace s (Nat.le_refl _)).1 h
          · simp at h
        · simp at h
      · simp at h
      · split at h <;> simp at h
      all_goals simp at h
    · intro m st s hn h
      unfold parseLoop at h
      rcases Res.bind_eq_fuel.1 h with h | ⟨⟨t, s1⟩, h1, h⟩
      · exact scan_ne_fuel U _ h
      simp only at h
      split at h
      · simp at h
      rename_i hk
      split at h
      · simp at h
      · have hlt := scan_lt h1 hk
        rcases Res.bind_eq_fuel.1 h with h | ⟨⟨nd, s2⟩, h2, h⟩
        · exact ihN _ _ _ (by omega) h
        · have hle := P.len ((parse_sound n).1 _ _ _ _ _ h2)
          rcases Res.bind_eq_fuel.1 h with h | ⟨_, _, h⟩
          · exact ihL _ _ _ (by simp only; omega) h
          · simp at h

theorem decode_length (x : GoString) : (decode x).length ≤ x.length := by
  have key : ∀ cs : List Ch, (∀ c ∈ cs, c.WF) → cs.length ≤ (bytesOf cs).length := by
    intro cs
    induction cs with
    | nil => simp
    | cons c cs ih =>
      intro h
      have h1 := ih fun d hd => h d (by simp [hd])
      have h2 : c.b.length ≠ 0 := by simpa using (h c (by simp)).1
      simp only [List.length_cons, bytesOf_cons, List.length_append]
      omega
  have := key _ (decode_wf x)
  rwa [bytesOf_decode] at this

theorem init_length (x : GoString) : (SS.init x).rest.length ≤ x.length := by
  have := decode_length x
  unfold SS.init
  split
  · rename_i c cs h
    rw [h] at this
    split
    · simp only [List.length_cons] at this; simp only; omega
    · exact this
  · simp

theorem parseExprN_ne_fuel {n : Nat} {x : GoString} (h : 2 * x.length + 1 ≤ n) :
    parseExprN U n x ≠ .fuel := by
  intro h'
  have := init_length x
  rcases Res.bind_eq_fuel.1 h' with h' | ⟨_, _, h'⟩
  · exact (parse_ne_fuel U n).2 .normal .never _ (by omega) h'
  · simp at h'

end Fuel
end Verif
