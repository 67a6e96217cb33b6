import Verif.Lemmas.Fail
import Verif.Lemmas.Sublist
/-! # Unclosed constructs at the end of the input -/

namespace Verif
open Spec

variable {U : Nat → Bool}

theorem loop_eof (st : Stop) (m : Mode) (o : Nat) : P U (.loop st) m ⟨[], o⟩ [] 0 ⟨[], o⟩ :=
  P.loopEof (scan_nil U o) rfl

/-- Some complete arguments, then more. -/
theorem args_run (math : Bool) : ∀ (as more : List Item) (sig y : GoString) (o : Nat) (L : List Node) (s' : SS),
    FitsSig sig (as ++ more) → OkArgs U math as y →
    (∀ sig', FitsSig sig' more → P U (.args sig') (modeOf math) ⟨decode y, o + (srcL as).length⟩ L 0 s') →
    P U (.args sig) (modeOf math) ⟨decode (srcL as ++ y), o⟩ (nodesL math o as ++ L) 0 s'
  | [], more, sig, y, o, L, s', hs, _, hf => by simpa [srcL, nodesL] using hf sig hs
  | .arg l :: as, more, sig, y, o, L, s', hs, h, hf => by
    simp only [OkArgs] at h
    have ih := (list_ok .brace math l (bs!"}" ++ (srcL as ++ y)) h.1).closed (fun _ => scan_rbrace) (by decide)
      (fun _ => rfl) (o + 1)
    have e : srcL (.arg l :: as) ++ y = ch!"{" :: (srcL l ++ ch!"}" :: (srcL as ++ y)) := by simp [srcL, src]
    have e2 : o + (srcL (.arg l :: as)).length = o + 1 + (srcL l).length + 1 + (srcL as).length := by
      simp [srcL, src]; omega
    have e3 : nodesL math o (.arg l :: as) = .arg o (nodesL math (o + 1) l) (o + 1 + (srcL l).length) ::
        nodesL math (o + 1 + (srcL l).length + 1) as := by
      have : o + ((srcL l).length + 1 + 1) = o + 1 + (srcL l).length + 1 := by omega
      simp [nodesL, node, Node.isNil, src, this]
    rw [e, e3, List.cons_append]
    rw [e2] at hf
    rw [List.cons_append] at hs
    cases hs with
    | arg hs => exact P.argsArg (.inl rfl) scan_lbrace rfl ih (args_run math as more _ y _ L s' hs h.2 hf)
    | noOpt hs =>
      cases hs with
      | arg hs =>
        refine P.argsNoOpt (.inl rfl) (by rw [peek_cons (by decide)]; simp) ?_
        exact P.argsArg (.inl rfl) scan_lbrace rfl ih (args_run math as more _ y _ L s' hs h.2 hf)
  | .optArg l :: as, more, sig, y, o, L, s', hs, h, hf => by
    simp only [OkArgs] at h
    have ih := (list_ok .bracket math l (bs!"]" ++ (srcL as ++ y)) h.1).closed (fun _ => scan_rbrack) (by decide)
      (fun _ => rfl) (o + 1)
    have e : srcL (.optArg l :: as) ++ y = ch!"[" :: (srcL l ++ ch!"]" :: (srcL as ++ y)) := by simp [srcL, src]
    have e2 : o + (srcL (.optArg l :: as)).length = o + 1 + (srcL l).length + 1 + (srcL as).length := by
      simp [srcL, src]; omega
    have e3 : nodesL math o (.optArg l :: as) = .optArg o (nodesL math (o + 1) l) (o + 1 + (srcL l).length) ::
        nodesL math (o + 1 + (srcL l).length + 1) as := by
      have : o + ((srcL l).length + 1 + 1) = o + 1 + (srcL l).length + 1 := by omega
      simp [nodesL, node, Node.isNil, src, this]
    rw [e, e3, List.cons_append]
    rw [e2] at hf
    rw [List.cons_append] at hs
    cases hs with
    | opt hs =>
      exact P.argsOpt (.inl rfl) (peek_cons (by decide)) scan_lbrack rfl ih (args_run math as more _ y _ L s' hs h.2 hf)
  | .word _ :: _, _, _, _, _, _, _, _, h, _ => by simp [OkArgs] at h
  | .num _ _ :: _, _, _, _, _, _, _, _, h, _ => by simp [OkArgs] at h
  | .sym _ :: _, _, _, _, _, _, _, _, h, _ => by simp [OkArgs] at h
  | .blank :: _, _, _, _, _, _, _, _, h, _ => by simp [OkArgs] at h
  | .escBlank :: _, _, _, _, _, _, _, _, h, _ => by simp [OkArgs] at h
  | .breaks _ :: _, _, _, _, _, _, _, _, h, _ => by simp [OkArgs] at h
  | .comment _ :: _, _, _, _, _, _, _, _, h, _ => by simp [OkArgs] at h
  | .macro _ _ :: _, _, _, _, _, _, _, _, h, _ => by simp [OkArgs] at h
  | .math _ :: _, _, _, _, _, _, _, _, h, _ => by simp [OkArgs] at h
  | .group _ :: _, _, _, _, _, _, _, _, h, _ => by simp [OkArgs] at h
  | .subGroup _ :: _, _, _, _, _, _, _, _, h, _ => by simp [OkArgs] at h
  | .sub _ :: _, _, _, _, _, _, _, _, h, _ => by simp [OkArgs] at h
  | .supGroup _ :: _, _, _, _, _, _, _, _, h, _ => by simp [OkArgs] at h
  | .sup _ :: _, _, _, _, _, _, _, _, h, _ => by simp [OkArgs] at h

/-- One more node, then the end of the input. -/
theorem loop_last {st : Stop} {m : Mode} {s : SS} {t : Token} {s1 : SS} {nd : Node} {o : Nat} (h1 : scan U s = .ok (t, s1))
    (h2 : t.kind ≠ .eof) (h3 : st.test t = false) (h4 : P U (.one t) m s1 [nd] 0 ⟨[], o⟩) (h5 : nd.isNil = false) :
    P U (.loop st) m s [nd] 0 ⟨[], o⟩ := by
  have := P.loopCons h1 h2 h3 h4 (loop_eof st m o)
  simpa [h5] using this

/-- Unclosed constructs at the end of the input are accepted, unless an argument is missing. -/
theorem open_eof : ∀ (q : Open) (ctx : Ctx) (math : Bool) (o : Nat), OkO U ctx math q [] → LastArgs q →
    ∃ e, P U (.loop ctx.stop) (modeOf math) ⟨decode (srcO q), o⟩ (nodesO math o q) 0 ⟨[], e⟩
  | .here d, ctx, math, o, h, _ => by
    simp only [OkO] at h
    have := list_ok ctx math d [] h o [] 0 _ (loop_eof _ _ _)
    exact ⟨_, by simpa [srcO, nodesO] using this⟩
  | .math d r, ctx, math, o, h, hl => by
    simp only [OkO, srcO, nodesO, LastArgs, List.append_nil] at h hl ⊢
    obtain ⟨e, ih⟩ := open_eof r .dollar true (o + (srcL d).length + 1) h.2.2 hl
    refine ⟨e, list_ok ctx math d _ h.1 o _ _ _ (loop_last scan_dollar (by simp) ?_ (P.math rfl rfl ih) rfl)⟩
    cases ctx <;> first | rfl | exact absurd rfl h.2.1
  | .group d r, ctx, math, o, h, hl => by
    simp only [OkO, srcO, nodesO, LastArgs, List.append_nil] at h hl ⊢
    obtain ⟨rfl, h1, h2⟩ := h
    obtain ⟨e, ih⟩ := open_eof r .brace true (o + (srcL d).length + 1) h2 hl
    refine ⟨e, list_ok ctx true d _ h1 o _ _ _ (loop_last scan_lbrace (by simp) ?_ (P.group rfl ih) rfl)⟩
    cases ctx <;> rfl
  | .sub d r, ctx, math, o, h, hl => by
    simp only [OkO, srcO, nodesO, LastArgs, List.append_nil] at h hl ⊢
    obtain ⟨e, ih⟩ := open_eof r .brace math (o + (srcL d).length + 2) h.2 hl
    exact ⟨e, list_ok ctx math d _ h.1 o _ _ _ (loop_last (scan_char (by decide) (by simp))
      (by simp [charKind, symbolChars]) (script_test _ _ _ (.inl rfl))
      (P.subGroup rfl rfl (peek_cons (by decide)) scan_lbrace rfl ih) rfl)⟩
  | .sup d r, ctx, math, o, h, hl => by
    simp only [OkO, srcO, nodesO, LastArgs, List.append_nil] at h hl ⊢
    obtain ⟨e, ih⟩ := open_eof r .brace math (o + (srcL d).length + 2) h.2 hl
    exact ⟨e, list_ok ctx math d _ h.1 o _ _ _ (loop_last (scan_char (by decide) (by simp))
      (by simp [charKind, symbolChars]) (script_test _ _ _ (.inr rfl))
      (P.supGroup rfl rfl (peek_cons (by decide)) scan_lbrace rfl ih) rfl)⟩
  | .arg d name args r, ctx, math, o, h, hl => by
    simp only [OkO, srcO, nodesO, LastArgs, List.append_nil, List.append_assoc] at h hl ⊢
    obtain ⟨hn, _, h1, h2, h3⟩ := h
    obtain ⟨⟨sig, hl, hs⟩, hr⟩ := hl
    obtain ⟨e, ih⟩ := open_eof r .brace math (o + (srcL d).length + name.length + (srcL args).length + 1) h3 hr
    have hnx := next_srcL_args' sig hs (bs!"{" ++ srcO r) (next_brace _)
    refine ⟨e, list_ok ctx math d _ h1 o _ _ _ (loop_last (scan_macroName hn hnx _)
      (by simp) (macroName_test hn _ _) (P.macro rfl hl (args_run math args _ sig _ _ _ _ hs h2 ?_)) rfl)⟩
    intro sig' hs'
    cases hs' with
    | arg hs' =>
      cases hs'
      exact P.argsArg (.inl rfl) scan_lbrace rfl ih P.argsNil
    | noOpt hs' =>
      cases hs' with
      | arg hs' =>
        cases hs'
        refine P.argsNoOpt (.inl rfl) (by show SS.peek ⟨decode (ch!"{" :: _), _⟩ ≠ _; rw [peek_cons (by decide)]; simp) ?_
        exact P.argsArg (.inl rfl) scan_lbrace rfl ih P.argsNil
  | .opt d name args r, ctx, math, o, h, hl => by simp [LastArgs] at hl

theorem sigOf_cases (name : GoString) : sigOf name = bs!"OA" ∨ sigOf name = bs!"AA" ∨ sigOf name = bs!"A" ∨ sigOf name = [] := by
  unfold sigOf
  repeat' split
  all_goals simp

theorem expected_eof (m : Mode) (o : Nat) (sig : GoString) : F U (.args (ch!"A" :: sig)) m ⟨[], o⟩ (.expected ch!"{") :=
  F.argsExpected (.inl rfl) (scan_nil U o) (by simp)

/-- Otherwise the parser panics. -/
theorem open_missing : ∀ (q : Open) (ctx : Ctx) (math : Bool) (o : Nat), OkO U ctx math q [] → ¬ LastArgs q →
    F U (.loop ctx.stop) (modeOf math) ⟨decode (srcO q), o⟩ (.expected ch!"{")
  | .here d, ctx, math, o, _, hl => by simp [LastArgs] at hl
  | .math d r, ctx, math, o, h, hl => by
    simp only [OkO, srcO, LastArgs, List.append_nil] at h hl ⊢
    have ih := open_missing r .dollar true (o + (srcL d).length + 1) h.2.2 hl
    refine list_fail ctx math _ d _ o h.1 (F.loopOne scan_dollar (by simp) ?_ (F.math rfl rfl ih))
    cases ctx <;> first | rfl | exact absurd rfl h.2.1
  | .group d r, ctx, math, o, h, hl => by
    simp only [OkO, srcO, LastArgs, List.append_nil] at h hl ⊢
    obtain ⟨rfl, h1, h2⟩ := h
    have ih := open_missing r .brace true (o + (srcL d).length + 1) h2 hl
    refine list_fail ctx true _ d _ o h1 (F.loopOne scan_lbrace (by simp) ?_ (F.group rfl ih))
    cases ctx <;> rfl
  | .sub d r, ctx, math, o, h, hl => by
    simp only [OkO, srcO, LastArgs, List.append_nil] at h hl ⊢
    have ih := open_missing r .brace math (o + (srcL d).length + 1 + 1) h.2 hl
    exact list_fail ctx math _ d _ o h.1 (F.loopOne (scan_char (by decide) (by simp)) (by simp [charKind, symbolChars])
      (script_test _ _ _ (.inl rfl)) (F.scriptGroup rfl (.inr rfl) (peek_cons (by decide)) scan_lbrace rfl ih))
  | .sup d r, ctx, math, o, h, hl => by
    simp only [OkO, srcO, LastArgs, List.append_nil] at h hl ⊢
    have ih := open_missing r .brace math (o + (srcL d).length + 1 + 1) h.2 hl
    exact list_fail ctx math _ d _ o h.1 (F.loopOne (scan_char (by decide) (by simp)) (by simp [charKind, symbolChars])
      (script_test _ _ _ (.inr rfl)) (F.scriptGroup rfl (.inl rfl) (peek_cons (by decide)) scan_lbrace rfl ih))
  | .arg d name args r, ctx, math, o, h, hl => by
    simp only [OkO, srcO, LastArgs, List.append_nil, List.append_assoc] at h hl ⊢
    obtain ⟨hn, ⟨sig, more, hlk, hs⟩, h1, h2, h3⟩ := h
    have hnx := next_srcL_args' sig hs (bs!"{" ++ srcO r) (next_brace _)
    refine list_fail ctx math _ d _ o h1 (F.loopOne (scan_macroName hn hnx _) (by simp) (macroName_test hn _ _)
      (F.macro rfl hlk ?_))
    by_cases hr : LastArgs r
    · -- the inner part is complete, so a further argument is missing
      obtain ⟨e, ih⟩ := open_eof r .brace math (o + (srcL d).length + name.length + (srcL args).length + 1) h3 hr
      have hno : ¬ FitsSig sig (args ++ [.arg []]) := fun hf => hl ⟨⟨sig, hlk, hf⟩, hr⟩
      rcases sigOf_cases name with hc | hc | hc | hc <;> rw [← (macroLookup_sig hlk).1] at hc <;> subst hc
      · -- O A
        exfalso
        cases args with
        | nil => exact hno (.noOpt (.arg .nil))
        | cons a as =>
          rw [List.cons_append] at hs
          cases hs with
          | opt hs =>
            cases as with
            | nil => exact hno (.opt (.arg .nil))
            | cons b bs => rw [List.cons_append] at hs; cases hs with | arg hs => cases bs <;> cases hs
          | noOpt hs => cases hs with | arg hs => cases as <;> cases hs
      · -- A A
        cases args with
        | nil =>
          have e0 : srcL ([] : List Item) = [] := rfl
          rw [e0] at ih ⊢
          exact F.argsArgRest (.inl rfl) scan_lbrace rfl ih (expected_eof _ _ _)
        | cons a as =>
          exfalso
          rw [List.cons_append] at hs
          cases hs with
          | arg hs =>
            cases as with
            | nil => exact hno (.arg (.arg .nil))
            | cons b bs => rw [List.cons_append] at hs; cases hs with | arg hs => cases bs <;> cases hs
      · exfalso
        cases args with
        | nil => exact hno (.arg .nil)
        | cons a as => rw [List.cons_append] at hs; cases hs with | arg hs => cases as <;> cases hs
      · exfalso
        cases args <;> cases hs
    · have ih := open_missing r .brace math (o + (srcL d).length + name.length + (srcL args).length + 1) h3 hr
      refine args_fail math _ args _ sig _ _ hs h2 ?_
      intro sig' hs'
      cases hs' with
      | arg hs' => exact F.argsArg (.inl rfl) scan_lbrace rfl ih
      | noOpt hs' =>
        refine F.argsNoOpt (.inl rfl) (by show SS.peek ⟨decode (ch!"{" :: _), _⟩ ≠ _; rw [peek_cons (by decide)]; simp) ?_
        exact F.argsArg (.inl rfl) scan_lbrace rfl ih
  | .opt d name args r, ctx, math, o, h, _ => by
    simp only [OkO, srcO, List.append_nil, List.append_assoc] at h ⊢
    obtain ⟨hn, ⟨sig, more, hlk, hs⟩, h1, h2, h3⟩ := h
    have hnx := next_srcL_args' sig hs (bs!"[" ++ srcO r) (next_brack _)
    refine list_fail ctx math _ d _ o h1 (F.loopOne (scan_macroName hn hnx _) (by simp) (macroName_test hn _ _)
      (F.macro rfl hlk ?_))
    by_cases hr : LastArgs r
    · obtain ⟨e, ih⟩ := open_eof r .bracket math (o + (srcL d).length + name.length + (srcL args).length + 1) h3 hr
      rcases sigOf_cases name with hc | hc | hc | hc <;> rw [← (macroLookup_sig hlk).1] at hc <;> subst hc
      · cases args with
        | nil =>
          have e0 : srcL ([] : List Item) = [] := rfl
          rw [e0] at ih ⊢
          exact F.argsOptRest (.inl rfl) (peek_cons (by decide)) scan_lbrack rfl ih (expected_eof _ _ _)
        | cons a as =>
          exfalso
          rw [List.cons_append] at hs
          cases hs with
          | opt hs =>
            cases as with
            | nil => cases hs
            | cons b bs => rw [List.cons_append] at hs; cases hs with | arg hs => cases bs <;> cases hs
          | noOpt hs => cases hs with | arg hs => cases as <;> cases hs
      · exfalso
        cases args with
        | nil => cases hs
        | cons a as =>
          rw [List.cons_append] at hs
          cases hs with
          | arg hs =>
            cases as with
            | nil => cases hs
            | cons b bs => rw [List.cons_append] at hs; cases hs with | arg hs => cases bs <;> cases hs
      · exfalso
        cases args with
        | nil => cases hs
        | cons a as => rw [List.cons_append] at hs; cases hs with | arg hs => cases as <;> cases hs
      · exfalso
        cases args <;> cases hs
    · have ih := open_missing r .bracket math (o + (srcL d).length + name.length + (srcL args).length + 1) h3 hr
      refine args_fail math _ args _ sig _ _ hs h2 ?_
      intro sig' hs'
      cases hs' with
      | opt hs' => exact F.argsOpt (.inl rfl) (peek_cons (by decide)) scan_lbrack rfl ih

end Verif
