import Verif.Lemmas.Doc
/-! # Panics of the parser, for every continuation of the input -/

namespace Verif
open Spec

variable {U : Nat → Bool}

/-- `F U c m s p`: in mode `m` and state `s` the parser panics with `p` on `c`. -/
inductive F (U : Nat → Bool) : Cat → Mode → SS → Panic → Prop where
  | rbrace {t m s} : t.kind = .rbrace → F U (.one t) m s .impossible
  | eof {t m s} : t.kind = .eof → F U (.one t) m s .impossible
  | lbrace {t s} : t.kind = .lbrace → F U (.one t) .normal s .lbraceNotImplemented
  | other {t m s} : t.kind = .other → F U (.one t) m s .otherNotImplemented
  | unknown {t m s} : t.kind = .macro → macroLookup t.text = none →
      F U (.one t) m s (.unknownMacro t.text)
  | nilMacro {t m s} : t.kind = .macro → macroLookup t.text = some none → F U (.one t) m s .nilMacro
  | macro {t m s sig p} : t.kind = .macro → macroLookup t.text = some (some sig) →
      F U (.args sig) m s p → F U (.one t) m s p
  | math {t m s p} : t.kind = .symbol → t.text = bs!"$" →
      F U (.loop .dollar) .math s p → F U (.one t) m s p
  | scriptGroup {t m s t1 s1 p} : t.kind = .symbol → t.text = bs!"^" ∨ t.text = bs!"_" →
      s.peek = some ch!"{" → scan U s = .ok (t1, s1) → t1.text = bs!"{" → F U (.loop .rbrace) m s1 p →
      F U (.one t) m s p
  | scriptOne {t m s t1 s1 p} : t.kind = .symbol → t.text = bs!"^" ∨ t.text = bs!"_" →
      s.peek ≠ some ch!"{" → scan U s = .ok (t1, s1) → F U (.one t1) m s1 p → F U (.one t) m s p
  | scriptScan {t m s p} : t.kind = .symbol → t.text = bs!"^" ∨ t.text = bs!"_" →
      s.peek ≠ some ch!"{" → scan U s = .panic p → F U (.one t) m s p
  | group {t s p} : t.kind = .lbrace → F U (.loop .rbrace) .math s p → F U (.one t) .math s p
  | loopScan {st m s p} : scan U s = .panic p → F U (.loop st) m s p
  | loopOne {st m s t s1 p} : scan U s = .ok (t, s1) → t.kind ≠ .eof → st.test t = false →
      F U (.one t) m s1 p → F U (.loop st) m s p
  | loopRest {st m s t s1 n s2 p} : scan U s = .ok (t, s1) → t.kind ≠ .eof → st.test t = false →
      P U (.one t) m s1 [n] 0 s2 → F U (.loop st) m s2 p → F U (.loop st) m s p
  | argsExpected {c sig m s t1 s1} : c = ch!"A" ∨ c = ch!"a" → scan U s = .ok (t1, s1) →
      t1.text ≠ bs!"{" → F U (.args (c :: sig)) m s (.expected ch!"{")
  | argsScan {c sig m s p} : c = ch!"A" ∨ c = ch!"a" → scan U s = .panic p →
      F U (.args (c :: sig)) m s p
  | argsArg {c sig m s t1 s1 p} : c = ch!"A" ∨ c = ch!"a" → scan U s = .ok (t1, s1) →
      t1.text = bs!"{" → F U (.loop .rbrace) m s1 p → F U (.args (c :: sig)) m s p
  | argsArgRest {c sig m s t1 s1 l cl s2 p} : c = ch!"A" ∨ c = ch!"a" → scan U s = .ok (t1, s1) →
      t1.text = bs!"{" → P U (.loop .rbrace) m s1 l cl s2 → F U (.args sig) m s2 p →
      F U (.args (c :: sig)) m s p
  | argsNoOpt {c sig m s p} : c = ch!"O" ∨ c = ch!"o" → s.peek ≠ some ch!"[" →
      F U (.args sig) m s p → F U (.args (c :: sig)) m s p
  | argsOpt {c sig m s t1 s1 p} : c = ch!"O" ∨ c = ch!"o" → s.peek = some ch!"[" →
      scan U s = .ok (t1, s1) → t1.text = bs!"[" → F U (.loop .rbrack) m s1 p →
      F U (.args (c :: sig)) m s p
  | argsOptRest {c sig m s t1 s1 l cl s2 p} : c = ch!"O" ∨ c = ch!"o" → s.peek = some ch!"[" →
      scan U s = .ok (t1, s1) → t1.text = bs!"[" → P U (.loop .rbrack) m s1 l cl s2 →
      F U (.args sig) m s2 p → F U (.args (c :: sig)) m s p

/-- The parser with fuel `n` panics. -/
def Panics (U : Nat → Bool) (n : Nat) (c : Cat) (m : Mode) (s : SS) (p : Panic) : Prop :=
  match c with
  | .one t => parseNode U n m t s = .panic p
  | .loop st => parseLoop U n m st.test s = .panic p
  | .args sig => parseArgs U (parseLoop U n) m sig s = .panic p

theorem F.complete {c m s p} (h : F U c m s p) : ∃ n0, ∀ n, n0 ≤ n → Panics U n c m s p := by
  have up : ∀ {n0 n : Nat}, n0 + 1 ≤ n → ∃ k, n = k + 1 ∧ n0 ≤ k := by
    intro n0 n h; exact ⟨n - 1, by omega, by omega⟩
  have notA : ∀ {c : Nat}, c = ch!"O" ∨ c = ch!"o" → ¬ (c = ch!"A" ∨ c = ch!"a") := by
    intro c hc h; rcases hc with rfl | rfl <;> omega
  induction h with
  | rbrace hk | eof hk | lbrace hk | other hk =>
    refine ⟨1, fun n hn => ?_⟩
    obtain ⟨k, rfl, _⟩ := up hn
    simp [Panics, parseNode, hk]
  | unknown hk hl | nilMacro hk hl =>
    refine ⟨1, fun n hn => ?_⟩
    obtain ⟨k, rfl, _⟩ := up hn
    simp [Panics, parseNode, hk, hl]
  | «macro» hk hl _ ih =>
    obtain ⟨n0, ih⟩ := ih
    refine ⟨n0 + 1, fun n hn => ?_⟩
    obtain ⟨k, rfl, hk'⟩ := up hn
    have := ih k hk'
    simp only [Panics] at this
    simp [Panics, parseNode, hk, hl, this]
  | math hk htx _ ih =>
    obtain ⟨n0, ih⟩ := ih
    refine ⟨n0 + 1, fun n hn => ?_⟩
    obtain ⟨k, rfl, hk'⟩ := up hn
    have := ih k hk'
    simp only [Panics, Stop.test] at this
    simp [Panics, parseNode, hk, htx, this]
  | scriptGroup hk htx hpk hsc htx1 _ ih =>
    obtain ⟨n0, ih⟩ := ih
    refine ⟨n0 + 1, fun n hn => ?_⟩
    obtain ⟨k, rfl, hk'⟩ := up hn
    have := ih k hk'
    simp only [Panics, Stop.test] at this
    rcases htx with htx | htx <;> simp [Panics, parseNode, hk, htx, hpk, expect_of hsc htx1, this]
  | scriptOne hk htx hpk hsc _ ih =>
    obtain ⟨n0, ih⟩ := ih
    refine ⟨n0 + 1, fun n hn => ?_⟩
    obtain ⟨k, rfl, hk'⟩ := up hn
    have := ih k hk'
    simp only [Panics] at this
    rcases htx with htx | htx <;> simp [Panics, parseNode, hk, htx, hpk, hsc, this]
  | scriptScan hk htx hpk hsc =>
    refine ⟨1, fun n hn => ?_⟩
    obtain ⟨k, rfl, _⟩ := up hn
    rcases htx with htx | htx <;> simp [Panics, parseNode, hk, htx, hpk, hsc]
  | group hk _ ih =>
    obtain ⟨n0, ih⟩ := ih
    refine ⟨n0 + 1, fun n hn => ?_⟩
    obtain ⟨k, rfl, hk'⟩ := up hn
    have := ih k hk'
    simp only [Panics, Stop.test] at this
    simp [Panics, parseNode, hk, this]
  | loopScan hsc =>
    refine ⟨1, fun n hn => ?_⟩
    obtain ⟨k, rfl, _⟩ := up hn
    simp [Panics, parseLoop, hsc]
  | loopOne hsc hk hst _ ih =>
    obtain ⟨n0, ih⟩ := ih
    refine ⟨n0 + 1, fun n hn => ?_⟩
    obtain ⟨k, rfl, hk'⟩ := up hn
    have := ih k hk'
    simp only [Panics] at this
    simp [Panics, parseLoop, hsc, hk, hst, this]
  | loopRest hsc hk hst h1 _ ih =>
    obtain ⟨n1, h1⟩ := h1.complete
    obtain ⟨n0, ih⟩ := ih
    refine ⟨max n1 n0 + 1, fun n hn => ?_⟩
    obtain ⟨k, rfl, hk'⟩ := up hn
    have := ih k (by omega)
    obtain ⟨nd, h3, h4⟩ := h1 k (by omega)
    simp only [Panics] at this
    simp [Panics, parseLoop, hsc, hk, hst, h4, this]
  | argsExpected hc hsc htx =>
    exact ⟨0, fun n _ => by simp [Panics, parseArgs, hc, parseMacroArg, expect, hsc, htx]⟩
  | argsScan hc hsc =>
    exact ⟨0, fun n _ => by simp [Panics, parseArgs, hc, parseMacroArg, expect, hsc]⟩
  | argsArg hc hsc htx _ ih =>
    obtain ⟨n0, ih⟩ := ih
    refine ⟨n0, fun n hn => ?_⟩
    have := ih n hn
    simp only [Panics, Stop.test] at this
    simp [Panics, parseArgs, hc, parseMacroArg, expect_of hsc htx, this]
  | argsArgRest hc hsc htx h1 _ ih =>
    obtain ⟨n1, h1⟩ := h1.complete
    obtain ⟨n0, ih⟩ := ih
    refine ⟨max n1 n0, fun n hn => ?_⟩
    have := ih n (by omega)
    have h1 := h1 n (by omega)
    simp only [Panics, Runs, Stop.test] at this h1
    simp [Panics, parseArgs, hc, parseMacroArg, expect_of hsc htx, h1, this]
  | argsNoOpt hc hpk _ ih =>
    obtain ⟨n0, ih⟩ := ih
    refine ⟨n0, fun n hn => ?_⟩
    have := ih n hn
    simp only [Panics] at this
    simp only [Panics, parseArgs, notA hc, hc, if_true, if_false, parseOptMacroArg]
    simp [hpk, this]
  | argsOpt hc hpk hsc htx _ ih =>
    obtain ⟨n0, ih⟩ := ih
    refine ⟨n0, fun n hn => ?_⟩
    have := ih n hn
    simp only [Panics, Stop.test] at this
    simp only [Panics, parseArgs, notA hc, hc, if_true, if_false, parseOptMacroArg, hpk, expect_of hsc htx]
    simp [this]
  | argsOptRest hc hpk hsc htx h1 _ ih =>
    obtain ⟨n1, h1⟩ := h1.complete
    obtain ⟨n0, ih⟩ := ih
    refine ⟨max n1 n0, fun n hn => ?_⟩
    have := ih n (by omega)
    have h1 := h1 n (by omega)
    simp only [Panics, Runs, Stop.test] at this h1
    simp only [Panics, parseArgs, notA hc, hc, if_true, if_false, parseOptMacroArg, hpk, expect_of hsc htx]
    simp [h1, this]

/-- A failing derivation for the whole input determines the result of `ParseExpr`. -/
theorem parseExpr_of_F {x p} (h : F U (.loop .never) .normal (SS.init x) p) : parseExpr U x = .panic p := by
  obtain ⟨n0, h⟩ := h.complete
  have h1 := h (max n0 (2 * x.length + 2)) (by omega)
  simp only [Panics] at h1
  have h2 : parseExprN U (max n0 (2 * x.length + 2)) x = .panic p := by
    show (parseLoop U _ .normal (Stop.test .never) _ >>= _) = _
    rw [h1]; rfl
  have h3 := Res.le_of_ne (parseExprN_mono U (show 2 * x.length + 2 ≤ max n0 (2 * x.length + 2) by omega) x)
    (parseExprN_ne_fuel U (by omega))
  rw [h2] at h3
  exact h3.symm

theorem F.loop_scan {st m s p s0} (h : F U (.loop st) m s p) (he : scan U s0 = scan U s) :
    F U (.loop st) m s0 p := by
  cases h with
  | loopScan h1 => exact .loopScan (he.trans h1)
  | loopOne h1 h2 h3 h4 => exact .loopOne (he.trans h1) h2 h3 h4
  | loopRest h1 h2 h3 h4 h5 => exact .loopRest (he.trans h1) h2 h3 h4 h5

theorem scan_breaks {w y : GoString} {o : Nat} (hw : ∀ b ∈ w, isBreak b = true) :
    scan U ⟨decode (w ++ y), o⟩ = scan U ⟨decode y, o + w.length⟩ := by
  have hlt : ∀ b ∈ w, b < 128 := by
    intro b hb
    have := hw b hb
    simp only [isBreak, Bool.or_eq_true, beq_iff_eq] at this
    omega
  rw [decode_ascii_append hlt, scan_ws, bytesOf_ascii]
  intro c hc
  simp only [ascii, List.mem_map] at hc
  obtain ⟨d, hd, rfl⟩ := hc
  exact hw d hd

/-- A failure after a document. -/
theorem list_fail (ctx : Ctx) (math : Bool) (p : Panic) : ∀ (l : List Item) (y : GoString) (o : Nat), OkL U ctx math l y →
    F U (.loop ctx.stop) (modeOf math) ⟨decode y, o + (srcL l).length⟩ p →
    F U (.loop ctx.stop) (modeOf math) ⟨decode (srcL l ++ y), o⟩ p
  | [], y, o, _, h => by simpa [srcL] using h
  | i :: l, y, o, h, hf => by
    simp only [OkL] at h
    have ihl := list_fail ctx math p l y (o + (src i).length) h.2 (by simpa [srcL, Nat.add_assoc] using hf)
    rw [srcL, List.append_assoc]
    by_cases hb : ∃ w, i = .breaks w
    · obtain ⟨w, rfl⟩ := hb
      have hw : ∀ b ∈ w, isBreak b = true := by simpa [Ok] using h.1
      rw [src] at ihl ⊢
      exact F.loop_scan ihl (scan_breaks hw)
    · obtain ⟨t, s1, h1, h2, _, h4, h5⟩ := item_ok ctx math i (srcL l ++ y) (fun w hw => hb ⟨w, hw⟩) h.1 o
      exact F.loopRest h1 h2 h4 h5 ihl

/-- A failure after some complete arguments. -/
theorem args_fail (math : Bool) (p : Panic) : ∀ (as more : List Item) (sig y : GoString) (o : Nat),
    FitsSig sig (as ++ more) → OkArgs U math as y →
    (∀ sig', FitsSig sig' more → F U (.args sig') (modeOf math) ⟨decode y, o + (srcL as).length⟩ p) →
    F U (.args sig) (modeOf math) ⟨decode (srcL as ++ y), o⟩ p
  | [], more, sig, y, o, hs, _, hf => by simpa [srcL] using hf sig hs
  | .arg l :: as, more, sig, y, o, hs, h, hf => by
    simp only [OkArgs] at h
    have ih := (list_ok .brace math l (bs!"}" ++ (srcL as ++ y)) h.1).closed (fun _ => scan_rbrace) (by decide)
      (fun _ => rfl) (o + 1)
    have e : srcL (.arg l :: as) ++ y = ch!"{" :: (srcL l ++ ch!"}" :: (srcL as ++ y)) := by simp [srcL, src]
    have e2 : o + (srcL (.arg l :: as)).length = o + 1 + (srcL l).length + 1 + (srcL as).length := by
      simp [srcL, src]; omega
    rw [e]
    rw [e2] at hf
    rw [List.cons_append] at hs
    cases hs with
    | arg hs => exact F.argsArgRest (.inl rfl) scan_lbrace rfl ih (args_fail math p as more _ y _ hs h.2 hf)
    | noOpt hs =>
      cases hs with
      | arg hs =>
        refine F.argsNoOpt (.inl rfl) (by rw [peek_cons (by decide)]; simp) ?_
        exact F.argsArgRest (.inl rfl) scan_lbrace rfl ih (args_fail math p as more _ y _ hs h.2 hf)
  | .optArg l :: as, more, sig, y, o, hs, h, hf => by
    simp only [OkArgs] at h
    have ih := (list_ok .bracket math l (bs!"]" ++ (srcL as ++ y)) h.1).closed (fun _ => scan_rbrack) (by decide)
      (fun _ => rfl) (o + 1)
    have e : srcL (.optArg l :: as) ++ y = ch!"[" :: (srcL l ++ ch!"]" :: (srcL as ++ y)) := by simp [srcL, src]
    have e2 : o + (srcL (.optArg l :: as)).length = o + 1 + (srcL l).length + 1 + (srcL as).length := by
      simp [srcL, src]; omega
    rw [e]
    rw [e2] at hf
    rw [List.cons_append] at hs
    cases hs with
    | opt hs =>
      exact F.argsOptRest (.inl rfl) (peek_cons (by decide)) scan_lbrack rfl ih (args_fail math p as more _ y _ hs h.2 hf)
  | .word _ :: _, _, _, _, _, _, h, _ => by simp [OkArgs] at h
  | .num _ _ :: _, _, _, _, _, _, h, _ => by simp [OkArgs] at h
  | .sym _ :: _, _, _, _, _, _, h, _ => by simp [OkArgs] at h
  | .blank :: _, _, _, _, _, _, h, _ => by simp [OkArgs] at h
  | .escBlank :: _, _, _, _, _, _, h, _ => by simp [OkArgs] at h
  | .breaks _ :: _, _, _, _, _, _, h, _ => by simp [OkArgs] at h
  | .comment _ :: _, _, _, _, _, _, h, _ => by simp [OkArgs] at h
  | .macro _ _ :: _, _, _, _, _, _, h, _ => by simp [OkArgs] at h
  | .math _ :: _, _, _, _, _, _, h, _ => by simp [OkArgs] at h
  | .group _ :: _, _, _, _, _, _, h, _ => by simp [OkArgs] at h
  | .subGroup _ :: _, _, _, _, _, _, h, _ => by simp [OkArgs] at h
  | .sub _ :: _, _, _, _, _, _, h, _ => by simp [OkArgs] at h
  | .supGroup _ :: _, _, _, _, _, _, h, _ => by simp [OkArgs] at h
  | .sup _ :: _, _, _, _, _, _, h, _ => by simp [OkArgs] at h

theorem scan_macroName {name : GoString} (h : MacroName U name) {y : GoString} (hy : Next y notLetter) (o : Nat) :
    scan U ⟨decode (name ++ y), o⟩ = .ok (⟨.macro, o, name⟩, ⟨decode y, o + name.length⟩) := by
  rcases h with ⟨w, rfl, hw⟩ | ⟨c, rfl, hc⟩
  · exact scan_macroWord hw hy
  · exact scan_macroChar hc

theorem macroName_test {name : GoString} (h : MacroName U name) (ctx : Ctx) (o : Nat) :
    ctx.stop.test ⟨.macro, o, name⟩ = false := by
  cases ctx <;> try rfl
  have hne : name ≠ bs!"$" := by
    rcases h with ⟨w, rfl, _⟩ | ⟨c, rfl, _⟩ <;> simp
  simpa [Spec.Ctx.stop, Stop.test] using hne

theorem next_srcL_args' {args more : List Item} (sig : GoString) (h : FitsSig sig (args ++ more)) (y : GoString)
    (hy : Next y notLetter) : Next (srcL args ++ y) notLetter := by
  have lb : notLetter ch!"{" := by unfold notLetter; decide
  have lk : notLetter ch!"[" := by unfold notLetter; decide
  cases args with
  | nil => simpa [srcL] using hy
  | cons a as =>
    rw [List.cons_append] at h
    cases h with
    | arg _ => intro b hb; simp [srcL, src] at hb; exact hb ▸ lb
    | opt _ => intro b hb; simp [srcL, src] at hb; exact hb ▸ lk
    | noOpt _ => intro b hb; simp [srcL, src] at hb; exact hb ▸ lb

theorem next_brace (y : GoString) : Next (ch!"{" :: y) notLetter := by
  intro b hb
  simp only [List.head?_cons, Option.some.injEq] at hb
  subst hb
  unfold notLetter; decide

theorem next_brack (y : GoString) : Next (ch!"[" :: y) notLetter := by
  intro b hb
  simp only [List.head?_cons, Option.some.injEq] at hb
  subst hb
  unfold notLetter; decide

/-- A failure inside unclosed constructs. -/
theorem open_fail (p : Panic) : ∀ (q : Open) (ctx : Ctx) (math : Bool) (y : GoString) (o : Nat), OkO U ctx math q y →
    F U (.loop (endCtx ctx q).stop) (modeOf (endMath math q)) ⟨decode y, o + (srcO q).length⟩ p →
    F U (.loop ctx.stop) (modeOf math) ⟨decode (srcO q ++ y), o⟩ p
  | .here d, ctx, math, y, o, h, hf => list_fail ctx math p d y o h hf
  | .math d r, ctx, math, y, o, h, hf => by
    simp only [OkO, endCtx, endMath, srcO, List.append_assoc, List.cons_append, List.nil_append,
      List.length_append, List.length_cons] at h hf ⊢
    have ih := open_fail p r .dollar true y (o + (srcL d).length + 1) h.2.2
      (by simpa [Nat.add_assoc, Nat.add_comm, Nat.add_left_comm] using hf)
    refine list_fail ctx math p d _ o h.1 (F.loopOne scan_dollar (by simp) ?_ (F.math rfl rfl ih))
    cases ctx <;> first | rfl | exact absurd rfl h.2.1
  | .group d r, ctx, math, y, o, h, hf => by
    simp only [OkO, endCtx, endMath, srcO, List.append_assoc, List.cons_append, List.nil_append,
      List.length_append, List.length_cons] at h hf ⊢
    obtain ⟨rfl, h1, h2⟩ := h
    have ih := open_fail p r .brace true y (o + (srcL d).length + 1) h2
      (by simpa [Nat.add_assoc, Nat.add_comm, Nat.add_left_comm] using hf)
    refine list_fail ctx true p d _ o h1 (F.loopOne scan_lbrace (by simp) ?_ (F.group rfl ih))
    cases ctx <;> rfl
  | .sub d r, ctx, math, y, o, h, hf => by
    simp only [OkO, endCtx, endMath, srcO, List.append_assoc, List.cons_append, List.nil_append,
      List.length_append, List.length_cons] at h hf ⊢
    have ih := open_fail p r .brace math y (o + (srcL d).length + 1 + 1) h.2
      (by simpa [Nat.add_assoc, Nat.add_comm, Nat.add_left_comm] using hf)
    refine list_fail ctx math p d _ o h.1 (F.loopOne (scan_char (by decide) (by simp)) (by simp [charKind, symbolChars])
      (script_test _ _ _ (.inl rfl)) (F.scriptGroup rfl (.inr rfl) (peek_cons (by decide)) scan_lbrace rfl ih))
  | .sup d r, ctx, math, y, o, h, hf => by
    simp only [OkO, endCtx, endMath, srcO, List.append_assoc, List.cons_append, List.nil_append,
      List.length_append, List.length_cons] at h hf ⊢
    have ih := open_fail p r .brace math y (o + (srcL d).length + 1 + 1) h.2
      (by simpa [Nat.add_assoc, Nat.add_comm, Nat.add_left_comm] using hf)
    refine list_fail ctx math p d _ o h.1 (F.loopOne (scan_char (by decide) (by simp)) (by simp [charKind, symbolChars])
      (script_test _ _ _ (.inr rfl)) (F.scriptGroup rfl (.inl rfl) (peek_cons (by decide)) scan_lbrace rfl ih))
  | .arg d name args r, ctx, math, y, o, h, hf => by
    simp only [OkO, endCtx, endMath, srcO, List.append_assoc, List.cons_append, List.nil_append,
      List.length_append, List.length_cons] at h hf ⊢
    obtain ⟨hn, ⟨sig, more, hl, hs⟩, h1, h2, h3⟩ := h
    have ih := open_fail p r .brace math y (o + (srcL d).length + name.length + (srcL args).length + 1) h3
      (by simpa [Nat.add_assoc, Nat.add_comm, Nat.add_left_comm] using hf)
    refine list_fail ctx math p d _ o h1 (F.loopOne (scan_macroName hn (next_srcL_args' sig hs _ (next_brace _)) _)
      (by simp) (macroName_test hn _ _) (F.macro rfl hl (args_fail math p args _ sig _ _ hs h2 ?_)))
    intro sig' hs'
    cases hs' with
    | arg hs' => exact F.argsArg (.inl rfl) scan_lbrace rfl ih
    | noOpt hs' =>
      refine F.argsNoOpt (.inl rfl) (by rw [peek_cons (by decide)]; simp) ?_
      exact F.argsArg (.inl rfl) scan_lbrace rfl ih
  | .opt d name args r, ctx, math, y, o, h, hf => by
    simp only [OkO, endCtx, endMath, srcO, List.append_assoc, List.cons_append, List.nil_append,
      List.length_append, List.length_cons] at h hf ⊢
    obtain ⟨hn, ⟨sig, more, hl, hs⟩, h1, h2, h3⟩ := h
    have ih := open_fail p r .bracket math y (o + (srcL d).length + name.length + (srcL args).length + 1) h3
      (by simpa [Nat.add_assoc, Nat.add_comm, Nat.add_left_comm] using hf)
    refine list_fail ctx math p d _ o h1 (F.loopOne (scan_macroName hn (next_srcL_args' sig hs _ (next_brack _)) _)
      (by simp) (macroName_test hn _ _) (F.macro rfl hl (args_fail math p args _ sig _ _ hs h2 ?_)))
    intro sig' hs'
    cases hs' with
    | opt hs' => exact F.argsOpt (.inl rfl) (peek_cons (by decide)) scan_lbrack rfl ih

end Verif
