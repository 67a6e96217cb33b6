import Verif.Lemmas.Ink
import Verif.Lemmas.NoUnknown
import Verif.Props.Parse
import Verif.Props.Ship
import Verif.Model.Krfl
/-!
# C32, C58 to C62: from math expressions to boxes

`Spec.role`, `Spec.ink`, `Spec.drawable` (what names, trees stand for, by enumeration and structural
recursion) are in `Verif/Spec/Mtex.lean`. -/

namespace Verif.Props
open Verif Verif.Spec GoFloat

variable {F : Type} [GoFloat F]

/-! ## C32 -/

/-- **C32** The names starting with a backslash that ParseExpr does not know are those that mean nothing to
mtex, and four blanks that mtex could draw. -/
theorem C32_names (name : GoString) (h : name.take 1 = bs!"\\") :
    macroLookup name = none ↔
      role name = .unknown ∨ name ∈ [bs!"\\thinspace", bs!"\\/", bs!"\\>", bs!"\\enspace"] := by
  have e : macroLookup name = none ↔ (macroLookup name).isSome = false := by cases macroLookup name <;> simp
  constructor
  · intro hn
    by_contra hc
    simp only [not_or] at hc
    obtain ⟨h1, h2⟩ := hc
    have hi := e.1 hn
    have t1 : ∀ k ∈ symBinaryOperators ++ symRelationSymbols ++ symArrowSymbols ++ symPunctuationSymbols ++
        mtexMacros.map Prod.fst ++ blankNames ++ symFunctionNames.map (ch!"\\" :: ·),
        k.take 1 = bs!"\\" → (macroLookup k).isSome = false →
          k ∈ [bs!"\\thinspace", bs!"\\/", bs!"\\>", bs!"\\enspace"] := by decide +kernel
    have t2 : ∀ k, k ∈ tex2uni.map Prod.fst → (macroLookup (ch!"\\" :: k)).isSome = true := by
      intro k hk
      unfold macroLookup
      split
      · rfl
      · have : (tex2uni.lookup k).isSome = true := by rw [lookup_contains]; simpa using hk
        simp [this]
    have t3 : ∀ k ∈ [bs!"\\frac", bs!"\\tfrac", bs!"\\dfrac", bs!"\\binom", bs!"\\sqrt", bs!"\\overline", bs!"\\hspace"],
        (macroLookup k).isSome = true := by decide +kernel
    have key : ∀ k, k = name → k ∈ symBinaryOperators ++ symRelationSymbols ++ symArrowSymbols ++ symPunctuationSymbols ++
        mtexMacros.map Prod.fst ++ blankNames ++ symFunctionNames.map (ch!"\\" :: ·) → False := by
      rintro k rfl hk
      exact h2 (t1 k hk h hi)
    have hd : name = ch!"\\" :: name.drop 1 := by
      cases name with
      | nil => simp at h
      | cons c l => simp at h; simp [h]
    unfold role at h1
    split at h1
    · rename_i hr
      rcases hr with rfl | rfl <;> rw [t3 _ (by simp)] at hi <;> cases hi
    split at h1
    · rename_i hr; subst hr; rw [t3 _ (by simp)] at hi; cases hi
    split at h1
    · rename_i hr; subst hr; rw [t3 _ (by simp)] at hi; cases hi
    split at h1
    · rename_i hr; subst hr; rw [t3 _ (by simp)] at hi; cases hi
    split at h1
    · rename_i hr; subst hr; rw [t3 _ (by simp)] at hi; cases hi
    split at h1
    · rename_i hr; subst hr; rw [t3 _ (by simp)] at hi; cases hi
    split at h1
    · rename_i hr
      have hr' : name ∈ blankNames := by simpa using hr
      exact key name rfl (by simp [hr'])
    split at h1
    · rename_i hr
      have hr' : name.drop 1 ∈ symFunctionNames := by simpa using hr
      exact key _ hd.symm (by simp only [List.mem_append, List.mem_map]; exact .inr ⟨_, hr', rfl⟩)
    split at h1
    · rename_i hr
      unfold IsGlyphName at hr
      simp only [Bool.or_eq_true, List.contains_iff_mem, Bool.and_eq_true] at hr
      rcases hr with ((((hr | hr) | hr) | hr) | hr) | hr
      · exact key name rfl (by simp [hr])
      · exact key name rfl (by simp [hr])
      · exact key name rfl (by simp [hr])
      · exact key name rfl (by simp [hr])
      · exact key name rfl (by simp only [List.mem_append]; simp [hr])
      · have := t2 _ hr.2
        rw [← hd, hi] at this
        cases this
    · exact h1 rfl
  · rintro (hr | hr)
    · cases hm : macroLookup name with
      | none => rfl
      | some e =>
        have := handled_of_macroLookup hm
        rw [role_handler] at hr
        cases hh : handlerOf name with
        | none => exact absurd hh this
        | some k => rw [hh] at hr; cases k <;> cases hr
    · have t : ∀ k ∈ [bs!"\\thinspace", bs!"\\/", bs!"\\>", bs!"\\enspace"], macroLookup k = none := by decide +kernel
      exact t name hr

example : macroLookup bs!"\\enspace" = none ∧ role bs!"\\enspace" = .blank := by decide +kernel
example : macroLookup bs!"\\alpha" = some (some []) ∧ role bs!"\\alpha" = .glyph := by decide +kernel

/-- **C32** The macro table of mtex is that of ParseExpr with the two parentheses added. -/
theorem C32_tables (name : GoString) : mtexMacros.lookup name =
    if name = bs!"(" ∨ name = bs!")" then some (some []) else latexMacros.lookup name := by
  by_cases hm : name ∈ mtexMacros.map Prod.fst ++ latexMacros.map Prod.fst
  · have t : ∀ k ∈ mtexMacros.map Prod.fst ++ latexMacros.map Prod.fst, mtexMacros.lookup k =
        if k = bs!"(" ∨ k = bs!")" then some (some []) else latexMacros.lookup k := by decide +kernel
    exact t name hm
  · simp only [List.mem_append, not_or] at hm
    have h1 : mtexMacros.lookup name = none := by
      have := lookup_contains mtexMacros name
      cases h : mtexMacros.lookup name with
      | none => rfl
      | some e => rw [h] at this; simp at this; exact absurd (by simpa using this) hm.1
    have h2 : latexMacros.lookup name = none := by
      have := lookup_contains latexMacros name
      cases h : latexMacros.lookup name with
      | none => rfl
      | some e => rw [h] at this; simp at this; exact absurd (by simpa using this) hm.2
    have h3 : ¬ (name = bs!"(" ∨ name = bs!")") := by
      rintro (rfl | rfl) <;> exact hm.1 (by decide +kernel)
    rw [if_neg h3, h1, h2]

/-- **C32** mtex.Parse never fails with "unknown macro": ParseExpr has already refused such input. -/
theorem C32_never_unknown (U : Nat → Bool) (be : Backend F) (num : GoString → Option F) (x : GoString) (size dpi : F) :
    mtexParse U be num x size dpi ≠ .panic (.other "unknown macro") := by
  rw [mtexParse]
  cases hp : parseExpr U x with
  | fuel => intro h; cases h
  | panic p =>
    intro h
    have h : Res.panic (α := LHead F × List (TNode F)) p = .panic (.other "unknown macro") := h
    cases h
    exact (parseExpr_noUnk x).ne hp
  | ok root =>
    refine (noUnk_bind ?_ fun _ => noUnk_ok _).ne
    rw [collect_eq]
    refine walk_noUnk _ _ _ fun p name args hm => ?_
    have h1 := parse_local hp _ hm
    obtain ⟨-, sig, h2, -⟩ := h1
    exact handled_of_macroLookup h2

/-! ## C58 -/

/-- **C58** If whether the backend has a symbol depends on the symbol, the type of the font and the mode only
(`K`), whether it can tell the x-height depends on the type of the font only (`X`), and it has `m` and `=` in math italics,
then mtex.Parse returns exactly when ParseExpr returns a drawable tree, and panics otherwise. -/
theorem C58_returns_iff (U : Nat → Bool) (be : Backend F) (num : GoString → Option F) (x : GoString) (size dpi : F)
    (K : GoString → GoString → Bool → Bool) (hK : ∀ c f d m, be.known c f d m = K c f.typ m)
    (X : GoString → Bool) (hX : ∀ f d, (be.xheight f d).isSome = X f.typ)
    (hm : K bs!"m" bs!"it" true = true) (he : K bs!"=" bs!"it" true = true) :
    ((∃ r, mtexParse U be num x size dpi = .ok r) ↔
      ∃ root, parseExpr U x = .ok root ∧ drawable K X num bs!"rm" false false root = true) ∧
    ((∃ r, mtexParse U be num x size dpi = .ok r) ∨ ∃ p, mtexParse U be num x size dpi = .panic p) := by
  rw [mtexParse]
  cases hp : parseExpr U x with
  | fuel =>
    obtain ⟨r, h1, h2, -⟩ := C01_terminates U x
    exact absurd (h2.symm.trans hp) h1
  | panic p => exact ⟨⟨fun ⟨r, h⟩ => (by cases h), fun ⟨r, h, _⟩ => (by cases h)⟩, .inr ⟨p, rfl⟩⟩
  | ok root =>
    have ho := outcome_map (f := hbody be) (walk_outcome (num := num) (x := x) (be := be) hK hX hm he root (initState size dpi) false)
    rw [← collect_eq] at ho
    change Outcome _ (drawable K X num bs!"rm" false false root) at ho
    show (_ ↔ _) ∧ _
    cases hd : drawable K X num bs!"rm" false false root with
    | true =>
      rw [hd] at ho
      obtain ⟨r, hr⟩ := ho
      exact ⟨⟨fun _ => ⟨root, rfl, hd⟩, fun _ => ⟨r, hr⟩⟩, .inl ⟨r, hr⟩⟩
    | false =>
      rw [hd] at ho
      obtain ⟨p, hr⟩ := ho
      refine ⟨⟨fun ⟨r, h⟩ => ?_, fun ⟨r, h, h'⟩ => ?_⟩, .inr ⟨p, hr⟩⟩
      · exact absurd (hr.symm.trans h) (by simp)
      · cases h; rw [hd] at h'; cases h'

/-- **C58** With a backend that has every symbol: what remains is the structure of the tree. -/
theorem C58_all_symbols (U : Nat → Bool) (be : Backend F) (num : GoString → Option F) (x : GoString) (size dpi : F)
    (hK : ∀ c f d m, be.known c f d m = true) (hX : ∀ f d, (be.xheight f d).isSome = true) :
    (∃ r, mtexParse U be num x size dpi = .ok r) ↔
      ∃ root, parseExpr U x = .ok root ∧ drawable (fun _ _ _ => true) (fun _ => true) num bs!"rm" false false root = true :=
  (C58_returns_iff U be num x size dpi _ hK _ hX rfl rfl).1

/-- **C58** Neither subscripts nor superscripts are supported, wherever they are visited: at top level, directly
inside math, or in an argument of a fraction. -/
theorem C58_scripts (K : GoString → GoString → Bool → Bool) (X : GoString → Bool) (num : GoString → Option F) (s : Node)
    (hs : ∃ p n, s = .sub p n ∨ s = .sup p n) (a b c d e f : List Node) (k k' : GoString) (p q r t u v : Nat) :
    drawable K X num bs!"rm" false false (.list (a ++ s :: b)) = false ∧
    drawable K X num bs!"rm" false false (.list (a ++ .math k p (c ++ s :: d) q :: b)) = false ∧
    drawable K X num bs!"rm" false false (.list (a ++ .math k p (c ++
      .macro (some (r, bs!"\\frac")) [.arg t (e ++ s :: f) u, .arg v d q] :: d) q :: b)) = false := by
  have h0 : ∀ typ m dr, drawable K X num typ m dr s = false := by
    obtain ⟨p, n, rfl | rfl⟩ := hs <;> intros <;> simp [drawable]
  have app : ∀ (a : List Node) n b typ m dr, drawable K X num typ m dr n = false →
      drawableAll K X num typ m dr (a ++ n :: b) = false := by
    intro a n b typ m dr hn
    induction a with
    | nil => simp [drawableAll, hn]
    | cons y a ih => simp [drawableAll, ih]
  refine ⟨?_, ?_, ?_⟩
  · simp only [drawable, Bool.false_or]; exact app _ _ _ _ _ _ (h0 ..)
  · simp only [drawable, Bool.false_or]
    exact app _ _ _ _ _ _ (by simp only [drawable]; exact app _ _ _ _ _ _ (h0 ..))
  · simp only [drawable, Bool.false_or]
    refine app _ _ _ _ _ _ ?_
    simp only [drawable]
    refine app _ _ _ _ _ _ ?_
    have hr : role bs!"\\frac" = .fraction true := by decide +kernel
    simp only [drawable, hr, drawableMacro, drawableArgs]
    rw [app _ _ _ _ _ _ (h0 ..)]
    rfl

/-! ## C59 -/

/-- **C59** The glyphs of the boxes built by mtex.Parse, in drawing order, are those prescribed by the syntax tree:
symbols, font types, sizes (where not adapted to something else) and the resolution. -/
theorem C59_glyphs (U : Nat → Bool) (be : Backend F) (num : GoString → Option F) (x : GoString) (size dpi : F)
    (hd : LHead F) (cs : List (TNode F)) (h : mtexParse U be num x size dpi = .ok (hd, cs)) :
    ∃ root, parseExpr U x = .ok root ∧
      List.Forall₂ (Prints bs!"default" dpi) (glyphsAll cs) (ink bs!"rm" size false false root) := by
  rw [mtexParse] at h
  obtain ⟨root, hp, h⟩ := Res.bind_eq_ok.1 h
  obtain ⟨l, hl, h⟩ := Res.bind_eq_ok.1 h
  rw [collect_eq] at hl
  have g := hbody_good (be := be) (walk_good root (initState size dpi) false l hl)
  cases h
  exact ⟨root, hp, g.1⟩

/-- **C59** When the boxes are shipped, at any place, the glyphs rendered are the prescribed ones, in this order. -/
theorem C59_drawn (U : Nat → Bool) (be : Backend F) (num : GoString → Option F) (x : GoString) (size dpi : F)
    (hd : LHead F) (cs : List (TNode F)) (h : mtexParse U be num x size dpi = .ok (hd, cs)) (ox oy : F) (s : ShipSt F)
    (cs' : List (TNode F)) (hs : shipCall ox oy hd cs = .ok (s, cs')) :
    ∃ root, parseExpr U x = .ok root ∧
      List.Forall₂ (Prints bs!"default" dpi) (s.ops.filterMap opGlyph) (ink bs!"rm" size false false root) := by
  rw [C48_glyphs ox oy hd cs s cs' hs]
  exact C59_glyphs U be num x size dpi hd cs h

/-! ## C60 -/

/-- **C60** A braced group directly inside math counts for nothing, whatever it contains. -/
theorem C60_dropped (be : Backend F) (num : GoString → Option F) (x : GoString) (st : TState F) (m : Bool)
    (k : GoString) (p q : Nat) (a g b : List Node) :
    collect be num x st m (.math k p (a ++ .list g :: b) q) = collect be num x st m (.math k p (a ++ b) q) := by
  have : ∀ st m, visitAll be num x st m (a ++ .list g :: b) = visitAll be num x st m (a ++ b) := by
    intro st m
    induction a with
    | nil =>
      simp only [List.nil_append, visitAll, visitN, Res.ok_bind]
      cases visitAll be num x st m b <;> rfl
    | cons y a ih => simp only [List.cons_append, visitAll, ih]
  rw [collect_eq, collect_eq, walkN, walkN, this]

/-- **C60** Everywhere else (at top level or in a macro argument, both of which are walked as lists) a group
counts as its content. -/
theorem C60_kept (be : Backend F) (num : GoString → Option F) (x : GoString) (st : TState F) (m : Bool)
    (a g b : List Node) :
    collect be num x st m (.list (a ++ .list g :: b)) = collect be num x st m (.list (a ++ g ++ b)) := by
  have app : ∀ a b, walkAll be num x st m (a ++ b) =
      walkAll be num x st m a >>= fun u => walkAll be num x st m b >>= fun v => .ok (u ++ v) := by
    intro a b
    induction a with
    | nil => simp only [List.nil_append, walkAll, Res.ok_bind]; cases walkAll be num x st m b <;> rfl
    | cons y a ih =>
      simp only [List.cons_append, walkAll, ih, res_bind_assoc, Res.ok_bind]
      congr 1; funext u; congr 1; funext v
      cases walkAll be num x st m b <;> simp
  rw [collect_eq, collect_eq, walkN, walkN, app, app (a ++ g), app a, walkAll, walkN]
  simp only [res_bind_assoc, Res.ok_bind]
  congr 1; funext u; congr 1; funext v
  cases walkAll be num x st m b <;> simp

/-! ## C61 -/

theorem indexDot_none {s : GoString} (h : ch!"." ∉ s) : indexDot s = -1 := by
  induction s with
  | nil => rfl
  | cons b s ih =>
    simp only [List.mem_cons, not_or] at h
    rw [indexDot, if_neg (fun e => h.1 e.symm), if_pos (ih h.2)]

theorem indexDot_some (a c : GoString) (h : ch!"." ∉ a) : indexDot (a ++ ch!"." :: c) = a.length := by
  induction a with
  | nil => simp [indexDot]
  | cons b s ih =>
    simp only [List.mem_cons, not_or] at h
    have h1 := ih h.2
    rw [List.cons_append, indexDot, if_neg (fun e => h.1 e.symm), h1, if_neg (by omega)]
    simp

theorem isDigitB_iff (b : Nat) : isDigitB b = true ↔ 48 ≤ b ∧ b ≤ 57 := by simp [isDigitB]

theorem first_dot (x : GoString) : ch!"." ∉ x ∨ ∃ a c, x = a ++ ch!"." :: c ∧ ch!"." ∉ a := by
  induction x with
  | nil => exact .inl (by simp)
  | cons b x ih =>
    by_cases hb : b = ch!"."
    · exact .inr ⟨[], x, by simp [hb], by simp⟩
    · rcases ih with h | ⟨a, c, rfl, h⟩
      · exact .inl (by simp only [List.mem_cons, not_or]; exact ⟨fun e => hb e.symm, h⟩)
      · exact .inr ⟨b :: a, c, rfl, by simp only [List.mem_cons, not_or]; exact ⟨fun e => hb e.symm, h⟩⟩

theorem dotInNumber_iff (x : GoString) : dotInNumber x (indexDot x) = true ↔ FirstDotDecimal x := by
  rcases first_dot x with h | ⟨a, c, rfl, h⟩
  · rw [indexDot_none h]
    constructor
    · intro h'; simp [dotInNumber] at h'
    · rintro ⟨a, d, e, b, rfl, -⟩; simp at h
  · rw [indexDot_some a c h]
    have hu : ∀ a' d e b, a ++ ch!"." :: c = a' ++ [d, ch!".", e] ++ b → ch!"." ∉ a' → 48 ≤ d →
        d ≤ 57 → a = a' ++ [d] ∧ c = e :: b := by
      intro a' d e b he h' h1 h2
      have hd : ch!"." ∉ a' ++ [d] := by
        simp only [List.mem_append, List.mem_singleton, not_or]; exact ⟨h', by omega⟩
      have he' : a ++ ch!"." :: c = (a' ++ [d]) ++ ch!"." :: (e :: b) := by simpa using he
      obtain ⟨l, hl, hl'⟩ | ⟨l, hl, hl'⟩ := List.append_eq_append_iff.1 he'
      · cases l with
        | nil => simp at hl hl'; exact ⟨hl.symm, hl'⟩
        | cons y l => simp at hl'; obtain ⟨rfl, -⟩ := hl'; exact absurd (by rw [hl]; simp) hd
      · cases l with
        | nil => simp at hl hl'; exact ⟨hl, hl'.symm⟩
        | cons y l => simp at hl'; obtain ⟨rfl, -⟩ := hl'; exact absurd (by rw [hl]; simp) h
    constructor
    · intro h'
      simp only [dotInNumber, Bool.and_eq_true, decide_eq_true_eq, isDigitB_iff] at h'
      obtain ⟨⟨h1, h2, h3⟩, h4, h5, h6⟩ := h'
      obtain ⟨a', d, rfl⟩ : ∃ a' d, a = a' ++ [d] := by
        rcases List.eq_nil_or_concat a with rfl | ⟨a', d, rfl⟩
        · simp at h1
        · exact ⟨a', d, by simp⟩
      cases c with
      | nil => simp at h4; omega
      | cons e b =>
        have e1 : (((a' ++ [d]).length : Int) - 1).toNat = a'.length := by simp
        have e2 : (((a' ++ [d]).length : Int) + 1).toNat = a'.length + 2 := by simp; omega
        rw [e1] at h2 h3
        rw [e2] at h5 h6
        simp at h2 h3
        simp at h5 h6
        simp only [List.mem_append, not_or] at h
        exact ⟨a', d, e, b, by simp, h.1, h2, h3, h5, h6⟩
    · rintro ⟨a', d, e, b, he, h', h1, h2, h3, h4⟩
      obtain ⟨rfl, rfl⟩ := hu a' d e b he h' h1 h2
      simp only [dotInNumber, Bool.and_eq_true, decide_eq_true_eq, isDigitB_iff]
      have e1 : (((a' ++ [d]).length : Int) - 1).toNat = a'.length := by simp
      have e2 : (((a' ++ [d]).length : Int) + 1).toNat = a'.length + 2 := by simp; omega
      rw [e1, e2]
      simp
      omega

theorem handleSymbol_dot {be : Backend F} {x : GoString} {p : Nat} {st : TState F} {m : Bool} {n : TNode F}
    (h : handleSymbol be x p bs!"." st m = .ok n) :
    if dotInNumber x (indexDot (x.drop p)) then DotBare n else DotSpaced be st n := by
  unfold handleSymbol at h
  obtain ⟨ch, hc, h⟩ := Res.bind_eq_ok.1 h
  have hcc : ch.c = bs!"." := by
    unfold newChar at hc
    split at hc
    · cases hc; rfl
    · cases hc
  rw [if_neg (by decide +kernel), if_pos (by decide +kernel), if_pos rfl] at h
  split at h
  · rename_i hd; rw [if_pos hd]; cases h; exact ⟨ch, rfl, hcc⟩
  · rename_i hd
    rw [if_neg hd]
    obtain ⟨k, hk, h⟩ := Res.bind_eq_ok.1 h
    cases h
    unfold makeSpace at hk
    dsimp only at hk
    split at hk
    · cases hk
      obtain ⟨hd, cs, e, hs⟩ := C42_sublist be [.char ch,
        newKern ((be.metrics bs!"m" ⟨bs!"it", bs!"it", st.font.size⟩ st.dpi true).advance * ofRat 2 10)]
      exact ⟨hd, cs, ch, _, e, hs, hcc, rfl⟩
    · cases hk

theorem literalChars_nth {be : Backend F} {x : GoString} {st : TState F} {m : Bool} : ∀ {t : List Ch} {l : List (TNode F)},
    literalChars be x st m t = .ok l → ∀ (i : Nat) (c : Ch), t[i]? = some c →
      ∃ n, l[i]? = some n ∧ handleSymbol be x 0 (runeStr c) st m = .ok n
  | [], _, _, i, c, hi => by simp at hi
  | d :: t, l, h, i, c, hi => by
    rw [literalChars] at h
    obtain ⟨n, hn, h⟩ := Res.bind_eq_ok.1 h
    obtain ⟨r, hr, h⟩ := Res.bind_eq_ok.1 h
    cases h
    cases i with
    | zero => simp at hi; subst hi; exact ⟨n, rfl, hn⟩
    | succ i => simpa using literalChars_nth hr i c (by simpa using hi)

/-- **C61** A full stop in a number is set without space if the first full stop of the whole input stands between
two digits, and is followed by a space otherwise. -/
theorem C61_literal (be : Backend F) (num : GoString → Option F) (x : GoString) (st : TState F) (m : Bool) (p : Nat)
    (t : GoString) (l : List (TNode F)) (h : collect be num x st m (.lit p t) = .ok l) (i : Nat)
    (hi : (chars t)[i]? = some bs!".") :
    ∃ n, l[i]? = some n ∧ (FirstDotDecimal x → DotBare n) ∧ (¬ FirstDotDecimal x → DotSpaced be st n) := by
  rw [collect_eq, walkN, visitN] at h
  unfold chars at hi
  rw [List.getElem?_map, Option.map_eq_some_iff] at hi
  obtain ⟨c, hc, hcr⟩ := hi
  obtain ⟨n, hn, hs⟩ := literalChars_nth h i c hc
  have e : runeStr c = bs!"." := hcr
  rw [e] at hs
  have := handleSymbol_dot hs
  rw [List.drop_zero] at this
  refine ⟨n, hn, fun hf => ?_, fun hf => ?_⟩
  · rwa [if_pos ((dotInNumber_iff x).2 hf)] at this
  · rwa [if_neg (fun h' => hf ((dotInNumber_iff x).1 h'))] at this

/-- **C61** The two cases exclude each other. -/
theorem C61_exclusive (be : Backend F) (st : TState F) (n : TNode F) : ¬ (DotBare n ∧ DotSpaced be st n) := by
  rintro ⟨⟨c, rfl, -⟩, hd, cs, c', k, h, -⟩
  cases h

/-- **C61** A full stop that is a symbol of its own in math is always followed by a space. -/
theorem C61_symbol (be : Backend F) (num : GoString → Option F) (x : GoString) (st : TState F) (p : Nat)
    (hp : slice x p (p + 1) = bs!".") (l : List (TNode F)) (h : collect be num x st true (.sym p bs!".") = .ok l) :
    ∃ n, l = [n] ∧ DotSpaced be st n := by
  rw [collect_eq, walkN, visitN, if_pos rfl] at h
  obtain ⟨n, hn, h⟩ := Res.bind_eq_ok.1 h
  cases h
  refine ⟨n, rfl, ?_⟩
  have hk : handlerOf bs!"." = some .symbol := by decide +kernel
  rw [hk] at hn
  have := handleSymbol_dot hn
  have hx : ∃ c, x.drop p = ch!"." :: c := by
    unfold slice at hp
    cases hd : x.drop p with
    | nil => rw [hd] at hp; simp at hp
    | cons b c => rw [hd] at hp; simp at hp; exact ⟨c, by rw [hp]⟩
  obtain ⟨c, hx⟩ := hx
  rw [hx] at this
  have e := indexDot_some [] c (by simp)
  simp only [List.nil_append, List.length_nil] at e
  rw [e] at this
  simpa [dotInNumber] using this

/-! ## C62 -/

/-- **C62** A list of items is drawn item by item, each from the same font, size and mode, whatever came before. -/
theorem C62_items (be : Backend F) (num : GoString → Option F) (x : GoString) (st : TState F) (m : Bool) (items : List Node) :
    collect be num x st m (.list items) =
      items.foldr (fun n r => collect be num x st m n >>= fun a => r >>= fun b => .ok (a ++ b)) (.ok []) := by
  rw [collect_eq, walkN]
  induction items with
  | nil => rw [walkAll]; rfl
  | cons n l ih => rw [walkAll, ih, List.foldr_cons, collect_eq]

/-- **C62** The visitor of mtex.Parse, in any state, appends to its nodes what a fresh visitor with the same font,
size and mode collects, and comes back to the same font, size and mode: after math, text is set as before. -/
theorem C62_restored (be : Backend F) (num : GoString → Option F) (x : GoString) (n : Node) (v : VSt F) (fuel : Nat)
    (hf : nodeDepth n < fuel) :
    walk (mtexVisit be num x fuel) () n v =
      collect be num x v.st v.math n >>= fun l => .ok ⟨v.nodes ++ l, v.st, v.math⟩ := by
  rw [walk_mtex be num x fuel n v hf, collect_eq]
  rfl

/-! ## Concrete cases -/

def exU : Nat → Bool := fun _ => false
def exNum : GoString → Option XR := fun t => if t = bs!"2" then some (.fin 2) else none
/-- mtex.Parse at 10 points and 72 dots per inch. -/
def exParse (x : GoString) : Res (LHead XR × List (TNode XR)) := mtexParse exU exBe exNum x (.fin 10) (.fin 72)
/-- symbols, font types and sizes drawn -/
def exGlyphs (x : GoString) : Option (List (GoString × GoString × XR)) :=
  match exParse x with
  | .ok (_, cs) => some ((glyphsAll cs).map fun g => (g.2.1, g.1.typ, g.1.size))
  | _ => none
/-- the nodes built -/
def exNodes (x : GoString) : List (TNode XR) :=
  match exParse x with
  | .ok (_, cs) => cs
  | _ => []
/-- the kinds of the nodes built -/
def exKind : TNode XR → Nat
  | .char _ => 0
  | .list .h _ _ => 1
  | .kern _ => 2
  | _ => 3

example : exGlyphs bs!"a $\\frac{x}{\\sin 2}$" =
    some [(bs!"a", bs!"rm", .fin 10), (bs!" ", bs!"rm", .fin 10), (bs!"x", bs!"it", .fin 7), (bs!"s", bs!"rm", .fin 7),
      (bs!"i", bs!"rm", .fin 7), (bs!"n", bs!"rm", .fin 7), (bs!"2", bs!"it", .fin 7)] := by decide +kernel

/-- **C58** witnesses: a supported input, and three that make mtex.Parse panic. -/
theorem C58_cases : (exGlyphs bs!"$\\sqrt[3]{x}\\hspace{2}y$").isSome = true ∧ exGlyphs bs!"$x_2$" = none ∧
    exGlyphs bs!"$x,y$" = none ∧ exGlyphs bs!"$\\hspace{x}$" = none := by decide +kernel

/-- **C60** witness: nothing is drawn for `${x}$`; `x` is drawn for `$\overline{{x}}$`, where the group is in an
argument. -/
theorem C60_witness : exGlyphs bs!"${x}$" = some [] ∧
    parseExpr exU bs!"${x}$" = .ok (.list [.math bs!"$" 0 [.list [.word 2 bs!"x"]] 4]) ∧
    exGlyphs bs!"$\\overline{{x}}$" = some [(bs!"x", bs!"it", .fin 10)] :=
  ⟨by decide +kernel, by krfl, by decide +kernel⟩

/-- **C61** witness: the same number `3.14` is set differently after `a.`. -/
theorem C61_witness : (exNodes bs!"3.14").map exKind = [0, 0, 0, 0] ∧
    (exNodes bs!"a. 3.14").map exKind = [1, 0, 0, 0, 1, 0, 0] ∧
    parseExpr exU bs!"a. 3.14" = .ok (.list [.word 0 bs!"a", .sym 1 bs!".", .sym 2 bs!" ", .lit 3 bs!"3.14"]) :=
  ⟨by decide +kernel, by decide +kernel, by krfl⟩

/-- Text after math is in roman again. -/
example : exGlyphs bs!"$x$y" = some [(bs!"x", bs!"it", .fin 10), (bs!"y", bs!"rm", .fin 10)] := by decide +kernel

end Verif.Props
