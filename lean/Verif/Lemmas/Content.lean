import Verif.Lemmas.Shape
/-! # Conservation of content, and completeness of the big-step relation -/

namespace Verif
open Spec

@[simp] theorem content_nil : content [] = [] := rfl
@[simp] theorem content_append (a b : GoString) : content (a ++ b) = content a ++ content b := by
  simp [content]

/-- No percent sign, and no backslash directly followed by a blank. -/
def Clean (cs : List Ch) : Prop :=
  (∀ c ∈ cs, c.r ≠ ch!"%") ∧ ∀ a c d b, cs = a ++ c :: d :: b → c.r = ch!"\\" → d.r ≠ ch!" "

theorem Clean.suffix {a b : List Ch} (h : Clean (a ++ b)) : Clean b := by
  refine ⟨fun c hc => h.1 c (by simp [hc]), fun p c d q he => ?_⟩
  exact h.2 (a ++ p) c d q (by rw [he]; simp)

theorem content_ws {w : List Ch} (h1 : ∀ d ∈ w, d.WF) (h2 : ∀ d ∈ w, isWs d.r = true) :
    content (bytesOf w) = [] := by
  induction w with
  | nil => rfl
  | cons d w ih =>
    have hd : isWs d.r = true := h2 d (by simp)
    have hd' : d.r = 9 ∨ d.r = 10 ∨ d.r = 13 := by simpa [isWs, or_assoc] using hd
    have := (h1 d (by simp)).2 (by omega)
    rw [bytesOf_cons, content_append, ih (fun d hd => h1 d (by simp [hd])) (fun d hd => h2 d (by simp [hd])),
      this]
    rcases hd' with h | h | h <;> rw [h] <;> rfl

/-- Leaf texts of a list of trees. -/
def leafTextL (l : List Node) : GoString := (leavesL l).flatMap Prod.snd

theorem leafTextL_cons (n : Node) (l : List Node) : leafTextL (n :: l) = leafText n ++ leafTextL l := by
  simp [leafTextL, leafText, leavesL]

theorem leafTextL_if (n : Node) (l : List Node) :
    leafTextL (if n.isNil then l else n :: l) = leafText n ++ leafTextL l := by
  cases n <;> simp [Node.isNil, leafTextL_cons, leafText, leaves]

theorem leafTextL_single (n : Node) : leafTextL [n] = leafText n := by
  simp [leafTextL_cons]; rfl

/-- Reading a token, with its content. -/
theorem Src.scanC {U x s t s'} (h : Src x s) (hc : Clean s.rest) (hs : Verif.scan U s = .ok (t, s')) :
    ∃ pre body, TokAt U x t s' body ∧ s.rest = pre ++ s'.rest ∧
      content (bytesOf pre) = content (bytesOf body) ∧ Clean (body ++ s'.rest) := by
  obtain ⟨w, body, h1⟩ := scan_spec hs
  obtain ⟨h2, h3⟩ := h.advance (s' := ⟨body ++ s'.rest, t.pos⟩) (mid := w) (by rw [h1.rest]; simp) h1.pos
  obtain ⟨h4, h5⟩ := h2.advance (s' := s') (mid := body) rfl h1.off
  have hwf := h.wf
  have hr := h1.rest
  refine ⟨w ++ body, body, ⟨h4, ?_, h5, h1.off, h1.shape, h2⟩, hr, ?_, ?_⟩
  · intro c hc; exact hwf c (by rw [hr]; simp [hc])
  · rw [bytesOf_append, content_append, content_ws (fun d hd => hwf d (by rw [hr]; simp [hd])) h1.wsw]
    rfl
  · rw [hr, List.append_assoc] at hc
    exact hc.suffix

theorem TokAt.expected_bytes {U x t s body v} (h : TokAt U x t s body) (ht : t.text = [v])
    (hv : v ≠ ch!"\\" ∧ v ≠ ch!"%" ∧ v ≠ ch!" ") : bytesOf body = [v] := by
  obtain ⟨h1, h2⟩ := h.expected ht hv
  rw [← h.text, h1, h2]

theorem Stop.closes_content {U x t s body} (st : Stop) (h : TokAt U x t s body)
    (ht : st.test t = true) : content (bytesOf body) = [] := by
  obtain ⟨h1, h2⟩ := Stop.closes st h ht
  have h3 := h.text
  rw [h1] at h3
  cases st with
  | never => exact h2.elim
  | dollar => simp only at h2; rw [← h3, h2]; rfl
  | rbrace => simp only at h2; rw [← h3, h2]; rfl
  | rbrack => simp only at h2; rw [← h3, h2]; rfl

theorem P.content {U : Nat → Bool} {x : GoString} {c m s l cl s'} (h : P U c m s l cl s') :
    match (generalizing := false) c with
    | .one t => ∀ body, TokAt U x t s body → Clean (body ++ s.rest) →
        ∃ mid, s.rest = mid ++ s'.rest ∧ content (bytesOf (body ++ mid)) = content (leafTextL l)
    | .loop _ => Src x s → Clean s.rest →
        ∃ mid, s.rest = mid ++ s'.rest ∧ content (bytesOf mid) = content (leafTextL l)
    | .args _ => Src x s → Clean s.rest →
        ∃ mid, s.rest = mid ++ s'.rest ∧ content (bytesOf mid) = content (leafTextL l) := by
  induction h with
  | comment hk =>
    intro body ht hcl
    have hs := ht.shape
    rw [hk] at hs
    obtain ⟨c, mid, rfl, hc, _⟩ := hs
    exact absurd hc (hcl.1 c (by simp))
  | «macro» hk hl ha ih =>
    intro body ht hcl
    obtain ⟨mid, h1, h2⟩ := ih ht.src hcl.suffix
    refine ⟨mid, h1, ?_⟩
    have hs := ht.shape
    rw [hk] at hs
    obtain ⟨c, w, nm, rfl, h3, h4, h5, _⟩ := hs
    have hc := (ht.wf c (by simp)).2 (by omega)
    have hw := content_ws (fun d hd => ht.wf d (by simp [hd])) h4
    rw [leafTextL_single]
    simp only [leafText, leaves, List.flatMap_cons]
    rw [bytesOf_append, content_append, h2, bytesOf_cons, bytesOf_append, content_append, content_append,
      hw, hc, h3, h5]
    have e : ∀ l : GoString, Spec.content (92 :: l) = Spec.content [92] ++ Spec.content l :=
      fun l => content_append [92] l
    simp only [List.cons_append, List.append_nil, List.nil_append]
    rw [e (bytesOf nm ++ _)]
    simp [leafTextL]
  | word hk | number hk | symbol hk | spaceText hk =>
    intro body ht hcl
    refine ⟨[], by simp, ?_⟩
    rw [leafTextL_single]
    simp [leafText, leaves, ht.leaf (by simp [hk])]
  | delim hk =>
    intro body ht hcl
    refine ⟨[], by simp, ?_⟩
    rw [leafTextL_single]
    simp [leafText, leaves, ht.leaf (by rcases hk with hk | hk | hk | hk <;> simp [hk])]
  | spaceMath hk =>
    intro body ht hcl
    refine ⟨[], by simp, ?_⟩
    rw [leafTextL_single]
    have hs := ht.shape
    rw [hk] at hs
    rcases hs with ⟨_, c, rfl, hc⟩ | ⟨_, c, d, rfl, hc, hd⟩
    · have := (ht.wf c (by simp)).2 (by omega)
      simp [this, hc, leafText, leaves]; rfl
    · exact absurd hd (hcl.2 [] c d _ (by simp; rfl) hc)
  | math hk htx _ ih =>
    intro body ht hcl
    obtain ⟨mid, h1, h2⟩ := ih ht.src hcl.suffix
    refine ⟨mid, h1, ?_⟩
    rw [bytesOf_append, content_append, h2, ← ht.leaf (by simp [hk]), htx, leafTextL_single]
    rfl
  | supGroup hk htx _ hsc htx1 _ ih | subGroup hk htx _ hsc htx1 _ ih =>
    intro body ht hcl
    obtain ⟨pre, b1, ht1, hr, hpre, hcl1⟩ := ht.src.scanC hcl.suffix hsc
    obtain ⟨mid, h1, h2⟩ := ih ht1.src hcl1.suffix
    refine ⟨pre ++ mid, by rw [hr, h1]; simp, ?_⟩
    rw [bytesOf_append, bytesOf_append, content_append, content_append, hpre, h2,
      ht1.expected_bytes htx1 (by decide), ← ht.leaf (by simp [hk]), htx, leafTextL_single]
    rfl
  | supOne hk htx _ hsc _ ih | subOne hk htx _ hsc _ ih =>
    intro body ht hcl
    obtain ⟨pre, b1, ht1, hr, hpre, hcl1⟩ := ht.src.scanC hcl.suffix hsc
    obtain ⟨mid, h1, h2⟩ := ih b1 ht1 hcl1
    refine ⟨pre ++ mid, by rw [hr, h1]; simp, ?_⟩
    rw [bytesOf_append, content_append] at h2
    rw [bytesOf_append, bytesOf_append, content_append, content_append, hpre, h2,
      ← ht.leaf (by simp [hk]), htx, leafTextL_single, leafTextL_single]
    rfl
  | group hk _ ih =>
    intro body ht hcl
    obtain ⟨mid, h1, h2⟩ := ih ht.src hcl.suffix
    refine ⟨mid, h1, ?_⟩
    have hs := ht.shape
    rw [hk] at hs
    obtain ⟨c, hb, h3, h4⟩ := hs
    have := (ht.single hb h3 h4 (by omega)).1
    rw [bytesOf_append, content_append, h2, ← ht.leaf (by simp [hk]), this, leafTextL_single]
    rfl
  | loopEof hsc hk =>
    intro hs hcl
    obtain ⟨pre, b1, ht1, hr, hpre, hcl1⟩ := hs.scanC hcl hsc
    have h := ht1.shape
    rw [hk] at h
    exact ⟨pre, hr, by rw [hpre, h.1]; rfl⟩
  | @loopStop st m s t s' hsc hk hst =>
    intro hs hcl
    obtain ⟨pre, b1, ht1, hr, hpre, hcl1⟩ := hs.scanC hcl hsc
    exact ⟨pre, hr, by rw [hpre, Stop.closes_content st ht1 hst]; rfl⟩
  | loopCons hsc hk hst h1 h2 ih1 ih2 =>
    intro hs hcl
    obtain ⟨pre, b1, ht1, hr, hpre, hcl1⟩ := hs.scanC hcl hsc
    obtain ⟨mid, h3, h4⟩ := ih1 b1 ht1 hcl1
    obtain ⟨h5, _⟩ := h1.order ⟨b1, ht1⟩
    have hcl2 := hcl1.suffix
    rw [h3] at hcl2
    obtain ⟨mid2, h6, h7⟩ := ih2 h5 hcl2.suffix
    refine ⟨pre ++ (mid ++ mid2), by rw [hr, h3, h6]; simp, ?_⟩
    rw [leafTextL_if, bytesOf_append, bytesOf_append, content_append, content_append, hpre, h7]
    rw [bytesOf_append, content_append, leafTextL_single] at h4
    rw [← List.append_assoc, h4, content_append]
  | argsNil => intro _ _; exact ⟨[], by simp, rfl⟩
  | argsArg _ hsc htx hp _ ih1 ih2 | argsOpt _ _ hsc htx hp _ ih1 ih2 =>
    intro hs hcl
    obtain ⟨pre, b1, ht1, hr, hpre, hcl1⟩ := hs.scanC hcl hsc
    have h0 := ht1.expected htx (by decide)
    obtain ⟨mid, h3, h4⟩ := ih1 ht1.src hcl1.suffix
    obtain ⟨h5, _⟩ := hp.order ht1.src (.inr (by omega))
    have hcl2 := hcl1.suffix
    rw [h3] at hcl2
    obtain ⟨mid2, h6, h7⟩ := ih2 h5 hcl2.suffix
    refine ⟨pre ++ (mid ++ mid2), by rw [hr, h3, h6]; simp, ?_⟩
    rw [leafTextL_cons, bytesOf_append, bytesOf_append, content_append, content_append, hpre, h7, h4,
      ht1.expected_bytes htx (by decide), content_append]
    rfl
  | argsNoOpt _ _ _ ih => exact ih
  | argsOther _ _ _ ih => exact ih

/-! ## Completeness: a derivation is found by the parser with enough fuel -/

/-- The parser with fuel `n` computes this result. -/
def Runs (U : Nat → Bool) (n : Nat) (c : Cat) (m : Mode) (s : SS) (l : List Node) (cl : Nat)
    (s' : SS) : Prop :=
  match c with
  | .one t => ∃ nd, l = [nd] ∧ parseNode U n m t s = .ok (nd, s')
  | .loop st => parseLoop U n m st.test s = .ok (l, cl, s')
  | .args sig => parseArgs U (parseLoop U n) m sig s = .ok (l, s')

theorem expect_of {U v s t s'} (h : scan U s = .ok (t, s')) (ht : t.text = [v]) :
    expect U v s = .ok (t, s') := by
  simp [expect, h, ht]

theorem P.complete {U : Nat → Bool} {c m s l cl s'} (h : P U c m s l cl s') :
    ∃ n0, ∀ n, n0 ≤ n → Runs U n c m s l cl s' := by
  have up : ∀ {n0 n : Nat}, n0 + 1 ≤ n → ∃ k, n = k + 1 ∧ n0 ≤ k := by
    intro n0 n h; exact ⟨n - 1, by omega, by omega⟩
  induction h with
  | comment hk | word hk | number hk | spaceMath hk | spaceText hk =>
    refine ⟨1, fun n hn => ?_⟩
    obtain ⟨k, rfl, _⟩ := up hn
    exact ⟨_, rfl, by simp [parseNode, hk]⟩
  | delim hk =>
    refine ⟨1, fun n hn => ?_⟩
    obtain ⟨k, rfl, _⟩ := up hn
    exact ⟨_, rfl, by rcases hk with hk | hk | hk | hk <;> simp [parseNode, hk]⟩
  | symbol hk h1 h2 h3 =>
    refine ⟨1, fun n hn => ?_⟩
    obtain ⟨k, rfl, _⟩ := up hn
    exact ⟨_, rfl, by simp [parseNode, hk, h1, h2, h3]⟩
  | «macro» hk hl ha ih =>
    obtain ⟨n0, ih⟩ := ih
    refine ⟨n0 + 1, fun n hn => ?_⟩
    obtain ⟨k, rfl, hk'⟩ := up hn
    have := ih k hk'
    simp only [Runs] at this
    exact ⟨_, rfl, by simp [parseNode, hk, hl, this]⟩
  | math hk htx _ ih =>
    obtain ⟨n0, ih⟩ := ih
    refine ⟨n0 + 1, fun n hn => ?_⟩
    obtain ⟨k, rfl, hk'⟩ := up hn
    have := ih k hk'
    simp only [Runs, Stop.test] at this
    exact ⟨_, rfl, by simp [parseNode, hk, htx, this]⟩
  | supGroup hk htx hpk hsc htx1 _ ih | subGroup hk htx hpk hsc htx1 _ ih =>
    obtain ⟨n0, ih⟩ := ih
    refine ⟨n0 + 1, fun n hn => ?_⟩
    obtain ⟨k, rfl, hk'⟩ := up hn
    have := ih k hk'
    simp only [Runs, Stop.test] at this
    exact ⟨_, rfl, by simp [parseNode, hk, htx, hpk, expect_of hsc htx1, this]⟩
  | supOne hk htx hpk hsc _ ih | subOne hk htx hpk hsc _ ih =>
    obtain ⟨n0, ih⟩ := ih
    refine ⟨n0 + 1, fun n hn => ?_⟩
    obtain ⟨k, rfl, hk'⟩ := up hn
    obtain ⟨nd, h1, h2⟩ := ih k hk'
    obtain rfl : _ = nd := by simpa using h1
    exact ⟨_, rfl, by simp [parseNode, hk, htx, hpk, hsc, h2]⟩
  | group hk _ ih =>
    obtain ⟨n0, ih⟩ := ih
    refine ⟨n0 + 1, fun n hn => ?_⟩
    obtain ⟨k, rfl, hk'⟩ := up hn
    have := ih k hk'
    simp only [Runs, Stop.test] at this
    exact ⟨_, rfl, by simp [parseNode, hk, this]⟩
  | loopEof hsc hk =>
    refine ⟨1, fun n hn => ?_⟩
    obtain ⟨k, rfl, _⟩ := up hn
    simp [Runs, parseLoop, hsc, hk]
  | loopStop hsc hk hst =>
    refine ⟨1, fun n hn => ?_⟩
    obtain ⟨k, rfl, _⟩ := up hn
    simp [Runs, parseLoop, hsc, hk, hst]
  | loopCons hsc hk hst h1 h2 ih1 ih2 =>
    obtain ⟨n1, ih1⟩ := ih1
    obtain ⟨n2, ih2⟩ := ih2
    refine ⟨max n1 n2 + 1, fun n hn => ?_⟩
    obtain ⟨k, rfl, hk'⟩ := up hn
    obtain ⟨nd, h3, h4⟩ := ih1 k (by omega)
    obtain rfl : _ = nd := by simpa using h3
    have h5 := ih2 k (by omega)
    simp only [Runs] at h5
    simp [Runs, parseLoop, hsc, hk, hst, h4, h5]
  | argsNil => exact ⟨0, fun n _ => by simp [Runs, parseArgs]⟩
  | argsArg hc hsc htx hp _ ih1 ih2 =>
    obtain ⟨n1, ih1⟩ := ih1
    obtain ⟨n2, ih2⟩ := ih2
    refine ⟨max n1 n2, fun n hn => ?_⟩
    have h1 := ih1 n (by omega)
    have h2 := ih2 n (by omega)
    simp only [Runs, Stop.test] at h1 h2
    simp [Runs, parseArgs, hc, parseMacroArg, expect_of hsc htx, h1, h2]
  | @argsOpt c sig m s t1 s1 l cl s2 as s' hc hpk hsc htx hp _ ih1 ih2 =>
    obtain ⟨n1, ih1⟩ := ih1
    obtain ⟨n2, ih2⟩ := ih2
    refine ⟨max n1 n2, fun n hn => ?_⟩
    have h1 := ih1 n (by omega)
    have h2 := ih2 n (by omega)
    have hA : ¬ (c = ch!"A" ∨ c = ch!"a") := by
      rintro h
      rcases hc with rfl | rfl <;> omega
    simp only [Runs, Stop.test] at h1 h2
    simp only [Runs, parseArgs, hA, hc, if_true, if_false, parseOptMacroArg, hpk, expect_of hsc htx]
    simp [h1, h2]
  | @argsNoOpt c sig m s as s' hc hpk _ ih =>
    obtain ⟨n1, ih1⟩ := ih
    refine ⟨n1, fun n hn => ?_⟩
    have h1 := ih1 n (by omega)
    have hA : ¬ (c = ch!"A" ∨ c = ch!"a") := by
      rintro h
      rcases hc with rfl | rfl <;> omega
    simp only [Runs] at h1
    simp only [Runs, parseArgs, hA, hc, if_true, if_false, parseOptMacroArg, hpk]
    simp [h1, hpk]
  | argsOther h1 h2 _ ih =>
    obtain ⟨n1, ih1⟩ := ih
    refine ⟨n1, fun n hn => ?_⟩
    have h3 := ih1 n (by omega)
    simp only [Runs] at h3
    simp [Runs, parseArgs, h1, h2, h3]

/-- A derivation for the whole input determines the result of `ParseExpr`. -/
theorem parseExpr_of_P {U x l cl s'} (h : P U (.loop .never) .normal (SS.init x) l cl s') :
    parseExpr U x = .ok (.list l) := by
  obtain ⟨n0, h⟩ := h.complete
  have h1 := h (max n0 (2 * x.length + 2)) (by omega)
  simp only [Runs] at h1
  have h2 : parseExprN U (max n0 (2 * x.length + 2)) x = .ok (.list l) := by
    show (parseLoop U _ .normal (Stop.test .never) _ >>= _) = _
    rw [h1]; rfl
  have h3 := Res.le_of_ne (parseExprN_mono U (show 2 * x.length + 2 ≤ max n0 (2 * x.length + 2) by omega) x)
    (parseExprN_ne_fuel U (by omega))
  rw [h2] at h3
  exact h3.symm

theorem parseExpr_sound {U : Nat → Bool} {x : GoString} {nd : Node} (h : parseExpr U x = .ok nd) :
    ∃ l s', nd = .list l ∧ P U (.loop .never) .normal (SS.init x) l 0 s' ∧ s'.rest = [] := by
  obtain ⟨l, c, s', h1, h2⟩ := parseExprN_sound h
  have hsrc := Src.init x
  obtain ⟨_, _, h3⟩ := h2.order (x := x) hsrc (.inl rfl)
  obtain rfl := h3 rfl
  exact ⟨l, s', h1, h2, (h2.last (x := x) hsrc (.inl rfl)).1 rfl⟩

end Verif
