import Verif.Lemmas.Marks
/-! # Parsing from a shifted position -/

namespace Verif
open Spec

/-- Two outcomes related by `R` when both succeed, and equal otherwise. -/
def Sim {α β : Type} (R : α → β → Prop) : Res α → Res β → Prop
  | .ok a, .ok b => R a b
  | .panic p, .panic q => p = q
  | .fuel, .fuel => True
  | _, _ => False

theorem Sim.bind {α β γ δ : Type} {R : α → β → Prop} {Q : γ → δ → Prop} {a : Res α} {b : Res β}
    {f : α → Res γ} {g : β → Res δ} (h : Sim R a b) (hf : ∀ x y, R x y → Sim Q (f x) (g y)) :
    Sim Q (a >>= f) (b >>= g) := by
  cases a <;> cases b <;> simp_all [Sim]

theorem Sim.of_eq {α β : Type} {R : α → β → Prop} {a : Res α} {b : Res β} (f : α → β)
    (h : b = a.map f) (hR : ∀ x, a = .ok x → R x (f x)) : Sim R a b := by
  subst h
  cases a <;> simp_all [Sim]

/-- The same remaining characters at a position increased by `d`. -/
def SS.shift (d : Nat) (s : SS) : SS := ⟨s.rest, s.off + d⟩
def Token.shift (d : Nat) (t : Token) : Token := ⟨t.kind, t.pos + d, t.text⟩

theorem rawScan_shift (U ws d s) : rawScan U ws (SS.shift d s) =
    (⟨(rawScan U ws s).1.cls, (rawScan U ws s).1.pos + d, (rawScan U ws s).1.text⟩,
      SS.shift d (rawScan U ws s).2) := by
  unfold rawScan SS.shift
  simp only
  split
  · simp only [Prod.mk.injEq, RawTok.mk.injEq, true_and, and_true, SS.mk.injEq]; omega
  · simp only [Prod.mk.injEq, RawTok.mk.injEq, true_and, and_true, SS.mk.injEq]; omega

theorem scanComment_shift (U d) : ∀ n s acc, scanCommentN U n (SS.shift d s) acc =
    (scanCommentN U n s acc).map fun r => (r.1, SS.shift d r.2) := by
  intro n
  induction n with
  | zero => intro s acc; rfl
  | succ n ih =>
    intro s acc
    unfold scanCommentN
    rw [rawScan_shift]
    simp only
    split
    · exact ih _ _
    split
    · rfl
    · exact ih _ _

theorem peek_shift (d s) : (SS.shift d s).peek = s.peek := rfl

theorem scan_shift (U d s) : scan U (SS.shift d s) =
    (scan U s).map fun r => (Token.shift d r.1, SS.shift d r.2) := by
  unfold scan
  rw [rawScan_shift]
  generalize rawScan U isWs s = q
  obtain ⟨t, s1⟩ := q
  simp only
  split
  · rfl
  · rename_i r hr
    split
    · rw [peek_shift, rawScan_shift]
      split <;> rfl
    split
    · rfl
    split
    · rw [show (SS.shift d s1).rest = s1.rest from rfl, scanComment_shift]
      cases scanCommentN U (s1.rest.length + 1) s1 bs!"%" <;> rfl
    iterate 7
      split
      · rfl
    rfl
  all_goals rfl

section
variable {U : Nat → Bool} {x : GoString} {d : Nat}

/-- Matching states of the two runs, after the first token. -/
def SR (x : GoString) (d : Nat) (s s' : SS) : Prop := Src x s ∧ 1 ≤ s.off ∧ s' = s.shift d

/-- Matching tokens and the states after them; the state is past the start unless the token is the end. -/
def TR (U : Nat → Bool) (x : GoString) (d : Nat) (lo : Nat) (r r' : Token × SS) : Prop :=
  r'.1 = r.1.shift d ∧ r'.2 = r.2.shift d ∧ Src x r.2 ∧ lo ≤ r.1.pos ∧ r.1.pos ≤ r.2.off ∧
    (r.1.kind ≠ .eof → r.1.pos < r.2.off) ∧ ∃ body, TokAt U x r.1 r.2 body

theorem scan_sim {s : SS} (h : Src x s) : Sim (TR U x d s.off) (scan U s) (scan U (s.shift d)) := by
  refine Sim.of_eq _ (scan_shift U d s) ?_
  rintro ⟨t, s1⟩ hs
  obtain ⟨body, ht, hle⟩ := h.scan hs
  have := ht.off
  exact ⟨rfl, rfl, ht.src, hle, by simp only; omega, ht.pos_lt, body, ht⟩

theorem expect_sim {s : SS} (v : Nat) (h : Src x s) :
    Sim (fun r r' => TR U x d s.off r r' ∧ r.1.text = [v]) (expect U v s) (expect U v (s.shift d)) := by
  unfold expect
  refine (scan_sim h).bind fun r r' hr => ?_
  have : r'.1.text = r.1.text := by rw [hr.1]; rfl
  rw [this]
  by_cases hv : r.1.text = [v]
  · rw [if_pos hv, if_pos hv]; exact ⟨hr, hv⟩
  · rw [if_neg hv, if_neg hv]; rfl

/-- Matching results of a loop. -/
def LR (x : GoString) (d : Nat) (r r' : List Node × Nat × SS) : Prop :=
  r'.1 = shiftL d r.1 ∧ r'.2.1 = (if r.2.1 = 0 then 0 else r.2.1 + d) ∧ SR x d r.2.2 r'.2.2

def NR (x : GoString) (d : Nat) (r r' : Node × SS) : Prop := r'.1 = shift d r.1 ∧ SR x d r.2 r'.2
def AR (x : GoString) (d : Nat) (r r' : List Node × SS) : Prop := r'.1 = shiftL d r.1 ∧ SR x d r.2 r'.2

/-- A loop commutes with shifting; `stop` does not look at positions. -/
def LoopOK (x : GoString) (d : Nat) (loop : Loop) : Prop :=
  ∀ m (st : Stop) s s', SR x d s s' → Sim (LR x d) (loop m st.test s) (loop m st.test s')

theorem shiftL_append (a b : List Node) : shiftL d (a ++ b) = shiftL d a ++ shiftL d b := by
  induction a with
  | nil => rfl
  | cons n a ih => simp [shiftL, ih]

theorem Stop.test_shift (st : Stop) (t : Token) : st.test (t.shift d) = st.test t := by
  cases st <;> rfl

theorem macroArg_sim {loop : Loop} (hl : LoopOK x d loop) (m : Mode) {s s' : SS} (h : SR x d s s') :
    Sim (NR x d) (parseMacroArg U loop m s) (parseMacroArg U loop m s') := by
  obtain ⟨h1, h2, rfl⟩ := h
  unfold parseMacroArg
  refine (expect_sim _ h1).bind ?_
  rintro ⟨t, s1⟩ ⟨t', s1'⟩ ⟨⟨h3, h4, h5, h6, h7, -, -⟩, -⟩
  simp only at h3 h4 h5 h6 h7
  subst h3 h4
  refine (hl m .rbrace _ _ ⟨h5, by omega, rfl⟩).bind ?_
  rintro ⟨l, c, s2⟩ ⟨l', c', s2'⟩ ⟨h8, h9, h10⟩
  simp only at h8 h9 h10
  subst h8 h9
  exact ⟨by simp only [shift]; rfl, h10⟩

theorem optArg_sim {loop : Loop} (hl : LoopOK x d loop) (m : Mode) {s s' : SS} (h : SR x d s s') :
    Sim (AR x d) (parseOptMacroArg U loop m s) (parseOptMacroArg U loop m s') := by
  have h' := h
  obtain ⟨h1, h2, rfl⟩ := h
  unfold parseOptMacroArg
  rw [peek_shift]
  split
  · exact ⟨rfl, h'⟩
  refine (expect_sim _ h1).bind ?_
  rintro ⟨t, s1⟩ ⟨t', s1'⟩ ⟨⟨h3, h4, h5, h6, h7, -, -⟩, -⟩
  simp only at h3 h4 h5 h6 h7
  subst h3 h4
  refine (hl m .rbrack _ _ ⟨h5, by omega, rfl⟩).bind ?_
  rintro ⟨l, c, s2⟩ ⟨l', c', s2'⟩ ⟨h8, h9, h10⟩
  simp only at h8 h9 h10
  subst h8 h9
  exact ⟨by simp only [shift, shiftL]; rfl, h10⟩

theorem args_sim {loop : Loop} (hl : LoopOK x d loop) (m : Mode) (sig : GoString) :
    ∀ s s', SR x d s s' → Sim (AR x d) (parseArgs U loop m sig s) (parseArgs U loop m sig s') := by
  induction sig with
  | nil => intro s s' h; exact ⟨rfl, h⟩
  | cons c sig ih =>
    intro s s' h
    unfold parseArgs
    split
    · refine (macroArg_sim hl m h).bind ?_
      rintro ⟨n, s1⟩ ⟨n', s1'⟩ ⟨h1, h2⟩
      simp only at h1 h2
      subst h1
      refine (ih _ _ h2).bind ?_
      rintro ⟨l, s2⟩ ⟨l', s2'⟩ ⟨h3, h4⟩
      simp only at h3 h4
      subst h3
      exact ⟨by simp [shiftL], h4⟩
    split
    · refine (optArg_sim hl m h).bind ?_
      rintro ⟨n, s1⟩ ⟨n', s1'⟩ ⟨h1, h2⟩
      simp only at h1 h2
      subst h1
      refine (ih _ _ h2).bind ?_
      rintro ⟨l, s2⟩ ⟨l', s2'⟩ ⟨h3, h4⟩
      simp only at h3 h4
      subst h3
      exact ⟨by simp [shiftL_append], h4⟩
    · exact ih _ _ h

theorem shift_isNil (n : Node) : (shift d n).isNil = n.isNil := by
  cases n <;> simp [shift, Node.isNil]

theorem parse_sim (n : Nat) :
    (∀ m t s s', SR x d s s' → Sim (NR x d) (parseNode U n m t s) (parseNode U n m (t.shift d) s')) ∧
    LoopOK x d (parseLoop U n) := by
  induction n with
  | zero => exact ⟨fun _ _ _ _ _ => trivial, fun _ _ _ _ _ => trivial⟩
  | succ n ih =>
    obtain ⟨ihN, ihL⟩ := ih
    constructor
    · intro m t s s' h
      have h' := h
      obtain ⟨h1, h2, rfl⟩ := h
      have leaf : ∀ nd : Node, Sim (NR x d) (.ok (nd, s)) (.ok (shift d nd, s.shift d)) :=
        fun nd => ⟨rfl, h'⟩
      have script : ∀ (mk : Nat → Node → Node), (∀ p n, shift d (mk p n) = mk (p + d) (shift d n)) →
          Sim (NR x d)
          (if s.peek = some ch!"{" then
            expect U ch!"{" s >>= fun r =>
              parseLoop U n m (fun t => t.kind == .rbrace) r.2 >>= fun x =>
                .ok (mk t.pos (.list x.1), x.2.2)
          else
            scan U s >>= fun r =>
              parseNode U n m r.1 r.2 >>= fun x => .ok (mk t.pos x.1, x.2))
          (if s.peek = some ch!"{" then
            expect U ch!"{" (s.shift d) >>= fun r =>
              parseLoop U n m (fun t => t.kind == .rbrace) r.2 >>= fun x =>
                .ok (mk (t.pos + d) (.list x.1), x.2.2)
          else
            scan U (s.shift d) >>= fun r =>
              parseNode U n m r.1 r.2 >>= fun x => .ok (mk (t.pos + d) x.1, x.2)) := by
        intro mk hmk
        split
        · refine (expect_sim _ h1).bind ?_
          rintro ⟨t1, s1⟩ ⟨t1', s1'⟩ ⟨⟨h3, h4, h5, h6, h7, -, -⟩, -⟩
          simp only at h3 h4 h5 h6 h7
          subst h3 h4
          refine (ihL m .rbrace _ _ ⟨h5, by omega, rfl⟩).bind ?_
          rintro ⟨l, c, s2⟩ ⟨l', c', s2'⟩ ⟨h8, h9, h10⟩
          simp only at h8 h9 h10
          subst h8 h9
          exact ⟨by simp only [hmk, shift], h10⟩
        · refine (scan_sim h1).bind ?_
          rintro ⟨t1, s1⟩ ⟨t1', s1'⟩ ⟨h3, h4, h5, h6, h7, -, -⟩
          simp only at h3 h4 h5 h6 h7
          subst h3 h4
          refine (ihN m _ _ _ ⟨h5, by omega, rfl⟩).bind ?_
          rintro ⟨l, s2⟩ ⟨l', s2'⟩ ⟨h8, h10⟩
          simp only at h8 h10
          subst h8
          exact ⟨by simp only [hmk], h10⟩
      unfold parseNode
      simp only [Token.shift]
      split
      · exact leaf .nil
      · split
        · rfl
        · rfl
        · refine (args_sim ihL m _ _ _ h').bind ?_
          rintro ⟨l, s2⟩ ⟨l', s2'⟩ ⟨h3, h4⟩
          simp only at h3 h4
          subst h3
          exact ⟨by simp [shift], h4⟩
      · exact leaf (.word _ _)
      · exact leaf (.lit _ _)
      · by_cases c1 : t.text = bs!"$"
        · rw [if_pos c1]; erw [if_pos c1]
          refine (ihL .math .dollar _ _ h').bind ?_
          rintro ⟨l, c, s2⟩ ⟨l', c', s2'⟩ ⟨h8, h9, h10⟩
          simp only at h8 h9 h10
          subst h8 h9
          exact ⟨by simp only [shift], h10⟩
        rw [if_neg c1]; erw [if_neg c1]
        by_cases c2 : t.text = bs!"^"
        · rw [if_pos c2]; erw [if_pos c2]; rw [peek_shift]; exact script .sup (fun _ _ => by simp [shift])
        rw [if_neg c2]; erw [if_neg c2]
        by_cases c3 : t.text = bs!"_"
        · rw [if_pos c3]; erw [if_pos c3]; rw [peek_shift]; exact script .sub (fun _ _ => by simp [shift])
        rw [if_neg c3]; erw [if_neg c3]
        exact leaf (.sym _ _)
      · split
        · refine (ihL .math .rbrace _ _ h').bind ?_
          rintro ⟨l, c, s2⟩ ⟨l', c', s2'⟩ ⟨h8, h9, h10⟩
          simp only at h8 h9 h10
          subst h8 h9
          exact ⟨by simp only [shift], h10⟩
        · rfl
      · rfl
      · split
        · exact leaf .nil
        · exact leaf (.sym _ _)
      iterate 4 exact leaf (.sym _ _)
      rfl
    · intro m st s s' h
      obtain ⟨h1, h2, rfl⟩ := h
      unfold parseLoop
      refine (scan_sim h1).bind ?_
      rintro ⟨t1, s1⟩ ⟨t1', s1'⟩ ⟨h3, h4, h5, h6, h7, -, -⟩
      simp only at h3 h4 h5 h6 h7
      subst h3 h4
      have hs : SR x d s1 (s1.shift d) := ⟨h5, by omega, rfl⟩
      simp only [Stop.test_shift, show (t1.shift d).kind = t1.kind from rfl]
      split
      · exact ⟨rfl, rfl, hs⟩
      split
      · refine ⟨rfl, ?_, hs⟩
        simp only [Token.shift]
        rw [if_neg (by omega)]
      · refine (ihN m _ _ _ hs).bind ?_
        rintro ⟨nd, s2⟩ ⟨nd', s2'⟩ ⟨h8, h10⟩
        simp only at h8 h10
        subst h8
        refine (ihL m st _ _ h10).bind ?_
        rintro ⟨l, c, s3⟩ ⟨l', c', s3'⟩ ⟨h11, h12, h13⟩
        simp only at h11 h12 h13
        subst h11 h12
        refine ⟨?_, rfl, h13⟩
        simp only [shift_isNil]
        split <;> simp [shiftL]

/-- The top-level loop, from a position of the source and from the shifted position. -/
theorem parseTop_sim (n : Nat) {s : SS} (h1 : Src x s) :
    Sim (fun r r' => r'.1 = shiftL d r.1) (parseLoop U n .normal (fun _ => false) s)
      (parseLoop U n .normal (fun _ => false) (s.shift d)) := by
  cases n with
  | zero => trivial
  | succ n =>
    unfold parseLoop
    refine (scan_sim h1).bind ?_
    rintro ⟨t1, s1⟩ ⟨t1', s1'⟩ ⟨h3, h4, h5, h6, h7, h8, -⟩
    simp only at h3 h4 h5 h6 h7 h8
    subst h3 h4
    simp only [show (t1.shift d).kind = t1.kind from rfl]
    split
    · exact rfl
    · rename_i hk
      have hs : SR x d s1 (s1.shift d) := ⟨h5, by have := h8 hk; omega, rfl⟩
      simp only [Bool.false_eq_true, if_false]
      refine ((parse_sim n).1 .normal _ _ _ hs).bind ?_
      rintro ⟨nd, s2⟩ ⟨nd', s2'⟩ ⟨h8, h10⟩
      simp only at h8 h10
      subst h8
      refine ((parse_sim n).2 .normal .never _ _ h10).bind ?_
      rintro ⟨l, c, s3⟩ ⟨l', c', s3'⟩ ⟨h11, h12, h13⟩
      simp only at h11 h12 h13
      subst h11 h12
      show _ = shiftL d _
      simp only [shift_isNil]
      split <;> simp [shiftL]

end

theorem Sim.map_eq {α β : Type} {R : α → β → Prop} {a : Res α} {b : Res β} {f : α → β} (h : Sim R a b)
    (hR : ∀ x y, R x y → y = f x) : b = a.map f := by
  cases a <;> cases b <;> simp_all [Sim]
  exact hR _ _ h

/-- If the top-level loop on `y` does, with some bound, what it does at position `d` in front of
the characters of `x`, then the results differ by shifting only. -/
theorem parseExpr_shift {U : Nat → Bool} {x y : GoString} {d k : Nat} (hb : ¬ [0xEF, 0xBB, 0xBF] <+: x)
    (h : ∀ n, parseLoop U (n + k) .normal (fun _ => false) (SS.init y) =
      parseLoop U n .normal (fun _ => false) ⟨decode x, d⟩) :
    parseExpr U y = (parseExpr U x).map (shift d) := by
  have hi := SS.init_of_not_bom hb
  let N := 2 * x.length + 2 * y.length + 2
  have e1 : parseExpr U x = parseExprN U N x :=
    (Res.le_of_ne (parseExprN_mono U (by omega) x) (parseExprN_ne_fuel U (by omega))).symm
  have e2 : parseExpr U y = parseExprN U (N + k) y :=
    (Res.le_of_ne (parseExprN_mono U (by omega) y) (parseExprN_ne_fuel U (by omega))).symm
  rw [e1, e2]
  unfold parseExprN
  rw [h N, hi]
  have hs := parseTop_sim (U := U) (x := x) (d := d) N (s := ⟨decode x, 0⟩) ⟨[], by simp, by simp⟩
  have hs' : SS.shift d ⟨decode x, 0⟩ = ⟨decode x, d⟩ := by simp [SS.shift]
  rw [hs'] at hs
  refine Sim.map_eq (R := fun a b => b = shift d a) (hs.bind fun r r' hr => ?_) (fun _ _ h => h)
  simp only [Sim, shift, hr]

end Verif
