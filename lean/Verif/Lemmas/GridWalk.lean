import Verif.Lemmas.GridSqrt
import Verif.Spec.Tree
/-! # Layouts on a grid -/

set_option linter.unusedSectionVars false

namespace Verif
open Spec GoFloat

variable {k : ℤ} {J : ℕ} {size dpi : F64} {be : Backend F64} {num : GoString → Option F64} {x : GoString}

/-- The constants of a layout: the unit, the bounds of the fonts, of the numbers in the source and of the source, and what follows from them. -/
structure Grid (k : ℤ) (J V N D M : ℕ) : Prop where
  mid : MidExp k
  one : 1 ≤ J
  j : J ≤ 256
  d : D = 8 * J + V
  m : D * N ^ 2 + 4 * N + 64 ≤ M
  top : M ≤ 2 ^ 36

variable {V N D M : ℕ}

/-- The nodes laid out for a source of weight `w`. -/
def GridGood (k : ℤ) (M : ℕ) (size dpi : F64) (D w : ℕ) (l : List (TNode F64)) : Prop :=
  ∃ a b W, a + b ≤ 4 * w ∧ W ≤ D * w ^ 2 ∧ Nds k M size dpi 3 a b W l

/-- The result, if any, is as prescribed. -/
def GridRes (k : ℤ) (M : ℕ) (size dpi : F64) (D w : ℕ) (r : Res (List (TNode F64))) : Prop := ∀ l, r = .ok l → GridGood k M size dpi D w l

theorem GridGood.mono {w w' : ℕ} {l : List (TNode F64)} (h : GridGood k M size dpi D w l) (hw : w ≤ w') : GridGood k M size dpi D w' l := by
  obtain ⟨a, b, W, h1, h2, h3⟩ := h
  exact ⟨a, b, W, by omega, h2.trans (Nat.mul_le_mul_left _ (Nat.pow_le_pow_left hw 2)), h3⟩

theorem GridRes.mono {w w' : ℕ} {r : Res (List (TNode F64))} (h : GridRes k M size dpi D w r) (hw : w ≤ w') : GridRes k M size dpi D w' r :=
  fun l hl => (h l hl).mono hw

theorem gridRes_panic {w : ℕ} {p : Panic} : GridRes k M size dpi D w (.panic p) := fun _ h => by cases h

theorem gridRes_nil {w : ℕ} : GridRes k M size dpi D w (.ok []) := fun l hl => by
  cases hl; exact ⟨0, 0, 0, by omega, by omega, trivial⟩

theorem gridRes_append {r s : Res (List (TNode F64))} {v w : ℕ} (h : GridRes k M size dpi D v r) (h' : GridRes k M size dpi D w s) :
    GridRes k M size dpi D (v + w) (r >>= fun a => s >>= fun b => .ok (a ++ b)) := by
  intro l hl
  obtain ⟨a, ha, hl⟩ := Res.bind_eq_ok.1 hl
  obtain ⟨b, hb, hl⟩ := Res.bind_eq_ok.1 hl
  simp only [Res.ok.injEq] at hl; subst hl
  obtain ⟨a1, b1, W1, p1, q1, n1⟩ := h a ha
  obtain ⟨a2, b2, W2, p2, q2, n2⟩ := h' b hb
  refine ⟨a1 + a2, b1 + b2, W1 + W2, by omega, ?_, (n1.mono (by omega) (by omega) le_rfl).append (n2.mono (by omega) (by omega) le_rfl)⟩
  nlinarith [Nat.zero_le (D * (v * w))]

theorem gridRes_one {r : Res (TNode F64)} {w : ℕ} (h : ∀ n, r = .ok n → GridGood k M size dpi D w [n]) : GridRes k M size dpi D w (r >>= fun n => .ok [n]) := by
  intro l hl
  obtain ⟨n, hn, e⟩ := Res.bind_eq_ok.1 hl
  simp only [Res.ok.injEq] at e; subst e
  exact h n hn

/-- The body made of a good list. -/
theorem GridGood.body (G : Grid k J V N D M) (hb : Bounded64 be (2 ^ k) J size dpi) {w : ℕ} {l : List (TNode F64)} (h : GridGood k M size dpi D w l) (hw : w ≤ N) :
    ∃ a b W, a + b ≤ 4 * w ∧ W ≤ D * w ^ 2 ∧ W ≤ M ∧ HBx k M a b W (hbody be l).1 (hbody be l).2 := by
  obtain ⟨a, b, W, h1, h2, h3⟩ := h
  have h4 : D * w ^ 2 ≤ D * N ^ 2 := Nat.mul_le_mul_left _ (Nat.pow_le_pow_left hw 2)
  have := G.m
  have := G.top
  exact ⟨a, b, W, h1, h2, by omega, hbody_grid G.mid hb (by omega) h3 (by omega)⟩

/-- A box as a good list. -/
theorem grid_good_box {a b W w : ℕ} {hd : LHead F64} {cs : List (TNode F64)} (G : Grid k J V N D M) (h : HBx k M a b W hd cs) (h1 : a + b ≤ 4 * w) (h2 : W ≤ D * w ^ 2)
    (hw : w ≤ N) : GridGood k M size dpi D w [.list .h hd cs] := by
  have h4 : D * w ^ 2 ≤ D * N ^ 2 := Nat.mul_le_mul_left _ (Nat.pow_le_pow_left hw 2)
  have := G.m
  exact ⟨a, b, W, h1, h2, (h.nd (by omega) (by omega) (by omega) 3).one⟩

theorem grid_good_one {a b m w : ℕ} {n : TNode F64} (h : Nd k M size dpi 3 a b m n) (h1 : a + b ≤ 4 * w) (h2 : m ≤ D * w ^ 2) : GridGood k M size dpi D w [n] :=
  ⟨a, b, m, h1, h2, h.one⟩

/-- Two parts and the name of a macro between them. -/
theorem square_two {D v w c n : ℕ} (h : c + v + w ≤ n) : D * v ^ 2 + D * w ^ 2 + 2 * c * (D * v) + 2 * c * (D * w) + D * c ^ 2 ≤ D * n ^ 2 := by
  have h1 : D * (c + v + w) ^ 2 ≤ D * n ^ 2 := Nat.mul_le_mul_left _ (Nat.pow_le_pow_left h 2)
  have h2 : D * (c + v + w) ^ 2 = D * v ^ 2 + D * w ^ 2 + 2 * c * (D * v) + 2 * c * (D * w) + D * c ^ 2 + 2 * (D * (v * w)) := by ring
  omega

theorem Grid.eight (G : Grid k J V N D M) : 8 * J ≤ D := by have := G.d; omega

theorem Grid.mul (G : Grid k J V N D M) (v : ℕ) : 8 * (J * v) ≤ D * v := by
  have := Nat.mul_le_mul_right v G.eight
  rwa [Nat.mul_assoc] at this

theorem one_le_sq {D w : ℕ} (hw : 1 ≤ w) : D ≤ D * w ^ 2 := Nat.le_mul_of_pos_right _ (Nat.pow_pos hw)

theorem le_sq {D w : ℕ} : D * w ≤ D * w ^ 2 := Nat.mul_le_mul_left _ (by nlinarith [Nat.zero_le w, sq_nonneg ((w : ℤ) - 1), Nat.le_self_pow (n := 2) (by norm_num) w])

theorem two_args {F : Type} [GoFloat F] {P : Node → Res (List (TNode F)) → Prop} {args : List Node} {rs : List (Res (List (TNode F)))} {n : TNode F}
    {f : List (TNode F) → List (TNode F) → Res (TNode F)} {e : Panic} (h : List.Forall₂ (fun r a => P a r) rs args)
    (hok : (match args, rs with
      | .arg .. :: .arg .. :: _, r1 :: r2 :: _ => r1 >>= fun a => r2 >>= fun b => f a b
      | _, _ => .panic e) = .ok n) :
    ∃ m1 m2 a b, P m1 (.ok a) ∧ P m2 (.ok b) ∧ f a b = .ok n ∧ weight m1 + weight m2 ≤ weights args := by
  split at hok
  · rcases h with _ | ⟨h1, _ | ⟨h2, h3⟩⟩
    obtain ⟨a, ha, hok⟩ := Res.bind_eq_ok.1 hok
    obtain ⟨b, hb, hok⟩ := Res.bind_eq_ok.1 hok
    exact ⟨_, _, a, b, ha ▸ h1, hb ▸ h2, hok, by simp only [weights]; omega⟩
  · cases hok

/-- The numbers among the literals of the trees of a list are bounded. -/
def NumsIn (num : GoString → Option F64) (V : ℕ) (l : List Node) : Prop := ∀ p t, Node.lit p t ∈ allNodesL l → ∀ v, num t = some v → Within V v

theorem build_grid (G : Grid k J V N D M) (hb : Bounded64 be (2 ^ k) J size dpi) {st : TState F64} (hs : St size dpi st) (math : Bool) (h : Hk) (pos : ℕ) (t : GoString)
    (hk : handlerOf t = some h) (args : List Node) (hnum : NumsIn num V args) (rs : List (Res (List (TNode F64))))
    (hr : List.Forall₂ (fun r a => GridRes k M size dpi D (weight a) r) rs args) (n : TNode F64)
    (hN : max 1 t.length + weights args ≤ N) (hn : build be num x st math h pos t args rs = .ok n) :
    GridGood k M size dpi D (max 1 t.length + weights args) [n] := by
  have hlen := handler_length hk
  have hm := G.m
  have htop := G.top
  have h8 := G.eight
  have hj := G.one
  have hd := G.d
  have hw1 : 1 ≤ max 1 t.length + weights args := by omega
  have hww : D * (max 1 t.length + weights args) ^ 2 ≤ D * N ^ 2 := Nat.mul_le_mul_left _ (Nat.pow_le_pow_left hN 2)
  cases h <;> unfold build at hn <;> dsimp only at hn
  case space => exact grid_good_one (handleSpace_grid G.mid hb hs (by omega) hn 3 0 0) (by omega) ((by omega : 2 ≤ D).trans (one_le_sq hw1))
  case symbol => exact grid_good_one (handleSymbol_grid G.mid hb hs (by omega) htop hn) (by omega) ((by omega : 6 ≤ D).trans (one_le_sq hw1))
  case function =>
    unfold handleFunction at hn
    obtain ⟨l, hl, hn⟩ := Res.bind_eq_ok.1 hn
    simp only [Res.ok.injEq] at hn; subst hn
    have hs' : St size dpi (st.withType bs!"rm") := ⟨hs.size, hs.dpi, hs.name⟩
    have hc := newChars_grid G.mid hb hs' (M := M) (by omega) hl
    have hdl := decode_length (t.drop 1)
    have hdl' : (t.drop 1).length ≤ t.length := by simp
    have hq : 4 * (decode (t.drop 1)).length ≤ D * (max 1 t.length + weights args) ^ 2 :=
      (Nat.mul_le_mul (by omega : 4 ≤ D) (by omega : (decode (t.drop 1)).length ≤ max 1 t.length + weights args)).trans le_sq
    exact grid_good_one (hlistOf_grid G.mid hb (by omega) hc (by omega) (by omega) (by omega) (by omega) 3) (by omega) hq
  case hspace =>
    split at hn
    · rename_i t' _ _ _
      split at hn
      · rename_i v hv
        obtain ⟨q, hq1, hq2⟩ := hnum _ t' (by simp only [allNodesL, allNodes, List.cons_append, List.mem_cons, List.mem_append]; exact .inr (.inl rfl)) v hv
        have hV := (by omega : V ≤ D).trans (one_le_sq hw1)
        exact grid_good_one (makeSpace_grid G.mid hb hs (V := V) (by omega) (by omega) hq1 hq2 hn 3 0 0) (by omega) hV
      · cases hn
    · cases hn
  case frac | tfrac | dfrac =>
    have h5 := (hlen (by simp)).1
    obtain ⟨m1, m2, a, b, ga, gb, e, hw⟩ := two_args (P := fun m r => GridRes k M size dpi D (weight m) r) hr hn
    replace ga := ga a rfl
    replace gb := gb b rfl
    generalize weight m1 = v at ga hw
    generalize weight m2 = w at gb hw
    obtain ⟨a₁, b₁, W₁, i1, i2, i3, i4⟩ := ga.body G hb (by omega)
    obtain ⟨a₂, b₂, W₂, j1, j2, j3, j4⟩ := gb.body G hb (by omega)
    have hsq := square_two (D := D) (v := v) (w := w) (c := 5) (n := max 1 t.length + weights args) (by omega)
    obtain ⟨hd, cs, rfl, hB⟩ := genfrac_grid G.mid hb hs htop i4 j4 (W := W₁ + W₂) (by omega) (by omega) (by omega) (by omega) (.inr (underline_in hb hs)) _ e
    exact grid_good_box G hB (by omega) (by omega) hN
  case binom =>
    have h6 := (hlen (by simp)).2 rfl
    obtain ⟨m1, m2, a, b, ga, gb, e, hw⟩ := two_args (P := fun m r => GridRes k M size dpi D (weight m) r) hr hn
    replace ga := ga a rfl
    replace gb := gb b rfl
    generalize weight m1 = v at ga hw
    generalize weight m2 = w at gb hw
    obtain ⟨a₁, b₁, W₁, i1, i2, i3, i4⟩ := ga.body G hb (by omega)
    obtain ⟨a₂, b₂, W₂, j1, j2, j3, j4⟩ := gb.body G hb (by omega)
    have hsq := square_two (D := D) (v := v) (w := w) (c := 6) (n := max 1 t.length + weights args) (by omega)
    have m1 := G.mul v
    have m2 := G.mul w
    have m3 : J * (a₁ + b₁ + a₂ + b₂ + 15) ≤ 4 * (J * v) + 4 * (J * w) + 15 * J := by
      have : J * (a₁ + b₁ + a₂ + b₂ + 15) ≤ J * (4 * v + 4 * w + 15) := Nat.mul_le_mul_left _ (by omega)
      refine this.trans (le_of_eq (by ring))
    obtain ⟨hd, cs, rfl, hB⟩ := binom_grid G.mid hb hj G.j hs htop i4 j4 (W := W₁ + W₂) (by omega) (by omega) (by omega) (by omega) _ e
    exact grid_good_box G hB (by omega) (by omega) hN
  case sqrt =>
    have h5 := (hlen (by simp)).1
    have key : ∀ (v w : ℕ) (hvw : 5 + v + w ≤ max 1 t.length + weights args) (b : List (TNode F64)) (root : Option (TNode F64)) (aᵣ bᵣ Wᵣ : ℕ),
        GridGood k M size dpi D w b → (∀ r, root = some r → ∃ rh rc, r = .list .h rh rc ∧ HBx k M aᵣ bᵣ Wᵣ rh rc) → aᵣ + bᵣ ≤ 4 * v → Wᵣ ≤ D * v ^ 2 →
        buildSqrt be root (hbody be b).1 (hbody be b).2 st = .ok n → GridGood k M size dpi D (max 1 t.length + weights args) [n] := by
      intro v w hvw b root aᵣ bᵣ Wᵣ gb hR k1 k2 e
      obtain ⟨a₂, b₂, W₂, j1, j2, j3, j4⟩ := gb.body G hb (by omega)
      have hsq := square_two (D := D) (v := v) (w := w) (c := 5) (n := max 1 t.length + weights args) (by omega)
      have m2 := G.mul w
      have m3 : J * (a₂ + b₂ + 5) ≤ 4 * (J * w) + 5 * J := by
        have : J * (a₂ + b₂ + 5) ≤ J * (4 * w + 5) := Nat.mul_le_mul_left _ (by omega)
        refine this.trans (le_of_eq (by ring))
      obtain ⟨hd, cs, rfl, hB⟩ := sqrt_grid G.mid hb hj G.j hs htop j4 hR (by omega) (by omega) e
      exact grid_good_box G hB (by omega) (by omega) hN
    split at hn
    · rcases hr with _ | ⟨h1, _ | ⟨h2, h3⟩⟩
      obtain ⟨a, ha, hn⟩ := Res.bind_eq_ok.1 hn
      obtain ⟨b, hb', hn⟩ := Res.bind_eq_ok.1 hn
      simp only [weights] at hN hww key ⊢
      obtain ⟨a₁, b₁, W₁, i1, i2, i3, i4⟩ := (h1 a ha).body G hb (by omega)
      exact key _ _ (by omega) b _ a₁ b₁ W₁ (h2 b hb') (fun r hr => ⟨_, _, by cases hr; rfl, i4⟩) i1 i2 hn
    · rcases hr with _ | ⟨h1, h2⟩
      obtain ⟨b, hb', hn⟩ := Res.bind_eq_ok.1 hn
      simp only [weights] at hN hww key ⊢
      exact key 0 _ (by omega) b none 0 0 0 (h1 b hb') (fun r hr => by cases hr) (by omega) (by omega) hn
    · cases hn
  case overline =>
    have h5 := (hlen (by simp)).1
    split at hn
    · rcases hr with _ | ⟨h1, h2⟩
      obtain ⟨b, hb', hn⟩ := Res.bind_eq_ok.1 hn
      simp only [weights] at hN hww ⊢
      obtain ⟨a₁, b₁, W₁, i1, i2, i3, i4⟩ := (h1 b hb').body G hb (by omega)
      obtain ⟨hd, cs, rfl, hB⟩ := overline_grid G.mid hb hs htop i4 (by omega) (by omega) hn
      refine grid_good_box G hB (by omega) (i2.trans ?_) hN
      exact Nat.mul_le_mul_left _ (Nat.pow_le_pow_left (by omega) 2)
    · cases hn

/-! ## The walk -/

section
variable (G : Grid k J V N D M) (hb : Bounded64 be (2 ^ k) J size dpi)
include G hb

theorem sym_grid (p : ℕ) (t : GoString) {st : TState F64} (hs : St size dpi st) (math : Bool) (hN : max 1 t.length ≤ N) :
    GridRes k M size dpi D (max 1 t.length) (visitN be num x st math (.sym p t)) := by
  have hm := G.m
  have h8 := G.eight
  have hj := G.one
  have hw1 : 1 ≤ max 1 t.length := by omega
  simp only [visitN]
  cases math
  · simp only [Bool.false_eq_true, if_false]
    intro l hl
    obtain ⟨c, hc, hl⟩ := Res.bind_eq_ok.1 hl
    simp only [Res.ok.injEq] at hl; subst hl
    exact grid_good_one (newChar_grid G.mid hb (by omega) hs hc) (by omega) ((by omega : 4 ≤ D).trans (one_le_sq hw1))
  · simp only [if_true]
    refine gridRes_one fun n hn => ?_
    cases hk : handlerOf t with
    | none => rw [hk] at hn; cases hn
    | some k =>
      rw [hk] at hn
      cases k <;> try (cases hn)
      case space => exact grid_good_one (handleSpace_grid G.mid hb hs (by omega) hn 3 0 0) (by omega) ((by omega : 2 ≤ D).trans (one_le_sq hw1))
      case symbol => exact grid_good_one (handleSymbol_grid G.mid hb hs (by omega) G.top hn) (by omega) ((by omega : 6 ≤ D).trans (one_le_sq hw1))

theorem word_grid (p : ℕ) (t : GoString) {st : TState F64} (hs : St size dpi st) (math : Bool) (hN : max 1 t.length ≤ N) :
    GridRes k M size dpi D (max 1 t.length) (visitN be num x st math (.word p t)) := by
  have hm := G.m
  have h8 := G.eight
  have hj := G.one
  have htop := G.top
  simp only [visitN]
  intro l hl
  obtain ⟨c, hc, hl⟩ := Res.bind_eq_ok.1 hl
  simp only [Res.ok.injEq] at hl; subst hl
  have hd := decode_length t
  have hq : 4 * (decode t).length ≤ D * (max 1 t.length) ^ 2 :=
    (Nat.mul_le_mul (by omega : 4 ≤ D) (by omega : (decode t).length ≤ max 1 t.length)).trans le_sq
  have hww : D * (max 1 t.length) ^ 2 ≤ D * N ^ 2 := Nat.mul_le_mul_left _ (Nat.pow_le_pow_left hN 2)
  exact grid_good_one (hlistOf_grid G.mid hb (by omega) (newChars_grid G.mid hb hs (by omega) hc) (by omega) (by omega) (by omega) (by omega) 3) (by omega) hq

theorem lit_grid (p : ℕ) (t : GoString) {st : TState F64} (hs : St size dpi st) (math : Bool) (hN : max 1 t.length ≤ N) :
    GridRes k M size dpi D (max 1 t.length) (visitN be num x st math (.lit p t)) := by
  have hm := G.m
  have h8 := G.eight
  have hj := G.one
  simp only [visitN]
  intro l hl
  have hd := decode_length t
  have hq : 6 * (decode t).length ≤ D * (max 1 t.length) ^ 2 :=
    (Nat.mul_le_mul (by omega : 6 ≤ D) (by omega : (decode t).length ≤ max 1 t.length)).trans le_sq
  exact ⟨1, 2, _, by omega, hq, literalChars_grid G.mid hb hs (by omega) G.top hl⟩

end

theorem NumsIn.head {n : Node} {l : List Node} (h : NumsIn num V (n :: l)) : NumsIn num V [n] := fun p t ht =>
  h p t (by simp only [allNodesL, List.append_nil] at ht ⊢; simp [ht])

theorem NumsIn.tail {n : Node} {l : List Node} (h : NumsIn num V (n :: l)) : NumsIn num V l := fun p t ht =>
  h p t (by simp only [allNodesL]; simp [ht])

theorem NumsIn.kids {n : Node} {l : List Node} (h : NumsIn num V [n]) (hn : ∀ m ∈ allNodesL l, m ∈ allNodes n) : NumsIn num V l := fun p t ht =>
  h p t (by simp only [allNodesL, List.append_nil]; exact hn _ ht)

mutual
theorem visit_grid (G : Grid k J V N D M) (hb : Bounded64 be (2 ^ k) J size dpi) : ∀ (n : Node) (st : TState F64) (_ : St size dpi st) (math : Bool) (_ : NumsIn num V [n]) (_ : weight n ≤ N),
    GridRes k M size dpi D (weight n) (visitN be num x st math n)
  | .list l, st, _, math, _, _ => by simp only [visitN]; exact gridRes_nil
  | .nil, st, _, math, _, _ => by simp only [visitN]; exact gridRes_nil
  | .sym p t, st, hs, math, _, hN => sym_grid G hb p t hs math hN
  | .word p t, st, hs, math, _, hN => word_grid G hb p t hs math hN
  | .lit p t, st, hs, math, _, hN => lit_grid G hb p t hs math hN
  | .math d a l b, st, hs, math, hv, hN => by
    simp only [weight] at hN
    simp only [visitN, weight]
    exact (visitAll_grid G hb l (st.withType mathDefault) ⟨hs.size, hs.dpi, hs.name⟩ true (hv.kids (by simp [allNodes]; tauto)) (by omega)).mono (by omega)
  | .macro none _, _, _, _, _, _ => by simp only [visitN]; exact gridRes_panic
  | .macro (some (p, name)) args, st, hs, math, hv, hN => by
    simp only [weight] at hN
    simp only [visitN, weight]
    have hv' : NumsIn num V args := hv.kids (by simp [allNodes]; tauto)
    cases hk : handlerOf name with
    | none => exact gridRes_panic
    | some h => exact gridRes_one fun n hn => build_grid G hb hs math h p name hk args hv' _ (walkArgs_grid G hb args st hs math hv' (by omega)) n hN hn
  | .arg .., _, _, _, _, _ => by simp only [visitN]; exact gridRes_panic
  | .optArg .., _, _, _, _, _ => by simp only [visitN]; exact gridRes_panic
  | .ident .., _, _, _, _, _ => by simp only [visitN]; exact gridRes_panic
  | .sub .., _, _, _, _, _ => by simp only [visitN]; exact gridRes_panic
  | .sup .., _, _, _, _, _ => by simp only [visitN]; exact gridRes_panic
theorem visitAll_grid (G : Grid k J V N D M) (hb : Bounded64 be (2 ^ k) J size dpi) : ∀ (l : List Node) (st : TState F64) (_ : St size dpi st) (math : Bool) (_ : NumsIn num V l) (_ : weights l ≤ N),
    GridRes k M size dpi D (weights l) (visitAll be num x st math l)
  | [], st, _, math, _, _ => by simp only [visitAll]; exact gridRes_nil
  | n :: l, st, hs, math, hv, hN => by
    simp only [weights] at hN
    simp only [visitAll, weights]
    exact gridRes_append (visit_grid G hb n st hs math hv.head (by omega)) (visitAll_grid G hb l st hs math hv.tail (by omega))
theorem walk_grid (G : Grid k J V N D M) (hb : Bounded64 be (2 ^ k) J size dpi) : ∀ (n : Node) (st : TState F64) (_ : St size dpi st) (math : Bool) (_ : NumsIn num V [n]) (_ : weight n ≤ N),
    GridRes k M size dpi D (weight n) (walkN be num x st math n)
  | .list l, st, hs, math, hv, hN => by
    simp only [weight] at hN
    simp only [walkN, weight]
    exact (walkAll_grid G hb l st hs math (hv.kids (by simp [allNodes]; tauto)) (by omega)).mono (by omega)
  | .nil, st, _, math, _, _ => by simp only [walkN]; exact gridRes_panic
  | .sym p t, st, hs, math, _, hN => by rw [walkN]; exact sym_grid G hb p t hs math hN
  | .word p t, st, hs, math, _, hN => by rw [walkN]; exact word_grid G hb p t hs math hN
  | .lit p t, st, hs, math, _, hN => by rw [walkN]; exact lit_grid G hb p t hs math hN
  | .math d a l b, st, hs, math, hv, hN => by
    simp only [weight] at hN
    simp only [walkN, weight]
    exact (visitAll_grid G hb l (st.withType mathDefault) ⟨hs.size, hs.dpi, hs.name⟩ true (hv.kids (by simp [allNodes]; tauto)) (by omega)).mono (by omega)
  | .macro none _, _, _, _, _, _ => by simp only [walkN, visitN]; exact gridRes_panic
  | .macro (some (p, name)) args, st, hs, math, hv, hN => by
    simp only [weight] at hN
    simp only [walkN, visitN, weight]
    have hv' : NumsIn num V args := hv.kids (by simp [allNodes]; tauto)
    cases hk : handlerOf name with
    | none => exact gridRes_panic
    | some h => exact gridRes_one fun n hn => build_grid G hb hs math h p name hk args hv' _ (walkArgs_grid G hb args st hs math hv' (by omega)) n hN hn
  | .arg .., _, _, _, _, _ => by simp only [walkN]; exact gridRes_panic
  | .optArg .., _, _, _, _, _ => by simp only [walkN]; exact gridRes_panic
  | .ident .., _, _, _, _, _ => by simp only [walkN]; exact gridRes_panic
  | .sub .., _, _, _, _, _ => by simp only [walkN]; exact gridRes_panic
  | .sup .., _, _, _, _, _ => by simp only [walkN]; exact gridRes_panic
theorem walkAll_grid (G : Grid k J V N D M) (hb : Bounded64 be (2 ^ k) J size dpi) : ∀ (l : List Node) (st : TState F64) (_ : St size dpi st) (math : Bool) (_ : NumsIn num V l) (_ : weights l ≤ N),
    GridRes k M size dpi D (weights l) (walkAll be num x st math l)
  | [], st, _, math, _, _ => by simp only [walkAll]; exact gridRes_nil
  | n :: l, st, hs, math, hv, hN => by
    simp only [weights] at hN
    simp only [walkAll, weights]
    exact gridRes_append (walk_grid G hb n st hs math hv.head (by omega)) (walkAll_grid G hb l st hs math hv.tail (by omega))
theorem walkArg_grid (G : Grid k J V N D M) (hb : Bounded64 be (2 ^ k) J size dpi) : ∀ (n : Node) (st : TState F64) (_ : St size dpi st) (math : Bool) (_ : NumsIn num V [n]) (_ : weight n ≤ N),
    GridRes k M size dpi D (weight n) (walkArg be num x st math n)
  | .arg _ l _, st, hs, math, hv, hN => by
    simp only [weight] at hN
    simp only [walkArg, weight]
    exact (walkAll_grid G hb l st hs math (hv.kids (by simp [allNodes]; tauto)) (by omega)).mono (by omega)
  | .optArg _ l _, st, hs, math, hv, hN => by
    simp only [weight] at hN
    simp only [walkArg, weight]
    exact (walkAll_grid G hb l st hs math (hv.kids (by simp [allNodes]; tauto)) (by omega)).mono (by omega)
  | .nil, _, _, _, _, _ => by simp only [walkArg]; exact gridRes_panic
  | .list _, _, _, _, _, _ => by simp only [walkArg]; exact gridRes_panic
  | .macro _ _, _, _, _, _, _ => by simp only [walkArg]; exact gridRes_panic
  | .ident _ _, _, _, _, _, _ => by simp only [walkArg]; exact gridRes_panic
  | .math _ _ _ _, _, _, _, _, _ => by simp only [walkArg]; exact gridRes_panic
  | .word _ _, _, _, _, _, _ => by simp only [walkArg]; exact gridRes_panic
  | .lit _ _, _, _, _, _, _ => by simp only [walkArg]; exact gridRes_panic
  | .sym _ _, _, _, _, _, _ => by simp only [walkArg]; exact gridRes_panic
  | .sub _ _, _, _, _, _, _ => by simp only [walkArg]; exact gridRes_panic
  | .sup _ _, _, _, _, _, _ => by simp only [walkArg]; exact gridRes_panic
theorem walkArgs_grid (G : Grid k J V N D M) (hb : Bounded64 be (2 ^ k) J size dpi) : ∀ (l : List Node) (st : TState F64) (_ : St size dpi st) (math : Bool) (_ : NumsIn num V l) (_ : weights l ≤ N),
    List.Forall₂ (fun r a => GridRes k M size dpi D (weight a) r) (walkArgs be num x st math l) l
  | [], st, _, math, _, _ => by simp only [walkArgs]; exact .nil
  | n :: as, st, hs, math, hv, hN => by
    simp only [weights] at hN
    simp only [walkArgs]
    exact .cons (walkArg_grid G hb n st hs math hv.head (by omega)) (walkArgs_grid G hb as st hs math hv.tail (by omega))
end

end Verif
