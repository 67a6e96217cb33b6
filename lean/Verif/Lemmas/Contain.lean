import Verif.Spec.Contain
import Verif.Lemmas.Finite
import Verif.Props.Radical
/-! # What is drawn stays in its box -/

namespace Verif
open Spec GoFloat XR

/-- The number (0 if it is none). -/
def XR.val : XR → ℚ
  | .fin q => q
  | _ => 0

@[simp] theorem XR.val_fin (q : ℚ) : (XR.fin q).val = q := rfl

end Verif

namespace Verif.Spec
open Verif XR

theorem IsNum.eq_val {x : XR} (h : IsNum x) : x = .fin x.val := by obtain ⟨q, rfl⟩ := h; rfl
theorem IsNum.val_add {a b : XR} (ha : IsNum a) (hb : IsNum b) : (a + b).val = a.val + b.val := by
  obtain ⟨p, rfl⟩ := ha; obtain ⟨q, rfl⟩ := hb; rfl
theorem IsNum.val_sub {a b : XR} (ha : IsNum a) (hb : IsNum b) : (a - b).val = a.val - b.val := by
  obtain ⟨p, rfl⟩ := ha; obtain ⟨q, rfl⟩ := hb; simp
theorem IsNum.val_max {a b : XR} (ha : IsNum a) (hb : IsNum b) : (GoFloat.max a b).val = Max.max a.val b.val := by
  obtain ⟨p, rfl⟩ := ha; obtain ⟨q, rfl⟩ := hb; simp
theorem IsNum.val_mul {a : XR} (ha : IsNum a) (q : ℚ) : (a * .fin q).val = a.val * q := by
  obtain ⟨p, rfl⟩ := ha; rfl

end Verif.Spec

namespace Verif
open Spec GoFloat XR Props

section
variable (M : Extents) (G : Bool → Prop)

/-- The dimensions of the character are those of its glyph. -/
def TrueChar (c : CharD XR) : Prop :=
  ∃ m, G m ∧ c.height.val = (M c.c c.font.name c.font.typ c.dpi m).1 * c.font.size.val ∧
    c.depth.val = (M c.c c.font.name c.font.typ c.dpi m).2 * c.font.size.val

/-- On a baseline, the node reaches at most `H` above and `D` below. -/
def Under (H D : ℚ) : TNode XR → Prop
  | .char c => c.height.val ≤ H ∧ c.depth.val ≤ D
  | .list _ nd _ => nd.box.height.val - nd.shift.val ≤ H ∧ nd.box.depth.val + nd.shift.val ≤ D
  | .rule _ => False
  | .accent _ => False
  | _ => True

/-- A node at `y` below the top of a vertical list without glue, `T` high in total, is inside.  Rules are
drawn lower than they stand, by their own thickness. -/
def Slot (T y : ℚ) : TNode XR → Prop
  | .list .h nd _ => 0 ≤ y ∧ y + (nd.box.height.val + nd.box.depth.val) ≤ T
  | .rule b => 0 < b.height.val + b.depth.val → 0 < b.depth.val → 0 ≤ y ∧ y + 2 * (b.height.val + b.depth.val) ≤ T
  | .box _ => True
  | _ => False

/-- All nodes are inside. -/
def Stack (T : ℚ) : ℚ → List (TNode XR) → Prop
  | _, [] => True
  | y, n :: l => Slot T y n ∧ Stack T (y + (vspace n).val) l

/-- A vertical list of a rule, a filling glue and a body, `T` high in total. -/
structure Bar (nd : LHead XR) (cs : List (TNode XR)) (b : BoxD XR) (g : GlueD XR) (bd : LHead XR) (bc : List (TNode XR)) (x : ℚ) : Prop where
  nodes : cs = [.rule b, .glue g, .list .h bd bc]
  sign : nd.sign = 1
  order : nd.order = 2
  set : nd.set = .fin x
  low : 0 ≤ x
  high : x ≤ 1000000000
  width : g.width = .fin 0
  stretch : g.stretch = .fin 1
  stretchOrder : g.stretchOrder = 2
  above : 0 ≤ b.height.val
  below : 0 < b.depth.val
  total : b.height.val + b.depth.val + x + (bd.box.height.val + bd.box.depth.val) = nd.box.height.val + nd.box.depth.val
  room : b.height.val + b.depth.val ≤ x + (bd.box.height.val + bd.box.depth.val)

mutual
/-- Every box of the tree holds what it is made of, with at most `k` bars one inside another. -/
def Inv : Nat → TNode XR → Prop
  | _, .char c => c.size ≤ 6 ∧ TrueChar M G c
  | _, .accent _ => False
  | _, .box b => b.size ≤ 6
  | _, .rule b => b.size ≤ 6
  | _, .glue g => g.size ≤ 6
  | _, .kern k => k.size ≤ 6
  | k, .list .h nd cs => nd.box.size ≤ 6 ∧ (∀ n ∈ cs, Under nd.box.height.val nd.box.depth.val n) ∧ Invs k cs
  | k, .list .v nd cs => nd.box.size ≤ 6 ∧
      ((Stack (nd.box.height.val + nd.box.depth.val) 0 cs ∧ Invs k cs) ∨
        (∃ j b g bd bc x, k = j + 1 ∧ Bar nd cs b g bd bc x ∧ Invs j cs))
  | _, .list .plain _ _ => False
/-- ... for all nodes -/
def Invs : Nat → List (TNode XR) → Prop
  | _, [] => True
  | k, n :: l => Inv k n ∧ Invs k l
end

end

variable {M : Extents} {G : Bool → Prop}

theorem invs_iff {k : Nat} {l : List (TNode XR)} : Invs M G k l ↔ ∀ n ∈ l, Inv M G k n := by
  induction l with
  | nil => simp [Invs]
  | cons n l ih => simp [Invs, ih]

mutual
theorem Inv.up : ∀ (n : TNode XR) (k : Nat), Inv M G k n → Inv M G (k + 1) n
  | .list .h nd cs, k, h => by
    rw [Inv] at h ⊢
    exact ⟨h.1, h.2.1, Invs.up cs k h.2.2⟩
  | .list .v nd cs, k, h => by
    rw [Inv] at h ⊢
    refine ⟨h.1, ?_⟩
    rcases h.2 with ⟨h1, h2⟩ | ⟨j, b, g, bd, bc, x, rfl, h1, h2⟩
    · exact .inl ⟨h1, Invs.up cs k h2⟩
    · exact .inr ⟨j + 1, b, g, bd, bc, x, rfl, h1, Invs.up cs j h2⟩
  | .list .plain _ _, _, h => by simp only [Inv] at h
  | .char _, _, h => by rw [Inv] at h ⊢; exact h
  | .accent _, _, h => by simp only [Inv] at h
  | .box _, _, h => by rw [Inv] at h ⊢; exact h
  | .rule _, _, h => by rw [Inv] at h ⊢; exact h
  | .glue _, _, h => by rw [Inv] at h ⊢; exact h
  | .kern _, _, h => by rw [Inv] at h ⊢; exact h
theorem Invs.up : ∀ (l : List (TNode XR)) (k : Nat), Invs M G k l → Invs M G (k + 1) l
  | [], _, _ => trivial
  | n :: l, k, h => by rw [Invs] at h ⊢; exact ⟨Inv.up n k h.1, Invs.up l k h.2⟩
end

/-! ## Containment -/

theorem _root_.Verif.Spec.Inside.wider {lo hi lo' hi' : ℚ} {d : Draw XR} (h : Inside M G lo hi d) (h1 : lo' ≤ lo) (h2 : hi ≤ hi') : Inside M G lo' hi' d := by
  cases d with
  | rect =>
    obtain ⟨a, b, e1, e2, h3, h4, h5⟩ := h
    exact ⟨a, b, e1, e2, by linarith, h4, by linarith⟩
  | glyph =>
    obtain ⟨a, s, m, g, e1, e2, h3, h4⟩ := h
    exact ⟨a, s, m, g, e1, e2, by linarith, by linarith⟩

theorem half_pos (k : Nat) : (0 : ℚ) ≤ k / 2 := by positivity

/-- What the horizontal lists among the nodes draw on their own baselines is inside. -/
def EachInside (M : Extents) (G : Bool → Prop) (k : Nat) (cs : List (TNode XR)) : Prop :=
  ∀ bd bc, .list .h bd bc ∈ cs → ∀ (x : XR) (b : ℚ), ∀ d ∈ paintHs bd x (.fin b) [] bc,
    Inside M G (b - bd.box.height.val - k / 2) (b + bd.box.depth.val + k / 2) d

theorem stack_inside (T : ℚ) (k : Nat) (hd : LHead XR) (x : XR) (y0 : ℚ) : ∀ (cs : List (TNode XR)) (y : ℚ) (pre : List (TNode XR)),
    NumTs true cs → EachInside M G k cs → Stack T y cs → gluesOf pre = [] → pre.foldl (fun x n => x + vspace n) zero = .fin y →
    ∀ d ∈ paintVs hd x (.fin y0) pre cs, Inside M G (y0 - k / 2) (y0 + T + k / 2) d
  | [], _, _, _, _, _, _, _ => by rw [paintVs]; intro d hd; cases hd
  | n :: l, y, pre, hn, he, hs, hg, hp => by
    rw [NumTs] at hn
    rw [Stack] at hs
    rw [paintVs, vadvance_none hd pre hg, hp, fin_add]
    have h0 := half_pos k
    intro d hd'
    have hv := vspace_num hn.1
    have hng : gluesOf (pre ++ [n]) = [] := by
      have : gluesOf [n] = [] := by
        cases n <;> first | rfl | exact hs.1.elim
      unfold gluesOf at *
      rw [List.filterMap_append, hg, this]; rfl
    have hpp : (pre ++ [n]).foldl (fun x n => x + vspace n) zero = .fin (y + (vspace n).val) := by
      rw [List.foldl_append, hp, List.foldl_cons, List.foldl_nil, hv.eq_val, fin_add]; rfl
    rcases List.mem_append.1 hd' with h | h
    · cases n with
      | list kd nd cs =>
        cases kd with
        | h =>
          rw [NumT] at hn
          rw [paintV, hn.1.1.2.1.eq_val, fin_add] at h
          obtain ⟨h1, h2⟩ := hs.1
          exact (he nd cs (by simp) _ _ d h).wider (by linarith) (by linarith)
        | v => exact hs.1.elim
        | plain => exact hs.1.elim
      | rule b =>
        rw [NumT] at hn
        obtain ⟨-, -, e1, e2⟩ := hn.1
        rw [paintV] at h
        have hs1 := hs.1
        simp only [Slot] at hs1
        rw [e1.eq_val, e2.eq_val, fin_add] at h
        unfold pos at h
        rw [zero_fin, fin_lt, fin_lt] at h
        by_cases hc : 0 < b.height.val + b.depth.val ∧ 0 < b.depth.val
        · obtain ⟨q1, q2⟩ := hs1 hc.1 hc.2
          rw [if_pos (by simp [hc.1, hc.2])] at h
          rw [List.mem_singleton] at h
          rw [h, fin_add, fin_add]
          refine ⟨_, _, rfl, rfl, ?_, ?_, ?_⟩ <;> linarith [hc.1]
        · rw [if_neg (by simpa using hc)] at h
          cases h
      | box b => rw [paintV] at h; cases h; all_goals simp
      | char => exact hs.1.elim
      | accent => exact hs.1.elim
      | glue => exact hs.1.elim
      | kern => exact hs.1.elim
    · exact stack_inside T k hd x y0 l _ _ hn.2 (fun bd bc hm => he bd bc (by simp [hm])) hs.2 hng hpp d h

theorem vspace_rule {b : BoxD XR} (e1 : IsNum b.height) (e2 : IsNum b.depth) (h1 : 0 < b.height.val + b.depth.val) (h2 : 0 < b.depth.val) :
    vspace (.rule b) = .fin (b.height.val + b.depth.val) := by
  obtain ⟨h, rfl⟩ : ∃ h, b = h := ⟨_, rfl⟩
  obtain ⟨sz, w, ht, dp⟩ := b
  obtain ⟨p, hp⟩ := e1
  obtain ⟨q, hq⟩ := e2
  dsimp only at hp hq h1 h2
  subst hp hq
  simp only [val_fin] at h1 h2
  simp [vspace, TNode.height, TNode.depth, pos, h1, h2]

theorem bar_inside {nd : LHead XR} {cs : List (TNode XR)} {b : BoxD XR} {g : GlueD XR} {bd : LHead XR} {bc : List (TNode XR)} {q : ℚ}
    (hb : Bar nd cs b g bd bc q) (k : Nat) (x : XR) (y0 : ℚ) (hn : NumTs true cs) (he : EachInside M G k cs) :
    ∀ d ∈ paintVs nd x (.fin y0) [] cs,
      Inside M G (y0 - (k + 1 : Nat) / 2) (y0 + (nd.box.height.val + nd.box.depth.val) + (k + 1 : Nat) / 2) d := by
  obtain ⟨rfl, h1, h2, h3, h4, h5, h6, h7, h8, h9, h10, h11, h12⟩ := hb
  have h0 := half_pos k
  have hk : ((k + 1 : Nat) : ℚ) / 2 = k / 2 + 1 / 2 := by push_cast; ring
  rw [hk]
  simp only [NumTs, NumT] at hn
  obtain ⟨⟨-, -, e1, e2⟩, -, ⟨⟨e3, e4, e5, e6⟩, -⟩, -⟩ := hn
  have hr : ∃ r : Int, vadvance nd [.rule b, .glue g] = .fin (b.height.val + b.depth.val + r) ∧ |(r : ℚ) - q| ≤ 1 / 2 := by
    refine ⟨GoFloat.round (clamp (.fin q : XR)), ?_, round_clamp (by rw [abs_le]; constructor <;> linarith)⟩
    have : glueOffset nd [.rule b, .glue g] = GoFloat.round (clamp (.fin q : XR)) := by
      simp [glueOffset, gluesOf, stretchTotal, h1, h2, h3, h7, h8]
    rw [vadvance, this]
    simp only [List.foldl_cons, List.foldl_nil, vspace_rule e1 e2 (by linarith) h10]
    simp only [vspace, h6, zero_fin, XR.ofInt_fin, fin_add, XR.fin.injEq]; ring
  obtain ⟨r, hr, hq⟩ := hr
  obtain ⟨hq1, hq2⟩ := abs_le.1 hq
  simp only [paintVs, List.nil_append, List.append_nil, List.cons_append]
  rw [hr, vadvance_none nd [] rfl]
  simp only [List.foldl_nil, paintV, List.nil_append]
  rw [e1.eq_val, e2.eq_val, e4.eq_val, fin_add, zero_fin]
  unfold pos
  rw [zero_fin, fin_lt, fin_lt, if_pos (by simp; constructor <;> linarith)]
  simp only [fin_add, val_fin]
  intro d hd
  rw [List.singleton_append, List.mem_cons] at hd
  rcases hd with rfl | hd
  · refine ⟨_, _, rfl, rfl, ?_, ?_, ?_⟩ <;> linarith
  · refine (he bd bc (by simp) _ _ d hd).wider ?_ ?_ <;> linarith

mutual
theorem inside_h : ∀ (n : TNode XR) (k : Nat) (hd : LHead XR) (x : XR) (b H D : ℚ), NumT false n → Inv M G k n → Under H D n →
    ∀ d ∈ paintH hd x (.fin b) n, Inside M G (b - H - k / 2) (b + D + k / 2) d
  | .char c, k, hd, x, b, H, D, hn, hi, hu => by
    rw [NumT] at hn
    rw [Inv] at hi
    rw [paintH]
    intro d hd
    rw [List.mem_singleton] at hd
    rw [hd]
    obtain ⟨m, hm, e1, e2⟩ := hi.2
    obtain ⟨h1, h2⟩ := hu
    have := half_pos k
    refine ⟨b, _, m, hm, rfl, hn.2.2.2.2.2.1.eq_val, ?_, ?_⟩
    · rw [← e1]; linarith
    · rw [← e2]; linarith
  | .accent _, _, _, _, _, _, _, _, _, hu => hu.elim
  | .rule _, _, _, _, _, _, _, _, _, hu => hu.elim
  | .list .h nd cs, k, hd, x, b, H, D, hn, hi, hu => by
    rw [NumT] at hn
    rw [Inv] at hi
    rw [paintH, hn.1.2.2.2.eq_val, fin_add]
    obtain ⟨h1, h2⟩ := hu
    intro d hd
    exact (inside_hs cs k nd x _ _ _ [] hn.2 hi.2.2 hi.2.1 d hd).wider (by linarith) (by linarith)
  | .list .v nd cs, k, hd, x, b, H, D, hn, hi, hu => by
    rw [NumT] at hn
    rw [Inv] at hi
    rw [paintH, hn.1.2.2.2.eq_val, hn.1.2.1.eq_val, fin_add, fin_sub]
    obtain ⟨h1, h2⟩ := hu
    intro d hd
    rcases hi.2 with ⟨h3, h4⟩ | ⟨j, b', g, bd, bc, q, rfl, h3, h4⟩
    · refine (stack_inside _ k nd x _ cs 0 [] hn.2 (inside_each cs k hn.2 h4) h3 rfl (by simp) d hd).wider ?_ ?_ <;> linarith
    · refine (bar_inside h3 j x _ hn.2 (inside_each cs j hn.2 h4) d hd).wider ?_ ?_ <;> linarith
  | .list .plain _ _, _, _, _, _, _, _, _, hi, _ => by simp only [Inv] at hi
  | .box _, _, _, _, _, _, _, _, _, _ => by intro d hd'; simp only [paintH] at hd'; cases hd'
  | .glue _, _, _, _, _, _, _, _, _, _ => by intro d hd'; simp only [paintH] at hd'; cases hd'
  | .kern _, _, _, _, _, _, _, _, _, _ => by intro d hd'; simp only [paintH] at hd'; cases hd'
theorem inside_hs : ∀ (l : List (TNode XR)) (k : Nat) (hd : LHead XR) (x : XR) (b H D : ℚ) (pre : List (TNode XR)), NumTs false l →
    Invs M G k l → (∀ n ∈ l, Under H D n) → ∀ d ∈ paintHs hd x (.fin b) pre l, Inside M G (b - H - k / 2) (b + D + k / 2) d
  | [], _, _, _, _, _, _, _, _, _, _ => by rw [paintHs]; intro d hd; cases hd
  | n :: l, k, hd, x, b, H, D, pre, hn, hi, hu => by
    rw [paintHs]
    rw [NumTs] at hn
    rw [Invs] at hi
    intro d hd'
    rcases List.mem_append.1 hd' with h | h
    · exact inside_h n k hd _ b H D hn.1 hi.1 (hu n (by simp)) d h
    · exact inside_hs l k hd x b H D _ hn.2 hi.2 (fun n hn => hu n (by simp [hn])) d h
theorem inside_one : ∀ (n : TNode XR) (k : Nat), NumT true n → Inv M G k n → ∀ bd bc, n = .list .h bd bc →
    ∀ (x : XR) (b : ℚ), ∀ d ∈ paintHs bd x (.fin b) [] bc, Inside M G (b - bd.box.height.val - k / 2) (b + bd.box.depth.val + k / 2) d
  | .list .h nd cs, k, hn, hi, bd, bc, e, x, b => by
    rw [NumT] at hn
    rw [Inv] at hi
    cases e
    exact inside_hs cs k nd x b _ _ [] hn.2 hi.2.2 hi.2.1
  | .list .v _ _, _, _, _, _, _, e, _, _ => by cases e
  | .list .plain _ _, _, _, _, _, _, e, _, _ => by cases e
  | .char _, _, _, _, _, _, e, _, _ => by cases e
  | .accent _, _, _, _, _, _, e, _, _ => by cases e
  | .rule _, _, _, _, _, _, e, _, _ => by cases e
  | .box _, _, _, _, _, _, e, _, _ => by cases e
  | .glue _, _, _, _, _, _, e, _, _ => by cases e
  | .kern _, _, _, _, _, _, e, _, _ => by cases e
theorem inside_each : ∀ (l : List (TNode XR)) (k : Nat), NumTs true l → Invs M G k l → EachInside M G k l
  | [], _, _, _ => by intro bd bc h; cases h
  | n :: l, k, hn, hi => by
    rw [NumTs] at hn
    rw [Invs] at hi
    intro bd bc h x b
    rcases List.mem_cons.1 h with h | h
    · exact inside_one n k hn.1 hi.1 bd bc h.symm x b
    · exact inside_each l k hn.2 hi.2 bd bc h x b
end

/-! ## Shrinking -/

theorem sf_fin : (shrinkFactor : XR) = .fin (7 / 10) := by show XR.fin _ = _; norm_num

theorem shrink_box {b : BoxD XR} (h : b.size ≤ 6) :
    b.shrink = ⟨b.size - 1, b.width * .fin (7 / 10), b.height * .fin (7 / 10), b.depth * .fin (7 / 10)⟩ := by
  unfold BoxD.shrink numSizeLevels
  rw [if_pos (by omega), sf_fin]

theorem shrink_head {l : LHead XR} (h : l.box.size ≤ 6) : l.shrink =
    { l with box := l.box.shrink, shift := l.shift * .fin (7 / 10), set := l.set * .fin (7 / 10) } := by
  unfold LHead.shrink numSizeLevels
  rw [if_pos (by omega), sf_fin]

theorem shrink_char {c : CharD XR} (h : c.size ≤ 6) : c.shrink = ⟨c.c, c.size - 1, c.width * .fin (7 / 10), c.height * .fin (7 / 10),
    c.depth * .fin (7 / 10), c.metrics, ⟨c.font.name, c.font.typ, c.font.size * .fin (7 / 10)⟩, c.dpi, c.math⟩ := by
  unfold CharD.shrink numSizeLevels
  rw [if_pos (by omega), sf_fin]

theorem pos_scale {a : XR} (h : IsNum a) : pos (a * .fin (7 / 10)) = pos a := by
  obtain ⟨q, rfl⟩ := h
  unfold pos
  rw [zero_fin, fin_mul, fin_lt, fin_lt]
  congr 1
  apply propext
  constructor <;> intro h <;> linarith

/-- The space of a box or rule -/
def spaceOf (h d : XR) : XR := if pos (h + d) && pos d then h + d else zero

theorem space_scale {h d : XR} (h1 : IsNum h) (h2 : IsNum d) :
    (spaceOf (h * .fin (7 / 10)) (d * .fin (7 / 10))).val = (spaceOf h d).val * (7 / 10) := by
  have hs := h1.add h2
  unfold spaceOf
  rw [← add_mul_pos _ _ (by norm_num), pos_scale hs, pos_scale h2]
  generalize (pos (h + d) && pos d) = q
  cases q
  · simp
  · simp only [if_true]; rw [hs.val_mul]

theorem shrink_vspace {be : Backend XR} {k : Nat} {n : TNode XR} (hn : NumT true n) (hi : Inv M G k n) (hg : gluesOf [n] = []) :
    (vspace (n.shrink be)).val = (vspace n).val * (7 / 10) := by
  cases n with
  | box b =>
    rw [Inv] at hi
    rw [NumT] at hn
    rw [TNode.shrink, shrink_box hi]
    obtain ⟨-, h1, h2⟩ := hn
    exact space_scale h1 h2
  | rule b =>
    rw [Inv] at hi
    rw [NumT] at hn
    rw [TNode.shrink, shrink_box hi]
    obtain ⟨-, -, h1, h2⟩ := hn
    exact space_scale h1 h2
  | list kd nd cs =>
    cases kd with
    | plain => simp only [Inv] at hi
    | h =>
      rw [Inv] at hi
      rw [NumT] at hn
      rw [TNode.shrink, shrink_head hi.1, shrink_box hi.1]
      simp only [vspace]
      rw [← add_mul_pos _ _ (by norm_num), (hn.1.2.1.add hn.1.2.2.1).val_mul]
    | v =>
      rw [Inv] at hi
      rw [NumT] at hn
      rw [TNode.shrink, shrink_head hi.1, shrink_box hi.1]
      simp only [vspace]
      rw [← add_mul_pos _ _ (by norm_num), (hn.1.2.1.add hn.1.2.2.1).val_mul]
  | char c => rw [NumT] at hn; cases hn.1
  | accent c => simp only [Inv] at hi
  | glue g => cases hg
  | kern kn =>
    rw [Inv] at hi
    rw [NumT] at hn
    rw [TNode.shrink]
    unfold KernD.shrink numSizeLevels
    rw [if_pos (by omega), sf_fin]
    exact IsNum.val_mul hn _

theorem shrink_under {be : Backend XR} {k : Nat} {H D : ℚ} {n : TNode XR} (hn : NumT false n) (hi : Inv M G k n) (h : Under H D n) :
    Under (H * (7 / 10)) (D * (7 / 10)) (n.shrink be) := by
  cases n with
  | char c =>
    rw [Inv] at hi
    rw [NumT] at hn
    rw [TNode.shrink, shrink_char hi.1]
    obtain ⟨h1, h2⟩ := h
    simp only [Under]
    rw [hn.2.2.1.val_mul, hn.2.2.2.1.val_mul]
    constructor <;> linarith
  | list kd nd cs =>
    have hsz : nd.box.size ≤ 6 := by cases kd <;> simp only [Inv] at hi <;> exact hi.1
    rw [NumT] at hn
    rw [TNode.shrink, shrink_head hsz, shrink_box hsz]
    obtain ⟨h1, h2⟩ := h
    simp only [Under]
    rw [hn.1.2.1.val_mul, hn.1.2.2.1.val_mul, hn.1.2.2.2.val_mul]
    constructor <;> linarith
  | rule => exact h.elim
  | accent => exact h.elim
  | box => rw [TNode.shrink]; trivial
  | glue => rw [TNode.shrink]; trivial
  | kern => rw [TNode.shrink]; trivial

theorem shrink_slot {be : Backend XR} {k : Nat} {T y : ℚ} {n : TNode XR} (hn : NumT true n) (hi : Inv M G k n) (h : Slot T y n) :
    Slot (T * (7 / 10)) (y * (7 / 10)) (n.shrink be) := by
  cases n with
  | list kd nd cs =>
    cases kd with
    | h =>
      rw [Inv] at hi
      rw [NumT] at hn
      rw [TNode.shrink, shrink_head hi.1, shrink_box hi.1]
      obtain ⟨h1, h2⟩ := h
      simp only [Slot]
      rw [hn.1.2.1.val_mul, hn.1.2.2.1.val_mul]
      constructor <;> linarith
    | v => exact h.elim
    | plain => exact h.elim
  | rule b =>
    rw [Inv] at hi
    rw [NumT] at hn
    rw [TNode.shrink, shrink_box hi]
    simp only [Slot] at h ⊢
    rw [hn.2.2.1.val_mul, hn.2.2.2.val_mul]
    intro a1 a2
    obtain ⟨h1, h2⟩ := h (by linarith) (by linarith)
    constructor <;> linarith
  | box => rw [TNode.shrink]; trivial
  | char => exact h.elim
  | accent => exact h.elim
  | glue => exact h.elim
  | kern => exact h.elim

theorem shrink_stack {be : Backend XR} {k : Nat} {T : ℚ} : ∀ (l : List (TNode XR)) (y : ℚ), NumTs true l → Invs M G k l → Stack T y l →
    Stack (T * (7 / 10)) (y * (7 / 10)) (shrinkAll be l)
  | [], _, _, _, _ => trivial
  | n :: l, y, hn, hi, hs => by
    rw [NumTs] at hn
    rw [Invs] at hi
    rw [Stack] at hs
    rw [shrinkAll, Stack]
    refine ⟨shrink_slot hn.1 hi.1 hs.1, ?_⟩
    have hg : gluesOf [n] = [] := by cases n <;> first | rfl | exact hs.1.elim
    rw [shrink_vspace hn.1 hi.1 hg, ← add_mul]
    exact shrink_stack l _ hn.2 hi.2 hs.2

theorem shrink_bar {be : Backend XR} {k : Nat} {nd : LHead XR} {cs : List (TNode XR)} {b : BoxD XR} {g : GlueD XR} {bd : LHead XR}
    {bc : List (TNode XR)} {x : ℚ} (hz : nd.box.size ≤ 6) (hd : NumHead nd) (hn : NumTs true cs) (hi : Invs M G k cs) (h : Bar nd cs b g bd bc x) :
    Bar nd.shrink (shrinkAll be cs) b.shrink g.shrinkG bd.shrink (shrinkAll be bc) (x * (7 / 10)) := by
  obtain ⟨rfl, h1, h2, h3, h4, h5, h6, h7, h8, h9, h10, h11, h12⟩ := h
  simp only [NumTs, NumT] at hn
  obtain ⟨⟨-, -, e1, e2⟩, -, ⟨⟨e3, e4, e5, e6⟩, -⟩, -⟩ := hn
  simp only [Invs, Inv] at hi
  obtain ⟨i1, i2, i3, -⟩ := hi
  have hg : g.shrinkG = { g with size := g.size - 1, width := .fin 0 } := by
    unfold GlueD.shrinkG numSizeLevels
    rw [if_pos (by omega), sf_fin, h6]; simp
  rw [shrink_head hz, shrink_box i1, shrink_box hz, hg]
  constructor
  · simp only [shrinkAll, TNode.shrink, shrink_box i1, hg]
  · exact h1
  · exact h2
  · simp [h3]
  · linarith
  · linarith
  · rfl
  · exact h7
  · exact h8
  · rw [e1.val_mul]; linarith
  · rw [e2.val_mul]; linarith
  · rw [shrink_head i3.1, shrink_box i3.1]
    simp only
    rw [e1.val_mul, e2.val_mul, e4.val_mul, e5.val_mul, hd.2.1.val_mul, hd.2.2.1.val_mul]; linarith
  · rw [shrink_head i3.1, shrink_box i3.1]
    simp only
    rw [e1.val_mul, e2.val_mul, e4.val_mul, e5.val_mul]; linarith

mutual
theorem shrink_inv (be : Backend XR) : ∀ (n : TNode XR) (v : Bool) (k : Nat), NumT v n → Inv M G k n → Inv M G k (n.shrink be)
  | .char c, v, k, hn, h => by
    rw [NumT] at hn
    rw [Inv] at h
    rw [TNode.shrink, shrink_char h.1, Inv]
    obtain ⟨hz, m, hm, e1, e2⟩ := h
    refine ⟨by dsimp only; omega, m, hm, ?_, ?_⟩
    · simp only
      rw [hn.2.2.1.val_mul, hn.2.2.2.2.2.1.val_mul, e1]; ring
    · simp only
      rw [hn.2.2.2.1.val_mul, hn.2.2.2.2.2.1.val_mul, e2]; ring
  | .accent _, _, _, _, h => by simp only [Inv] at h
  | .box b, _, _, _, h => by rw [Inv] at h; rw [TNode.shrink, Inv, shrink_box h]; dsimp only; omega
  | .rule b, _, _, _, h => by rw [Inv] at h; rw [TNode.shrink, Inv, shrink_box h]; dsimp only; omega
  | .glue g, _, _, _, h => by
    rw [Inv] at h; rw [TNode.shrink, Inv]
    unfold GlueD.shrinkG; split <;> (dsimp only; omega)
  | .kern g, _, _, _, h => by
    rw [Inv] at h; rw [TNode.shrink, Inv]
    unfold KernD.shrink; split <;> (dsimp only; omega)
  | .list .h nd cs, v, k, hn, h => by
    rw [NumT] at hn
    rw [Inv] at h
    rw [TNode.shrink, Inv, shrink_head h.1, shrink_box h.1]
    refine ⟨by dsimp only; omega, ?_, shrink_invs be cs _ k hn.2 h.2.2⟩
    simp only
    rw [hn.1.2.1.val_mul, hn.1.2.2.1.val_mul]
    have : ∀ l : List (TNode XR), NumTs false l → Invs M G k l → (∀ n ∈ l, Under nd.box.height.val nd.box.depth.val n) →
        ∀ n ∈ shrinkAll be l, Under (nd.box.height.val * (7 / 10)) (nd.box.depth.val * (7 / 10)) n := by
      intro l
      induction l with
      | nil => intro _ _ _ n hn; cases hn
      | cons a l ih =>
        intro h1 h2 h3 n hn
        rw [NumTs] at h1
        rw [Invs] at h2
        rw [shrinkAll] at hn
        rcases List.mem_cons.1 hn with rfl | hn
        · exact shrink_under h1.1 h2.1 (h3 a (by simp))
        · exact ih h1.2 h2.2 (fun n hn => h3 n (by simp [hn])) n hn
    exact this cs hn.2 h.2.2 h.2.1
  | .list .v nd cs, v, k, hn, h => by
    rw [NumT] at hn
    rw [Inv] at h
    rw [TNode.shrink, Inv]
    refine ⟨by rw [shrink_head h.1, shrink_box h.1]; dsimp only; omega, ?_⟩
    rcases h.2 with ⟨h1, h2⟩ | ⟨j, b, g, bd, bc, x, rfl, h1, h2⟩
    · refine .inl ⟨?_, shrink_invs be cs _ k hn.2 h2⟩
      rw [shrink_head h.1, shrink_box h.1]
      simp only
      rw [hn.1.2.1.val_mul, hn.1.2.2.1.val_mul, ← add_mul]
      have := shrink_stack (be := be) cs 0 hn.2 h2 h1
      rwa [zero_mul] at this
    · exact .inr ⟨j, _, _, _, _, _, rfl, shrink_bar h.1 hn.1 hn.2 h2 h1, shrink_invs be cs _ j hn.2 h2⟩
  | .list .plain _ _, _, _, _, h => by simp only [Inv] at h
theorem shrink_invs (be : Backend XR) : ∀ (l : List (TNode XR)) (v : Bool) (k : Nat), NumTs v l → Invs M G k l → Invs M G k (shrinkAll be l)
  | [], _, _, _, _ => trivial
  | n :: l, v, k, hn, h => by
    rw [NumTs] at hn
    rw [Invs] at h
    rw [shrinkAll, Invs]
    exact ⟨shrink_inv be n v k hn.1 h.1, shrink_invs be l v k hn.2 h.2⟩
end

end Verif
