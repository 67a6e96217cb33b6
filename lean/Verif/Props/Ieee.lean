import Verif.Lemmas.IeeeOrder
import Verif.Lemmas.IeeeSet
import Verif.Props.Ship
import Verif.Props.Shippable
import Verif.Props.Ttf
/-! # C87: float64 -/

namespace Verif.Props
open Verif Verif.Spec GoFloat

/-! ## The laws -/

instance : MaxLaws F64 where
  max_left a b c h := by
    rw [← exact64_lt] at h ⊢
    rw [exact64_max]; exact MaxLaws.max_left _ _ _ h
  max_right a b c h := by
    rw [← exact64_lt] at h ⊢
    rw [exact64_max]; exact MaxLaws.max_right _ _ _ h
  max_or a b := by
    show F64.max a b = a ∨ F64.max a b = b
    unfold F64.max
    split_ifs with h1 h2 h3 h4
    · rcases h1 with rfl | rfl
      · exact .inl rfl
      · exact .inr rfl
    · rcases h2 with rfl | rfl
      · exact .inl rfl
      · exact .inr rfl
    · split
      · exact .inr rfl
      · exact .inl rfl
    · exact .inl rfl
    · exact .inr rfl
  lt_self a := by rw [← exact64_lt]; exact MaxLaws.lt_self _

instance : EqLaws F64 where
  symm a b h := by rw [← exact64_eq] at h ⊢; exact EqLaws.symm _ _ h
  trans a b c h h' := by rw [← exact64_eq] at h h' ⊢; exact EqLaws.trans _ _ _ h h'
  ident a b h := by
    cases a with
    | fin s a ha =>
      cases b with
      | fin t b hb =>
        have hv : F64.value s a = F64.value t b := by simpa using (show decide (F64.value s a = F64.value t b) = true from h)
        have hab : a = b := by rw [← value_abs (s := s) (rep_nonneg ha), ← value_abs (s := t) (rep_nonneg hb), hv]
        subst hab
        by_cases h0 : a = 0
        · right
          rw [zero64]
          show decide (F64.value s a = F64.value false 0) = true
          subst h0; cases s <;> simp [F64.value]
        · left
          have : s = t := by
            cases s <;> cases t <;> first | rfl | (exfalso; simp only [F64.value] at hv; apply h0; simp at hv; linarith)
          subst this; rfl
      | inf t => cases h
      | nan => cases h
    | inf s =>
      cases b with
      | fin t b hb => cases h
      | inf t => left; rw [show s = t by simpa using (show (s == t) = true from h)]
      | nan => cases h
    | nan => cases h

instance : ZeroLaws F64 where
  not_pos := by rw [pos]; exact MaxLaws.lt_self _
  not_inf := by rw [zero64]; rfl
  shrunk := by
    have h : ∃ c, ∃ hc : Rep c, (ofRat 7 10 : F64) = .fin false c hc := by
      show ∃ c, ∃ hc : Rep c, F64.ofQ (((7 : ℤ) : ℚ) / ((10 : ℕ) : ℚ)) false = _
      unfold F64.ofQ F64.pack
      have hr : rne |((7 : ℤ) : ℚ) / ((10 : ℕ) : ℚ)| < 2 ^ (1024 : ℕ) := by
        have h1 : rne |((7 : ℤ) : ℚ) / ((10 : ℕ) : ℚ)| ≤ rne 1 := rne_mono (abs_nonneg _) (by norm_num [abs_of_nonneg])
        have h2 : rne 1 = 1 := rne_multiple (k := 1) (e := 0) (by norm_num) (by unfold lastBit; simp)
        have h3 : (1 : ℚ) < 2 ^ (1024 : ℕ) := one_lt_pow₀ (by norm_num) (by norm_num)
        exact lt_of_le_of_lt (h1.trans h2.le) h3
      rw [dif_pos ⟨abs_nonneg _, hr⟩, if_neg (by norm_num)]
      exact ⟨_, rep_rne (abs_nonneg _) hr, by congr 1; exact decide_eq_false (by norm_num)⟩
    obtain ⟨c, hc, e⟩ := h
    rw [e, zero64]
    show F64.pack (false != false) (0 * c) = _
    unfold F64.pack
    simp [rne_zero]

/-! ## Rounding -/

/-- **C87** Addition, subtraction, multiplication and division of finite numbers give the float64 nearest to the exact result, the even one of
two, and an infinity from half a last digit above the largest finite number on: the arithmetic of the model is that of IEEE 754. -/
theorem C87_nearest (x y : F64) (p q : ℚ) (hx : Num64 x p) (hy : Num64 y q) :
    Nearest64 (x + y) (p + q) ∧ Nearest64 (x - y) (p - q) ∧ Nearest64 (x * y) (p * q) ∧ (q ≠ 0 → Nearest64 (x / y) (p / q)) ∧ Num64 (-x) (-p) :=
  ⟨(add_rounded hx hy).nearest, (sub_rounded hx hy).nearest, (mul_rounded hx hy).nearest, fun h => (div_rounded hx hy h).nearest, neg_num hx⟩

/-- **C87** Comparisons are exact, and NaN is neither less than nor equal to anything. -/
theorem C87_compare (x y : F64) :
    (∀ p q, Num64 x p → Num64 y q → (lt x y = true ↔ p < q) ∧ (GoFloat.eq x y = true ↔ p = q)) ∧
    lt F64.nan x = false ∧ lt x F64.nan = false ∧ GoFloat.eq x F64.nan = false ∧ GoFloat.eq F64.nan x = false := by
  refine ⟨fun p q hx hy => ?_, by cases x <;> rfl, by cases x <;> rfl, by cases x <;> rfl, by cases x <;> rfl⟩
  cases x with
  | fin s a ha =>
    cases y with
    | fin t b hb =>
      rw [← show F64.value s a = p from hx, ← show F64.value t b = q from hy]
      exact ⟨decide_eq_true_iff, decide_eq_true_iff⟩
    | inf => exact hy.elim
    | nan => exact hy.elim
  | inf => exact hx.elim
  | nan => exact hx.elim

/-! ## Lists -/

theorem natural64 (hd : LHead F64) (cs : List (TNode F64)) (p : ℚ) (h : Num64 (naturalWidth cs) p) :
    Num64 (hpack hd cs zero true).box.width p ∧ (hpack hd cs zero true).sign = 0 ∧ (hpack hd cs zero true).order = 0 := by
  have hb := (isNum_abs h).2
  have hr := rnd_num h
  have h1 : Num64 (zero + naturalWidth cs) p := by
    have := add_num num_zero64 h (by rw [zero_add, hr]; exact hb)
    rwa [zero_add, hr] at this
  have h2 : Num64 (zero + naturalWidth cs - naturalWidth cs) 0 := by
    have := sub_num h1 h (by rw [sub_self, rnd_zero, abs_zero]; positivity)
    rwa [sub_self, rnd_zero] at this
  have h3 : GoFloat.eq (zero + naturalWidth cs - naturalWidth cs) (zero : F64) = true :=
    (((C87_compare _ _).1 _ _ h2 num_zero64).2).2 rfl
  refine ⟨by rw [(C40_hpack_width hd cs zero).2]; exact h1, ?_⟩
  rw [hpack_eq]
  simp only [if_true]
  unfold finishGlue
  rw [if_pos h3]
  exact ⟨rfl, rfl⟩

/-- **C87** The width of a list packed to its natural width is, in float64, the sum of the widths of its children up to `n / 2 ^ 52` of the sum
of their absolute values, `n` being the number of children; and its glue is at its natural size, in spite of the rounding. -/
theorem C87_width (hd : LHead F64) (cs : List (TNode F64)) (hn : cs.length ≤ 2 ^ 52) (hf : Fin64 (naturalWidth cs)) :
    ∃ ws : List ℚ, List.Forall₂ (fun n w => Num64 n.width w) cs ws ∧
      Off64 (cs.length / 2 ^ 52 * (ws.map abs).sum) (hpack hd cs zero true).box.width ws.sum ∧
      (hpack hd cs zero true).sign = 0 := by
  obtain ⟨p, hp⟩ := hf
  obtain ⟨a, ws, ha, h1, h2⟩ := fold_width cs zero p hp
  cases isNum_unique ha num_zero64
  obtain ⟨hw, hs, -⟩ := natural64 hd cs p hp
  refine ⟨ws, h1, ⟨p, hw, ?_⟩, hs⟩
  rw [abs_zero, zero_add, zero_add] at h2
  have hS : 0 ≤ (ws.map abs).sum := by
    clear h1 h2
    induction ws with
    | nil => simp
    | cons y t iht => rw [List.map_cons, List.sum_cons]; exact add_nonneg (abs_nonneg _) iht
  exact h2.trans (mul_le_mul_of_nonneg_right (pow_unit64 _ hn) hS)

/-- **C87** Drawing a list that is packed to its natural width leaves the pen exactly at its width: the roundings of `Ship` are those of
`HPack`. -/
theorem C87_pen (ox oy : F64) (hd : LHead F64) (cs : List (TNode F64)) (hf : Fin64 (naturalWidth cs)) (st : ShipSt F64) (cs' : List (TNode F64))
    (h : shipCall ox oy (hpack hd cs zero true) cs = .ok (st, cs')) :
    GoFloat.eq st.h (hpack hd cs zero true).box.width = true := by
  obtain ⟨p, hp⟩ := hf
  obtain ⟨hw, hs, -⟩ := natural64 hd cs p hp
  obtain ⟨st0, e, rfl⟩ := ship_loop h
  obtain ⟨q1, r⟩ := hLoop_run e
  have := pen64 hs r rfl (x := zero) (p := 0) num_zero64 num_zero64 hp
  exact ((C87_compare _ _).1 _ _ this hw).2.2 rfl

/-- **C87** Characters and spaces of nonnegative width, at their natural size, are drawn from the left to the right, whatever is rounded: no
character begins before an earlier one. -/
theorem C87_forward (ox oy : F64) (hd : LHead F64) (cs : List (TNode F64)) (hs : hd.sign = 0) (hi : ∀ n ∈ cs, isInline n = true)
    (hw : ∀ n ∈ cs, lt n.width zero = false) (st : ShipSt F64) (cs' : List (TNode F64)) (h : shipCall ox oy hd cs = .ok (st, cs')) :
    st.ops.Pairwise fun d e => lt (drawX e) (drawX d) = false := by
  obtain ⟨st0, e, rfl⟩ := ship_loop h
  obtain ⟨q1, r⟩ := hLoop_run e
  obtain ⟨l, h1, -, h3⟩ := forward_run hs r rfl hi hw
  show st0.ops.Pairwise _
  rw [h1]
  simpa [ShipSt.push] using h3

/-! ## Drawing -/

theorem sameDraw_mono {e e' : ℚ} (h : e ≤ e') {d : Draw F64} {d' : Draw XR} (hs : SameDraw e d d') : SameDraw e' d d' := by
  have ho : ∀ {x q}, Off64 e x q → Off64 e' x q := fun ⟨p, h1, h2⟩ => ⟨p, h1, h2.trans h⟩
  cases d with
  | glyph x y f c p =>
    cases d' with
    | glyph x' y' f' c' p' =>
      obtain ⟨⟨a, b, h1, h2, h3, h4⟩, h5⟩ := hs
      exact ⟨⟨a, b, h1, ho h2, h3, ho h4⟩, h5⟩
    | rect => exact hs.elim
  | rect =>
    cases d' with
    | glyph => exact hs.elim
    | rect =>
      obtain ⟨⟨a, b, h1, h2, h3, h4⟩, ⟨a', b', h1', h2', h3', h4'⟩⟩ := hs
      exact ⟨⟨a, b, h1, ho h2, h3, ho h4⟩, ⟨a', b', h1', ho h2', h3', ho h4'⟩⟩

/-- **C87** What is drawn in float64 is what exact arithmetic draws, glyph by glyph and rectangle by rectangle, at places that differ by at most
`N / 2 ^ 52` of the lengths in the tree, `N` being the number of additions, and by 1 more for every list with stretched or shrunk glue around
them (Ship rounds such glue to whole numbers, and may round a different way); and the outcomes are the same if it panics.  `R` is how much
the glue of a list is stretched or shrunk at most. -/
theorem C87_drawing (ox oy : F64) (hd : LHead F64) (cs : List (TNode F64)) (hx : Fin64 ox) (hy : Fin64 oy) (R : ℚ) (hR0 : 0 ≤ R)
    (hH : TameList R hd cs) (hR : TameHs R cs) (N : ℕ) (hN : N = shipStepsAll cs + 1) (hN' : N ≤ 2 ^ 52) (hNR : N * R ≤ 2 ^ 50)
    (T : ℚ) (hT : T = size64 ox + size64 oy + 2 * (size64 hd.box.height + size64 hd.box.depth) + shipLengthsAll R hd.sign cs) (hT' : T < 2 ^ (1023 : ℕ)) :
    Alike (fun a b : ShipSt _ × _ => List.Forall₂ (SameDraw (setNest (.list .h hd cs) + N / 2 ^ 52 * T)) a.1.ops b.1.ops)
      (shipCall ox oy hd cs) (shipCall (exact64 ox) (exact64 oy) (exactHead hd) (exactNodes cs)) := by
  have hp := pow_unit64 N hN'
  have hn1 : (N : ℚ) / 2 ^ 52 ≤ 1 := by
    rw [div_le_one (by positivity)]; exact_mod_cast hN'
  have hT0 : 0 ≤ T := by
    have h1 := size64_nonneg ox
    have h2 := size64_nonneg oy
    have h3 := size64_nonneg hd.box.height
    have h4 := size64_nonneg hd.box.depth
    have hL := lengthsAll_nonneg hR0 hd.sign cs
    rw [hT]; positivity
  have hb : (1 + unit64) ^ N * T < 2 ^ (1024 : ℕ) := by
    rw [show (1024 : ℕ) = 1023 + 1 from rfl, pow_succ]
    generalize (2 : ℚ) ^ (1023 : ℕ) = M at hT' ⊢
    have h2 : (1 + unit64) ^ N ≤ 2 := by linarith only [hp, hn1]
    have := mul_le_mul_of_nonneg_right h2 hT0
    linarith only [this, hT']
  have hG : ((setNest (.list .h hd cs) : ℕ) : ℚ) = setSlack hd + setNests cs := by
    rw [setNest, Nat.cast_add, nest_cast]
  have hs := ship_err hx hy hR0 hH hR hN' hNR hN hT hb hG
  have he : drawErr N T (setNest (.list .h hd cs) : ℕ) ≤ (setNest (.list .h hd cs) : ℕ) + N / 2 ^ 52 * T := by
    have := mul_le_mul_of_nonneg_right hp hT0
    rw [drawErr]; linarith only [this]
  revert hs
  generalize shipCall ox oy hd cs = r
  generalize shipCall (exact64 ox) (exact64 oy) (exactHead hd) (exactNodes cs) = r'
  intro hs
  cases r with
  | ok a =>
    cases r' with
    | ok b => exact List.Forall₂.imp (fun d e h => sameDraw_mono he h) hs
    | panic => exact hs
    | fuel => exact hs
  | panic => cases r' <;> exact hs
  | fuel => cases r' <;> exact hs

/-- **C87** A list whose glue is set to fill the width `w` moves the pen to within half a point, and a rounding error, of `w` (C54). -/
theorem C87_set (ox oy : F64) (hd : LHead F64) (cs : List (TNode F64)) (w : F64) (p : ℚ) (hw : Num64 w p) (ws : List ℚ)
    (hws : List.Forall₂ (fun n w => Num64 n.width w) cs ws) (hs : (hpack hd cs w false).sign ≠ 0) (R : ℚ) (hR0 : 0 ≤ R)
    (hR : TameList R (hpack hd cs w false) cs) (N : ℕ) (hN : N = 4 * cs.length + 9) (hN' : N ≤ 2 ^ 52) (hNR : N * R ≤ 2 ^ 50)
    (T : ℚ) (hT : T = |p| + (ws.map abs).sum + cs.length * (2 * (R + 1)) + 1) (hT' : T ≤ 2 ^ 28) (hG : glueTotal cs < 2 ^ (1000 : ℕ))
    (st : ShipSt F64) (cs' : List (TNode F64)) (h : shipCall ox oy (hpack hd cs w false) cs = .ok (st, cs')) :
    Off64 (1 / 2 + N / 2 ^ 52 * T) st.h p := by
  have hr := C44_hpack hd cs w false
  rw [(C40_hpack_width hd cs w).1] at hr
  obtain ⟨st0, e, rfl⟩ := ship_loop h
  obtain ⟨q1, r⟩ := hLoop_run e
  show Off64 _ st0.h p
  exact pen_end64 hw hws hR0 hr hs hR hN hN' hNR hT hT' hG rfl r

/-- **C87** `HCentered(els)` packed to the width `w` draws `els` as they are drawn after a kern of a whole number of points, within half a point and a
rounding error of half the free space (C53). -/
theorem C87_centred (be : Backend F64) (els : List (TNode F64)) (hs : ∀ e ∈ els, isSolid e = true) (w : F64) (p : ℚ) (hw : Num64 w p) (ws : List ℚ)
    (hws : List.Forall₂ (fun n w => Num64 n.width w) els ws) (N : ℕ) (hN : N = els.length + 9) (hN' : N ≤ 2 ^ 52)
    (T : ℚ) (hT : T = |p| + (ws.map abs).sum + 1) (hT' : T ≤ 2 ^ 28) :
    ∃ hd0 kids, hcentered be els = .list .h hd0 kids ∧ ∃ r : Int, |(r : ℚ) - (p - ws.sum) / 2| ≤ 1 / 2 + N / 2 ^ 52 * T ∧
      ∀ ox oy st cs', shipCall ox oy (hpack hd0 kids w false) kids = .ok (st, cs') →
        ∃ st' cs'', shipCall ox oy (hpack hd0 kids w false) (newKern (ofInt r) :: els) = .ok (st', cs'') ∧ st.ops = st'.ops := by
  refine ⟨_, .glue ssGlue :: els ++ [.glue ssGlue], rfl, ?_⟩
  generalize hpack (F := F64) LHead.zero _ _ _ = hd0
  set kids : List (TNode F64) := .glue ssGlue :: els ++ [.glue ssGlue] with hk
  have hr := C44_hpack hd0 kids w false
  rw [(C40_hpack_width hd0 kids _).1] at hr
  have hoff := centred64 hs hw hws hr hN hN' hT hT'
  refine ⟨_, hoff, ?_⟩
  generalize hpack hd0 kids w false = hd at hoff ⊢
  intro ox oy st cs' h
  obtain ⟨st0, e, rfl⟩ := ship_loop h
  obtain ⟨q1, s1, a', b', ra, eb, rfl⟩ := hLoop_append [.glue ssGlue] (els ++ [.glue ssGlue]) e
  obtain ⟨q2, s2, a2, b2, rb, ec, rfl⟩ := hLoop_append els _ eb
  have hg53 : |glueOffset hd [.glue (ssGlue : GlueD F64)]| ≤ 2 ^ 53 := by
    have hW := abs_sum_nonneg ws
    have hp := abs_nonneg p
    have hn1 : (N : ℚ) / 2 ^ 52 ≤ 1 := by rw [div_le_one (by positivity)]; exact_mod_cast hN'
    have hT0 : 0 ≤ T := by linarith only [hT, hW, hp]
    have h1 := mul_le_mul_of_nonneg_right hn1 hT0
    have h2 : |ws.sum| ≤ (ws.map abs).sum := by
      clear * -
      induction ws with
      | nil => simp
      | cons a l ih => rw [List.sum_cons, List.map_cons, List.sum_cons]; exact (abs_add_le a l.sum).trans (by linarith only [ih])
    have h3 : |(p - ws.sum) / 2| ≤ T := by
      rw [abs_div, show |(2 : ℚ)| = 2 by norm_num]
      have := abs_sub p ws.sum
      linarith only [this, h2, hT, hW, hp]
    have h4 := abs_add_le ((glueOffset hd [.glue (ssGlue : GlueD F64)] : ℚ) - (p - ws.sum) / 2) ((p - ws.sum) / 2)
    rw [sub_add_cancel] at h4
    have h5 : |(glueOffset hd [.glue (ssGlue : GlueD F64)] : ℚ)| ≤ 2 ^ 53 := by
      norm_num at hT' ⊢
      linarith only [h4, h3, hoff, h1, hT']
    exact_mod_cast h5
  have had : s1 = { ShipSt.push ⟨0, 0, zero, zero, []⟩ with h := (zero : F64) + ofInt (glueOffset hd [.glue ssGlue]) } := by
    have hg := (ra.glue).1
    have hgo := glueRun_offset hd [.glue (ssGlue : GlueD F64)]
    cases ra with
    | cons hn r =>
      cases r
      rw [hNode] at hn
      cases hn
      have e1 : (glueStep hd (ssGlue : GlueD F64) .zero).1 = ofInt (glueOffset hd [.glue ssGlue]) := by
        rw [← hgo]
        show (zero - ofInt 0 : F64) + ofInt (glueStep hd (ssGlue : GlueD F64) .zero).2.g = ofInt (glueStep hd (ssGlue : GlueD F64) .zero).2.g
        rw [show (zero - ofInt 0 : F64) = zero by decide +kernel]
        exact zero_add_ofInt (by rw [← hgo] at hg53; exact hg53)
      rw [← e1]; rfl
  obtain ⟨_, B, hB, _⟩ := runHs (fun c _ => (run_all _ c).1) _ _ _ _ _ _ ec
  have hB0 : B = [] := by
    obtain ⟨s3, n3, q3, l3, en, el, rfl⟩ := hLoop_cons ec
    rw [hLoop] at el; cases el
    rw [hNode] at en; cases en
    simpa using hB.ops
  have rb := (HRun.solid rb hs .zero).loop
  refine ⟨s2.pop, _, loop_ship (hLoop_cons_eq (q1 := .zero) (by rw [newKern, hNode]) (by rw [had] at rb; exact rb)), ?_⟩
  show st0.ops = s2.ops
  rw [hB.ops, hB0, List.append_nil]

/-! ## Cases -/

/-- `0.1 + 0.2` is not `0.3`. -/
example : GoFloat.eq (ofRat 1 10 + ofRat 2 10 : F64) (ofRat 3 10) = false ∧ lt (ofRat 3 10) (ofRat 1 10 + ofRat 2 10 : F64) = true := by decide +kernel

theorem fin64_of {x : F64} (h : (match x with | .fin _ _ _ => true | _ => false) = true) : Fin64 x := by
  cases x with
  | fin => exact ⟨_, rfl⟩
  | inf => cases h
  | nan => cases h

/-- A character of width 0.1. -/
def char64 : CharD F64 :=
  { c := [97], size := 0, width := ofRat 1 10, height := ofRat 7 10, depth := ofRat 1 5, metrics := ⟨ofRat 1 10, ofRat 7 10, ofRat 1 10, zero, ofRat 1 10, zero, ofRat 7 10, ofRat 7 10⟩,
    font := ⟨[], [], ofInt 12⟩, dpi := ofInt 72, math := false }

/-- A character, a space and a character. -/
def row64 : List (TNode F64) := [.char char64, .glue ⟨0, ofRat 1 3, zero, 0, zero, 0⟩, .kern ⟨0, ofRat 1 7⟩, .char char64]

/-- The hypotheses of C87_width, C87_pen and C87_forward hold of it, packed to its natural width, ... -/
example : Fin64 (naturalWidth row64) ∧ (hpack LHead.zero row64 zero true).sign = 0 ∧ (∀ n ∈ row64, isInline n = true) ∧ (∀ n ∈ row64, lt n.width zero = false) ∧
    (match shipCall zero zero (hpack LHead.zero row64 zero true) row64 with | .ok (st, _) => st.ops.length == 2 | _ => false) = true :=
  ⟨fin64_of (by decide +kernel), by decide +kernel, by decide +kernel, by decide +kernel, by decide +kernel⟩

/-- ... and those of C87_drawing. -/
example : TameList 0 (hpack LHead.zero row64 zero true) row64 ∧ TameHs 0 row64 ∧ shipStepsAll row64 = 24 ∧
    setNest (.list .h (hpack LHead.zero row64 zero true) row64) = 0 :=
  ⟨⟨fin64_of (by decide +kernel), fin64_of (by decide +kernel), fin64_of (by decide +kernel), fin64_of (by decide +kernel), fun h => absurd (by decide +kernel) h⟩,
   ⟨fin64_of (by decide +kernel), fin64_of (by decide +kernel), fin64_of (by decide +kernel), fin64_of (by decide +kernel), trivial⟩, by decide +kernel, by decide +kernel⟩

/-- A character between two springs. -/
def springs64 : List (TNode F64) := [.glue ⟨0, zero, ofInt 5, 0, zero, 0⟩, .char char64, .glue ⟨0, zero, ofInt 5, 0, zero, 0⟩]

/-- Stretched by 3 (the springs are 0.3 times 5, each). -/
def sprung64 : LHead F64 := hpack LHead.zero springs64 (ofInt 3) true

theorem springs64_tame : TameList 6 sprung64 springs64 := by
  refine ⟨fin64_of (by decide +kernel), fin64_of (by decide +kernel), fin64_of (by decide +kernel), fin64_of (by decide +kernel), fun _ =>
    ⟨fin64_of (by decide +kernel), ?_, by decide +kernel⟩⟩
  intro g hg
  simp only [springs64, List.mem_cons, List.not_mem_nil, or_false, TNode.glue.injEq, reduceCtorEq, false_or] at hg
  rcases hg with rfl | rfl <;> exact ⟨fin64_of (by decide +kernel), fin64_of (by decide +kernel)⟩

/-- The hypotheses of C87_drawing hold of it, with glue set, ... -/
example : TameList 6 sprung64 springs64 ∧ TameHs 6 springs64 ∧ shipStepsAll springs64 = 18 ∧ sprung64.sign = 1 ∧ setNest (.list .h sprung64 springs64) = 1 ∧
    2 * (size64 sprung64.box.height + size64 sprung64.box.depth) + shipLengthsAll 6 sprung64.sign springs64 < 100 :=
  ⟨springs64_tame, ⟨fin64_of (by decide +kernel), fin64_of (by decide +kernel), fin64_of (by decide +kernel), trivial⟩, by decide +kernel, by decide +kernel, by decide +kernel,
    by decide +kernel⟩

/-- ... and here the springs are rounded in different ways: 5 times the float64 nearest to 0.3 is below 1.5, but is rounded to 1.5.  The
character is drawn at 2 instead of 1. -/
example : (match shipCall zero zero sprung64 springs64 with | .ok (st, _) => st.ops.all fun d => GoFloat.eq (drawX d) (ofInt 2) | _ => false) = true ∧
    (match shipCall zero zero (exactHead sprung64) (exactNodes springs64) with | .ok (st, _) => st.ops.all fun d => GoFloat.eq (drawX d) (ofInt 1) | _ => false) = true := by
  decide +kernel

/-- The same packed to the width 3. -/
def spread64 : LHead F64 := hpack LHead.zero springs64 (ofInt 3) false

theorem spread64_tame : TameList 6 spread64 springs64 := by
  refine ⟨fin64_of (by decide +kernel), fin64_of (by decide +kernel), fin64_of (by decide +kernel), fin64_of (by decide +kernel), fun _ =>
    ⟨fin64_of (by decide +kernel), ?_, by decide +kernel⟩⟩
  intro g hg
  simp only [springs64, List.mem_cons, List.not_mem_nil, or_false, TNode.glue.injEq, reduceCtorEq, false_or] at hg
  rcases hg with rfl | rfl <;> exact ⟨fin64_of (by decide +kernel), fin64_of (by decide +kernel)⟩

/-- The hypotheses of C87_set hold of it: the character is drawn at 1 and the pen ends at 3.1. -/
example : Num64 (ofInt 3) 3 ∧ List.Forall₂ (fun n w => Num64 n.width w) springs64 [0, size64 char64.width, 0] ∧ spread64.sign ≠ 0 ∧
    TameList 6 spread64 springs64 ∧ glueTotal springs64 = 10 ∧
    (match shipCall zero zero spread64 springs64 with
      | .ok (st, _) => GoFloat.eq st.h (ofRat 31 10) && st.ops.all fun d => GoFloat.eq (drawX d) (ofInt 1)
      | _ => false) = true := by
  refine ⟨num64_of (by decide +kernel), ?_, by decide +kernel, spread64_tame, by decide +kernel, by decide +kernel⟩
  exact .cons (num64_of (by decide +kernel)) (.cons (num64_of (by decide +kernel)) (.cons (num64_of (by decide +kernel)) .nil))

/-- The hypotheses of C87_centred hold of a character centred in the width 4, and there the character is drawn at 2 (and not at 1.95). -/
example : isSolid (.char char64) = true ∧ Num64 (ofInt 4) 4 ∧ Num64 (TNode.width (.char char64)) (size64 char64.width) ∧
    (match shipCall zero zero (hpack LHead.zero [.glue ssGlue, .char char64, .glue ssGlue] (ofInt 4) false) [.glue ssGlue, .char char64, .glue ssGlue] with
      | .ok (st, _) => st.ops.length == 1 && st.ops.all fun d => GoFloat.eq (drawX d) (ofInt 2)
      | _ => false) = true :=
  ⟨rfl, num64_of (by decide +kernel), num64_of (by decide +kernel), by decide +kernel⟩

/-- Ten characters of width 0.1 are less than 1 wide: the bound of C87_width is not zero. -/
example : lt (hpack LHead.zero (List.replicate 10 (.char char64)) zero true).box.width (ofInt 1 : F64) = true := by decide +kernel

end Verif.Props
