import Verif.Lemmas.Paint
import Verif.Props.Ship
import Verif.Props.Geometry
/-! # C70: where everything is drawn; C66: fractions -/

namespace Verif.Props
open Verif Verif.Spec GoFloat XR

/-- **C70** `Ship.Call(ox, oy, root)` draws the tree at its coordinates. -/
theorem C70_paint (ox oy : XR) (hd : LHead XR) (cs : List (TNode XR)) (st : ShipSt XR) (cs' : List (TNode XR))
    (h : shipCall ox oy hd cs = .ok (st, cs')) : st.ops = paintHs hd ox (oy + hd.box.height) [] cs := by
  obtain ⟨st0, e, rfl⟩ := ship_loop h
  have := paintsHs (fun c _ => (paints_all c).1) (ShipSt.push ⟨0, 0, zero, zero, []⟩) rfl [] .nil e
  show st0.ops = _
  rw [this]
  simp [ShipSt.push, zero_add']

/-! ## C66 -/

theorem hpack_box (hd : LHead XR) (cs : List (TNode XR)) (w : XR) (add : Bool) (p : Dims XR)
    (hp : cs.foldl (fun p n => hpackDims n p) Dims.zero = p) :
    (hpack hd cs w add).box = ⟨hd.box.size, if add then w + p.x else w, p.a, p.b⟩ ∧ (hpack hd cs w add).shift = hd.shift := by
  unfold hpack
  rw [hp]
  exact finishGlue_box _ _ _ _

theorem glueOffset_none (hd : LHead XR) (a : List (TNode XR)) (h : gluesOf a = []) : glueOffset hd a = 0 := by
  unfold glueOffset
  rw [h]
  simp

theorem vadvance_none (hd : LHead XR) (a : List (TNode XR)) (h : gluesOf a = []) :
    vadvance hd a = a.foldl (fun x n => x + vspace n) zero := by
  rw [vadvance, glueOffset_none hd a h]; simp [add_zero']

theorem advance_none (hd : LHead XR) (a : List (TNode XR)) (h : gluesOf a = []) : advance hd a = naturalWidth a := by
  rw [advance, glueOffset_none hd a h]; simp [add_zero']

/-- A list centred between glue in a list of width `W`. -/
theorem centredTo_paint (nd : LHead XR) (cs : List (TNode XR)) (w h d W : ℚ) (hm : Measured nd w h d)
    (hx : |(W - w) / 2| ≤ 1000000000) :
    (centredTo (.list .h nd cs) (.fin W)).1.box = ⟨0, .fin W, .fin h, .fin d⟩ ∧
    (centredTo (.list .h nd cs) (.fin W)).1.shift = .fin 0 ∧
    ∃ r : Int, |(r : ℚ) - (W - w) / 2| ≤ 1 / 2 ∧ ∀ hd x b,
      paintHs (centredTo (.list .h nd cs) (.fin W)).1 x b [] (centredTo (.list .h nd cs) (.fin W)).2 =
        paintH hd (x + .fin r) b (.list .h nd cs) := by
  obtain ⟨h1, h2, h3, h4, h5, h6⟩ := hm
  have hp : ([.glue ssGlue, .list .h nd cs, .glue ssGlue] : List (TNode XR)).foldl (fun p n => hpackDims n p) Dims.zero =
      { (Dims.zero : Dims XR) with
        x := .fin w, a := .fin h, b := .fin d,
        st := addAt (addAt (Dims.zero : Dims XR).st (ssGlue : GlueD XR).stretchOrder ssGlue.stretch) (ssGlue : GlueD XR).stretchOrder ssGlue.stretch,
        sh := addAt (addAt (Dims.zero : Dims XR).sh (ssGlue : GlueD XR).shrinkOrder ssGlue.shrink) (ssGlue : GlueD XR).shrinkOrder ssGlue.shrink } := by
    simp [hpackDims, h1, h2, h3, h4, h5, h6, Dims.zero, ssGlue]
  have hb := hpack_box (hpack LHead.zero [.glue ssGlue, .list .h nd cs, .glue ssGlue] zero true) _ (.fin W) false _ hp
  have hb0 := hpack_box LHead.zero _ zero true _ hp
  refine ⟨?_, ?_, ?_⟩
  · show (hpack (F := XR) _ _ _ _).box = _
    rw [hb.1, hb0.1]; rfl
  · show (hpack (F := XR) _ _ _ _).shift = _
    rw [hb.2, hb0.2]; simp [LHead.zero]
  · have hr := C44_hpack (hpack LHead.zero [.glue ssGlue, .list .h nd cs, .glue ssGlue] zero true)
      [.glue ssGlue, .list .h nd cs, .glue ssGlue] (.fin W) false
    have hn : naturalWidth ([.glue ssGlue, .list .h nd cs, .glue ssGlue] : List (TNode XR)) = .fin w := by
      simp [naturalWidth, TNode.width, ssGlue, h1]
    rw [(C40_hpack_width _ _ _).1, hn, fin_sub] at hr
    have hs : ∀ e ∈ [(.list .h nd cs : TNode XR)], isSolid e = true := by simp [isSolid]
    refine ⟨glueOffset (centredTo (.list .h nd cs) (.fin W)).1 [.glue ssGlue], centred_offset hs hr hx, ?_⟩
    intro hd x b
    show paintHs (hpack _ _ _ _) x b [] [.glue ssGlue, .list .h nd cs, .glue ssGlue] = _
    simp only [paintHs, paintH, List.nil_append, List.append_nil]
    rw [show advance (hpack (hpack LHead.zero [.glue ssGlue, .list .h nd cs, .glue ssGlue] zero true)
      [.glue ssGlue, .list .h nd cs, .glue ssGlue] (.fin W) false) [.glue ssGlue] = .fin (glueOffset (centredTo (.list .h nd cs) (.fin W)).1 [.glue ssGlue]) by
        rw [advance]; simp [naturalWidth, TNode.width, ssGlue, centredTo]]

/-- **C66** A fraction `genfrac(num, den)` with a rule of thickness `r`, `t` being the thickness of lines
and `a` the height of the axis (the middle of `=`): the numerator, then the bar, then the denominator.
The parts are centred up to half a point, the bar goes from the left end to the width of the wider one,
and the fraction takes the space of two more line thicknesses to the right.  The numerator ends `t + r`
above the axis, the denominator begins `3t` below it; the bar begins `t` below the axis. -/
theorem C66_fraction (be : Backend XR) (st : TState XR) (nn nd : LHead XR) (cn cd : List (TNode XR))
    (wn hn dn wd hd dd t r a : ℚ) (hmn : Measured nn wn hn dn) (hmd : Measured nd wd hd dd)
    (ht : be.underline st.font st.dpi = .fin t) (ht0 : 0 < t) (hr0 : 0 ≤ r)
    (hk : be.known bs!"=" (st.withType mathDefault).font st.dpi true = true)
    (ha : ((be.metrics bs!"=" (st.withType mathDefault).font st.dpi true).ymax +
      (be.metrics bs!"=" (st.withType mathDefault).font st.dpi true).ymin) / ofInt 2 = .fin a)
    (hw : 0 ≤ max wn wd) (hxn : |(max wn wd - wn) / 2| ≤ 1000000000) (hxd : |(max wn wd - wd) / 2| ≤ 1000000000) :
    ∃ hb cs, ∃ rn rd : Int,
      genfrac be false (.fin r) true (.list .h nn cn) (.list .h nd cd) st = .ok (.list .h hb cs) ∧
      |(rn : ℚ) - (max wn wd - wn) / 2| ≤ 1 / 2 ∧ |(rd : ℚ) - (max wn wd - wd) / 2| ≤ 1 / 2 ∧
      Measured hb (max wn wd + 2 * t) (max 0 (a + t + r + dn + hn)) (max 0 (hd + dd + 3 * t - a)) ∧
      ∀ o x b, paintH o x (.fin b) (.list .h hb cs) =
        paintH o (x + .fin rn) (.fin (b - a - t - r - dn)) (.list .h nn cn) ++
        (if 0 < r then [.rect x (.fin (b - a + t)) (x + .fin (max wn wd)) (.fin (b - a + t + r))] else []) ++
        paintH o (x + .fin rd) (.fin (b - a + 3 * t + hd)) (.list .h nd cd) := by
  obtain ⟨n1, n2, rn, n3, n4⟩ := centredTo_paint nn cn wn hn dn (max wn wd) hmn hxn
  obtain ⟨d1, d2, rd, d3, d4⟩ := centredTo_paint nd cd wd hd dd (max wn wd) hmd hxd
  have hW : GoFloat.max (TNode.width (.list .h nn cn)) (TNode.width (.list .h nd cd)) = .fin (max wn wd) := by
    show GoFloat.max nn.box.width nd.box.width = _
    rw [hmn.width, hmd.width, fin_max]
  unfold genfrac
  simp only [if_true, hW, ht, hk, ha]
  generalize centredTo (.list .h nn cn) (.fin (max wn wd)) = cN at *
  generalize centredTo (.list .h nd cd) (.fin (max wn wd)) = cD at *
  obtain ⟨hN, kN⟩ := cN
  obtain ⟨hD, kD⟩ := cD
  dsimp only at *
  obtain ⟨m1, m2, m3, m4, m5, m6⟩ := hmn
  obtain ⟨k1, k2, k3, k4, k5, k6⟩ := hmd
  have hrule_eq : hrule be st (.fin r) = .rule ⟨0, pinf, .fin (1 / 2 * r), .fin (1 / 2 * r)⟩ := by
    simp [hrule, newRule, newBox, not_lt.2 hr0, ofRat, inf]
  rw [hrule_eq]
  have hvp : ∃ v : LHead XR, vpack LHead.zero [.list .h hN kN, vbox zero (.fin t * ofInt 2), .rule ⟨0, pinf, .fin (1 / 2 * r), .fin (1 / 2 * r)⟩,
      vbox zero (.fin t * ofInt 2), .list .h hD kD] zero true inf = .ok v ∧
      v.box = ⟨0, .fin (max wn wd), .fin (hn + dn + 4 * t + r + hd), .fin dd⟩ := by
    unfold vpack
    simp only [vpackAll, vpackDims, vbox, newBox, n1, d1, Res.ok_bind, Dims.zero]
    refine ⟨_, rfl, ?_⟩
    rw [(finishGlue_box _ _ _ _).1]
    simp [LHead.zero, inf, GoFloat.lt, XR.lt, hw]
    refine ⟨?_, by ring⟩
    rw [if_pos (by rfl)]
    simp [hw]
  obtain ⟨v, hv, hvb⟩ := hvp
  rw [hv, Res.ok_bind]
  simp only [Bool.false_eq_true, if_false, hlistOf, if_true]
  have hik : insertKerns be [.list .v (v.setShift (hD.box.height - (.fin a - ofInt 3 * .fin t)))
      [.list .h hN kN, vbox zero (.fin t * ofInt 2), .rule ⟨0, pinf, .fin (1 / 2 * r), .fin (1 / 2 * r)⟩,
      vbox zero (.fin t * ofInt 2), .list .h hD kD], hbox (ofInt 2 * .fin t)] = [.list .v (v.setShift (.fin (hd - (a - 3 * t))))
      [.list .h hN kN, vbox zero (.fin t * ofInt 2), .rule ⟨0, pinf, .fin (1 / 2 * r), .fin (1 / 2 * r)⟩,
      vbox zero (.fin t * ofInt 2), .list .h hD kD], .box ⟨0, .fin (2 * t), .fin 0, .fin 0⟩] := by
    simp [insertKerns, TNode.kerning, hbox, newBox, d1]
  rw [hik]
  refine ⟨_, _, rn, rd, rfl, n3, d3, ?_, ?_⟩
  · have hp : ([.list .v (v.setShift (.fin (hd - (a - 3 * t))))
      [.list .h hN kN, vbox zero (.fin t * ofInt 2), .rule ⟨0, pinf, .fin (1 / 2 * r), .fin (1 / 2 * r)⟩,
      vbox zero (.fin t * ofInt 2), .list .h hD kD], .box ⟨0, .fin (2 * t), .fin 0, .fin 0⟩] : List (TNode XR)).foldl
        (fun p n => hpackDims n p) Dims.zero = { (Dims.zero : Dims XR) with
          x := .fin (max wn wd + 2 * t), a := .fin (max 0 (a + t + r + dn + hn)), b := .fin (max 0 (hd + dd + 3 * t - a)) } := by
      simp only [List.foldl_cons, List.foldl_nil, hpackDims, LHead.setShift, hvb, Dims.zero, zero_fin, fin_isInf, Bool.or_self,
        Bool.false_eq_true, if_false, fin_sub, fin_add, fin_max, Dims.mk.injEq, XR.fin.injEq, and_true]
      refine ⟨by ring, ?_, ?_⟩
      · rw [max_eq_left (le_max_left _ _)]; congr 1; ring
      · rw [max_eq_left (le_max_left _ _)]; congr 1; ring
    have hb := hpack_box LHead.zero _ zero true _ hp
    constructor
    · rw [hb.1]; simp
    · rw [hb.1]
    · rw [hb.1]
    · rw [hb.2]; simp [LHead.zero]
    · exact le_max_left _ _
    · exact le_max_left _ _
  · intro o x b
    have hsh : ∀ cs : List (TNode XR), (hpack LHead.zero cs zero true).shift = .fin 0 := fun cs => by
      rw [C40_hpack_shift]; simp [LHead.zero]
    have hsh := hsh [.list .v (v.setShift (.fin (hd - (a - 3 * t))))
      [.list .h hN kN, vbox zero (.fin t * ofInt 2), .rule ⟨0, pinf, .fin (1 / 2 * r), .fin (1 / 2 * r)⟩,
      vbox zero (.fin t * ofInt 2), .list .h hD kD], .box ⟨0, .fin (2 * t), .fin 0, .fin 0⟩]
    revert hsh
    generalize hpack (F := XR) _ _ _ _ = hb
    intro hsh
    have ha0 : advance hb [] = .fin 0 := by rw [advance_none _ _ rfl]; simp [naturalWidth]
    simp only [paintH, paintHs, paintVs, paintV, List.append_nil, List.nil_append, n4 o, d4 o, ha0, hsh, add_zero', n2, d2, vbox, newBox]
    have hvs : vspace (.box ⟨0, zero, zero, fin t * ofInt 2⟩ : TNode XR) = .fin (2 * t) := by
      simp [vspace, TNode.height, TNode.depth, pos, ht0, mul_comm]
    have hvn : vspace (.list .h hN kN : TNode XR) = .fin (hn + dn) := by simp [vspace, n1]
    have hva : ∀ l, gluesOf l = [] → vadvance (v.setShift (fin (hd - (a - 3 * t)))) l = l.foldl (fun x n => x + vspace n) zero :=
      fun l hl => vadvance_none _ l hl
    rw [hva _ rfl, hva _ (by rfl), hva _ (by rfl)]
    simp only [List.append_assoc, List.cons_append, List.nil_append, List.foldl_cons, List.foldl_nil, hvs, hvn, LHead.setShift, hvb]
    rcases hr0.lt_or_eq with hr | hr
    · have hvr : vspace (.rule ⟨0, pinf, fin (1 / 2 * r), fin (1 / 2 * r)⟩ : TNode XR) = .fin r := by
        simp [vspace, TNode.height, TNode.depth, pos, hr, ← two_mul]
      have hpos : (pos (fin (1 / 2 * r) + fin (1 / 2 * r)) && pos (fin (1 / 2 * r))) = true := by
        simp [pos, hr]
      have hii : isInf (pinf : XR) = true := rfl
      rw [hvr, if_pos hpos, if_pos hr, if_pos hii, n1, d1]
      simp only [zero_fin, fin_add, fin_sub]
      congr 1
      · congr 3; ring
      · congr 1
        · congr 3 <;> ring
        · congr 3; ring
    · subst hr
      have hvr : vspace (.rule ⟨0, pinf, fin (1 / 2 * 0), fin (1 / 2 * 0)⟩ : TNode XR) = .fin 0 := by
        simp [vspace, TNode.height, TNode.depth, pos]
      have hpos : (pos (fin (1 / 2 * 0) + fin (1 / 2 * 0)) && pos (fin (1 / 2 * 0))) = false := by
        simp [pos]
      rw [hvr, hpos, if_neg (by simp), if_neg (by simp), n1, d1]
      simp only [zero_fin, fin_add, fin_sub]
      congr 1
      · congr 3; ring
      · congr 1
        congr 3; ring

/-- **C66** A text-style fraction is the display-style fraction of the parts shrunk once. -/
theorem C66_inline (be : Backend XR) (delims : Bool) (r : XR) (num den : TNode XR) (st : TState XR) :
    genfrac be delims r false num den st = genfrac be delims r true (num.shrink be) (den.shrink be) st := rfl

/-- **C66** Shrinking multiplies the dimensions of a list by seven tenths, until the smallest size is reached. -/
theorem C66_scaled (nd : LHead XR) (w h d : ℚ) (hm : Measured nd w h d) (hs : nd.box.size - 1 < 6) :
    Measured nd.shrink (7 / 10 * w) (7 / 10 * h) (7 / 10 * d) := by
  obtain ⟨h1, h2, h3, h4, h5, h6⟩ := hm
  have hs' : nd.box.size - 1 < numSizeLevels := hs
  have hf : (shrinkFactor : XR) = .fin (7 / 10) := by show XR.fin _ = _; norm_num
  have e : nd.shrink = ⟨nd.box.shrink, nd.shift * shrinkFactor, nd.set * shrinkFactor, nd.sign, nd.order⟩ := by
    unfold LHead.shrink; rw [if_pos hs']
  rw [e]
  unfold BoxD.shrink
  rw [if_pos hs']
  constructor
  · simp only [h1, hf, fin_mul]; congr 1; ring
  · simp only [h2, hf, fin_mul]; congr 1; ring
  · simp only [h3, hf, fin_mul]; congr 1; ring
  · simp only [h4, hf, fin_mul]; congr 1; ring
  · positivity
  · positivity

/-- Three lists side by side. -/
theorem row3_paint (be : Backend XR) (n1 n2 n3 : LHead XR) (c1 c2 c3 : List (TNode XR)) (w1 w2 w3 : ℚ) (h1 : n1.box.width = .fin w1)
    (h2 : n2.box.width = .fin w2) (h3 : n3.box.width = .fin w3) :
    ∃ hb, hlistOf be [.list .h n1 c1, .list .h n2 c2, .list .h n3 c3] true = .list .h hb [.list .h n1 c1, .list .h n2 c2, .list .h n3 c3] ∧
      hb.box.width = .fin (w1 + w2 + w3) ∧ hb.shift = .fin 0 ∧
      ∀ o o' x b, paintH o x b (.list .h hb [.list .h n1 c1, .list .h n2 c2, .list .h n3 c3]) =
        paintH o' x b (.list .h n1 c1) ++ paintH o' (x + .fin w1) b (.list .h n2 c2) ++ paintH o' (x + .fin (w1 + w2)) b (.list .h n3 c3) := by
  have hik : insertKerns be [.list .h n1 c1, .list .h n2 c2, .list .h n3 c3] = [.list .h n1 c1, .list .h n2 c2, .list .h n3 c3] := by
    simp [insertKerns, TNode.kerning]
  have e : hlistOf be [.list .h n1 c1, .list .h n2 c2, .list .h n3 c3] true =
      .list .h (hpack LHead.zero [.list .h n1 c1, .list .h n2 c2, .list .h n3 c3] zero true) [.list .h n1 c1, .list .h n2 c2, .list .h n3 c3] := by
    unfold hlistOf
    simp only [if_true, hik]
  have hsh : (hpack LHead.zero [.list .h n1 c1, .list .h n2 c2, .list .h n3 c3] zero true).shift = .fin 0 := by
    rw [C40_hpack_shift]; simp [LHead.zero]
  refine ⟨_, e, ?_, hsh, ?_⟩
  · have hb := hpack_box LHead.zero [.list .h n1 c1, .list .h n2 c2, .list .h n3 c3] zero true _ rfl
    rw [hb.1]
    simp only [List.foldl_cons, List.foldl_nil, hpackDims, if_true]
    split <;> split <;> split <;> simp [Dims.zero, h1, h2, h3]
  · intro o o' x b
    generalize hpack (F := XR) _ _ _ _ = hb at hsh
    have a0 : advance hb [] = .fin 0 := by rw [advance_none _ _ rfl]; simp [naturalWidth]
    have a1 : advance hb [.list .h n1 c1] = .fin w1 := by rw [advance_none _ _ rfl]; simp [naturalWidth, TNode.width, h1]
    have a2 : advance hb [.list .h n1 c1, .list .h n2 c2] = .fin (w1 + w2) := by
      rw [advance_none _ _ rfl]; simp [naturalWidth, TNode.width, h1, h2]
    simp only [paintH, paintHs, List.append_nil, List.nil_append, List.cons_append, List.append_assoc, hsh, a0, a1, a2, add_zero']

/-- **C66** A binomial coefficient is a fraction without a bar between parentheses adapted to its height and depth
(see C56): the left one at its left end, then the fraction, then the right one. -/
theorem C66_binom (be : Backend XR) (st : TState XR) (num den : TNode XR) (r : XR) (disp : Bool) (bh lh rh : LHead XR) (bc lc rc : List (TNode XR))
    (w h d wl wr : ℚ) (hf : genfrac be false r disp num den st = .ok (.list .h bh bc)) (hm : Measured bh w h d)
    (hl : autoHeightChar be bs!"(" (.fin h) (.fin d) st zero = .ok (.list .h lh lc)) (hlw : lh.box.width = .fin wl)
    (hr : autoHeightChar be bs!")" (.fin h) (.fin d) st zero = .ok (.list .h rh rc)) (hrw : rh.box.width = .fin wr) :
    ∃ hb cs, genfrac be true r disp num den st = .ok (.list .h hb cs) ∧ hb.box.width = .fin (wl + w + wr) ∧ hb.shift = .fin 0 ∧
      ∀ o x b, paintH o x b (.list .h hb cs) =
        paintH o x b (.list .h lh lc) ++ paintH o (x + .fin wl) b (.list .h bh bc) ++ paintH o (x + .fin (wl + w)) b (.list .h rh rc) := by
  obtain ⟨hb, e1, e2, e3, e4⟩ := row3_paint be lh bh rh lc bc rc wl w wr hlw hm.width hrw
  refine ⟨hb, _, ?_, e2, e3, fun o x b => e4 o o x b⟩
  unfold genfrac at hf ⊢
  obtain ⟨v, hv, hf⟩ := Res.bind_eq_ok.1 hf
  dsimp only at hf ⊢
  rw [hv, Res.ok_bind]
  split at hf
  · rename_i hk
    simp only [Bool.false_eq_true, if_false, Res.ok.injEq] at hf
    rw [if_pos hk, if_pos rfl, hf]
    have hq : maxDims [.list .h bh bc] = ((.fin h, .fin d) : XR × XR) := by
      simp [maxDims, TNode.height, TNode.depth, hm.height, hm.depth, hm.above, hm.below]
    unfold autoSizedDelimiter
    rw [hq]
    dsimp only
    rw [hl, Res.ok_bind, hr, Res.ok_bind]
    rw [show (TNode.list .h lh lc :: [.list .h bh bc] ++ [.list .h rh rc] : List (TNode XR)) = [.list .h lh lc, .list .h bh bc, .list .h rh rc] from rfl, e1]
  · cases hf

/-! ## Concrete cases -/

def exSt : TState XR := ⟨⟨bs!"default", bs!"rm", .fin 10⟩, .fin 72⟩
theorem exBody : Measured (hbody exBe [exChar bs!"A"]).1 10 0 0 := by
  constructor <;> decide +kernel
example : exBe.underline exSt.font exSt.dpi = .fin 1 := rfl
example : ((exBe.metrics bs!"=" (exSt.withType mathDefault).font exSt.dpi true).ymax +
      (exBe.metrics bs!"=" (exSt.withType mathDefault).font exSt.dpi true).ymin) / ofInt 2 = .fin 5 := by decide +kernel
/-- kind and corner of what is drawn -/
def exCorner : Draw XR → XR × XR × Bool
  | .glyph x y _ _ _ => (x, y, false)
  | .rect x y _ _ => (x, y, true)
/-- `\dfrac{A}{AA}` at (0, 0): the parts, and the bar between them -/
example : (match genfrac exBe false (.fin 1) true (.list .h (hbody exBe [exChar bs!"A"]).1 (hbody exBe [exChar bs!"A"]).2)
      (.list .h (hbody exBe [exChar bs!"A", exChar bs!"A"]).1 (hbody exBe [exChar bs!"A", exChar bs!"A"]).2) exSt with
    | .ok n => (paintH LHead.zero (.fin 0) (.fin 0) n).map exCorner
    | _ => []) =
    [(.fin 5, .fin (-7), false), (.fin 0, .fin (-4), true), (.fin 0, .fin (-2), false), (.fin 10, .fin (-2), false)] := by decide +kernel

end Verif.Props
